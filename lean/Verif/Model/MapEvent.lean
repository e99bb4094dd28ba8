import Verif.Model.EventTree

/-!
# Model of map events in the sequencer (sequencer.c)

Map events as event functions made from the functions of the wrapped event, so that they can be used in lists and groups
and can wrap any event, also groups and other map events. The world is the output block, the sample arrays of all channels.
The temporary block of `sp_map_event_isolated_generate` with its pointers and its memory is in `Verif.Model.Block`; here
it is a value, and its allocation succeeds. Simplified: the event memory of map events is left out.
-/

namespace Sp
variable {D K S W : Type}

/-- `sp_map_event_config_t` without the map function: the wrapped event and the state of the map function.
/repo/source/c-precompiled/sph-sp/sequencer.h:169-174 -/
structure MapConfig (D K : Type) where
  event : Event D
  state : K

/-- `sp_map_event_prepare`. /repo/source/c-precompiled/sph-sp/sequencer.c:427-435 -/
def mapPrepare (cb : Callbacks D W) (e : Event (MapConfig D K)) (w : W) : C (Nat × Event (MapConfig D K) × W) :=
  if e.data.event.prep then do
    let (st, inner, w) ← cb.prepare e.data.event w
    if st ≠ 0 then return (st, { e with data := { e.data with event := inner } }, w)
    else return (0, { e with hasFree := true, data := { e.data with event := { inner with prep := false } } }, w)
  else .ok (0, { e with hasFree := true }, w)

/-- `sp_map_event_free`. /repo/source/c-precompiled/sph-sp/sequencer.c:436-442 -/
def mapFree (cb : Callbacks D W) (e : Event (MapConfig D K)) (w : W) : C W :=
  if e.data.event.hasFree then cb.free e.data.event w else .ok w

/-- The functions of map events with `sp_map_event_generate`. `map` is the map function with the same block as input and
output: start, end, offset of the block. /repo/source/c-precompiled/sph-sp/sequencer.c:443-452 -/
def mapCb (cb : Callbacks D W) (map : Nat → Nat → Nat → K → W → C (Nat × K × W)) : Callbacks (MapConfig D K) W where
  prepare := mapPrepare cb
  generate x y off e w := do
    let (st, inner, w) ← cb.generate x y off e.data.event w
    if st ≠ 0 then return (st, { e with data := { e.data with event := inner } }, w)
    else do
      let (st, k, w) ← map x y off e.data.state w
      return (st, { e with data := ⟨inner, k⟩ }, w)
  free := mapFree cb

/-- The result of `sp_block_new` with channel count and size of the block `w`.
/repo/source/c-precompiled/sph-sp/main.c:130-146 -/
def zeroBlock [Zero S] (w : Buf (Buf S)) : Buf (Buf S) := List.map (fun channel => List.replicate (List.length channel) 0) w

/-- The functions of map events with `sp_map_event_isolated_generate`. `map` is the map function: start, end, input block, offset of
the output block. The temporary block has the size of the output block (`sp_block_with_offset` does not change the size) and is zero
at first. /repo/source/c-precompiled/sph-sp/sequencer.c:455-466 -/
def mapIsolatedCb [Zero S] (cb : Callbacks D (Buf (Buf S)))
    (map : Nat → Nat → Buf (Buf S) → Nat → K → Buf (Buf S) → C (Nat × K × Buf (Buf S))) :
    Callbacks (MapConfig D K) (Buf (Buf S)) where
  prepare := mapPrepare cb
  generate x y off e w := do
    let (st, inner, temp) ← cb.generate x y 0 e.data.event (zeroBlock w)
    if st ≠ 0 then return (st, { e with data := { e.data with event := inner } }, w)
    else do
      let (st, k, w) ← map x y temp off e.data.state w
      return (st, { e with data := ⟨inner, k⟩ }, w)
  free := mapFree cb

end Sp
