import Verif.Model.Group
import Verif.Model.Block
import Verif.Model.WaveDefaults

/-!
# Model of adding events and of new configurations with allocations that can fail (sequencer.c)

What an allocation returns is a parameter (`none`: out of memory). A variable that has not been set is `none`.
-/

namespace Sp
variable {D W E A : Type}

/-- `sph_helper_primitive_malloc`: `r` is what `malloc` returns, `result` the value of the variable that it is to be stored in. Returns status id and value of the
variable. /repo/source/c/foreign/sph-sc-lib/sph-sp/helper.c:23-34 -/
def primitiveMalloc (r result : Option Addr) : Nat × Option Addr :=
  match r with
  | some a => (0, some a)
  | none => (sphHelperStatusIdMemory, result)

/-- `sp_event_list_add`. The variable `new` is not set before. Returns status id, heap and head.
/repo/source/c-precompiled/sph-sp/sequencer.c:81-120 -/
def eventListAddAlloc (start : E → Nat) (fuel : Nat) (r : Option Addr) (e : E) (h : Heap E) (head : Option Addr) : C (Nat × Heap E × Option Addr) := do
  let (st, new) := primitiveMalloc r none
  if st ≠ 0 then return (st, h, head)
  else
    let new ← isSet new
    let (h, head) ← eventListAdd start fuel new e h head
    return (0, h, head)

/-- A caller that adds events one after the other and stops at the first failure; each event comes with what `malloc` returns for its list element. -/
def eventListAddEach (start : E → Nat) (fuel : Nat) : List (Option Addr × E) → Heap E → Option Addr → C (Nat × Heap E × Option Addr)
  | [], h, head => .ok (0, h, head)
  | (r, e) :: rest, h, head => do
    let (st, h, head) ← eventListAddAlloc start fuel r e h head
    if st ≠ 0 then return (st, h, head) else eventListAddEach start fuel rest h head

/-- `sp_group_add`. The event is prepared before there is a list element for it.
/repo/source/c-precompiled/sph-sp/sequencer.c:394-405 -/
def groupAddAlloc (cb : Callbacks D W) (fuel : Nat) (r : Option Addr) (e : Event D) (g : Group D) (w : W) : C (Nat × Group D × W) := do
  let (st, e, w, _) ← addPrepare cb 0 e w
  if st ≠ 0 then return (st, g, w)
  else
    let (st, heap, head) ← eventListAddAlloc Event.start fuel r e g.heap g.head
    if st ≠ 0 then return (st, ⟨g.stop, heap, head⟩, w)
    else return (0, ⟨if g.stop < e.stop then e.stop else g.stop, heap, head⟩, w)

/-- `sp_group_append`. The end of the group is set before the event is added.
/repo/source/c-precompiled/sph-sp/sequencer.c:406-417 -/
def groupAppendAlloc (cb : Callbacks D W) (fuel : Nat) (r : Option Addr) (e : Event D) (g : Group D) (w : W) : C (Nat × Group D × W) := do
  let (st, e, w, _) ← addPrepare cb 0 e w
  if st ≠ 0 then return (st, g, w)
  else
    let e := { e with start := u32 (e.start + g.stop), stop := u32 (e.stop + g.stop) }
    let (st, heap, head) ← eventListAddAlloc Event.start fuel r e g.heap g.head
    return (st, ⟨e.stop, heap, head⟩, w)

/-- `sp_wave_event_config_new_n` and `sp_noise_event_config_new_n`. `out` is the value of the caller's variable before, `fresh` the content of new memory, which is
not initialised. Returns status id, the variable and the memory of configurations.
/repo/source/c-precompiled/sph-sp/sequencer.c:481-490 and 568-578 -/
def configNewAlloc (defaults : A) (count : Nat) (r : Option Addr) (fresh : Buf A) (out : Option Addr) (m : Mem A) : C (Nat × Option Addr × Mem A) := do
  let m := match r with
    | some a => m.set a (some fresh)
    | none => m
  let (st, out) := primitiveMalloc r out
  if st ≠ 0 then return (st, out, m)
  else
    let m ← forRange 0 count (fun i m => do
      let a ← isSet out
      let b ← m.load a
      let b ← wr b i defaults
      return m.set a (some b)) m
    return (0, out, m)

/-- `sp_map_event_config_new_n`: zeros instead of defaults. /repo/source/c-precompiled/sph-sp/sequencer.c:418 -/
def mapConfigNewAlloc (zero : A) (count : Nat) (r out : Option Addr) (m : Mem A) : Nat × Option Addr × Mem A :=
  match r with
  | some a => (0, some a, m.set a (some (List.replicate count zero)))
  | none => (sphHelperStatusIdMemory, out, m)

end Sp
