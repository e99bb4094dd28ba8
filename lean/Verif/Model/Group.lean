import Verif.Model.Seq

/-!
# Model of building groups (sequencer.c)

`sp_group_add` and `sp_group_append`. The group's event list is on a heap of list nodes; `new` is the
address that `malloc` returned for the new node.
Simplified: allocation succeeds (see `Verif.Props.Memory` for the status of failed allocations).
-/

namespace Sp
variable {D W : Type}

/-- The parts of the group event that are changed: end time and event list. -/
structure Group (D : Type) where
  stop : Nat
  heap : Heap (Event D)
  head : Option Addr

/-- Events with end zero are prepared immediately.
/repo/source/c-precompiled/sph-sp/sequencer.c:396-398 and 408-410 -/
def addPrepare (cb : Callbacks D W) (new : Addr) (e : Event D) (w : W) : C (Nat × Event D × W × List Call) :=
  if e.stop = 0 then prepareOptional cb new e w else .ok (0, e, w, [])

/-- `sp_group_add`. /repo/source/c-precompiled/sph-sp/sequencer.c:394-405 -/
def groupAdd (cb : Callbacks D W) (fuel : Nat) (new : Addr) (e : Event D) (g : Group D) (w : W) :
    C (Nat × Group D × W) := do
  let (st, e, w, _) ← addPrepare cb new e w
  if st ≠ 0 then return (st, g, w)
  else
    let (heap, head) ← eventListAdd Event.start fuel new e g.heap g.head
    return (0, ⟨if g.stop < e.stop then e.stop else g.stop, heap, head⟩, w)

/-- `sp_group_append`. /repo/source/c-precompiled/sph-sp/sequencer.c:406-417 -/
def groupAppend (cb : Callbacks D W) (fuel : Nat) (new : Addr) (e : Event D) (g : Group D) (w : W) :
    C (Nat × Group D × W) := do
  let (st, e, w, _) ← addPrepare cb new e w
  if st ≠ 0 then return (st, g, w)
  else
    let e := { e with start := u32 (e.start + g.stop), stop := u32 (e.stop + g.stop) }
    let (heap, head) ← eventListAdd Event.start fuel new e g.heap g.head
    return (0, ⟨e.stop, heap, head⟩, w)

/-- A caller that applies `add` (one of the two functions above) to one event after the other and
stops at the first failure. -/
def groupEach (add : Addr → Event D → Group D → W → C (Nat × Group D × W)) :
    List (Addr × Event D) → Group D → W → C (Nat × Group D × W)
  | [], g, w => .ok (0, g, w)
  | (new, e) :: rest, g, w => do
    let (st, g, w) ← add new e g w
    if st ≠ 0 then return (st, g, w) else groupEach add rest g w

end Sp
