import Verif.Model.Seq
import Verif.Model.Wave

/-!
# Model of event trees: groups (sequencer.c) and leaf events

Group events hold an event list, whose events can be groups. In the code the recursion goes through
the function pointers of the events; here it goes through `treeCb`, where the first number bounds the
depth of the tree (reaching the bound is the fault `nonTermination`).
Simplified: each list has its own address space, as lists do not share nodes; the event memory of
groups (`sp_event_memory_free`) is not included here.
-/

namespace Sp

/-- The configuration of an event: that of a leaf event or the event list of a group. -/
inductive Tree (L : Type)
  | leaf (l : L)
  | group (heap : Addr → Option (ListNode (Event (Tree L)))) (head : Option Addr)

variable {L W : Type}

/-- An event with other data. -/
def Event.withData {D D' : Type} (e : Event D) (d : D') : Event D' :=
  ⟨e.start, e.stop, e.prep, e.hasFree, d⟩

/-- `sp_group_prepare`. The list is reversed only if it is not empty.
/repo/source/c-precompiled/sph-sp/sequencer.c:384-391 -/
def groupPrepare (fuel : Nat) (e : Event (Tree L)) (heap : Heap (Event (Tree L))) (head : Option Addr) :
    C (Event (Tree L)) :=
  match head with
  | some a => do
    let (heap, head) ← eventListReverse fuel heap (some a)
    return { e with data := .group heap head, hasFree := true }
  | none => .ok { e with data := .group heap none, hasFree := true }

/-- `sp_group_generate`. /repo/source/c-precompiled/sph-sp/sequencer.c:382 -/
def groupGenerate (cb : Callbacks (Tree L) W) (fuel x y off : Nat) (e : Event (Tree L))
    (heap : Heap (Event (Tree L))) (head : Option Addr) (w : W) : C (Nat × Event (Tree L) × W) := do
  let (st, s) ← seq cb fuel x y off ⟨heap, head, w, []⟩
  return (st, { e with data := .group s.heap s.head }, s.world)

/-- `sp_group_free`. /repo/source/c-precompiled/sph-sp/sequencer.c:377-381 -/
def groupFree (cb : Callbacks (Tree L) W) (fuel : Nat) (heap : Heap (Event (Tree L)))
    (head : Option Addr) (w : W) : C W := do
  let s ← seqFreeLoop cb fuel ⟨heap, head, w, []⟩ head
  return s.world

/-- The functions of events in trees, for leaf events with the functions `leaf`. -/
def treeCb (leaf : Callbacks L W) (fuel : Nat) : Nat → Callbacks (Tree L) W
  | 0 => ⟨fun _ _ => .error .nonTermination, fun _ _ _ _ _ => .error .nonTermination,
      fun _ _ => .error .nonTermination⟩
  | d + 1 => {
      prepare := fun e w => match e.data with
        | .leaf l => do
          let (st, e, w) ← leaf.prepare (e.withData l) w
          return (st, e.withData (.leaf e.data), w)
        | .group heap head => do
          let e ← groupPrepare fuel e heap head
          return (0, e, w)
      generate := fun x y off e w => match e.data with
        | .leaf l => do
          let (st, e, w) ← leaf.generate x y off (e.withData l) w
          return (st, e.withData (.leaf e.data), w)
        | .group heap head => groupGenerate (treeCb leaf fuel d) fuel x y off e heap head w
      free := fun e w => match e.data with
        | .leaf l => leaf.free (e.withData l) w
        | .group heap head => groupFree (treeCb leaf fuel d) fuel heap head w }

/-- Wave events as leaf events. They have no free function of their own.
/repo/source/c-precompiled/sph-sp/sequencer.h:32-35 -/
def waveCb {S : Type} [Add S] [Mul S] : Callbacks (WaveConfig S) (Buf (Buf S)) where
  prepare e w := do
    let c ← wavePrepare e.data
    return (0, { e with data := c }, w)
  generate x y off e w := do
    let (c, w) ← waveGenerate x y off e.data w
    return (0, { e with data := c }, w)
  free _ w := .ok w

end Sp
