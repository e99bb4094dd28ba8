import Verif.Model.EventList

/-!
# Model of the sequencer `sp_seq` (sequencer.c)

Events are records with start and end time, whether their `prepare` and `free` function pointers are
set, and `data`, which stands for the function pointers themselves, the configuration and the event
memory. The functions that the pointers point to are arbitrary (`Callbacks`); they read and change
the event they are given and a world `W` that contains everything else: the output samples, and any
other memory. Simplified: callbacks do not touch the nodes of the event list that is being processed
other than the event they are given.

The output block is represented by the offset of its sample pointers in the memory of samples, the
only thing in the block that `sp_seq` changes (`sp_block_with_offset`).

The list functions of the code are given twice: on the heap (`seq`), which is the model of the C
code, and on lists (`seqListTop`), which is proved to agree in `Verif.Lemmas.Seq`.
-/

namespace Sp

/-- `sp_event_t`. `prep`: the prepare pointer is not null. `hasFree`: the free pointer is not null.
/repo/source/c-precompiled/sph-sp/sequencer.h:151-159 -/
structure Event (D : Type) where
  start : Nat
  stop : Nat
  prep : Bool
  hasFree : Bool
  data : D

/-- The functions that the events' pointers point to. The number returned is the status id.
`generate x y off` is called with event relative start `x` and end `y` and with an output block whose
sample pointers are at offset `off`.
/repo/source/c-precompiled/sph-sp/sequencer.h:154-156 -/
structure Callbacks (D W : Type) where
  prepare : Event D → W → C (Nat × Event D × W)
  generate : Nat → Nat → Nat → Event D → W → C (Nat × Event D × W)
  free : Event D → W → C W

/-- Log entries: calls of the event functions with their result, and deallocation of list
elements. Only for stating properties. -/
inductive Call
  | prepare (a : Addr) (st : Nat)
  | generate (a : Addr) (x y off st : Nat)
  | free (a : Addr)
  | release (a : Addr)
  deriving DecidableEq

/-- The list element that a log entry is about. -/
def Call.addr : Call → Addr
  | .prepare a _ => a
  | .generate a _ _ _ _ => a
  | .free a => a
  | .release a => a

/-- What `sp_seq` changes. -/
structure SeqState (D W : Type) where
  heap : Heap (Event D)
  head : Option Addr
  world : W
  log : List Call

variable {D W : Type}

/-- `sp_event_free(a)`. /repo/source/c-precompiled/sph-sp/sequencer.h:12-15 -/
def eventFree (cb : Callbacks D W) (a : Addr) (e : Event D) (w : W) : C (W × List Call) :=
  if e.hasFree then do
    let w ← cb.free e w
    return (w, [.free a])
  else .ok (w, [])

/-- `sp_event_prepare_optional_srq(e)` on the local copy `e` of the event. If prepare fails the copy
is lost, so the event is returned as it was.
/repo/source/c-precompiled/sph-sp/sequencer.h:16-22 and sequencer.c:265 -/
def prepareOptional (cb : Callbacks D W) (a : Addr) (e : Event D) (w : W) :
    C (Nat × Event D × W × List Call) :=
  if e.prep then do
    let (st, e', w) ← cb.prepare e w
    if st ≠ 0 then return (st, e, w, [.prepare a st])
    else return (0, { e' with prep := false }, w, [.prepare a 0])
  else .ok (0, e, w, [])

/-- `sp_event_list_remove` with its effect on the world. The event's free function is called after
the element is unlinked and before the element is deallocated.
/repo/source/c-precompiled/sph-sp/sequencer.c:65-78 -/
def seqRemove (cb : Callbacks D W) (s : SeqState D W) (a : Addr) : C (SeqState D W) := do
  let n ← s.heap.load a
  let (heap, head, _) ← eventListRemove Event.hasFree s.heap s.head a
  let (world, log) ← eventFree cb a n.event s.world
  return ⟨heap, head, world, s.log ++ log ++ [.release a]⟩

/-- The event relative start time passed to generate. sequencer.c:267 -/
def relStart (start eStart : Nat) : Nat := if start > eStart then sub32 start eStart else 0

/-- The event relative end time passed to generate. sequencer.c:267 -/
def relEnd (stop eStart eStop : Nat) : Nat := sub32 (min stop eStop) eStart

/-- The offset of the output block passed to generate, for a block at offset `base`.
`sp_block_with_offset` at /repo/source/c-precompiled/sph-sp/main.c:156-161, sequencer.c:267 -/
def relOffset (base start eStart : Nat) : Nat :=
  if eStart > start then base + sub32 eStart start else base

/-- The loop of `sp_seq`. /repo/source/c-precompiled/sph-sp/sequencer.c:254-270 -/
def seqLoop (cb : Callbacks D W) (start stop base : Nat) : Nat → SeqState D W → Option Addr →
    C (Nat × SeqState D W)
  | 0, _, _ => .error .nonTermination
  | fuel + 1, s, current =>
    match current with
    | none => .ok (0, s)
    | some a => do
      let n ← s.heap.load a
      let e := n.event
      if e.stop ≤ start then
        let s ← seqRemove cb s a
        seqLoop cb start stop base fuel s n.next
      else if stop ≤ e.start then
        return (0, s)
      else if e.stop > start then
        let (st, e, world, log) ← prepareOptional cb a e s.world
        if st ≠ 0 then
          return (st, { s with world := world, log := s.log ++ log })
        else
          let heap ← s.heap.store a { n with event := e }
          let x := relStart start e.start
          let y := relEnd stop e.start e.stop
          let off := relOffset base start e.start
          let (st, e, world) ← cb.generate x y off e world
          let n ← heap.load a
          let heap ← heap.store a { n with event := e }
          let s : SeqState D W := ⟨heap, s.head, world, s.log ++ log ++ [.generate a x y off st]⟩
          if st ≠ 0 then return (st, s)
          else seqLoop cb start stop base fuel s n.next
      else seqLoop cb start stop base fuel s n.next

/-- The loop of `sp_event_list_free` with its effect on the world.
/repo/source/c-precompiled/sph-sp/sequencer.c:128-133 -/
def seqFreeLoop (cb : Callbacks D W) : Nat → SeqState D W → Option Addr → C (SeqState D W)
  | 0, _, _ => .error .nonTermination
  | fuel + 1, s, current =>
    match current with
    | none => .ok s
    | some a => do
      let n ← s.heap.load a
      let (world, log) ← eventFree cb a n.event s.world
      let heap ← s.heap.free a
      seqFreeLoop cb fuel ⟨heap, s.head, world, s.log ++ log ++ [.release a]⟩ n.next

/-- `sp_seq`. `fuel` bounds the iterations. /repo/source/c-precompiled/sph-sp/sequencer.c:247-276 -/
def seq (cb : Callbacks D W) (fuel start stop base : Nat) (s : SeqState D W) :
    C (Nat × SeqState D W) := do
  let (st, s) ← seqLoop cb start stop base fuel s s.head
  if st ≠ 0 then
    let s ← seqFreeLoop cb fuel s s.head
    return (st, { s with head := none })
  else return (0, s)

/-- A caller that renders consecutive blocks with the given end times, beginning at `start`, each
into the block at offset `base start` (for a block that begins at time `start`), and stops at the
first failure. Returns the status, the final state and the logs of the calls. -/
def seqBlocks (cb : Callbacks D W) (fuel : Nat) (base : Nat → Nat) : Nat → List Nat → SeqState D W →
    C (Nat × SeqState D W × List (List Call))
  | _, [], s => .ok (0, s, [])
  | start, stop :: rest, s => do
    let (st, s) ← seq cb fuel start stop (base start) { s with log := [] }
    if st ≠ 0 then return (st, s, [s.log])
    else
      let (st, s', logs) ← seqBlocks cb fuel base stop rest s
      return (st, s', s.log :: logs)

/-! ### The same on lists -/

/-- The processing of one event that overlaps the block. -/
def seqEvent (cb : Callbacks D W) (start stop base : Nat) (a : Addr) (e : Event D) (w : W) :
    C (Nat × Event D × W × List Call) := do
  let (st, e, w, log) ← prepareOptional cb a e w
  if st ≠ 0 then return (st, e, w, log)
  else
    let x := relStart start e.start
    let y := relEnd stop e.start e.stop
    let off := relOffset base start e.start
    let (st, e, w) ← cb.generate x y off e w
    return (st, e, w, log ++ [.generate a x y off st])

/-- `seqLoop` on a list. Returns status, remaining events, world and log. -/
def seqList (cb : Callbacks D W) (start stop base : Nat) : List (Addr × Event D) → W →
    C (Nat × List (Addr × Event D) × W × List Call)
  | [], w => .ok (0, [], w, [])
  | (a, e) :: rest, w =>
    if e.stop ≤ start then do
      let (w, log) ← eventFree cb a e w
      let (st, l, w, log') ← seqList cb start stop base rest w
      return (st, l, w, log ++ [.release a] ++ log')
    else if stop ≤ e.start then .ok (0, (a, e) :: rest, w, [])
    else do
      let (st, e, w, log) ← seqEvent cb start stop base a e w
      if st ≠ 0 then return (st, (a, e) :: rest, w, log)
      else
        let (st, l, w, log') ← seqList cb start stop base rest w
        return (st, (a, e) :: l, w, log ++ log')

/-- `seqFreeLoop` on a list. -/
def freeList (cb : Callbacks D W) : List (Addr × Event D) → W → C (W × List Call)
  | [], w => .ok (w, [])
  | (a, e) :: rest, w => do
    let (w, log) ← eventFree cb a e w
    let (w, log') ← freeList cb rest w
    return (w, log ++ [.release a] ++ log')

/-- `seq` on a list. -/
def seqListTop (cb : Callbacks D W) (start stop base : Nat) (l : List (Addr × Event D)) (w : W) :
    C (Nat × List (Addr × Event D) × W × List Call) := do
  let (st, l, w, log) ← seqList cb start stop base l w
  if st ≠ 0 then
    let (w, log') ← freeList cb l w
    return (st, [], w, log ++ log')
  else return (0, l, w, log)

end Sp
