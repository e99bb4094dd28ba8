import Verif.C

/-!
# Model of the event list (sequencer.c)

The event list is a doubly linked list of heap allocated nodes. `E` is the type of event records;
only the start time and whether the `free` field is set matter here. Calls of event free functions
are recorded in a log.
-/

namespace Sp

/-- An address of a heap block. -/
abbrev Addr := Nat

/-- `sp_event_list_t`. /repo/source/c-precompiled/sph-sp/sequencer.h:163-167 -/
structure ListNode (E : Type _) where
  prev : Option Addr
  next : Option Addr
  event : E

/-- The heap of list nodes; `none` is not allocated (never allocated or freed). -/
abbrev Heap (E : Type _) := Addr → Option (ListNode E)

variable {E : Type _}

/-- `*a` as an rvalue. -/
def Heap.load (h : Heap E) (a : Addr) : C (ListNode E) :=
  match h a with
  | some n => .ok n
  | none => .error .useAfterFree

/-- Assignment of a node's fields. -/
def Heap.store (h : Heap E) (a : Addr) (n : ListNode E) : C (Heap E) :=
  match h a with
  | some _ => .ok (fun b => if b = a then some n else h b)
  | none => .error .useAfterFree

/-- `malloc` of a node at the unused address `a`, with all fields set. Simplified: the code sets the
fields one after the other, all of them on every path before the node is used. -/
def Heap.alloc (h : Heap E) (a : Addr) (n : ListNode E) : Heap E :=
  fun b => if b = a then some n else h b

/-- `free(a)`. -/
def Heap.free (h : Heap E) (a : Addr) : C (Heap E) :=
  match h a with
  | some _ => .ok (fun b => if b = a then none else h b)
  | none => .error .doubleFree

/-- Dereference of a pointer that can be null. -/
def deref (p : Option Addr) : C Addr :=
  match p with
  | some a => .ok a
  | none => .error .nullDeref

/-- The loop of `sp_event_list_add`, `current` at the loop head. The fuel bounds the iterations.
/repo/source/c-precompiled/sph-sp/sequencer.c:102-116 -/
def eventListAddLoop (start : E → Nat) (new : Addr) (e : E) : Nat → Heap E → Addr → C (Heap E)
  | 0, _, _ => .error .nonTermination
  | fuel + 1, h, current => do
    let n ← h.load current
    match n.next with
    | some current' => do
      let n' ← h.load current'
      if start n'.event ≤ start e then
        let h := h.alloc new ⟨n'.prev, some current', e⟩
        let p ← deref n'.prev
        let np ← h.load p
        let h ← h.store p { np with next := some new }
        let n' ← h.load current'
        h.store current' { n' with prev := some new }
      else eventListAddLoop start new e fuel h current'
    | none => do
      let h := h.alloc new ⟨some current, none, e⟩
      let n ← h.load current
      h.store current { n with next := some new }

/-- `sp_event_list_add`. `new` is the address that `malloc` returned. Returns the heap and the new
head. /repo/source/c-precompiled/sph-sp/sequencer.c:81-120 -/
def eventListAdd (start : E → Nat) (fuel : Nat) (new : Addr) (e : E) (h : Heap E)
    (head : Option Addr) : C (Heap E × Option Addr) :=
  match head with
  | none => .ok (h.alloc new ⟨none, none, e⟩, some new)
  | some current => do
    let n ← h.load current
    if start n.event ≤ start e then
      let h := h.alloc new ⟨none, some current, e⟩
      let n ← h.load current
      let h ← h.store current { n with prev := some new }
      return (h, some new)
    else
      let h ← eventListAddLoop start new e fuel h current
      return (h, some current)

/-- A caller that adds events one after the other; each event comes with the address that `malloc`
returned for its node. -/
def eventListAddAll (start : E → Nat) (fuel : Nat) : List (Addr × E) → Heap E → Option Addr →
    C (Heap E × Option Addr)
  | [], h, head => .ok (h, head)
  | (new, e) :: rest, h, head => do
    let (h, head) ← eventListAdd start fuel new e h head
    eventListAddAll start fuel rest h head

/-- The loop of `sp_event_list_reverse`; `current` is uninitialised before the first iteration.
/repo/source/c-precompiled/sph-sp/sequencer.c:19-25 -/
def eventListReverseLoop : Nat → Heap E → Option Addr → Option Addr → C (Heap E × Option Addr)
  | 0, _, _, _ => .error .nonTermination
  | fuel + 1, h, current, next =>
    match next with
    | some a => do
      let n ← h.load a
      let h ← h.store a { n with next := n.prev, prev := n.next }
      eventListReverseLoop fuel h (some a) n.next
    | none =>
      match current with
      | some c => .ok (h, some c)
      | none => .error .uninitialized

/-- `sp_event_list_reverse`, also known as `sp_seq_events_prepare`.
/repo/source/c-precompiled/sph-sp/sequencer.c:15-26 and sequencer.h:3 -/
def eventListReverse (fuel : Nat) (h : Heap E) (head : Option Addr) : C (Heap E × Option Addr) :=
  eventListReverseLoop fuel h none head

/-- `if (element->next) { element->next->previous = element->previous; }`.
/repo/source/c-precompiled/sph-sp/sequencer.c:71-73 -/
def relinkNext (h : Heap E) (next prev : Option Addr) : C (Heap E) :=
  match next with
  | some q => do
    let nq ← h.load q
    h.store q { nq with prev := prev }
  | none => pure h

/-- `sp_event_list_remove`. Returns heap, head and the addresses of the nodes whose event's free
function has been called. /repo/source/c-precompiled/sph-sp/sequencer.c:65-78 -/
def eventListRemove (hasFree : E → Bool) (h : Heap E) (head : Option Addr) (element : Addr) :
    C (Heap E × Option Addr × List Addr) := do
  let n ← h.load element
  let r : C (Heap E × Option Addr) := match n.prev with
    | some p => do
      let np ← h.load p
      let h ← h.store p { np with next := n.next }
      pure (h, head)
    | none => pure (h, n.next)
  let (h, head) ← r
  let n ← h.load element
  let h ← relinkNext h n.next n.prev
  let log := if hasFree n.event then [element] else []
  let h ← h.free element
  return (h, head, log)

/-- The loop of `sp_event_list_free`. /repo/source/c-precompiled/sph-sp/sequencer.c:128-133 -/
def eventListFreeLoop (hasFree : E → Bool) : Nat → Heap E → Option Addr → List Addr →
    C (Heap E × List Addr)
  | 0, _, _, _ => .error .nonTermination
  | fuel + 1, h, current, log =>
    match current with
    | some a => do
      let n ← h.load a
      let log := if hasFree n.event then log ++ [a] else log
      let h ← h.free a
      eventListFreeLoop hasFree fuel h n.next log
    | none => .ok (h, log)

/-- `sp_event_list_free`. Returns heap, new head (null) and log.
/repo/source/c-precompiled/sph-sp/sequencer.c:124-135 -/
def eventListFree (hasFree : E → Bool) (fuel : Nat) (h : Heap E) (head : Option Addr) :
    C (Heap E × Option Addr × List Addr) := do
  let (h, log) ← eventListFreeLoop hasFree fuel h head []
  return (h, none, log)

end Sp
