import Verif.Model.EventList

/-!
# Model of the queue (queue.h)

Nodes are part of larger structures of which only the rest `R` besides the queue node matters here.
-/

namespace Sp

/-- A structure with a `sph_queue_node_t`. /repo/source/c/foreign/sph-sc-lib/sph-sp/queue.h:27-29 -/
structure QNode (R : Type) where
  next : Option Addr
  rest : R

/-- The memory of nodes; `none` is not allocated. -/
abbrev QMem (R : Type) := Addr → Option (QNode R)

variable {R : Type}

/-- The structure at `a`. -/
def QMem.load (m : QMem R) (a : Addr) : C (QNode R) :=
  match m a with
  | some x => .ok x
  | none => .error .useAfterFree

/-- `a->next = p` -/
def QMem.setNext (m : QMem R) (a : Addr) (p : Option Addr) : C (QMem R) :=
  match m a with
  | some x => .ok (fun b => if b = a then some { x with next := p } else m b)
  | none => .error .useAfterFree

/-- `sph_queue_t`. queue.h:30-34 -/
structure Queue where
  size : Nat
  first : Option Addr
  last : Option Addr

/-- Use of a pointer to a node that can be null. -/
def derefNode : Option Addr → C Addr
  | some a => .ok a
  | none => .error .nullDeref

/-- `sph_queue_init`. queue.h:36-40 -/
def queueInit : Queue := { size := 0, first := none, last := none }

/-- `sph_queue_enq`. queue.h:43-52 -/
def queueEnq (a : Queue) (m : QMem R) (node : Addr) : C (Queue × QMem R) :=
  match a.first with
  | some _ => do
    let l ← derefNode a.last
    let m ← m.setNext l (some node)
    let m ← m.setNext node none
    pure ({ size := u32 (1 + a.size), first := a.first, last := some node }, m)
  | none => do
    let m ← m.setNext node none
    pure ({ size := u32 (1 + a.size), first := some node, last := some node }, m)

/-- `sph_queue_deq`. queue.h:55-64 -/
def queueDeq (a : Queue) (m : QMem R) : C (Addr × Queue) := do
  let n ← derefNode a.first
  let x ← m.load n
  if x.next.isNone then
    pure (n, { size := sub32 a.size 1, first := x.next, last := none })
  else
    pure (n, { size := sub32 a.size 1, first := x.next, last := a.last })

end Sp
