import Verif.Model.EventList

/-!
# Specification of the event list: what a well-formed list in memory is
-/

namespace Sp
variable {E : Type _}

/-- The nodes from `head` on are exactly the given (address, event) pairs in order, each node's
`next` and `prev` being its neighbours, with `prev` before the first. -/
def IsList (h : Heap E) : Option Addr → Option Addr → List (Addr × E) → Prop
  | _, head, [] => head = none
  | prev, head, (a, e) :: rest =>
    head = some a ∧ ∃ next, h a = some ⟨prev, next, e⟩ ∧ IsList h (some a) next rest

/-- A well-formed list in memory: no element twice, no predecessor of the first. -/
def WellFormed (h : Heap E) (head : Option Addr) (l : List (Addr × E)) : Prop :=
  IsList h none head l ∧ (l.map Prod.fst).Nodup

/-- The heaps agree outside of the given addresses. -/
def SameOutside (h h' : Heap E) (as : List Addr) : Prop := ∀ a, a ∉ as → h' a = h a

end Sp
