import Verif.Model.EventList

/-!
# Model of the validation of event lists (sequencer.c)

The functions print a message and end the program if they find something. Here the message is a result.
-/

namespace Sp
variable {E : Type _}

/-- The messages, with the index and the element. -/
inductive ListReport
  | duplicate (index : Nat) (element : Addr)
  | previous (index : Nat) (element : Addr)
  | circular (index : Nat) (element : Addr)
deriving DecidableEq, Repr

/-- The loop of `sp_event_list_find_duplicate`, `a` at the loop head. The fuel bounds the iterations. The function has no
return statement; the result is not used. /repo/source/c-precompiled/sph-sp/sequencer.c:26-41 -/
def findDuplicate (h : Heap E) (b : Addr) : Nat → Option Addr → Nat → Nat → C (Option ListReport)
  | _, none, _, _ => .ok none
  | 0, some _, _, _ => .error .nonTermination
  | fuel + 1, some a, i, count =>
    if a = b ∧ count = 1 then .ok (some (.duplicate i a))
    else do
      let n ← h.load a
      findDuplicate h b fuel n.next (u32 (i + 1)) (if a = b then u32 (count + 1) else count)

/-- The loop of `sp_event_list_validate`. /repo/source/c-precompiled/sph-sp/sequencer.c:46-60 -/
def validateLoop (h : Heap E) (head : Option Addr) (fuel0 : Nat) : Nat → Option Addr → Option Addr → Nat → C (Option ListReport)
  | _, none, _, _ => .ok none
  | 0, some _, _, _ => .error .nonTermination
  | fuel + 1, some b, c, i => do
    let n ← h.load b
    if c ≠ n.prev then return some (.previous i b)
    else if n.next = n.prev ∧ n.next ≠ none then return some (.circular i b)
    else
      let d ← findDuplicate h b fuel0 head 0 0
      if d ≠ none then return d
      else validateLoop h head fuel0 fuel n.next (some b) (u32 (i + 1))

/-- `sp_event_list_validate`. /repo/source/c-precompiled/sph-sp/sequencer.c:42-61 -/
def eventListValidate (h : Heap E) (head : Option Addr) (fuel : Nat) : C (Option ListReport) :=
  validateLoop h head fuel fuel head none 0

end Sp
