import Verif.Lemmas.Float
import Mathlib.Algebra.Group.Defs

/-!
# Addition and multiplication of numbers of type `double`

The finite numbers with rounded addition and multiplication, and `none` for results that are not finite. There is one zero: the sign of zero is left out.
-/

namespace Sp

/-- A number of type `double`, or `none` for what is not finite. -/
def Dbl {rnd : ℚ → ℚ} (_ : RoundsToNearest rnd) : Type := Option { q : ℚ // IsDouble q }

namespace Dbl
variable {rnd : ℚ → ℚ} {h : RoundsToNearest rnd}

/-- The rounded sum; `none` if it is too large. -/
def add (h : RoundsToNearest rnd) : Dbl h → Dbl h → Dbl h
  | some a, some b => if hs : |a.1 + b.1| ≤ doubleMax then some ⟨rnd (a.1 + b.1), h.double _ hs⟩ else none
  | _, _ => none

/-- The rounded product; `none` if it is too large. -/
def mul (h : RoundsToNearest rnd) : Dbl h → Dbl h → Dbl h
  | some a, some b => if hs : |a.1 * b.1| ≤ doubleMax then some ⟨rnd (a.1 * b.1), h.double _ hs⟩ else none
  | _, _ => none

instance : Add (Dbl h) := ⟨add h⟩
instance : Mul (Dbl h) := ⟨mul h⟩
instance : Zero (Dbl h) := ⟨some ⟨0, .zero⟩⟩

/-- Zero is neutral. Addition is not associative. -/
instance : AddZeroClass (Dbl h) where
  zero_add a := by
    cases a with
    | none => rfl
    | some a =>
      have ha : |(0 : ℚ) + a.1| ≤ doubleMax := by rw [zero_add]; exact a.2.le_max
      refine (dif_pos ha).trans (congrArg some (Subtype.ext ?_))
      change rnd (0 + a.1) = a.1
      rw [zero_add, h.exact a.2]
  add_zero a := by
    cases a with
    | none => rfl
    | some a =>
      have ha : |a.1 + (0 : ℚ)| ≤ doubleMax := by rw [add_zero]; exact a.2.le_max
      refine (dif_pos ha).trans (congrArg some (Subtype.ext ?_))
      change rnd (a.1 + 0) = a.1
      rw [add_zero, h.exact a.2]

/-- The number of a rational that is one. -/
def mk (q : ℚ) (hq : IsDouble q) : Dbl h := some ⟨q, hq⟩

/-- The sample is finite, with value `q`. -/
def Is (x : Dbl h) (q : ℚ) : Prop := ∃ hq : IsDouble q, x = mk q hq

/-- The value of a finite number; zero stands for what is not finite, so that it is only used where numbers are finite. -/
def val : Dbl h → ℚ
  | some a => a.1
  | none => 0

end Dbl

end Sp
