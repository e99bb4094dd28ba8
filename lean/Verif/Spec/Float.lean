import Mathlib.Data.Rat.Floor
import Mathlib.Data.Int.Log
import Mathlib.Algebra.Order.Field.Power
import Mathlib.Algebra.Order.Floor.Ring

/-!
# Floating point numbers of type `double`

The finite numbers of IEEE 754 binary64 and rounding to nearest, with any choice between two nearest. Results whose absolute value is above
the largest number, which are infinite, are left open: nothing is known about `rnd` there. There is one zero, and no NaN.
-/

namespace Sp

/-- The finite numbers of IEEE 754 binary64. -/
def IsDouble (q : ℚ) : Prop := ∃ m e : ℤ, |m| < 2 ^ 53 ∧ -1074 ≤ e ∧ e ≤ 971 ∧ q = m * (2 : ℚ) ^ e

/-- The largest finite number. -/
def doubleMax : ℚ := (2 ^ 53 - 1) * (2 : ℚ) ^ (971 : ℤ)

/-- Rounding to a nearest number, with any choice between two nearest. -/
structure RoundsToNearest (rnd : ℚ → ℚ) : Prop where
  double : ∀ q, |q| ≤ doubleMax → IsDouble (rnd q)
  nearest : ∀ q d, |q| ≤ doubleMax → IsDouble d → |q - rnd q| ≤ |q - d|

/-- The numbers with floating point arithmetic: the result of each operation is the rounded exact result. -/
@[ext] structure Fl (rnd : ℚ → ℚ) where
  val : ℚ

namespace Fl
variable {rnd : ℚ → ℚ}

instance : Zero (Fl rnd) := ⟨⟨0⟩⟩
instance : One (Fl rnd) := ⟨⟨1⟩⟩
instance : Add (Fl rnd) := ⟨fun a b => ⟨rnd (a.val + b.val)⟩⟩
instance : Sub (Fl rnd) := ⟨fun a b => ⟨rnd (a.val - b.val)⟩⟩
instance : Mul (Fl rnd) := ⟨fun a b => ⟨rnd (a.val * b.val)⟩⟩
instance : Div (Fl rnd) := ⟨fun a b => ⟨rnd (a.val / b.val)⟩⟩
instance : Neg (Fl rnd) := ⟨fun a => ⟨-a.val⟩⟩
/-- Conversion of integers; it rounds from 2^53 on, which is left out because 32 bit integers are below. -/
instance : NatCast (Fl rnd) := ⟨fun n => ⟨n⟩⟩
instance : LE (Fl rnd) := ⟨fun a b => a.val ≤ b.val⟩
instance : LT (Fl rnd) := ⟨fun a b => a.val < b.val⟩
instance : DecidableLE (Fl rnd) := fun a b => inferInstanceAs (Decidable (a.val ≤ b.val))
instance : DecidableLT (Fl rnd) := fun a b => inferInstanceAs (Decidable (a.val < b.val))

@[simp] theorem zero_val : (0 : Fl rnd).val = 0 := rfl
@[simp] theorem one_val : (1 : Fl rnd).val = 1 := rfl
@[simp] theorem add_val (a b : Fl rnd) : (a + b).val = rnd (a.val + b.val) := rfl
@[simp] theorem sub_val (a b : Fl rnd) : (a - b).val = rnd (a.val - b.val) := rfl
@[simp] theorem mul_val (a b : Fl rnd) : (a * b).val = rnd (a.val * b.val) := rfl
@[simp] theorem div_val (a b : Fl rnd) : (a / b).val = rnd (a.val / b.val) := rfl
@[simp] theorem neg_val (a : Fl rnd) : (-a).val = -a.val := rfl
@[simp] theorem natCast_val (n : Nat) : (n : Fl rnd).val = n := rfl
theorem le_def (a b : Fl rnd) : a ≤ b ↔ a.val ≤ b.val := Iff.rfl
theorem lt_def (a b : Fl rnd) : a < b ↔ a.val < b.val := Iff.rfl

end Fl

end Sp
