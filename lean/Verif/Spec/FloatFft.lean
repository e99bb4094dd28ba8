import Verif.Spec.Float
import Verif.Model.Fft

/-! # The functions of math.h in double precision -/

namespace Sp
variable {rnd : ℚ → ℚ}

instance : OfNat (Fl rnd) 2 := ⟨⟨2⟩⟩

/-- `M_PI` is the constant of math.h, `3.14159265358979323846` as a double, and `cos` and `sin` differ from the exact values by at
most `2 ^ -52` for arguments up to seven. -/
structure TrigAccurate (rnd : ℚ → ℚ) [Trig (Fl rnd)] : Prop where
  pi : (Trig.pi : Fl rnd).val = 884279719003555 / 281474976710656
  cos : ∀ x : Fl rnd, |x.val| ≤ 7 → |((Trig.cos x).val : ℝ) - Real.cos x.val| ≤ 1 / 2 ^ 52
  sin : ∀ x : Fl rnd, |x.val| ≤ 7 → |((Trig.sin x).val : ℝ) - Real.sin x.val| ≤ 1 / 2 ^ 52

/-- The numbers that samples stand for. -/
noncomputable def realValues (x : List (Fl rnd)) : List ℝ := x.map fun v => (v.val : ℝ)

end Sp
