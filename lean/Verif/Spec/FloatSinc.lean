import Verif.Spec.FloatFft
import Verif.Spec.Filter
import Verif.Model.Filter

/-! # The functions of math.h for filter kernels in double precision -/

namespace Sp
variable {rnd : ℚ → ℚ}

instance : OfNat (Fl rnd) 4 := ⟨⟨4⟩⟩

/-- Decimal literals are rounded by the compiler. -/
instance : OfScientific (Fl rnd) := ⟨fun m s e => ⟨rnd (OfScientific.ofScientific m s e)⟩⟩

/-- `ceil`, which is exact, and the conversion to a 32 bit integer without sign. -/
instance : CeilTime (Fl rnd) := ⟨fun x => if ⌈x.val⌉ < 0 ∨ 4294967296 ≤ ⌈x.val⌉ then .error .outOfBounds else .ok ⌈x.val⌉.toNat⟩

/-- `M_PI` is the constant of math.h as a double, `cos` differs from the exact value by at most `2 ^ -52` for arguments up to 13, and the error
of `sin` is in proportion to the exact value, except for the smallest numbers, for arguments up to `2 ^ 34`. -/
structure LibmAccurate (rnd : ℚ → ℚ) [Trig (Fl rnd)] : Prop where
  pi : (Trig.pi : Fl rnd).val = 884279719003555 / 281474976710656
  cos : ∀ x : Fl rnd, |x.val| ≤ 13 → |((Trig.cos x).val : ℝ) - Real.cos x.val| ≤ 1 / 2 ^ 52
  sin : ∀ x : Fl rnd, |x.val| ≤ 2 ^ 34 → |((Trig.sin x).val : ℝ) - Real.sin x.val| ≤ |Real.sin x.val| / 2 ^ 52 + (2 : ℝ) ^ (-1074 : ℤ)

/-- The sum of the windowed sinc before the scaling. -/
noncomputable def windowedSincSum (cutoff : ℝ) (n : Nat) : ℝ := ∑ k ∈ Finset.range n, windowedSincValue cutoff n k

/-- How much the values of the windowed sinc cancel each other: 1 if all have the same sign. -/
noncomputable def sincCancellation (cutoff : ℝ) (n : Nat) : ℝ :=
  (∑ k ∈ Finset.range n, |windowedSincValue cutoff n k|) / |windowedSincSum cutoff n|

/-- The bound for the errors of the elements of a kernel of length `n` and for the error of its response: in proportion to the length and to how
much the values cancel each other. -/
noncomputable def kernelErrorBound (cutoff : ℝ) (n : Nat) : ℝ :=
  sincCancellation cutoff n * (20 * n * sincCancellation cutoff n + 160 * (n / |windowedSincSum cutoff n|)) / 2 ^ 53

end Sp
