import Mathlib.Analysis.SpecialFunctions.Trigonometric.Basic

/-! # The discrete Fourier transform -/

noncomputable section

namespace Sp

/-- `X[k] = sum over t of x[t] * exp(-2 * pi * i * t * k / n)`. -/
def dft (n : Nat) (x : Nat → ℂ) (k : Nat) : ℂ :=
  ∑ t ∈ Finset.range n, x t * Complex.exp (-2 * Real.pi * Complex.I * t * k / n)

/-- The complex number that is at the index `i` of two arrays. -/
def complexAt (re im : List ℝ) (i : Nat) : ℂ := ⟨re.getD i 0, im.getD i 0⟩

end Sp
