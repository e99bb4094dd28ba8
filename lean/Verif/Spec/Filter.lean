import Mathlib.Analysis.SpecialFunctions.Trigonometric.Basic

/-! # Specification for filters -/

namespace Sp

/-- The frequency response of an impulse response; `f` is a fraction of the sampling rate. -/
noncomputable def response (h : List ℝ) (f : ℝ) : ℂ :=
  ∑ t ∈ Finset.range h.length, (h.getD t 0 : ℂ) * Complex.exp (-2 * Real.pi * Complex.I * f * t)

/-- The frequency response of a delay by `d` samples. -/
noncomputable def delayResponse (d : Nat) (f : ℝ) : ℂ := Complex.exp (-2 * Real.pi * Complex.I * f * d)

/-- Left-right symmetry. -/
def Symmetric (h : List ℝ) : Prop := ∀ i, i < h.length → h[i]? = h[h.length - 1 - i]?

/-- The normalised sinc function. -/
noncomputable def sincOf (x : ℝ) : ℝ := if x = 0 then 1 else Real.sin (Real.pi * x) / (Real.pi * x)

/-- The Blackman window with `n` values. -/
noncomputable def blackmanOf (n i : Nat) : ℝ :=
  0.42 - 0.5 * Real.cos (2 * Real.pi * i / (n - 1)) + 0.08 * Real.cos (4 * Real.pi * i / (n - 1))

/-- The impulse response of the ideal low-pass filter for a cutoff frequency given as a fraction of the sampling rate, not scaled, with its
center at `(n - 1) / 2`, times the window. -/
noncomputable def windowedSincValue (cutoff : ℝ) (n i : Nat) : ℝ := blackmanOf n i * sincOf (2 * cutoff * (i - ((n : ℝ) - 1) / 2))

/-- The windowed sinc scaled to the sum 1. -/
noncomputable def lowPassKernel (cutoff : ℝ) (n i : Nat) : ℝ := windowedSincValue cutoff n i / ∑ k ∈ Finset.range n, windowedSincValue cutoff n k

/-- `n` is the smallest odd number that is not below `4 / transition`. -/
def IsKernelLength (transition : ℝ) (n : Nat) : Prop := Odd n ∧ 4 / transition ≤ n ∧ ∀ m : Nat, Odd m → 4 / transition ≤ m → n ≤ m

/-- The input with its extension to both sides. Where there is no previous array, it continues with the negated values in reverse order
around the first value, where there is no next array, around the last value, as in the documented example
`-0 -3 -2 -1 [0 1 2 3 0] -3 -2 -1 -0`. -/
def extended {S : Type} [Zero S] [Neg S] (inp : List S) (prev next : Option (List S)) (j : Int) : S :=
  if j < 0 then
    match prev with
    | some prev => prev.getD (inp.length + j).toNat 0
    | none => -inp.getD (-j).toNat 0
  else if j < inp.length then inp.getD j.toNat 0
  else
    match next with
    | some next => next.getD (j - inp.length).toNat 0
    | none => -inp.getD (2 * (inp.length - 1) - j).toNat 0

/-- The mean of the values from `i - radius` to `i + radius`. -/
def windowMean {S : Type} [Field S] (f : Int → S) (radius : Nat) (i : Int) : S :=
  (∑ d ∈ Finset.range (2 * radius + 1), f (i - radius + d)) / (2 * radius + 1 : Nat)

/-- The documented example. -/
example : (List.range 13).map (fun j => extended [0, 1, 2, 3, (0 : ℤ)] none none ((j : ℤ) - 4)) =
    [0, -3, -2, -1, 0, 1, 2, 3, 0, -3, -2, -1, 0] := by decide

end Sp
