import Verif.Spec.DoubleAdd

/-!
# Tones of finite numbers of type `double`

A tone is an amplitude, the value of the amplitude modulation and the value of the waveform.
-/

namespace Sp
variable {rnd : ℚ → ℚ} {h : RoundsToNearest rnd}

/-- A finite number between -1 and 1. -/
def Dbl.Unit (x : Dbl h) : Prop := ∃ q, x.Is q ∧ |q| ≤ 1

/-- The tones have finite amplitudes, modulation and waveforms between -1 and 1. -/
def FullScaleDbl (ts : List (Dbl h × Dbl h × Dbl h)) : Prop := ∀ t ∈ ts, t.1.Unit ∧ t.2.1.Unit ∧ t.2.2.Unit

/-- The exact sum of the products of tones. -/
def exactMixDbl (ts : List (Dbl h × Dbl h × Dbl h)) : ℚ := (ts.map fun t => t.1.val * t.2.1.val * t.2.2.val).sum

end Sp
