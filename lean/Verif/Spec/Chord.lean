import Verif.Model.ToneProgram
import Verif.Spec.FloatFft

/-! # Specification for C175 and C177: several sines together -/

noncomputable section

namespace Sp
variable {rnd : ℚ → ℚ}

/-- Several sines together: what is heard at time `y`, which is counted in samples and need not be an integer. -/
def chordAt (rate : Nat) (tones : List (SineTone (Fl rnd))) (y : ℝ) : ℝ :=
  (tones.map fun x => (x.amp.val : ℝ) * Real.sin (2 * Real.pi * (x.phase + x.frq * y) / rate)).sum

/-- The sum of the amplitudes. -/
def chordAmp (tones : List (SineTone (Fl rnd))) : ℝ := (tones.map fun x => |(x.amp.val : ℝ)|).sum

/-- Tones that can be passed to `sp_sine`: amplitudes up to one, and phases and frequencies for which the phase does not overflow. -/
def ChordValid (rate : Nat) (tones : List (SineTone (Fl rnd))) : Prop :=
  ∀ x ∈ tones, |x.amp.val| ≤ 1 ∧ rate + x.frq ≤ 4294967296 ∧ x.phase < rate

/-- Whole periods in `n` samples, and a frequency below half of the sampling rate. -/
def WholePeriods (rate n : Nat) (tones : List (SineTone (Fl rnd))) : Prop :=
  ∀ x ∈ tones, rate ∣ x.frq * n ∧ 0 < x.frq ∧ 2 * x.frq < rate

end Sp
