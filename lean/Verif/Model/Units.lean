import Verif.Model.RandomArrays
import Verif.Model.Extra
import Mathlib.Analysis.Real.Pi.Bounds

/-!
# Model of unit conversions (main.h) and of bounded random numbers with custom distributions (arrays.c)
-/

namespace Sp

/-- `sp_time_random_discrete_bounded`, in exact arithmetic. With one element 0 is divided by 0 and the result converted to an
integer, which is undefined. /repo/source/c-precompiled/sph-sp/arrays.c:59-62 -/
def timeRandomDiscreteBounded {σ : Type} (rand : Rand σ) (cudist : Buf Nat) (cudistSize range : Nat) (s : σ) : C (Nat × σ) := do
  let (r, s) ← timeRandomDiscrete rand cudist cudistSize s
  if sub32 cudistSize 1 = 0 then .error .divByZero
  else do
    let x ← cheapRound ((range : ℚ) * ((r : ℚ) / ((sub32 cudistSize 1 : Nat) : ℚ)))
    return (x, s)

/-- `sp_sample_random_discrete_bounded`, in exact arithmetic. /repo/source/c-precompiled/sph-sp/arrays.c:541 -/
def sampleRandomDiscreteBounded {σ : Type} (rand : Rand σ) (cudist : Buf Nat) (cudistSize : Nat) (range : ℚ) (s : σ) : C (ℚ × σ) := do
  let (r, s) ← timeRandomDiscrete rand cudist cudistSize s
  return (range * ((r : ℚ) / (cudistSize : ℚ)), s)

/-- `sp_hz_to_samples` for an integer. /repo/source/c-precompiled/sph-sp/main.h:63 -/
def hzToSamples (rate x : Nat) : C Nat := divTime rate x

/-- `sp_samples_to_hz` for an integer. /repo/source/c-precompiled/sph-sp/main.h:64 -/
def samplesToHz (rate x : Nat) : C Nat := divTime rate x

/-- `sp_rate_duration` and `sp_duration` for integers. /repo/source/c-precompiled/sph-sp/main.h:103 and 106 -/
def rateDuration (rate n d : Nat) : C Nat := do
  let q ← divTime rate d
  return u32 (q * n)

/-- `sp_hz_to_factor` of an integer; `rnd` is the rounding of the result of an arithmetic operation to a double.
/repo/source/c-precompiled/sph-sp/main.h:65 -/
def hzToFactor (rnd : ℚ → ℚ) (rate x : Nat) : ℚ := rnd ((x : ℚ) / (rate : ℚ))

/-- `sp_factor_to_hz`, with rounding as above. /repo/source/c-precompiled/sph-sp/main.h:68 -/
def factorToHz (rnd : ℚ → ℚ) (rate : Nat) (x : ℚ) : C Nat := toTime (rnd (x * (rate : ℚ)))

/-- `sp_hz_to_rad`, in exact arithmetic. /repo/source/c-precompiled/sph-sp/main.h:66 -/
noncomputable def hzToRad (a : ℝ) : ℝ := 2 * Real.pi * a

/-- `sp_rad_to_hz`, in exact arithmetic. /repo/source/c-precompiled/sph-sp/main.h:67 -/
noncomputable def radToHz (a : ℝ) : ℝ := Real.pi / 2 * a

end Sp
