import Verif.Model.Extra
import Verif.Model.Wave
import Verif.Model.Statistics
import Verif.Spec.Float

/-!
# Array functions with rounding

Functions of arrays.c and main.c with a rounding function `rnd` applied to the result of each floating point operation. With `rnd` the identity these are the
definitions of Model/Arrays.lean and Model/Extra.lean. Values are the rational numbers that doubles stand for; `sp_time_t` is converted to `double`
without rounding, being below 2^32.
Line numbers without a file are for /repo/source/c-precompiled/sph-sp/arrays.c.
-/

namespace Sp
variable (rnd : ℚ → ℚ)

/-- `sp_cheap_round_positive`. /repo/source/c-precompiled/sph-sp/main.h:32 -/
def cheapRoundR (x : ℚ) : C Nat := toTime (rnd (1 / 2 + x))

/-- `sp_sample_interpolate_linear`. /repo/source/c-precompiled/sph-sp/arrays.h:7 -/
def sampleInterpolateR (a b t : ℚ) : ℚ := rnd (rnd (rnd (1 - t) * a) + rnd (t * b))

/-- `sp_time_interpolate_linear`. /repo/source/c-precompiled/sph-sp/arrays.h:6 -/
def timeInterpolateR (a b : Nat) (t : ℚ) : C Nat := cheapRoundR rnd (sampleInterpolateR rnd a b t)

/-- `sp_samples_blend`. 564-568 -/
def samplesBlendR (a b : Src ℚ) (fraction : ℚ) (size : Nat) (out : Buf ℚ) :=
  zipLoop (fun x y => .ok (sampleInterpolateR rnd x y fraction)) a b size out

/-- `sp_times_blend`. 360-364 -/
def timesBlendR (a b : Src Nat) (fraction : ℚ) (size : Nat) (out : Buf Nat) :=
  zipLoop (fun x y => do
    let r ← timeInterpolateR rnd x y fraction
    cheapRoundR rnd r) a b size out

/-- `sp_samples_to_times`, and the result of `sp_samples_to_times_replace`. 493-497 and 503-513 -/
def samplesToTimesR (inp : Buf ℚ) (count : Nat) (out : Buf Nat) : C (Buf Nat) :=
  forRange 0 count (fun i out => do
    let x ← rd inp i
    let t ← cheapRoundR rnd x
    wr out i t) out

/-- `sp_samples_to_units`. 498-502 -/
def samplesToUnitsR (b : Buf ℚ) (count : Nat) : C (Buf ℚ) := mapLoop (fun x => .ok (rnd (rnd (x + 1) / 2))) none count b

/-- `sp_triangle`. The conversions of integers to double are exact, being of 32 bit. /repo/source/c-precompiled/sph-sp/main.c:462-466 -/
def triangleR (t a b : Nat) : C ℚ :=
  let s := u32 (a + b)
  if s = 0 then .error .divByZero
  else
    let r := t % s
    if r < a then .ok (rnd (r * rnd (1 / (a : ℚ)))) else .ok (rnd (rnd ((b : ℚ) - rnd ((r : ℚ) - (a : ℚ))) * rnd (1 / (b : ℚ))))

/-- `sp_pan_to_amp`. The sums and differences of a channel number and 0.5 or 1 are exact. /repo/source/c-precompiled/sph-sp/main.c:476 -/
def panToAmpR (value : ℚ) (channel : Nat) : ℚ :=
  if channel &&& 1 = 1 then rnd (inlineLimit value (channel - 1) (channel - 1 / 2) / (1 / 2))
  else rnd (1 - rnd (rnd (inlineLimit value (channel + 1 / 2) (channel + 1) - 1 / 2) / (1 / 2)))

/-- `sp_stat_times_mean`. For the size zero the code divides by zero. /repo/source/c-precompiled/sph-sp/statistics.c:159-167 -/
def timesMeanR (a : Buf Nat) (size : Nat) : C ℚ := do
  let sum ← timesSum a size
  if size = 0 then .error .divByZero else return rnd ((sum : ℚ) / (size : ℚ))

/-- `sp_stat_samples_mean`. The size zero is a fault of the sum. /repo/source/c-precompiled/sph-sp/statistics.c:202-205 -/
def samplesMeanR {rnd : ℚ → ℚ} (a : Buf (Fl rnd)) (size : Nat) : C (Fl rnd) := do
  let sum ← f64Sum a size
  return sum / (size : Fl rnd)

/-! ### The models without rounding are instances -/

theorem cheapRoundR_id : cheapRoundR id = cheapRound := rfl
theorem samplesBlendR_id : samplesBlendR id = samplesBlend := rfl
theorem timesBlendR_id : timesBlendR id = timesBlend := rfl
theorem samplesToTimesR_id : samplesToTimesR id = samplesToTimes := rfl
theorem samplesToUnitsR_id : samplesToUnitsR id = samplesToUnits := rfl
theorem triangleR_id : triangleR id = triangle := rfl
theorem panToAmpR_id : panToAmpR id = panToAmp := rfl

end Sp
