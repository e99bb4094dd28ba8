import Verif.Model.Fft
import Verif.Model.Arrays
import Verif.Model.RandomArrays
import Verif.Model.Statistics
import Mathlib.Analysis.SpecialFunctions.Trigonometric.Basic

/-!
# Model of various small functions (main.c, arrays.c, arrays-template.c)

Samples are exact rational or real numbers. Line numbers without a file name are of
/repo/source/c-precompiled/sph-sp/arrays.c.
-/

namespace Sp

/-! ### Pan -/

/-- `sp_inline_limit`. /repo/source/c-precompiled/sph-sp/main.h:37-39 -/
def inlineLimit (x lo hi : ℚ) : ℚ := if lo > (if hi < x then hi else x) then lo else if hi < x then hi else x

/-- `sp_pan_to_amp`. /repo/source/c-precompiled/sph-sp/main.c:476 -/
def panToAmp (value : ℚ) (channel : Nat) : ℚ :=
  if channel &&& 1 = 1 then inlineLimit value (channel - 1) (channel - 1 / 2) / (1 / 2)
  else 1 - (inlineLimit value (channel + 1 / 2) (channel + 1) - 1 / 2) / (1 / 2)

/-! ### Numbers from bytes -/

/-- A two byte load, little-endian. Alignment is not modelled. -/
def load16 (a : Buf Nat) (i : Nat) : C Nat := do
  let x ← rd a i
  let y ← rd a (i + 1)
  pure (x + y * 256)

/-- A four byte load, little-endian. -/
def load32 (a : Buf Nat) (i : Nat) : C Nat := do
  let x ← load16 a i
  let y ← load16 a (i + 2)
  pure (x + y * 65536)

/-- `sp_u64_from_array`. For other counts the function ends without a value. Sums are below 2^64. 604-622 -/
def u64FromArray (a : Buf Nat) (count : Nat) : C Nat :=
  if count = 1 then rd a 0
  else if count = 2 then load16 a 0
  else if count = 3 then do
    let x ← load16 a 0
    let y ← rd a 2
    pure (x + y <<< 16)
  else if count = 4 then load32 a 0
  else if count = 5 then do
    let x ← load32 a 0
    let y ← rd a 4
    pure (x + y <<< 32)
  else if count = 6 then do
    let x ← load32 a 0
    let y ← load16 a 4
    pure (x + y <<< 32)
  else if count = 7 then do
    let x ← load32 a 0
    let y ← load16 a 4
    let z ← rd a 6
    pure (x + y <<< 32 + z <<< 48)
  else if count = 8 then do
    let x ← load32 a 0
    let y ← load32 a 4
    pure (x + y * 4294967296)
  else .error .uninitialized

/-! ### The sine table -/

/-- The loop body of `sp_sine_period`; the division by `size / 2` (an integer) is a fault if it is zero, where the C program gets an
infinite value and from this a value that is no number. /repo/source/c-precompiled/sph-sp/main.c:193 -/
def sineBody {S : Type} [Mul S] [Div S] [NatCast S] [Trig S] (size : Nat) (i : Nat) (out : Buf S) : C (Buf S) :=
  if size / 2 = 0 then .error .divByZero else wr out i (Trig.sin (i * (Trig.pi / (size / 2 : Nat))))

/-- `sp_sine_period`. /repo/source/c-precompiled/sph-sp/main.c:191-195 -/
def sinePeriod {S : Type} [Mul S] [Div S] [NatCast S] [Trig S] (size : Nat) (out : Buf S) : C (Buf S) := forRange 0 size (sineBody size) out

/-! ### Multiples -/

/-- `sp_time_round_to_multiple`. /repo/source/c-precompiled/sph-sp/arrays-template.c:13 -/
def timeRoundToMultiple (a base : Nat) : C Nat :=
  if a = 0 then .ok base else if base = 0 then .error .divByZero else cheapRound ((a : ℚ) / base * base)

/-- `sp_sample_round_to_multiple`. /repo/source/c-precompiled/sph-sp/arrays-template.c:13 -/
def sampleRoundToMultiple (a base : ℚ) : C ℚ :=
  if a = 0 then .ok base else if base = 0 then .error .divByZero else do
    let t ← cheapRound (a / base * base)
    pure t

/-- The value of `nearest` in the functions below. /repo/source/c-precompiled/sph-sp/main.c:492 -/
def harmonizeNearest (a base : Nat) : C Nat := do
  let q ← divTime (sub32 (u32 (a + base)) 1) base
  pure (u32 (q * base))

/-- `sp_time_harmonize`. /repo/source/c-precompiled/sph-sp/main.c:490-494 -/
def timeHarmonize (a base : Nat) (amount : ℚ) : C Nat := do
  let nearest ← harmonizeNearest a base
  if a > nearest then toTime (a - amount * (sub32 a nearest : Nat))
  else toTime (a + amount * (sub32 nearest a : Nat))

/-- `sp_inline_absolute_difference` of unsigned numbers. /repo/source/c-precompiled/sph-sp/main.h:45 -/
def absoluteDifference (a b : Nat) : Nat := if a > b then sub32 a b else sub32 b a

/-- `sp_time_deharmonize`, with a source of bounded numbers and a source of numbers that share a state.
/repo/source/c-precompiled/sph-sp/main.c:497-516 -/
def timeDeharmonize {σ : Type} (rand : Rand σ) (next : σ → Nat × σ) (a base : Nat) (amount : ℚ) (s : σ) : C (Nat × σ) := do
  let nearest ← harmonizeNearest a base
  let ratio : ℚ := (sub32 base (absoluteDifference a nearest) : Nat) / (base : ℚ)
  let (r, s) ← rand (base / 2) s
  let amount := amount * ratio * (u32 (1 + r) : Nat)
  if a > nearest ∨ (a : ℚ) < amount then do
    let x ← toTime (a + amount)
    pure (x, s)
  else if a < nearest then do
    let x ← toTime (a - amount)
    pure (x, s)
  else if 1 &&& (next s).1 = 1 then do
    let x ← toTime (a - amount)
    pure (x, (next s).2)
  else do
    let x ← toTime (a + amount)
    pure (x, (next s).2)

/-- `sp_times_random_bounded`. /repo/source/c/foreign/sph-sc-lib/sph-sp/random.c:118-122 -/
def timesRandomBounded {σ : Type} (rand : Rand σ) (range size : Nat) (out : Buf Nat) (s : σ) : C (Buf Nat × σ) :=
  forRange 0 size (fun i (os : Buf Nat × σ) => do
    let (r, s) ← rand range os.2
    let out ← wr os.1 i r
    pure (out, s)) (out, s)

/-- `sp_normal_random`; `junk` is the initial content of the array. The mean is of type `sp_sample_t` and truncated.
/repo/source/c-precompiled/sph-sp/main.c:479-486 -/
def normalRandom {σ : Type} (rand : Rand σ) (junk : Nat) (min max : Nat) (s : σ) : C (Nat × σ) := do
  let (samples, s) ← timesRandomBounded rand (sub32 max min) 32 (List.replicate 32 junk) s
  let samples ← timesAdd samples 32 min
  let sum ← timesSum samples 32
  let x ← toTime ((sum : ℚ) / (32 : Nat))
  pure (x, s)

/-! ### Scaling -/

/-- The inner loop body of `sp_times_scale`. 290 -/
def scaleInner (temp : Buf Nat) (factor i : Nat) (i2 : Nat) (out : Buf Nat) : C (Buf Nat) := do
  let x ← rd temp (sub32 i 1)
  let y ← rd temp i
  let v ← timeInterpolate x y ((i2 : ℚ) / factor)
  wr out (u32 (u32 (factor * sub32 i 1) + i2)) v

/-- `sp_times_scale`; `junk` is the content of allocated memory. Allocation succeeds in the model. 282-296 -/
def timesScale (junk : Nat) (inp : Buf Nat) (count factor : Nat) (out : Buf Nat) : C (Buf Nat) := do
  let temp ← arrayCopy (some inp) count (List.replicate count junk)
  let temp ← timesMultiply temp count factor
  forRange 1 count (fun i out => forRange 0 factor (scaleInner temp factor i) out) out

/-- `sp_times_scale_sum`. A sum of zero is a fault, where the C program gets an infinite factor. The array `in` may be the array `out`.
308-313 -/
def timesScaleSum (a : Src Nat) (count sum : Nat) (out : Buf Nat) : C (Buf Nat) := do
  let total ← timesSum (a.getD out) count
  if total = 0 then .error .divByZero
  else mapLoop (fun x => cheapRound ((x : ℚ) * ((sum : ℚ) / total))) none count out

/-- `sp_times_scale_y`: the array `in` afterwards; the array `out` is not used. 423-426 -/
def timesScaleY (inp : Buf Nat) (count targetY : Nat) : C (Buf Nat) := do
  let max ← timesAbsoluteMax inp count
  let f ← divTime targetY max
  timesMultiply inp count f

/-- `sp_samples_scale_y`. 551-554 -/
def samplesScaleY (inp : Buf ℚ) (count : Nat) (_targetY : ℚ) : C (Buf ℚ) := do
  let max ← samplesAbsoluteMax inp count
  if max = 0 then .error .divByZero else samplesMultiply inp count ((count : ℚ) / (max : ℚ))

/-- `sp_samples_scale_sum`: the array `in` afterwards; the array `out` is not used. `sp_samples_sum` is `sph_f64_sum`. 558-561 -/
noncomputable def samplesScaleSum (inp : Buf ℝ) (count : Nat) (targetY : ℝ) : C (Buf ℝ) := do
  let sum ← f64Sum inp count
  let f ← divSample targetY sum
  samplesMultiply inp count f

/-! ### Seamless transitions -/

/-- The second loop body of `sp_times_make_seamless_right`; the fraction is an integer division. 395 -/
def seamlessRightBody (a b : Buf Nat) (start count : Nat) (i : Nat) (out : Buf Nat) : C (Buf Nat) := do
  let x ← rd a (u32 (i + start))
  let y ← rd b (sub32 count (u32 (1 + i)))
  let t ← divTime (u32 (1 + i)) count
  let v ← timeInterpolate x y t
  wr out (u32 (i + start)) v

/-- `sp_times_make_seamless_right`. 386-397 -/
def seamlessRight (a : Buf Nat) (aCount : Nat) (b : Buf Nat) (bCount : Nat) (out : Buf Nat) : C (Buf Nat) := do
  let count := if aCount < bCount / 2 then aCount else bCount / 2
  let start := sub32 aCount count
  let out ← mapLoop (fun x => .ok x) (some a) start out
  forRange 0 count (seamlessRightBody a b start count) out

/-- The first loop body of `sp_times_make_seamless_left`. 407 -/
def seamlessLeftBody (a b : Buf Nat) (aCount count : Nat) (i : Nat) (out : Buf Nat) : C (Buf Nat) := do
  let x ← rd b i
  let y ← rd a (sub32 aCount i)
  let t ← divTime (u32 (1 + i)) count
  let v ← timeInterpolate x y t
  wr out i v

/-- `sp_times_make_seamless_left`. 400-412 -/
def seamlessLeft (a : Buf Nat) (aCount : Nat) (b : Buf Nat) (bCount : Nat) (out : Buf Nat) : C (Buf Nat) := do
  let count := if bCount < aCount / 2 then bCount else aCount / 2
  let out ← forRange 0 count (seamlessLeftBody a b aCount count) out
  forRange (sub32 count 1) bCount (fun i out => do
    let x ← rd b i
    wr out i x) out

/-! ### Conversions -/

/-- `sp_times_to_samples`, and the result of `sp_times_to_samples_replace`, which allocates `out` and frees `in`. 466-470 and 471-481 -/
def timesToSamples (inp : Buf Nat) (count : Nat) (out : Buf ℚ) : C (Buf ℚ) :=
  forRange 0 count (fun i out => do
    let x ← rd inp i
    wr out i (x : ℚ)) out

/-- `sp_samples_to_times`, and the result of `sp_samples_to_times_replace`. 493-497 and 503-513 -/
def samplesToTimes (inp : Buf ℚ) (count : Nat) (out : Buf Nat) : C (Buf Nat) :=
  forRange 0 count (fun i out => do
    let x ← rd inp i
    let t ← cheapRound x
    wr out i t) out

/-- `sp_samples_to_units`. 498-502 -/
def samplesToUnits (b : Buf ℚ) (count : Nat) : C (Buf ℚ) := mapLoop (fun x => .ok ((x + 1) / 2)) none count b

/-- `sp_samples_differences`. 536-540 -/
def samplesDifferences {S : Type} [Sub S] (a : Buf S) (count : Nat) (out : Buf S) : C (Buf S) :=
  forRange 1 count (fun i out => do
    let x ← rd a i
    let y ← rd a (sub32 i 1)
    wr out (sub32 i 1) (x - y)) out

/-- `sp_times_constant`; `junk` is the content of allocated memory. 269-277 -/
def timesConstant (junk count value : Nat) : C (Buf Nat) := timesSet (List.replicate count junk) count value

end Sp
