import Verif.Model.Arrays
import Verif.Model.Quicksort
import Mathlib.Analysis.SpecialFunctions.Sqrt

/-!
# Model of statistics.c and of the compensated sum (float.h)

`sp_sample_t` values are real numbers where square roots are taken. A division of samples by zero, which has
no real result (infinity or NaN in the code), is the outcome `divByZero`. `sp_time_t` values are natural
numbers with the reduction `u32` where the code calculates with 32 bits.
-/

namespace Sp
variable {S : Type}

/-- Division of two samples. -/
noncomputable def divSample (x y : ℝ) : C ℝ := if y = 0 then .error .divByZero else .ok (x / y)

section Sum
variable [Add S] [Sub S] [LE S] [DecidableLE S] [Zero S]

/-- The loop of `sph_f64_sum`: `len`, `result`, `correction`.
/repo/source/c/foreign/sph-sc-lib/sph-sp/float.h:13-19 -/
def f64SumLoop (numbers : Buf S) : Nat → S → S → C S
  | 0, result, correction => .ok (correction + result)
  | len + 1, result, correction => do
    let element ← rd numbers len
    let temp := result + element
    f64SumLoop numbers len temp
      (correction + (if result ≥ element then (result - temp) + element else (element - temp) + result))

/-- `sph_f64_sum`. For the length zero the first index is 2^64 - 1, outside of every array.
/repo/source/c/foreign/sph-sc-lib/sph-sp/float.h:6-21 -/
def f64Sum (numbers : Buf S) : Nat → C S
  | 0 => .error .outOfBounds
  | len + 1 => do
    let result ← rd numbers len
    f64SumLoop numbers len result 0

end Sum

/-- The loop body of the range function: minimum and maximum.
/repo/source/c-precompiled/sph-sp/statistics.c:11-18 -/
def rangeStep [LT S] [DecidableLT S] (a : Buf S) (i : Nat) (m : S × S) : C (S × S) := do
  let b ← rd a i
  if b > m.2 then return (m.1, b) else if b < m.1 then return (b, m.2) else return m

/-- `sp_stat_times_range`, `sp_stat_samples_range`; returns minimum, maximum, and range.
/repo/source/c-precompiled/sph-sp/statistics.c:2-24 -/
def statRange [LT S] [DecidableLT S] (sub : S → S → S) (a : Buf S) (size : Nat) : C (S × S × S) := do
  let min ← rd a 0
  let m ← forRange 0 size (rangeStep a) (min, min)
  return (m.1, m.2, sub m.2 m.1)

/-- `sp_stat_times_mean`. /repo/source/c-precompiled/sph-sp/statistics.c:159-167 -/
noncomputable def statTimesMean (a : Buf Nat) (size : Nat) : C ℝ := do
  let sum ← timesSum a size
  divSample sum size

/-- `sp_stat_samples_mean`. /repo/source/c-precompiled/sph-sp/statistics.c:202-205 -/
noncomputable def statSamplesMean (a : Buf ℝ) (size : Nat) : C ℝ := do
  let sum ← f64Sum a size
  divSample sum size

/-- The functions below are macros for both kinds of arrays: `conv` converts an element to a sample. -/
noncomputable def deviationStep (conv : S → ℝ) (a : Buf S) (mean : ℝ) (i : Nat) (sum : ℝ) : C ℝ := do
  let x ← rd a i
  return sum + (conv x - mean) * (conv x - mean)

/-- `sp_stat_times_deviation`, `sp_stat_samples_deviation`.
/repo/source/c-precompiled/sph-sp/statistics.c:25-39 -/
noncomputable def statDeviation (conv : S → ℝ) (statMean : Buf S → Nat → C ℝ) (a : Buf S) (size : Nat) : C ℝ := do
  let mean ← statMean a size
  let sum ← forRange 0 size (deviationStep conv a mean) 0
  let v ← divSample sum size
  return Real.sqrt v

/-- The loop body for skewness: `m2` and `m3`. /repo/source/c-precompiled/sph-sp/statistics.c:51-53 -/
noncomputable def skewnessStep (conv : S → ℝ) (a : Buf S) (mean : ℝ) (i : Nat) (m : ℝ × ℝ) : C (ℝ × ℝ) := do
  let x ← rd a i
  let b := conv x - mean
  return (m.1 + b * b, m.2 + b * b * b)

/-- `sp_stat_times_skewness`, `sp_stat_samples_skewness`.
/repo/source/c-precompiled/sph-sp/statistics.c:40-59 -/
noncomputable def statSkewness (conv : S → ℝ) (statMean : Buf S → Nat → C ℝ) (a : Buf S) (size : Nat) : C ℝ := do
  let mean ← statMean a size
  let m ← forRange 0 size (skewnessStep conv a mean) (0, 0)
  let m3 ← divSample m.2 size
  let m2 ← divSample m.1 size
  divSample m3 (Real.sqrt (m2 * m2 * m2))

/-- The loop body for kurtosis: `m2` and `m4`. /repo/source/c-precompiled/sph-sp/statistics.c:71-73 -/
noncomputable def kurtosisStep (conv : S → ℝ) (a : Buf S) (mean : ℝ) (i : Nat) (m : ℝ × ℝ) : C (ℝ × ℝ) := do
  let x ← rd a i
  let b := conv x - mean
  return (m.1 + b * b, m.2 + b * b * b * b)

/-- `sp_stat_times_kurtosis`, `sp_stat_samples_kurtosis`.
/repo/source/c-precompiled/sph-sp/statistics.c:60-79 -/
noncomputable def statKurtosis (conv : S → ℝ) (statMean : Buf S → Nat → C ℝ) (a : Buf S) (size : Nat) : C ℝ := do
  let mean ← statMean a size
  let m ← forRange 0 size (kurtosisStep conv a mean) (0, 0)
  let m4 ← divSample m.2 size
  let m2 ← divSample m.1 size
  divSample m4 (m2 * m2)

/-- `sp_stat_times_median`, `sp_stat_samples_median`. `add` is the addition of two elements with the
conversion to a sample, `n` and `depth` bound the steps of the sorting. The copy that is sorted is never freed
by the code; memory is not part of this model.
/repo/source/c-precompiled/sph-sp/statistics.c:80-91 -/
noncomputable def statMedian (lt : S → S → Bool) (conv : S → ℝ) (add : S → S → ℝ) (n depth : Nat) (a : Buf S)
    (size : Nat) : C ℝ :=
  if a.length < size then .error .outOfBounds
  else do
    let temp ← quicksort lt n depth (a.take size) 0 (sub32 size 1)
    if size &&& 1 ≠ 0 then do
      let x ← rd temp (sub32 (size / 2) 1)
      return conv x
    else do
      let x ← rd temp (size / 2)
      let y ← rd temp (sub32 (size / 2) 1)
      return add x y / 2

/-- `sp_stat_times_median`; the sum of two elements has 32 bits. -/
noncomputable def statTimesMedian :=
  statMedian (fun x y : Nat => decide (x < y)) (fun x => (x : ℝ)) (fun x y => ((u32 (x + y) : Nat) : ℝ))

/-- `sp_stat_samples_median`. -/
noncomputable def statSamplesMedian := statMedian (fun x y : ℝ => decide (x < y)) id (fun x y => x + y)

/-- The loop body of `sp_stat_times_center`: `sum` and `index_sum`.
/repo/source/c-precompiled/sph-sp/statistics.c:152-153 -/
def timesCenterStep (a : Buf Nat) (i : Nat) (s : Nat × Nat) : C (Nat × Nat) := do
  let x ← rd a i
  return (u32 (s.1 + x), u32 (s.2 + u32 (i * x)))

/-- `sp_stat_times_center`. /repo/source/c-precompiled/sph-sp/statistics.c:146-157 -/
noncomputable def statTimesCenter (a : Buf Nat) (size : Nat) : C ℝ := do
  let sum ← rd a 0
  let s ← forRange 0 size (timesCenterStep a) (sum, 0)
  divSample s.2 s.1

/-- The loop body of `sp_stat_samples_center`. /repo/source/c-precompiled/sph-sp/statistics.c:180 -/
noncomputable def samplesCenterStep (a : Buf ℝ) (i : Nat) (s : ℝ) : C ℝ := do
  let x ← rd a i
  return s + i * x

/-- `sp_stat_samples_center`. /repo/source/c-precompiled/sph-sp/statistics.c:174-184 -/
noncomputable def statSamplesCenter (a : Buf ℝ) (size : Nat) : C ℝ := do
  let sum ← f64Sum a size
  let s ← forRange 0 size (samplesCenterStep a) 0
  divSample s sum

/-- `sp_stat_unique_max`. /repo/source/c-precompiled/sph-sp/statistics.c:123 -/
def statUniqueMax (size width : Nat) : Nat := sub32 size (sub32 width 1)

/-- The loop of `sp_stat_unique_all_max`. /repo/source/c-precompiled/sph-sp/statistics.c:132-135 -/
def uniqueAllLoop (size : Nat) : Nat → Nat → Nat → C Nat
  | 0, _, _ => .error .nonTermination
  | fuel + 1, width, result =>
    if width ≤ size then uniqueAllLoop size fuel (u32 (width + 1)) (u32 (result + sub32 size (sub32 width 1)))
    else .ok result

/-- `sp_stat_unique_all_max`. /repo/source/c-precompiled/sph-sp/statistics.c:127-137 -/
def statUniqueAllMax (size fuel : Nat) : C Nat := uniqueAllLoop size fuel 1 0

/-- `sp_stat_repetition_all_max`. /repo/source/c-precompiled/sph-sp/statistics.c:138 -/
def statRepetitionAllMax (size fuel : Nat) : C Nat := do
  let r ← statUniqueAllMax size fuel
  return sub32 r size

/-- `sp_stat_repetition_max`. /repo/source/c-precompiled/sph-sp/statistics.c:139 -/
def statRepetitionMax (size width : Nat) : Nat := sub32 (statUniqueMax size width) 1

/-- `(sp_time_t)(b)` for a sample: truncation towards zero, undefined behaviour (`outOfBounds`) when the result
is not in the range of the type. /repo/source/c-precompiled/sph-sp/main.h:35 -/
noncomputable def timeOfSample (b : ℝ) : C Nat :=
  if b ≤ -1 ∨ 4294967296 ≤ b then .error .outOfBounds else .ok ⌊b⌋.toNat

/-- One term of `sp_stat_times_inharmonicity` and `sp_stat_samples_inharmonicity` for a quotient `b`.
/repo/source/c-precompiled/sph-sp/statistics.c:108-109 -/
noncomputable def halfOffset (b : ℝ) : C ℝ := do
  let floor ← timeOfSample b
  let b := b - floor
  return if 1 / 2 ≥ b then b else 1 - b

/-- The inner loop body for inharmonicity. /repo/source/c-precompiled/sph-sp/statistics.c:107-110 -/
noncomputable def inharmonicityStep (conv : S → ℝ) (a : Buf S) (x : ℝ) (i : Nat) (sum : ℝ) : C ℝ := do
  let y ← rd a i
  let b ← divSample (conv y) x
  let b ← halfOffset b
  return sum + b

/-- The outer loop body for inharmonicity. /repo/source/c-precompiled/sph-sp/statistics.c:105-115 -/
noncomputable def inharmonicityOuter (conv : S → ℝ) (a : Buf S) (size : Nat) (i : Nat) (min : ℝ) : C ℝ := do
  let x ← rd a i
  let sum ← forRange 0 size (inharmonicityStep conv a (conv x)) 0
  let sum ← divSample sum size
  if sum < min then return sum else return min

/-- `sp_stat_times_inharmonicity`, `sp_stat_samples_inharmonicity`.
/repo/source/c-precompiled/sph-sp/statistics.c:92-119 -/
noncomputable def statInharmonicity (conv : S → ℝ) (a : Buf S) (size : Nat) : C ℝ :=
  forRange 0 size (inharmonicityOuter conv a size) size

/-- The loop body of `sp_samples_scale_to_times`. `sp_cheap_round_positive` adds a half and converts to
`sp_time_t`.
/repo/source/c-precompiled/sph-sp/statistics.c:199 -/
noncomputable def scaleToTimesStep (a : Buf ℝ) (addition factor : ℝ) (i : Nat) (out : Buf Nat) : C (Buf Nat) := do
  let x ← rd a i
  let v ← timeOfSample (1 / 2 + (x + addition) * factor)
  wr out i v

/-- `sp_samples_scale_to_times`. /repo/source/c-precompiled/sph-sp/statistics.c:192-201 -/
noncomputable def samplesScaleToTimes (a : Buf ℝ) (size max : Nat) (out : Buf Nat) : C (Buf Nat) := do
  let r ← statRange (fun x y : ℝ => x - y) a size
  let factor ← divSample max r.2.2
  forRange 0 size (scaleToTimesStep a (if 0 > r.1 then |r.1| else 0) factor) out

end Sp
