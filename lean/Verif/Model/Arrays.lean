import Verif.C
import Mathlib.Algebra.Order.Field.Rat
import Mathlib.Data.Rat.Floor

/-!
# Model of the array functions (arrays-template.c, arrays.c)

The functions of the template exist for `sp_time_t` (unsigned 32 bit integers, here `Nat` with results
reduced modulo 2^32) and for `sp_sample_t`. Sample arithmetic is any type with the operations used, no
laws are assumed here; comparisons of samples are those of a linear order, that is, without NaN.
Counters are exact, see `whileLt32_eq_forRange`.

Functions with an input and an output array may be called with the same pointer for both: an operand is
of type `Src`, where `none` stands for the output array itself.
-/

namespace Sp
variable {S T : Type}

/-- An input array, or `none` for the same pointer as the output array. -/
abbrev Src (S : Type) := Option (Buf S)

/-- `in[i]` where `in` may be the output array. -/
def rdSrc (src : Src S) (out : Buf S) (i : Nat) : C S := rd (src.getD out) i

/-- The form of all loops that write `out[i]` from `a[i]` and `b[i]`. -/
def zipBody (f : S → S → C S) (a b : Src S) (i : Nat) (out : Buf S) : C (Buf S) := do
  let x ← rdSrc a out i
  let y ← rdSrc b out i
  let v ← f x y
  wr out i v

/-- `for (i = 0; i < count; i += 1) { out[i] = f(a[i], b[i]); }` -/
def zipLoop (f : S → S → C S) (a b : Src S) (count : Nat) (out : Buf S) : C (Buf S) :=
  forRange 0 count (zipBody f a b) out

/-- The form of all loops that write `out[i]` from `a[i]`. -/
def mapBody (f : S → C S) (a : Src S) (i : Nat) (out : Buf S) : C (Buf S) := do
  let x ← rdSrc a out i
  let v ← f x
  wr out i v

/-- `for (i = 0; i < count; i += 1) { out[i] = f(a[i]); }` -/
def mapLoop (f : S → C S) (a : Src S) (count : Nat) (out : Buf S) : C (Buf S) :=
  forRange 0 count (mapBody f a) out

/-- `sp_inline_no_underflow_subtract`. /repo/source/c-precompiled/sph-sp/main.h:49 -/
def noUnderflowSubtract (a b : Nat) : Nat := if a > b then sub32 a b else 0

/-- Unsigned division. -/
def divTime (a b : Nat) : C Nat := if b = 0 then .error .divByZero else .ok (a / b)

/-! ### sp_times_* of the template -/

/-- arrays-template.c:63-67 -/
def timesSquare (b : Buf Nat) (count : Nat) := mapLoop (fun x => .ok (u32 (x * x))) none count b
/-- arrays-template.c:68-72 -/
def timesAdd (b : Buf Nat) (count value : Nat) := mapLoop (fun x => .ok (u32 (x + value))) none count b
/-- arrays-template.c:73-77 -/
def timesMultiply (b : Buf Nat) (count value : Nat) := mapLoop (fun x => .ok (u32 (x * value))) none count b
/-- arrays-template.c:78-82 -/
def timesDivide (b : Buf Nat) (count value : Nat) := mapLoop (fun x => divTime x value) none count b
/-- arrays-template.c:83-87. The model reads the element before writing it, which can not fault where
the write does not. -/
def timesSet (b : Buf Nat) (count value : Nat) := mapLoop (fun _ => .ok value) none count b
/-- arrays-template.c:88-92 with `sp_inline_no_underflow_subtract`, arrays.c:5 -/
def timesSubtract (b : Buf Nat) (count value : Nat) :=
  mapLoop (fun x => .ok (noUnderflowSubtract x value)) none count b
/-- arrays-template.c:194-198 -/
def timesMultiplyTimes (b : Buf Nat) (count : Nat) (a : Src Nat) :=
  zipLoop (fun x y => .ok (u32 (x * y))) none a count b
/-- arrays-template.c:199-203 -/
def timesDivideTimes (b : Buf Nat) (count : Nat) (a : Src Nat) := zipLoop divTime none a count b
/-- arrays-template.c:204-208 -/
def timesAddTimes (b : Buf Nat) (count : Nat) (a : Src Nat) :=
  zipLoop (fun x y => .ok (u32 (x + y))) none a count b
/-- arrays-template.c:209-213 -/
def timesSubtractTimes (b : Buf Nat) (count : Nat) (a : Src Nat) :=
  zipLoop (fun x y => .ok (noUnderflowSubtract x y)) none a count b

/-! ### sp_samples_* of the template -/

/-- arrays-template.c:63-67 -/
def samplesSquare [Mul S] (b : Buf S) (count : Nat) := mapLoop (fun x => .ok (x * x)) none count b
/-- arrays-template.c:68-72 -/
def samplesAdd [Add S] (b : Buf S) (count : Nat) (value : S) := mapLoop (fun x => .ok (x + value)) none count b
/-- arrays-template.c:73-77 -/
def samplesMultiply [Mul S] (b : Buf S) (count : Nat) (value : S) :=
  mapLoop (fun x => .ok (x * value)) none count b
/-- arrays-template.c:78-82. Floating point division does not fault. -/
def samplesDivide [Div S] (b : Buf S) (count : Nat) (value : S) :=
  mapLoop (fun x => .ok (x / value)) none count b
/-- arrays-template.c:83-87, see `timesSet` -/
def samplesSet (b : Buf S) (count : Nat) (value : S) := mapLoop (fun _ => .ok value) none count b
/-- arrays-template.c:88-92 with `sp_subtract`, arrays.c:484 -/
def samplesSubtract [Sub S] (b : Buf S) (count : Nat) (value : S) :=
  mapLoop (fun x => .ok (x - value)) none count b
/-- arrays-template.c:194-198 -/
def samplesMultiplySamples [Mul S] (b : Buf S) (count : Nat) (a : Src S) :=
  zipLoop (fun x y => .ok (x * y)) none a count b
/-- arrays-template.c:199-203 -/
def samplesDivideSamples [Div S] (b : Buf S) (count : Nat) (a : Src S) :=
  zipLoop (fun x y => .ok (x / y)) none a count b
/-- arrays-template.c:204-208 -/
def samplesAddSamples [Add S] (b : Buf S) (count : Nat) (a : Src S) :=
  zipLoop (fun x y => .ok (x + y)) none a count b
/-- arrays-template.c:209-213 -/
def samplesSubtractSamples [Sub S] (b : Buf S) (count : Nat) (a : Src S) :=
  zipLoop (fun x y => .ok (x - y)) none a count b

/-! ### template functions without arithmetic, the same for both types -/

/-- `sp_times_copy`, `sp_samples_copy`. arrays-template.c:94-98 -/
def arrayCopy (a : Src S) (count : Nat) (out : Buf S) := mapLoop (fun x => .ok x) a count out

/-- `sp_times_range`, `sp_samples_range`; `end - start` is unsigned.
/repo/source/c-precompiled/sph-sp/arrays-template.c:144-148 -/
def arrayRange (a : Buf S) (start stop : Nat) (out : Buf S) : C (Buf S) :=
  forRange 0 (sub32 stop start) (fun i out => do
    let x ← rd a (u32 (start + i))
    wr out i x) out

/-- `sp_times_reverse`, `sp_samples_reverse`.
/repo/source/c-precompiled/sph-sp/arrays-template.c:50-54 -/
def arrayReverse (a : Buf S) (count : Nat) (out : Buf S) : C (Buf S) :=
  forRange 0 count (fun i out => do
    let x ← rd a i
    wr out (count - i) x) out

/-- The loop of `sp_times_equal`, `sp_samples_equal` from index `i` with `n` elements left.
/repo/source/c-precompiled/sph-sp/arrays-template.c:55-62 -/
def arrayEqual [DecidableEq S] (a : Buf S) (value : S) : Nat → Nat → C Bool
  | 0, _ => .ok true
  | n + 1, i => do
    let x ← rd a i
    if ¬ value = x then return false else arrayEqual a value n (i + 1)

section Order
variable [LinearOrder S]

/-- `sp_times_min`, `sp_samples_min`. /repo/source/c-precompiled/sph-sp/arrays-template.c:16-24 -/
def arrayMin (a : Buf S) (count : Nat) : C S := do
  let out ← rd a 0
  forRange 1 count (fun i out => do
    let x ← rd a i
    if x < out then return x else return out) out

/-- `sp_times_max`, `sp_samples_max`. /repo/source/c-precompiled/sph-sp/arrays-template.c:27-35 -/
def arrayMax (a : Buf S) (count : Nat) : C S := do
  let out ← rd a 0
  forRange 1 count (fun i out => do
    let x ← rd a i
    if x > out then return x else return out) out

variable [Zero S]

/-- `sp_times_and_times`, `sp_samples_and_samples`.
/repo/source/c-precompiled/sph-sp/arrays-template.c:151-159 -/
def arrayAnd (a b : Src S) (count : Nat) (limit : S) (out : Buf S) : C (Buf S) :=
  zipLoop (fun x y => if x ≥ limit ∧ x ≥ limit then .ok y else .ok 0) a b count out

/-- `sp_times_or_times`, `sp_samples_or_samples`.
/repo/source/c-precompiled/sph-sp/arrays-template.c:162-174 -/
def arrayOr (a b : Src S) (count : Nat) (limit : S) (out : Buf S) : C (Buf S) :=
  zipLoop (fun x y => if x < limit then (if y < limit then .ok x else .ok y) else .ok x) a b count out

/-- `sp_times_xor_times`, `sp_samples_xor_samples`.
/repo/source/c-precompiled/sph-sp/arrays-template.c:177-193 -/
def arrayXor (a b : Src S) (count : Nat) (limit : S) (out : Buf S) : C (Buf S) :=
  zipLoop (fun x y => if x ≥ limit ∧ y ≥ limit then .ok 0
    else if x < limit then (if y < limit then .ok x else .ok y) else .ok x) a b count out

end Order

/-- The loop body of cusum. arrays-template.c:105-108 -/
def cusumBody (add : S → S → S) (a : Src S) (i : Nat) (s : Buf S × S) : C (Buf S × S) := do
  let x ← rdSrc a s.1 i
  let out ← wr s.1 i (add s.2 x)
  return (out, add s.2 x)

/-- `sp_times_cusum`, `sp_samples_cusum` with the addition `add`. The count, which has the type of the
elements, is an integer here. /repo/source/c-precompiled/sph-sp/arrays-template.c:102-109 -/
def arrayCusum (add : S → S → S) (a : Src S) (count : Nat) (out : Buf S) : C (Buf S) := do
  let sum ← rdSrc a out 0
  let out ← wr out 0 sum
  let s ← forRange 1 count (cusumBody add a) (out, sum)
  return s.1

/-- The loop body of `additions`, `sp_times_multiplications` and `sp_samples_divisions`. -/
def seriesBody (next : S → S) (i : Nat) (s : Buf S × S) : C (Buf S × S) := do
  let out ← wr s.1 i s.2
  return (out, next s.2)

/-- The loop of `additions`, `sp_times_multiplications` and `sp_samples_divisions`. -/
def seriesLoop (next : S → S) (start : S) (count : Nat) (out : Buf S) : C (Buf S) := do
  let s ← forRange 0 count (seriesBody next) (out, start)
  return s.1

/-- `sp_times_additions`. /repo/source/c-precompiled/sph-sp/arrays-template.c:128-132 -/
def timesAdditions (start summand count : Nat) (out : Buf Nat) :=
  seriesLoop (fun x => u32 (x + summand)) start count out

/-- `sp_samples_additions`; the count is an integer here.
/repo/source/c-precompiled/sph-sp/arrays-template.c:128-132 -/
def samplesAdditions [Add S] (start summand : S) (count : Nat) (out : Buf S) :=
  seriesLoop (fun x => x + summand) start count out

/-- `sp_times_multiplications`. /repo/source/c-precompiled/sph-sp/arrays.c:316-321 -/
def timesMultiplications (start factor count : Nat) (out : Buf Nat) :=
  seriesLoop (fun x => u32 (x * factor)) start count out

/-- `sp_samples_divisions`. /repo/source/c-precompiled/sph-sp/arrays.c:542-547 -/
def samplesDivisions [Div S] (start divisor : S) (count : Nat) (out : Buf S) :=
  seriesLoop (fun x => x / divisor) start count out

/-- `sp_times_cusum`. -/
def timesCusum (a : Src Nat) (count : Nat) (out : Buf Nat) := arrayCusum (fun x y => u32 (x + y)) a count out

/-- `sp_samples_cusum`. -/
def samplesCusum [Add S] (a : Src S) (count : Nat) (out : Buf S) := arrayCusum (fun x y => x + y) a count out

/-! ### arrays.c -/

/-- `sp_times_sum` and `sp_time_sum`. /repo/source/c-precompiled/sph-sp/arrays.c:6-19 -/
def timesSum (a : Buf Nat) (size : Nat) : C Nat :=
  forRange 0 size (fun i sum => do
    let x ← rd a i
    return u32 (sum + x)) 0

/-- `sp_times_remove`. /repo/source/c-precompiled/sph-sp/arrays.c:429-438 -/
def timesRemove (a : Buf S) (size index count : Nat) (out : Buf S) : C (Buf S) :=
  if index = 0 then memcpy out 0 a count (sub32 size count)
  else if sub32 size 1 = index then memcpy out 0 a 0 (sub32 size count)
  else do
    let out ← memcpy out 0 a 0 index
    memcpy out index a (index + count) (sub32 (sub32 size index) count)

/-- `sp_times_insert_space`. /repo/source/c-precompiled/sph-sp/arrays.c:441-448 -/
def timesInsertSpace (a : Buf S) (size index count : Nat) (out : Buf S) : C (Buf S) :=
  if index = 0 then memcpy out count a 0 size
  else do
    let out ← memcpy out 0 a 0 index
    memcpy out (index + count) a index (sub32 size index)

/-- `sp_times_subdivide_difference`. /repo/source/c-precompiled/sph-sp/arrays.c:455-465 -/
def timesSubdivideDifference (a : Buf Nat) (size index count : Nat) (out : Buf Nat) : C (Buf Nat) := do
  let out ← timesInsertSpace a size (u32 (index + 1)) count out
  let x1 ← rd a (u32 (index + 1))
  let x0 ← rd a index
  let value ← divTime (sub32 x1 x0) (u32 (count + 1))
  forRange (u32 (index + 1)) (u32 (index + (count + 1))) (fun i out => do
    let x ← rd out (i - 1)
    wr out i (u32 (x + value))) out

/-- The loop body of `sp_times_select`. arrays.c:206 -/
def selectBody (a indices : Src Nat) (i : Nat) (out : Buf Nat) : C (Buf Nat) := do
  let k ← rdSrc indices out i
  let x ← rdSrc a out k
  wr out i x

/-- `sp_times_select`. /repo/source/c-precompiled/sph-sp/arrays.c:204-208 -/
def timesSelect (a indices : Src Nat) (count : Nat) (out : Buf Nat) : C (Buf Nat) :=
  forRange 0 count (selectBody a indices) out

/-- The loop body of `sp_times_gt_indices`. arrays.c:251-254 -/
def gtBody (a : Src Nat) (n i : Nat) (s : Buf Nat × Nat) : C (Buf Nat × Nat) := do
  let x ← rdSrc a s.1 i
  if n < x then do
    let out ← wr s.1 s.2 i
    return (out, u32 (s.2 + 1))
  else return s

/-- `sp_times_gt_indices`; returns the array and `out_size`.
/repo/source/c-precompiled/sph-sp/arrays.c:248-257 -/
def timesGtIndices (a : Src Nat) (size n : Nat) (out : Buf Nat) : C (Buf Nat × Nat) :=
  forRange 0 size (gtBody a n) (out, 0)

/-- The state of the loops of `sp_times_bits_to_times`. -/
structure BitsState where
  i : Nat
  bitsI : Nat
  mask : Nat
  out : Buf Nat

/-- The inner loop of `sp_times_bits_to_times`.
/repo/source/c-precompiled/sph-sp/arrays.c:222-227 -/
def bitsInner (a : Src Nat) (size aI : Nat) : Nat → BitsState → C BitsState
  | 0, _ => .error .nonTermination
  | fuel + 1, s =>
    if s.bitsI < 32 ∧ s.i < size then do
      let x ← rdSrc a s.out aI
      let out ← wr s.out s.i (if x &&& s.mask ≠ 0 then 1 else 0)
      bitsInner a size aI fuel { i := u32 (s.i + 1), bitsI := s.bitsI + 1, mask := u32 (s.mask * 2), out := out }
    else .ok s

/-- The outer loop of `sp_times_bits_to_times`.
/repo/source/c-precompiled/sph-sp/arrays.c:219-229 -/
def bitsOuter (a : Src Nat) (size : Nat) : Nat → Nat → Nat → Buf Nat → C (Buf Nat)
  | 0, _, _, _ => .error .nonTermination
  | fuel + 1, i, aI, out =>
    if i < size then do
      let s ← bitsInner a size aI 33 { i := i, bitsI := 0, mask := 1, out := out }
      bitsOuter a size fuel s.i (u32 (aI + 1)) s.out
    else .ok out

/-- `sp_times_bits_to_times`. /repo/source/c-precompiled/sph-sp/arrays.c:212-230 -/
def timesBitsToTimes (a : Src Nat) (size fuel : Nat) (out : Buf Nat) : C (Buf Nat) :=
  bitsOuter a size fuel 0 0 out

/-- `random_size` in `sp_times_random_binary`. arrays.c:237 -/
def randomBinarySize (size : Nat) : Nat := if size < 32 then 1 else u32 (size / 32 + 1)

/-- `sp_times_random`: fills an array with results of the generator `next`.
/repo/source/c-precompiled/sph-sp/main.h:76, /repo/source/c/foreign/sph-sc-lib/sph-sp/random.c:111 -/
def timesRandom {σ : Type} (next : σ → Nat × σ) (count : Nat) (out : Buf Nat) (s : σ) : C (Buf Nat × σ) :=
  forRange 0 count (fun i (os : Buf Nat × σ) => do
    let (v, s) := next os.2
    let out ← wr os.1 i v
    return (out, s)) (out, s)

/-- `sp_times_random_binary`; the allocation succeeds.
/repo/source/c-precompiled/sph-sp/arrays.c:233-244 -/
def timesRandomBinary {σ : Type} (next : σ → Nat × σ) (size fuel : Nat) (out : Buf Nat) (s : σ) :
    C (Buf Nat × σ) := do
  let (temp, s) ← timesRandom next (randomBinarySize size) (List.replicate (randomBinarySize size) 0) s
  let out ← timesBitsToTimes (some temp) size fuel out
  return (out, s)

/-- `sp_times_select_random`; returns array, `out_size` and generator state.
/repo/source/c-precompiled/sph-sp/arrays.c:262-266 -/
def timesSelectRandom {σ : Type} (next : σ → Nat × σ) (a : Buf Nat) (size fuel : Nat) (out : Buf Nat) (s : σ) :
    C (Buf Nat × Nat × σ) := do
  let (out, s) ← timesRandomBinary next size fuel out s
  let (out, outSize) ← timesGtIndices none size 0 out
  let out ← timesSelect (some a) none outSize out
  return (out, outSize, s)

/-- The loop body of `sp_times_extract_in_range`. arrays.c:377-380 -/
def extractBody (a : Src Nat) (min max i : Nat) (s : Buf Nat × Nat) : C (Buf Nat × Nat) := do
  let x ← rdSrc a s.1 i
  if x ≤ max ∨ x ≥ min then do
    let out ← wr s.1 i x
    return (out, u32 (s.2 + 1))
  else return s

/-- `sp_times_extract_in_range`; returns the array and `out_size`.
/repo/source/c-precompiled/sph-sp/arrays.c:374-382 -/
def timesExtractInRange (a : Src Nat) (size min max : Nat) (out : Buf Nat) : C (Buf Nat × Nat) :=
  forRange 0 size (extractBody a min max) (out, 0)

/-- `sp_times_limit`. /repo/source/c-precompiled/sph-sp/arrays.c:415-419 -/
def timesLimit (a : Src Nat) (count n : Nat) (out : Buf Nat) :=
  mapLoop (fun x => .ok (if n < x then n else x)) a count out

/-- `sp_samples_limit_abs`, for rational samples. /repo/source/c-precompiled/sph-sp/arrays.c:572-582 -/
def samplesLimitAbs (a : Src ℚ) (count : Nat) (limit : ℚ) (out : Buf ℚ) :=
  mapLoop (fun value => if 0 > value then .ok (if -1 * limit > value then -1 * limit else value)
    else .ok (if limit < value then limit else value)) a count out

/-- `sp_samples_limit`, for rational samples; elements inside the limit are not written, in the model
written with their own value. /repo/source/c-precompiled/sph-sp/arrays.c:583-589 -/
def samplesLimit (b : Buf ℚ) (count : Nat) (limit : ℚ) :=
  mapLoop (fun x => .ok (if limit < x then limit else x)) none count b

/-- Conversion of a sample to `sp_time_t`: the fraction is discarded; undefined for values outside of
the range of the type. -/
def toTime (x : ℚ) : C Nat :=
  if x ≤ -1 ∨ 4294967296 ≤ x then .error .outOfBounds else .ok (⌊x⌋.toNat)

/-- `sp_cheap_round_positive`, in exact arithmetic. /repo/source/c-precompiled/sph-sp/main.h:32 -/
def cheapRound (x : ℚ) : C Nat := toTime (1 / 2 + x)

/-- `sp_sample_interpolate_linear`, in exact arithmetic. /repo/source/c-precompiled/sph-sp/arrays.h:7 -/
def sampleInterpolate (a b t : ℚ) : ℚ := (1 - t) * a + t * b

/-- `sp_time_interpolate_linear`, in exact arithmetic. /repo/source/c-precompiled/sph-sp/arrays.h:6 -/
def timeInterpolate (a b : Nat) (t : ℚ) : C Nat := cheapRound ((1 - t) * a + t * b)

/-- `sp_samples_blend`. /repo/source/c-precompiled/sph-sp/arrays.c:564-568 -/
def samplesBlend (a b : Src ℚ) (fraction : ℚ) (size : Nat) (out : Buf ℚ) :=
  zipLoop (fun x y => .ok (sampleInterpolate x y fraction)) a b size out

/-- `sp_times_blend`. /repo/source/c-precompiled/sph-sp/arrays.c:360-364 -/
def timesBlend (a b : Src Nat) (fraction : ℚ) (size : Nat) (out : Buf Nat) :=
  zipLoop (fun x y => do
    let r ← timeInterpolate x y fraction
    cheapRound r) a b size out

/-- The loop body of `sp_times_mask`. arrays.c:369 -/
def maskBody (a b : Src Nat) (coefficients : Buf ℚ) (i : Nat) (out : Buf Nat) : C (Buf Nat) := do
  let x ← rdSrc a out i
  let y ← rdSrc b out i
  let t ← rd coefficients i
  let r ← timeInterpolate x y t
  let v ← cheapRound r
  wr out i v

/-- `sp_times_mask`. /repo/source/c-precompiled/sph-sp/arrays.c:367-371 -/
def timesMask (a b : Src Nat) (coefficients : Buf ℚ) (size : Nat) (out : Buf Nat) : C (Buf Nat) :=
  forRange 0 size (maskBody a b coefficients) out

/-- `sp_times_absolute_max`: the absolute value of an unsigned number is the number.
/repo/source/c-precompiled/sph-sp/arrays-template.c:38-49 -/
def timesAbsoluteMax (a : Buf Nat) (count : Nat) : C Nat :=
  forRange 0 count (fun i max => do
    let temp ← rd a i
    if temp > max then return temp else return max) 0

/-- `sp_samples_absolute_max`: the temporary values are of type `sp_time_t`.
/repo/source/c-precompiled/sph-sp/arrays-template.c:38-49 -/
def samplesAbsoluteMax (a : Buf ℚ) (count : Nat) : C Nat :=
  forRange 0 count (fun i max => do
    let x ← rd a i
    let temp ← toTime (if 0 > x then -1 * x else x)
    if temp > max then return temp else return max) 0

/-- `sp_samples_set_gain`. /repo/source/c-precompiled/sph-sp/arrays.c:514-527 -/
def samplesSetGain (b : Buf ℚ) (count : Nat) (amp : ℚ) : C (Buf ℚ) := do
  let inMax ← samplesAbsoluteMax b count
  if amp = 0 ∨ inMax = 0 then return b
  else
    let difference := (inMax : ℚ) / amp
    let correction := 1 + (1 - difference) / difference
    samplesMultiply b count correction

end Sp
