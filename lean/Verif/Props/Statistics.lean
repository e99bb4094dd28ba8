import Verif.Model.Statistics
import Verif.Props.Quicksort
import Verif.Props.Arrays
import Mathlib.Analysis.SpecialFunctions.Pow.Real
import Mathlib.Algebra.BigOperators.Intervals
import Mathlib.Algebra.BigOperators.Group.List.Basic
import Mathlib.Data.List.Sort
import Mathlib.Tactic.Ring

/-!
# C47 to C50 and C83: statistics
-/

set_option linter.unusedSectionVars false

namespace Sp
variable {S : Type}

/-- A loop that adds a value for each element. -/
theorem forRange_sum {M : Type} [AddCommMonoid M] (a : Buf S) (h : S → M) {body : Nat → M → C M} (s0 : M)
    (hb : ∀ (i : Nat) (s : M) (x : S), a[i]? = some x → body i s = .ok (s + h x)) :
    forRange 0 a.length body s0 = .ok (s0 + (a.map h).sum) := by
  obtain ⟨s, h1, h2⟩ := forRange_rule (P := fun i s => s = s0 + ((a.take i).map h).sum) (hle := Nat.zero_le _)
    (body := body) (s := s0) (h0 := by simp) (hstep := by
      intro i s _ hi hs
      refine ⟨_, hb i s a[i] (List.getElem?_eq_getElem hi), ?_⟩
      rw [hs, List.take_succ_eq_append_getElem hi, List.map_append, List.sum_append, add_assoc]
      simp)
  rw [h1, h2, List.take_length]

theorem rd_of_getElem? {a : Buf S} {i : Nat} {x : S} (h : a[i]? = some x) : rd a i = .ok x := rd_ok_iff.2 h

theorem divSample_ok {x y : ℝ} (h : y ≠ 0) : divSample x y = .ok (x / y) := if_neg h

/-! ### C50 -/

theorem f64SumLoop_eq (a : Buf ℝ) (len : Nat) : ∀ result, len ≤ a.length →
    f64SumLoop a len result 0 = .ok (result + (a.take len).sum) := by
  induction len with
  | zero => intro r _; simp [f64SumLoop]
  | succ len ih =>
    intro r h
    rw [f64SumLoop, rd_eq_ok (by omega), ok_bind']
    have h0 : ((0 : ℝ) + if r ≥ a[len] then r - (r + a[len]) + a[len] else a[len] - (r + a[len]) + r) = 0 := by
      split <;> ring
    simp only [h0]
    rw [ih _ (by omega), List.take_succ_eq_append_getElem (by omega), List.sum_append]
    simp only [List.sum_cons, List.sum_nil]
    congr 1
    ring

/-- C50: in exact arithmetic, the compensated sum of the first `len` elements is their sum. -/
theorem C50_sum (a : Buf ℝ) (len : Nat) (h1 : 1 ≤ len) (h2 : len ≤ a.length) :
    f64Sum a len = .ok (a.take len).sum := by
  obtain ⟨n, rfl⟩ : ∃ n, len = n + 1 := ⟨len - 1, by omega⟩
  rw [f64Sum, rd_eq_ok (by omega), ok_bind', f64SumLoop_eq a n _ (by omega),
    List.take_succ_eq_append_getElem (by omega), List.sum_append]
  simp [add_comm]

/-- `C50_sum` on a case with negative elements. -/
example : f64Sum [(1 : ℝ), -3, 5, 7] 3 = .ok 3 := by
  rw [C50_sum _ 3 (by decide) (by decide)]; norm_num

section SumReads
variable {S : Type} [Add S] [Sub S] [LE S] [DecidableLE S] [Zero S]

/-- C50: for every arithmetic, floating point included, and every array, the sum depends on exactly the first `len`
elements: it is calculated without access outside of them, and two arrays with the same first elements have the
same sum. -/
theorem C50_reads (a : Buf S) (len : Nat) (h1 : 1 ≤ len) (h2 : len ≤ a.length) :
    ∃ r, f64Sum a len = .ok r ∧ f64Sum (a.take len) len = .ok r := by
  have key : ∀ (n : Nat) (r c : S), n ≤ len → ∃ v, f64SumLoop a n r c = .ok v ∧ f64SumLoop (a.take len) n r c = .ok v := by
    intro n
    induction n with
    | zero => intro r c _; exact ⟨_, rfl, rfl⟩
    | succ n ih =>
      intro r c hn
      rw [f64SumLoop, f64SumLoop, rd_eq_ok (by omega), rd_eq_ok (by simp; omega), ok_bind', ok_bind']
      simp only [List.getElem_take]
      exact ih _ _ (by omega)
  obtain ⟨n, rfl⟩ : ∃ n, len = n + 1 := ⟨len - 1, by omega⟩
  rw [f64Sum, f64Sum, rd_eq_ok (by omega), rd_eq_ok (by simp; omega), ok_bind', ok_bind']
  simp only [List.getElem_take]
  exact key n _ _ (by omega)

/-- The length zero is outside of the contract. -/
theorem C50_zero (a : Buf S) : f64Sum a 0 = .error .outOfBounds := rfl

end SumReads

/-- `C50_reads` for integers instead of samples. -/
example : f64Sum [(1 : Int), -3, 5, 7] 3 = .ok 3 := rfl

/-! ### C49 -/

section Range
variable [LinearOrder S]

/-- C49: minimum and maximum are elements that bound all elements, and the third value is their difference. -/
theorem C49_range (sub : S → S → S) (a : Buf S) (hne : a ≠ []) :
    ∃ lo hi, statRange sub a a.length = .ok (lo, hi, sub hi lo) ∧ lo ∈ a ∧ hi ∈ a ∧ ∀ x ∈ a, lo ≤ x ∧ x ≤ hi := by
  have hpos : 0 < a.length := List.length_pos_of_ne_nil hne
  obtain ⟨m, h1, h2, h3, h4, _⟩ := forRange_rule
    (P := fun i (m : S × S) => m.1 ∈ a ∧ m.2 ∈ a ∧ (∀ x ∈ a.take i, m.1 ≤ x ∧ x ≤ m.2) ∧ m.1 ≤ m.2)
    (hle := Nat.zero_le a.length) (body := rangeStep a) (s := (a[0], a[0]))
    (h0 := ⟨List.getElem_mem _, List.getElem_mem _, by simp, le_refl _⟩) (hstep := by
      rintro i ⟨lo, hi⟩ _ hilt ⟨g1, g2, g3, g4⟩
      have hx : a[i] ∈ a := List.getElem_mem hilt
      rw [rangeStep, rd_eq_ok hilt, ok_bind']
      have ht : ∀ lo' hi', lo' ≤ lo → hi ≤ hi' → lo' ≤ a[i] → a[i] ≤ hi' →
          ∀ x ∈ a.take (i + 1), lo' ≤ x ∧ x ≤ hi' := by
        intro lo' hi' e1 e2 e3 e4 x hx
        rw [List.take_succ_eq_append_getElem hilt, List.mem_append, List.mem_singleton] at hx
        rcases hx with hx | rfl
        · exact ⟨le_trans e1 (g3 x hx).1, le_trans (g3 x hx).2 e2⟩
        · exact ⟨e3, e4⟩
      by_cases c1 : a[i] > hi
      · rw [if_pos c1]
        exact ⟨_, rfl, g1, hx, ht _ _ (le_refl _) c1.le (le_trans g4 c1.le) (le_refl _), le_trans g4 c1.le⟩
      · rw [if_neg c1]
        by_cases c2 : a[i] < lo
        · rw [if_pos c2]
          exact ⟨_, rfl, hx, g2, ht _ _ c2.le (le_refl _) (le_refl _) (not_lt.1 c1), le_trans c2.le g4⟩
        · rw [if_neg c2]
          exact ⟨_, rfl, g1, g2, ht _ _ (le_refl _) (le_refl _) (not_lt.1 c2) (not_lt.1 c1), g4⟩)
  rw [List.take_length] at h4
  exact ⟨m.1, m.2, by rw [statRange, rd_eq_ok hpos, ok_bind', h1]; rfl, h2, h3, h4⟩

/-- C49: the smallest element. -/
theorem C49_min (a : Buf S) (hne : a ≠ []) :
    ∃ m, arrayMin a a.length = .ok m ∧ m ∈ a ∧ ∀ x ∈ a, m ≤ x := by
  have hpos : 0 < a.length := List.length_pos_of_ne_nil hne
  obtain ⟨m, h1, h2, h3⟩ := forRange_rule
    (P := fun i (m : S) => m ∈ a ∧ ∀ x ∈ a.take i, m ≤ x) (lo := 1) (hle := hpos)
    (body := fun i out => do
      let x ← rd a i
      if x < out then return x else return out) (s := a[0])
    (h0 := ⟨List.getElem_mem _, by
      rw [List.take_succ_eq_append_getElem hpos]; simp⟩) (hstep := by
      rintro i m _ hilt ⟨g1, g2⟩
      have hx : a[i] ∈ a := List.getElem_mem hilt
      rw [rd_eq_ok hilt, ok_bind']
      by_cases c : a[i] < m
      · rw [if_pos c]
        refine ⟨_, rfl, hx, ?_⟩
        intro x hx
        rw [List.take_succ_eq_append_getElem hilt, List.mem_append, List.mem_singleton] at hx
        rcases hx with hx | rfl
        · exact le_trans c.le (g2 x hx)
        · exact le_refl _
      · rw [if_neg c]
        refine ⟨_, rfl, g1, ?_⟩
        intro x hx
        rw [List.take_succ_eq_append_getElem hilt, List.mem_append, List.mem_singleton] at hx
        rcases hx with hx | rfl
        · exact g2 x hx
        · exact not_lt.1 c)
  rw [List.take_length] at h3
  exact ⟨m, by rw [arrayMin, rd_eq_ok hpos, ok_bind', h1], h2, h3⟩

/-- C49: the largest element. -/
theorem C49_max (a : Buf S) (hne : a ≠ []) :
    ∃ m, arrayMax a a.length = .ok m ∧ m ∈ a ∧ ∀ x ∈ a, x ≤ m := by
  have hpos : 0 < a.length := List.length_pos_of_ne_nil hne
  obtain ⟨m, h1, h2, h3⟩ := forRange_rule
    (P := fun i (m : S) => m ∈ a ∧ ∀ x ∈ a.take i, x ≤ m) (lo := 1) (hle := hpos)
    (body := fun i out => do
      let x ← rd a i
      if x > out then return x else return out) (s := a[0])
    (h0 := ⟨List.getElem_mem _, by
      rw [List.take_succ_eq_append_getElem hpos]; simp⟩) (hstep := by
      rintro i m _ hilt ⟨g1, g2⟩
      have hx : a[i] ∈ a := List.getElem_mem hilt
      rw [rd_eq_ok hilt, ok_bind']
      by_cases c : a[i] > m
      · rw [if_pos c]
        refine ⟨_, rfl, hx, ?_⟩
        intro x hx
        rw [List.take_succ_eq_append_getElem hilt, List.mem_append, List.mem_singleton] at hx
        rcases hx with hx | rfl
        · exact le_trans (g2 x hx) c.le
        · exact le_refl _
      · rw [if_neg c]
        refine ⟨_, rfl, g1, ?_⟩
        intro x hx
        rw [List.take_succ_eq_append_getElem hilt, List.mem_append, List.mem_singleton] at hx
        rcases hx with hx | rfl
        · exact g2 x hx
        · exact not_lt.1 c)
  rw [List.take_length] at h3
  exact ⟨m, by rw [arrayMax, rd_eq_ok hpos, ok_bind', h1], h2, h3⟩

end Range

/-- The theorems of C49 on an array. -/
example : statRange (fun x y : Int => x - y) [3, -1, 4, -1, 5, 2] 6 = .ok (-1, 5, 6) := rfl
example : arrayMin [(3 : Int), -1, 4, -1, 5, 2] 6 = .ok (-1) ∧ arrayMax [(3 : Int), -1, 4, -1, 5, 2] 6 = .ok 5 :=
  ⟨rfl, rfl⟩

/-! ### C48

The specification is stated for lists of real numbers. -/

/-- The mean of a list. -/
noncomputable def meanOf (l : List ℝ) : ℝ := l.sum / l.length

/-- The mean of the given power of the difference to the mean. -/
noncomputable def centralMoment (k : Nat) (l : List ℝ) : ℝ := meanOf (l.map (fun x => (x - meanOf l) ^ k))

/-- The center of mass: positions weighted by the elements. -/
noncomputable def centerOf (l : List ℝ) : ℝ := (l.mapIdx (fun i x => (i : ℝ) * x)).sum / l.sum

theorem timesSum_eq (a : Buf Nat) (hsum : a.sum < 4294967296) : timesSum a a.length = .ok a.sum := by
  obtain ⟨s, h1, h2⟩ := forRange_rule (P := fun i s => s = (a.take i).sum) (hle := Nat.zero_le a.length)
    (body := fun i sum => do
      let x ← rd a i
      return u32 (sum + x)) (s := 0) (h0 := by simp) (hstep := by
      intro i s _ hi hs
      rw [rd_eq_ok hi, ok_bind']
      refine ⟨_, rfl, ?_⟩
      have h3 : (a.take (i + 1)).sum = s + a[i] := by
        rw [List.take_succ_eq_append_getElem hi, List.sum_append, hs]; simp
      have h4 : (a.take (i + 1)).sum ≤ a.sum := by
        conv_rhs => rw [← List.take_append_drop (i + 1) a]
        rw [List.sum_append]; omega
      rw [h3]
      exact u32_of_lt (by omega))
  rw [timesSum, h1, h2, List.take_length]

theorem sum_cast (a : List Nat) : (a.map (fun x : Nat => (x : ℝ))).sum = (a.sum : ℝ) := by
  induction a with
  | nil => simp
  | cons x a ih => simp only [List.map_cons, List.sum_cons, ih, Nat.cast_add]

/-- C48: the mean of times, if the sum fits in 32 bits. -/
theorem C48_times_mean (a : Buf Nat) (hne : a ≠ []) (hsum : a.sum < 4294967296) :
    statTimesMean a a.length = .ok (meanOf (a.map (fun x : Nat => (x : ℝ)))) := by
  rw [statTimesMean, timesSum_eq a hsum, ok_bind', divSample_ok (by simpa using hne), meanOf, sum_cast]
  simp

/-- C48: the mean of samples. -/
theorem C48_samples_mean (a : Buf ℝ) (hne : a ≠ []) : statSamplesMean a a.length = .ok (meanOf a) := by
  rw [statSamplesMean, C50_sum a _ (List.length_pos_of_ne_nil hne) (le_refl _), ok_bind',
    divSample_ok (by simpa using hne), List.take_length, meanOf]

/-- The mean of values that are given by a function of the elements. -/
theorem meanOf_map (a : List S) (f : S → ℝ) : meanOf (a.map f) = (a.map f).sum / a.length := by
  simp [meanOf]

theorem centralMoment_eq (conv : S → ℝ) (k : Nat) (a : List S) :
    centralMoment k (a.map conv)
      = (a.map (fun x => (conv x - meanOf (a.map conv)) ^ k)).sum / a.length := by
  rw [centralMoment, List.map_map, meanOf_map]
  rfl

theorem statDeviation_eq (conv : S → ℝ) (statMean : Buf S → Nat → C ℝ) (a : Buf S) (hne : a ≠ [])
    (hm : statMean a a.length = .ok (meanOf (a.map conv))) :
    statDeviation conv statMean a a.length = .ok (Real.sqrt (centralMoment 2 (a.map conv))) := by
  rw [statDeviation, hm, ok_bind',
    forRange_sum a (fun x => (conv x - meanOf (a.map conv)) ^ 2) 0 (by
      intro i s x hx
      rw [deviationStep, rd_of_getElem? hx, ok_bind', pow_two]; rfl), ok_bind',
    divSample_ok (by simpa using hne), ok_bind', zero_add, centralMoment_eq]
  rfl

theorem statSkewness_eq (conv : S → ℝ) (statMean : Buf S → Nat → C ℝ) (a : Buf S) (hne : a ≠ [])
    (hm : statMean a a.length = .ok (meanOf (a.map conv))) (hv : centralMoment 2 (a.map conv) ≠ 0) :
    statSkewness conv statMean a a.length
      = .ok (centralMoment 3 (a.map conv) / centralMoment 2 (a.map conv) ^ ((3 : ℝ) / 2)) := by
  have hsum := forRange_sum a
    (fun x => ((conv x - meanOf (a.map conv)) ^ 2, (conv x - meanOf (a.map conv)) ^ 3))
    (body := skewnessStep conv a (meanOf (a.map conv))) (0, 0) (by
      intro i s x hx
      rw [skewnessStep, rd_of_getElem? hx, ok_bind', pow_two, pow_succ, pow_two]; rfl)
  have h1 : (a.map (fun x => ((conv x - meanOf (a.map conv)) ^ 2, (conv x - meanOf (a.map conv)) ^ 3))).sum
      = ((a.map (fun x => (conv x - meanOf (a.map conv)) ^ 2)).sum,
         (a.map (fun x => (conv x - meanOf (a.map conv)) ^ 3)).sum) := by
    generalize meanOf (a.map conv) = μ
    clear hsum hm hne hv
    induction a with
    | nil => rfl
    | cons x a ih => simp [ih]
  have hl : (a.length : ℝ) ≠ 0 := by simpa using hne
  have hnn : 0 ≤ centralMoment 2 (a.map conv) := by
    rw [centralMoment_eq]
    exact div_nonneg (List.sum_nonneg (by simp; intro x _; positivity)) (by positivity)
  have hpos : 0 < centralMoment 2 (a.map conv) := lt_of_le_of_ne hnn (Ne.symm hv)
  have hs : Real.sqrt (centralMoment 2 (a.map conv) * centralMoment 2 (a.map conv) * centralMoment 2 (a.map conv))
      = centralMoment 2 (a.map conv) ^ ((3 : ℝ) / 2) := by
    rw [← pow_two, ← pow_succ, Real.sqrt_eq_rpow, ← Real.rpow_natCast, ← Real.rpow_mul hnn]
    norm_num
  rw [statSkewness, hm, ok_bind', hsum, h1, ok_bind']
  simp only [Prod.mk_add_mk, zero_add]
  rw [divSample_ok hl, ok_bind', divSample_ok hl, ok_bind', ← centralMoment_eq, ← centralMoment_eq, hs,
    divSample_ok (Real.rpow_pos_of_pos hpos _).ne']

theorem statKurtosis_eq (conv : S → ℝ) (statMean : Buf S → Nat → C ℝ) (a : Buf S) (hne : a ≠ [])
    (hm : statMean a a.length = .ok (meanOf (a.map conv))) (hv : centralMoment 2 (a.map conv) ≠ 0) :
    statKurtosis conv statMean a a.length
      = .ok (centralMoment 4 (a.map conv) / centralMoment 2 (a.map conv) ^ 2) := by
  have hsum := forRange_sum a
    (fun x => ((conv x - meanOf (a.map conv)) ^ 2, (conv x - meanOf (a.map conv)) ^ 4))
    (body := kurtosisStep conv a (meanOf (a.map conv))) (0, 0) (by
      intro i s x hx
      rw [kurtosisStep, rd_of_getElem? hx, ok_bind', pow_two, pow_succ, pow_succ, pow_two]; rfl)
  have h1 : (a.map (fun x => ((conv x - meanOf (a.map conv)) ^ 2, (conv x - meanOf (a.map conv)) ^ 4))).sum
      = ((a.map (fun x => (conv x - meanOf (a.map conv)) ^ 2)).sum,
         (a.map (fun x => (conv x - meanOf (a.map conv)) ^ 4)).sum) := by
    generalize meanOf (a.map conv) = μ
    clear hsum hm hne hv
    induction a with
    | nil => rfl
    | cons x a ih => simp [ih]
  have hl : (a.length : ℝ) ≠ 0 := by simpa using hne
  rw [statKurtosis, hm, ok_bind', hsum, h1, ok_bind']
  simp only [Prod.mk_add_mk, zero_add]
  rw [divSample_ok hl, ok_bind', divSample_ok hl, ok_bind', ← centralMoment_eq, ← centralMoment_eq,
    divSample_ok (mul_ne_zero hv hv), pow_two]

/-- C48: the standard deviation of times. -/
theorem C48_times_deviation (a : Buf Nat) (hne : a ≠ []) (hsum : a.sum < 4294967296) :
    statDeviation (fun x : Nat => (x : ℝ)) statTimesMean a a.length
      = .ok (Real.sqrt (centralMoment 2 (a.map (fun x : Nat => (x : ℝ))))) :=
  statDeviation_eq _ _ a hne (C48_times_mean a hne hsum)

/-- C48: the standard deviation of samples. -/
theorem C48_samples_deviation (a : Buf ℝ) (hne : a ≠ []) :
    statDeviation id statSamplesMean a a.length = .ok (Real.sqrt (centralMoment 2 a)) := by
  have := statDeviation_eq id statSamplesMean a hne (by rw [List.map_id]; exact C48_samples_mean a hne)
  rwa [List.map_id] at this

/-- C48: the skewness of times that are not all the same. -/
theorem C48_times_skewness (a : Buf Nat) (hne : a ≠ []) (hsum : a.sum < 4294967296)
    (hv : centralMoment 2 (a.map (fun x : Nat => (x : ℝ))) ≠ 0) :
    statSkewness (fun x : Nat => (x : ℝ)) statTimesMean a a.length
      = .ok (centralMoment 3 (a.map (fun x : Nat => (x : ℝ))) / centralMoment 2 (a.map (fun x : Nat => (x : ℝ))) ^ ((3 : ℝ) / 2)) :=
  statSkewness_eq _ _ a hne (C48_times_mean a hne hsum) hv

/-- C48: the skewness of samples that are not all the same. -/
theorem C48_samples_skewness (a : Buf ℝ) (hne : a ≠ []) (hv : centralMoment 2 a ≠ 0) :
    statSkewness id statSamplesMean a a.length = .ok (centralMoment 3 a / centralMoment 2 a ^ ((3 : ℝ) / 2)) := by
  have := statSkewness_eq id statSamplesMean a hne (by rw [List.map_id]; exact C48_samples_mean a hne)
    (by rwa [List.map_id])
  rwa [List.map_id] at this

/-- C48: the kurtosis of times that are not all the same. -/
theorem C48_times_kurtosis (a : Buf Nat) (hne : a ≠ []) (hsum : a.sum < 4294967296)
    (hv : centralMoment 2 (a.map (fun x : Nat => (x : ℝ))) ≠ 0) :
    statKurtosis (fun x : Nat => (x : ℝ)) statTimesMean a a.length
      = .ok (centralMoment 4 (a.map (fun x : Nat => (x : ℝ))) / centralMoment 2 (a.map (fun x : Nat => (x : ℝ))) ^ 2) :=
  statKurtosis_eq _ _ a hne (C48_times_mean a hne hsum) hv

/-- C48: the kurtosis of samples that are not all the same. -/
theorem C48_samples_kurtosis (a : Buf ℝ) (hne : a ≠ []) (hv : centralMoment 2 a ≠ 0) :
    statKurtosis id statSamplesMean a a.length = .ok (centralMoment 4 a / centralMoment 2 a ^ 2) := by
  have := statKurtosis_eq id statSamplesMean a hne (by rw [List.map_id]; exact C48_samples_mean a hne)
    (by rwa [List.map_id])
  rwa [List.map_id] at this

/-- The hypotheses of the theorems above hold for this array, with mean 4, second moment 6 and others. -/
example : meanOf [1, 4, 7] = 4 ∧ centralMoment 2 [1, 4, 7] = 6 ∧ centralMoment 3 [1, 4, 7] = 0 ∧
    centralMoment 4 [1, 4, 7] = 54 ∧ statKurtosis id statSamplesMean [1, 4, 7] 3 = .ok (3 / 2) := by
  have hm : meanOf [1, 4, 7] = 4 := by norm_num [meanOf]
  have h2 : centralMoment 2 [1, 4, 7] = 6 := by rw [centralMoment, hm]; norm_num [meanOf]
  have h4 : centralMoment 4 [1, 4, 7] = 54 := by rw [centralMoment, hm]; norm_num [meanOf]
  refine ⟨hm, h2, by rw [centralMoment, hm]; norm_num [meanOf], h4, ?_⟩
  refine (C48_samples_kurtosis [1, 4, 7] (by simp) (by rw [h2]; norm_num)).trans ?_
  rw [h2, h4]
  norm_num

theorem mapIdx_take_sum (a : List ℝ) (i : Nat) (hi : i < a.length) :
    ((a.take (i + 1)).mapIdx (fun i x => (i : ℝ) * x)).sum
      = ((a.take i).mapIdx (fun i x => (i : ℝ) * x)).sum + i * a[i] := by
  rw [List.take_succ_eq_append_getElem hi, List.mapIdx_append, List.sum_append]
  simp [Nat.min_eq_left hi.le]

/-- C48: the center of mass of samples with a sum other than zero. -/
theorem C48_samples_center (a : Buf ℝ) (hsum : a.sum ≠ 0) :
    statSamplesCenter a a.length = .ok (centerOf a) := by
  have hne : a ≠ [] := by rintro rfl; simp at hsum
  obtain ⟨s, h1, h2⟩ := forRange_rule (P := fun i s => s = ((a.take i).mapIdx (fun i x => (i : ℝ) * x)).sum)
    (hle := Nat.zero_le a.length) (body := samplesCenterStep a) (s := 0) (h0 := by simp) (hstep := by
      intro i s _ hi hs
      refine ⟨_, by rw [samplesCenterStep, rd_eq_ok hi, ok_bind']; rfl, ?_⟩
      rw [mapIdx_take_sum a i hi, hs])
  rw [statSamplesCenter, C50_sum a _ (List.length_pos_of_ne_nil hne) (le_refl _), ok_bind', h1, ok_bind',
    List.take_length, divSample_ok hsum, h2, List.take_length, centerOf]

/-- `C48_samples_center` on an array. -/
example : statSamplesCenter [1, -1, 2] 3 = .ok (3 / 2) := by
  refine (C48_samples_center [1, -1, 2] (by norm_num)).trans ?_
  norm_num [centerOf]

/-- C48: what `sp_stat_times_center` calculates if nothing overflows: the first element is added to the sum one
time too often. -/
theorem C48_times_center_value (a : Buf Nat) (x : Nat) (l : List Nat) (ha : a = x :: l)
    (hsum : a.sum + x < 4294967296) (hidx : (a.mapIdx (fun i x => i * x)).sum < 4294967296)
    (hpos : a.sum ≠ 0) :
    statTimesCenter a a.length
      = .ok (((a.mapIdx (fun i x => i * x)).sum : ℕ) / ((a.sum + x : ℕ) : ℝ)) := by
  have h0 : 0 < a.length := by simp [ha]
  have hx : a[0] = x := by simp [ha]
  obtain ⟨s, h1, h2⟩ := forRange_rule
    (P := fun i s => s = (x + (a.take i).sum, ((a.take i).mapIdx (fun i x => i * x)).sum))
    (hle := Nat.zero_le a.length) (body := timesCenterStep a) (s := (x, 0)) (h0 := by simp) (hstep := by
      intro i s _ hi hs
      refine ⟨_, by rw [timesCenterStep, rd_eq_ok hi, ok_bind']; rfl, ?_⟩
      have h3 : (a.take (i + 1)).sum = (a.take i).sum + a[i] := by
        rw [List.take_succ_eq_append_getElem hi, List.sum_append]; simp
      have h4 : (a.take (i + 1)).sum ≤ a.sum := by
        conv_rhs => rw [← List.take_append_drop (i + 1) a]
        rw [List.sum_append]; omega
      have h5 : ((a.take (i + 1)).mapIdx (fun i x => i * x)).sum
          = ((a.take i).mapIdx (fun i x => i * x)).sum + i * a[i] := by
        rw [List.take_succ_eq_append_getElem hi, List.mapIdx_append, List.sum_append]
        simp [Nat.min_eq_left hi.le]
      have h6 : ((a.take (i + 1)).mapIdx (fun i x => i * x)).sum ≤ (a.mapIdx (fun i x => i * x)).sum := by
        conv_rhs => rw [← List.take_append_drop (i + 1) a]
        rw [List.mapIdx_append, List.sum_append]; omega
      subst hs
      have e1 : u32 (i * a[i]) = i * a[i] := u32_of_lt (by omega)
      simp only [h3, h5, e1]
      rw [u32_of_lt (by omega), u32_of_lt (by omega), Nat.add_assoc])
  rw [statTimesCenter, rd_eq_ok h0, ok_bind', hx, h1, ok_bind', h2, List.take_length]
  simp only
  rw [divSample_ok (by exact_mod_cast (by omega : x + a.sum ≠ 0)), Nat.add_comm x]

/-- C48: the center of mass of times, with sums that fit, if the first element is zero. -/
theorem C48_times_center_partial (l : List Nat) (hsum : l.sum < 4294967296)
    (hidx : ((0 :: l).mapIdx (fun i x => i * x)).sum < 4294967296) (hpos : l.sum ≠ 0) :
    statTimesCenter (0 :: l) (0 :: l).length = .ok (centerOf ((0 :: l).map (fun x : Nat => (x : ℝ)))) := by
  rw [C48_times_center_value (0 :: l) 0 l rfl (by simpa using hsum) hidx (by simpa using hpos), centerOf, sum_cast]
  have h : ∀ (l : List Nat) (k : Nat), ((l.mapIdx (fun i x => (i + k) * x)).sum : ℝ)
      = ((l.map (fun x : Nat => (x : ℝ))).mapIdx (fun i x => ((i + k : ℕ) : ℝ) * x)).sum := by
    intro l
    induction l with
    | nil => intro k; simp
    | cons x l ih =>
      intro k
      have := ih (k + 1)
      have hk : ∀ i : Nat, i + 1 + k = i + (k + 1) := fun i => by omega
      simp only [List.map_cons, List.mapIdx_cons, List.sum_cons, Nat.zero_add, hk]
      rw [Nat.cast_add, this, Nat.cast_mul]
  have := h (0 :: l) 0
  simp only [Nat.add_zero] at this
  rw [this, Nat.add_zero]

/-- `C48_times_center_partial` on an array. -/
example : statTimesCenter [0, 1, 3] 3 = .ok (7 / 4) := by
  refine (C48_times_center_value [0, 1, 3] 0 [1, 3] rfl (by decide) (by decide) (by decide)).trans ?_
  norm_num

/-- C48 is false for the center of times: two equal weights are not balanced around one third. -/
theorem C48_times_center_false :
    statTimesCenter [1, 1] 2 = .ok (1 / 3) ∧ centerOf [1, 1] = 1 / 2 := by
  constructor
  · refine (C48_times_center_value [1, 1] 1 [1] rfl (by decide) (by decide) (by decide)).trans ?_
    norm_num
  · norm_num [centerOf]

/-! ### C47 -/

/-- C47: what the median function returns if sorting returns: for even sizes the mean of the two middle
elements of the sorted array (with the sum `add`), for odd sizes the element before the middle one. -/
theorem statMedian_value [LinearOrder S] (conv : S → ℝ) (add : S → S → ℝ) {n depth : Nat} {a : Buf S}
    (h32 : a.length < 4294967296) (hne : a ≠ []) {r : ℝ}
    (h : statMedian (fun x y : S => decide (x < y)) conv add n depth a a.length = .ok r)
    {s : List S} (hp : s.Perm a) (hs : s.Pairwise (· ≤ ·)) :
    (a.length % 2 = 0 → ∃ x y, s[a.length / 2]? = some x ∧ s[a.length / 2 - 1]? = some y ∧ r = add x y / 2) ∧
    (a.length % 2 = 1 → 3 ≤ a.length ∧ ∃ x, s[a.length / 2 - 1]? = some x ∧ r = conv x) := by
  have hpos : 0 < a.length := List.length_pos_of_ne_nil hne
  have hsw : StrictWeak (fun x y : S => decide (x < y)) :=
    ⟨by simp, by simp; intro x y h; exact h.le, by
      simp
      intro x y z h
      rcases lt_or_ge x z with h1 | h1
      · exact Or.inl h1
      · exact Or.inr (lt_of_le_of_lt h1 h)⟩
  rw [statMedian, if_neg (lt_irrefl _)] at h
  rw [List.take_length, sub32_of_le hpos h32] at h
  cases hq : quicksort (fun x y : S => decide (x < y)) n depth a 0 ((a.length - 1 : ℕ) : Int) with
  | error e => rw [hq] at h; simp at h
  | ok t =>
    rw [hq, ok_bind'] at h
    have hcast : ((a.length - 1 : ℕ) : Int) = (a.length : Int) - 1 := by omega
    rw [hcast] at hq
    obtain ⟨htp, hts⟩ := C46_sorts_partial hsw hq
    have hts' : t.Pairwise (· ≤ ·) := by
      rw [List.pairwise_iff_getElem]
      intro i j hi hj hij
      have := hts i j t[i] t[j] hij.le (List.getElem?_eq_getElem hi) (List.getElem?_eq_getElem hj)
      simpa using this
    have hst : t = s := (htp.trans hp.symm).eq_of_pairwise (fun x y _ _ h1 h2 => le_antisymm h1 h2) hts' hs
    subst hst
    have hlen : t.length = a.length := htp.length_eq
    rw [Nat.and_one_is_mod] at h
    constructor
    · intro he
      rw [he, if_neg (by simp), sub32_of_le (by omega) (by omega), rd_eq_ok (by omega), ok_bind',
        rd_eq_ok (by omega), ok_bind'] at h
      exact ⟨_, _, List.getElem?_eq_getElem (by omega), List.getElem?_eq_getElem (by omega),
        (Except.ok.inj h).symm⟩
    · intro ho
      rw [ho, if_pos (by simp)] at h
      by_cases h1 : a.length = 1
      · exfalso
        rw [h1] at h
        have : rd t (sub32 (1 / 2) 1) = .error .outOfBounds := by
          have : sub32 (1 / 2) 1 = 4294967295 := rfl
          rw [this, rd, List.getElem?_eq_none (by omega)]
        rw [this] at h
        simp at h
      · rw [sub32_of_le (by omega) (by omega), rd_eq_ok (by omega), ok_bind'] at h
        exact ⟨by omega, _, List.getElem?_eq_getElem (by omega), (Except.ok.inj h).symm⟩

/-- C47, partial: for even sizes, if sorting returns (see C46), the median of times is the mean of the two middle
elements of the sorted array, provided that their sum fits in 32 bits. -/
theorem C47_times_even_partial {n depth : Nat} {a : Buf Nat} (h32 : a.length < 4294967296) (hne : a ≠ [])
    (heven : a.length % 2 = 0) {r : ℝ} (h : statTimesMedian n depth a a.length = .ok r)
    {s : List Nat} (hp : s.Perm a) (hs : s.Pairwise (· ≤ ·)) :
    ∃ x y, s[a.length / 2]? = some x ∧ s[a.length / 2 - 1]? = some y ∧
      (x + y < 4294967296 → r = ((x : ℝ) + y) / 2) := by
  obtain ⟨x, y, h1, h2, h3⟩ := (statMedian_value _ _ h32 hne h hp hs).1 heven
  refine ⟨x, y, h1, h2, fun hxy => ?_⟩
  rw [h3, u32_of_lt hxy]
  push_cast
  rfl

/-- C47, partial: for even sizes, if sorting returns, the median of samples is the mean of the two middle
elements of the sorted array. -/
theorem C47_samples_even_partial {n depth : Nat} {a : Buf ℝ} (h32 : a.length < 4294967296) (hne : a ≠ [])
    (heven : a.length % 2 = 0) {r : ℝ} (h : statSamplesMedian n depth a a.length = .ok r)
    {s : List ℝ} (hp : s.Perm a) (hs : s.Pairwise (· ≤ ·)) :
    ∃ x y, s[a.length / 2]? = some x ∧ s[a.length / 2 - 1]? = some y ∧ r = (x + y) / 2 :=
  (statMedian_value _ _ h32 hne h hp hs).1 heven

/-- C47 is false for odd sizes: the element before the middle one is returned. -/
theorem C47_times_odd_value {n depth : Nat} {a : Buf Nat} (h32 : a.length < 4294967296) (hodd : a.length % 2 = 1)
    {r : ℝ} (h : statTimesMedian n depth a a.length = .ok r)
    {s : List Nat} (hp : s.Perm a) (hs : s.Pairwise (· ≤ ·)) :
    3 ≤ a.length ∧ ∃ x, s[a.length / 2 - 1]? = some x ∧ r = x :=
  (statMedian_value _ _ h32 (by rintro rfl; simp at hodd) h hp hs).2 hodd

/-- C47 is false: the median of five times that is returned is one, the middle value is two. -/
theorem C47_odd_false :
    statTimesMedian 9 9 [2, 2, 1, 1, 3] 5 = .ok 1 ∧ [1, 1, 2, 2, 3].Perm [2, 2, 1, 1, 3] ∧
      [1, 1, 2, 2, 3].Pairwise (· ≤ ·) ∧ [1, 1, 2, 2, 3][2]? = some 2 := by
  refine ⟨?_, by decide, by decide, rfl⟩
  have hq : quicksort (fun a b : Nat => decide (a < b)) 9 9 [2, 2, 1, 1, 3] 0 4 = .ok [1, 1, 2, 2, 3] := rfl
  have hs : ((sub32 5 1 : ℕ) : Int) = 4 := rfl
  unfold statTimesMedian statMedian
  rw [if_neg (by decide), List.take_of_length_le (by decide), hs, hq, ok_bind', if_pos (by decide)]
  have : rd [1, 1, 2, 2, 3] (sub32 (5 / 2) 1) = .ok 1 := rfl
  rw [this, ok_bind']
  simp

/-- C47 is false: the median of a single element is an access outside of the array. -/
theorem C47_one_false (x n depth : Nat) (hd : 1 ≤ depth) : statTimesMedian n depth [x] 1 = .error .outOfBounds := by
  obtain ⟨d, rfl⟩ : ∃ d, depth = d + 1 := ⟨depth - 1, by omega⟩
  have hq : quicksort (fun a b : Nat => decide (a < b)) n (d + 1) [x] 0 0 = .ok [x] := by
    rw [quicksort, if_pos (by decide)]
  have hs : ((sub32 1 1 : ℕ) : Int) = 0 := rfl
  unfold statTimesMedian statMedian
  rw [if_neg (by simp), List.take_of_length_le (by simp), hs, hq, ok_bind', if_pos (by decide)]
  rfl

/-- The hypotheses of `C47_times_even_partial` hold for this array. -/
example : statTimesMedian 9 9 [2, 2, 1, 1, 3, 3] 6 = .ok 2 := by
  have hq : quicksort (fun a b : Nat => decide (a < b)) 9 9 [2, 2, 1, 1, 3, 3] 0 5 = .ok [1, 1, 2, 2, 3, 3] := rfl
  have hs : ((sub32 6 1 : ℕ) : Int) = 5 := rfl
  unfold statTimesMedian statMedian
  rw [if_neg (by decide), List.take_of_length_le (by decide), hs, hq, ok_bind', if_neg (by decide)]
  have h1 : rd [1, 1, 2, 2, 3, 3] (6 / 2) = .ok 2 := rfl
  have h2 : rd [1, 1, 2, 2, 3, 3] (sub32 (6 / 2) 1) = .ok 2 := rfl
  rw [h1, ok_bind', h2, ok_bind']
  norm_num [u32]

/-! ### C83 -/

/-- The positions of a window of the given width in `size` elements. -/
def windowPositions (size width : Nat) : Finset Nat := (Finset.range size).filter (fun p => p + width ≤ size)

theorem card_windowPositions {size width : Nat} (h1 : 1 ≤ width) (h2 : width ≤ size) :
    (windowPositions size width).card = size - (width - 1) := by
  have : windowPositions size width = Finset.range (size - (width - 1)) := by
    ext p
    simp only [windowPositions, Finset.mem_filter, Finset.mem_range]
    omega
  rw [this, Finset.card_range]

/-- C83: `sp_stat_unique_max` is the number of positions of the window. -/
theorem C83_unique_max {size width : Nat} (h1 : 1 ≤ width) (h2 : width ≤ size) (h32 : size < 4294967296) :
    statUniqueMax size width = (windowPositions size width).card := by
  rw [card_windowPositions h1 h2, statUniqueMax, sub32_of_le h1 (by omega), sub32_of_le (by omega) h32]

/-- C83: the maximum of repetitions for one width is all positions but one. -/
theorem C83_repetition_max {size width : Nat} (h1 : 1 ≤ width) (h2 : width ≤ size) (h32 : size < 4294967296) :
    statRepetitionMax size width = (windowPositions size width).card - 1 := by
  have := C83_unique_max h1 h2 h32
  have hc := card_windowPositions h1 h2
  rw [statRepetitionMax, this, sub32_of_le (by omega) (by omega)]

theorem uniqueAllLoop_eq (size : Nat) (h32 : size + 1 < 4294967296) (fuel : Nat) : ∀ width result, 1 ≤ width →
    width ≤ size + 1 → size + 1 < width + fuel →
    result + ∑ w ∈ Finset.Ico width (size + 1), (windowPositions size w).card < 4294967296 →
    uniqueAllLoop size fuel width result
      = .ok (result + ∑ w ∈ Finset.Ico width (size + 1), (windowPositions size w).card) := by
  induction fuel with
  | zero => intro width result h1 h2 h3; omega
  | succ fuel ih =>
    intro width result h1 h2 h3 h4
    rw [uniqueAllLoop]
    by_cases h : width ≤ size
    · rw [if_pos h]
      rw [Finset.sum_eq_sum_Ico_succ_bot (by omega)] at h4 ⊢
      have hw := C83_unique_max h1 h (by omega)
      rw [statUniqueMax] at hw
      rw [hw, u32_of_lt (by omega), u32_of_lt (by omega), ih _ _ (by omega) (by omega) (by omega) (by omega),
        Nat.add_assoc]
    · rw [if_neg h]
      obtain rfl : width = size + 1 := by omega
      simp

/-- C83: `sp_stat_unique_all_max` is the sum of the numbers of positions for the widths 1 to `size`, if it fits
in 32 bits. -/
theorem C83_unique_all_max (size fuel : Nat) (hfuel : size < fuel)
    (hfit : ∑ w ∈ Finset.Icc 1 size, (windowPositions size w).card < 4294967296) :
    statUniqueAllMax size fuel = .ok (∑ w ∈ Finset.Icc 1 size, (windowPositions size w).card) := by
  have hico : Finset.Icc 1 size = Finset.Ico 1 (size + 1) := by ext; simp
  have h32 : size + 1 < 4294967296 := by
    by_contra h
    have h1 : (windowPositions size 1).card + (windowPositions size 2).card
        ≤ ∑ w ∈ Finset.Icc 1 size, (windowPositions size w).card := by
      rw [hico, Finset.sum_eq_sum_Ico_succ_bot (by omega), Finset.sum_eq_sum_Ico_succ_bot (by omega)]
      simp only [Nat.reduceAdd]
      omega
    rw [card_windowPositions (by decide) (by omega), card_windowPositions (by decide) (by omega)] at h1
    omega
  rw [hico] at hfit ⊢
  rw [statUniqueAllMax, uniqueAllLoop_eq size h32 fuel 1 0 (le_refl _) (by omega) (by omega) (by simpa using hfit),
    Nat.zero_add]

/-- C83: `sp_stat_repetition_all_max` is the sum of the maxima of repetitions for all widths. -/
theorem C83_repetition_all_max (size fuel : Nat) (hfuel : size < fuel)
    (hfit : ∑ w ∈ Finset.Icc 1 size, (windowPositions size w).card < 4294967296) :
    statRepetitionAllMax size fuel = .ok (∑ w ∈ Finset.Icc 1 size, ((windowPositions size w).card - 1)) := by
  have h1 : ∑ w ∈ Finset.Icc 1 size, (windowPositions size w).card
      = ∑ w ∈ Finset.Icc 1 size, ((windowPositions size w).card - 1) + size := by
    have : ∑ w ∈ Finset.Icc 1 size, (windowPositions size w).card
        = ∑ w ∈ Finset.Icc 1 size, (((windowPositions size w).card - 1) + 1) := by
      apply Finset.sum_congr rfl
      intro w hw
      rw [Finset.mem_Icc] at hw
      have := card_windowPositions hw.1 hw.2
      omega
    rw [this, Finset.sum_add_distrib]
    simp
  rw [statRepetitionAllMax, C83_unique_all_max size fuel hfuel hfit, ok_bind', h1, sub32_of_le (by omega) (by omega),
    Nat.add_sub_cancel]
  rfl

/-- C83 on sizes. -/
example : statUniqueMax 5 2 = 4 ∧ statRepetitionMax 5 2 = 3 ∧ statUniqueAllMax 5 6 = .ok 15 ∧
    statRepetitionAllMax 5 6 = .ok 10 := ⟨rfl, rfl, rfl, rfl⟩

/-! ### C85: inharmonicity -/

/-- The distance to the nearest integer. -/
noncomputable def distToInt (b : ℝ) : ℝ := |b - round b|

theorem timeOfSample_ok {b : ℝ} (h0 : -1 < b) (h1 : b < 4294967296) : timeOfSample b = .ok ⌊b⌋.toNat := by
  rw [timeOfSample, if_neg]
  rintro (h | h) <;> linarith

theorem halfOffset_eq {b : ℝ} (h0 : 0 ≤ b) (h1 : b < 4294967296) : halfOffset b = .ok (distToInt b) := by
  have hf : ((⌊b⌋.toNat : ℕ) : ℝ) = (⌊b⌋ : ℝ) := by
    have : ((⌊b⌋.toNat : ℕ) : ℤ) = ⌊b⌋ := Int.toNat_of_nonneg (Int.floor_nonneg.2 h0)
    exact_mod_cast this
  rw [halfOffset, timeOfSample_ok (by linarith) h1, ok_bind', distToInt, abs_sub_round_eq_min, hf]
  have hfr : b - ⌊b⌋ = Int.fract b := rfl
  simp only [hfr, pure_eq_ok]
  congr 1
  split
  · rw [min_eq_left (by linarith)]
  · rw [min_eq_right (by linarith)]

/-- The mean distance of the quotients by `x` to integers. -/
noncomputable def inharmonicityFor (l : List ℝ) (x : ℝ) : ℝ := meanOf (l.map (fun y => distToInt (y / x)))

/-- C85: inharmonicity is the smallest mean distance of the quotients of all elements by one of the elements
to integers. The elements are positive and their quotients below 2^32. -/
theorem C85_inharmonicity (conv : S → ℝ) (a : Buf S) (hne : a ≠ []) (hpos : ∀ x ∈ a, 0 < conv x)
    (hquot : ∀ x ∈ a, ∀ y ∈ a, conv y / conv x < 4294967296) :
    ∃ r, statInharmonicity conv a a.length = .ok r ∧ (∃ x ∈ a, r = inharmonicityFor (a.map conv) (conv x)) ∧
      ∀ x ∈ a, r ≤ inharmonicityFor (a.map conv) (conv x) := by
  have hl : (a.length : ℝ) ≠ 0 := by simpa using hne
  have hl1 : (1 : ℝ) ≤ a.length := by exact_mod_cast List.length_pos_of_ne_nil hne
  have hdist : ∀ b, distToInt b ≤ 1 / 2 := fun b => abs_sub_round b
  have hle : ∀ x, inharmonicityFor (a.map conv) x ≤ 1 / 2 := by
    intro x
    rw [inharmonicityFor, List.map_map, meanOf_map, div_le_iff₀ (by linarith)]
    have : (a.map ((fun y => distToInt (y / x)) ∘ conv)).sum ≤ a.length • (1 / 2 : ℝ) := by
      have h2 := List.sum_le_card_nsmul (a.map ((fun y => distToInt (y / x)) ∘ conv)) (1 / 2 : ℝ) (by
        intro z hz
        obtain ⟨w, _, rfl⟩ := List.mem_map.1 hz
        exact hdist _)
      simpa using h2
    rw [nsmul_eq_mul] at this
    linarith
  have hinner : ∀ x ∈ a, forRange 0 a.length (inharmonicityStep conv a (conv x)) 0
      = .ok (a.map (fun y => distToInt (conv y / conv x))).sum := by
    intro x hx
    rw [forRange_sum a (fun y => distToInt (conv y / conv x)) 0 (by
      intro i s y hy
      have hym : y ∈ a := List.mem_of_getElem? hy
      rw [inharmonicityStep, rd_of_getElem? hy, ok_bind', divSample_ok (hpos x hx).ne', ok_bind',
        halfOffset_eq (div_nonneg (hpos y hym).le (hpos x hx).le) (hquot x hx y hym), ok_bind']
      rfl), zero_add]
  have houter : ∀ (i : Nat) (x : S) (m : ℝ), a[i]? = some x → inharmonicityOuter conv a a.length i m
      = .ok (min m (inharmonicityFor (a.map conv) (conv x))) := by
    intro i x m hx
    have hxm : x ∈ a := List.mem_of_getElem? hx
    rw [inharmonicityOuter, rd_of_getElem? hx, ok_bind', hinner x hxm, ok_bind', divSample_ok hl, ok_bind']
    have h3 : (a.map (fun y => distToInt (conv y / conv x))).sum / a.length
        = inharmonicityFor (a.map conv) (conv x) := by
      rw [inharmonicityFor, List.map_map, meanOf_map]
      rfl
    rw [h3]
    split
    · next h => rw [min_eq_right h.le]; rfl
    · next h => rw [min_eq_left (not_lt.1 h)]; rfl
  obtain ⟨r, h1, h2, h3⟩ := forRange_rule
    (P := fun i (m : ℝ) => (i ≠ 0 → ∃ x ∈ a, m = inharmonicityFor (a.map conv) (conv x)) ∧
      (i = 0 → m = a.length) ∧ ∀ x ∈ a.take i, m ≤ inharmonicityFor (a.map conv) (conv x))
    (hle := Nat.zero_le a.length) (body := inharmonicityOuter conv a a.length) (s := (a.length : ℝ))
    (h0 := ⟨by simp, by simp, by simp⟩) (hstep := by
      rintro i m _ hi ⟨g1, g2, g3⟩
      refine ⟨_, houter i a[i] m (List.getElem?_eq_getElem hi), ?_, by simp, ?_⟩
      · intro _
        by_cases hi0 : i = 0
        · refine ⟨a[i], List.getElem_mem hi, min_eq_right ?_⟩
          rw [g2 hi0]
          have := hle (conv a[i])
          linarith
        · obtain ⟨x, hx, hm⟩ := g1 hi0
          rcases min_choice m (inharmonicityFor (a.map conv) (conv a[i])) with h | h
          · exact ⟨x, hx, by rw [h, hm]⟩
          · exact ⟨a[i], List.getElem_mem hi, h⟩
      · intro x hx
        rw [List.take_succ_eq_append_getElem hi, List.mem_append, List.mem_singleton] at hx
        rcases hx with hx | rfl
        · exact le_trans (min_le_left _ _) (g3 x hx)
        · exact min_le_right _ _)
  rw [List.take_length] at h3
  exact ⟨r, h1, h2 (by simpa using hne), h3.2⟩

/-- C85: inharmonicity is between zero and one half, and zero exactly if all elements are multiples of one of
them. -/
theorem C85_zero_iff (conv : S → ℝ) (a : Buf S) (hne : a ≠ []) (hpos : ∀ x ∈ a, 0 < conv x)
    (hquot : ∀ x ∈ a, ∀ y ∈ a, conv y / conv x < 4294967296) :
    ∃ r, statInharmonicity conv a a.length = .ok r ∧ 0 ≤ r ∧ r ≤ 1 / 2 ∧
      (r = 0 ↔ ∃ x ∈ a, ∀ y ∈ a, ∃ k : ℤ, conv y = k * conv x) := by
  obtain ⟨r, h1, ⟨x0, hx0, hr⟩, h3⟩ := C85_inharmonicity conv a hne hpos hquot
  have hl : (0 : ℝ) < a.length := by exact_mod_cast List.length_pos_of_ne_nil hne
  have heq : ∀ x, inharmonicityFor (a.map conv) x = (a.map (fun y => distToInt (conv y / x))).sum / a.length := by
    intro x
    rw [inharmonicityFor, List.map_map, meanOf_map]
    rfl
  have hnn : ∀ x, 0 ≤ (a.map (fun y => distToInt (conv y / x))).sum := by
    intro x
    apply List.sum_nonneg
    intro z hz
    obtain ⟨w, _, rfl⟩ := List.mem_map.1 hz
    exact abs_nonneg _
  refine ⟨r, h1, ?_, ?_, ?_⟩
  · rw [hr, heq]
    exact div_nonneg (hnn _) hl.le
  · rw [hr, heq, div_le_iff₀ hl]
    have h2 := List.sum_le_card_nsmul (a.map (fun y => distToInt (conv y / conv x0))) (1 / 2 : ℝ) (by
      intro z hz
      obtain ⟨w, _, rfl⟩ := List.mem_map.1 hz
      exact abs_sub_round _)
    rw [List.length_map, nsmul_eq_mul] at h2
    linarith
  · constructor
    · intro h0
      refine ⟨x0, hx0, fun y hy => ?_⟩
      rw [h0, heq, eq_comm, div_eq_zero_iff] at hr
      have hsum := hr.resolve_right hl.ne'
      have hz : distToInt (conv y / conv x0) = 0 := by
        refine List.all_zero_of_le_zero_le_of_sum_eq_zero
          (l := a.map (fun y => distToInt (conv y / conv x0))) ?_ hsum (List.mem_map_of_mem hy)
        intro z hz
        obtain ⟨w, _, rfl⟩ := List.mem_map.1 hz
        exact abs_nonneg _
      refine ⟨round (conv y / conv x0), ?_⟩
      have h4 : conv y / conv x0 = round (conv y / conv x0) := by
        have := abs_eq_zero.1 hz
        linarith
      have hxp := (hpos x0 hx0).ne'
      rw [← h4]
      field_simp
    · rintro ⟨x, hx, hk⟩
      have hz : inharmonicityFor (a.map conv) (conv x) = 0 := by
        rw [heq, div_eq_zero_iff]
        left
        apply List.sum_eq_zero
        intro z hz
        obtain ⟨y, hy, rfl⟩ := List.mem_map.1 hz
        obtain ⟨k, hk⟩ := hk y hy
        rw [hk, mul_div_assoc, div_self (hpos x hx).ne', mul_one, distToInt]
        simp
      have h5 := h3 x hx
      rw [hz] at h5
      have h6 : 0 ≤ r := by
        rw [hr, heq]
        exact div_nonneg (hnn _) hl.le
      linarith

/-- The hypotheses of C85 hold for a harmonic series of times. -/
example : ∃ r, statInharmonicity (fun x : Nat => (x : ℝ)) [6, 2, 4] 3 = .ok r ∧ r = 0 := by
  obtain ⟨r, h1, _, _, h2⟩ := C85_zero_iff (fun x : Nat => (x : ℝ)) [6, 2, 4] (by simp) (by simp)
    (by simp; norm_num)
  refine ⟨r, h1, h2.2 ⟨2, by simp, ?_⟩⟩
  intro y hy
  simp only [List.mem_cons, List.not_mem_nil, or_false] at hy
  rcases hy with rfl | rfl | rfl
  · exact ⟨3, by norm_num⟩
  · exact ⟨1, by norm_num⟩
  · exact ⟨2, by norm_num⟩

/-! ### C86: scaling samples to times -/

theorem scaleToTimesLoop_eq (a : Buf ℝ) (addition factor : ℝ) (out : Buf Nat) (hout : a.length ≤ out.length)
    (hr : ∀ x ∈ a, -1 < 1 / 2 + (x + addition) * factor ∧ 1 / 2 + (x + addition) * factor < 4294967296) :
    forRange 0 a.length (scaleToTimesStep a addition factor) out
      = .ok (a.map (fun x => ⌊1 / 2 + (x + addition) * factor⌋.toNat) ++ out.drop a.length) := by
  obtain ⟨s, h1, h2⟩ := forRange_rule
    (P := fun i s => s = (a.take i).map (fun x => ⌊1 / 2 + (x + addition) * factor⌋.toNat) ++ out.drop i)
    (hle := Nat.zero_le a.length) (body := scaleToTimesStep a addition factor) (s := out) (h0 := by simp) (hstep := by
      intro i s _ hi hs
      obtain ⟨e1, e2⟩ := hr a[i] (List.getElem_mem hi)
      refine ⟨_, ?_, rfl⟩
      rw [scaleToTimesStep, rd_eq_ok hi, ok_bind', timeOfSample_ok e1 e2, ok_bind', hs,
        List.drop_eq_getElem_cons (l := out) (by omega), wr_append (by simp [Nat.min_eq_left hi.le]),
        List.take_succ_eq_append_getElem hi, List.map_append, List.append_assoc]
      rfl)
  rw [h1, h2, List.take_length]

/-- C86, partial: when the smallest sample is not positive and not all samples are the same, each sample becomes
its position in the range from the smallest to the largest, scaled to `max` and rounded. The smallest becomes
zero and the largest `max`. -/
theorem C86_scale_partial (a : Buf ℝ) (max : Nat) (hmax : max < 4294967296) (out : Buf Nat)
    (hout : a.length ≤ out.length) {lo hi : ℝ} (hlo : lo ∈ a) (hhi : hi ∈ a) (hb : ∀ x ∈ a, lo ≤ x ∧ x ≤ hi)
    (hlt : lo < hi) (hneg : lo ≤ 0) :
    ∃ f : ℝ → Nat, samplesScaleToTimes a a.length max out = .ok (a.map f ++ out.drop a.length) ∧
      f lo = 0 ∧ f hi = max ∧
      ∀ x ∈ a, |(f x : ℝ) - (x - lo) / (hi - lo) * max| ≤ 1 / 2 ∧ f x ≤ max := by
  have hne : a ≠ [] := by rintro rfl; simp at hlo
  obtain ⟨l, h, h1, h2, h3, h4⟩ := C49_range (fun x y : ℝ => x - y) a hne
  obtain rfl : l = lo := le_antisymm (h4 lo hlo).1 (hb l h2).1
  obtain rfl : h = hi := le_antisymm (hb h h3).2 (h4 hi hhi).2
  have hd : h - l ≠ 0 := by linarith
  have hdp : 0 < h - l := by linarith
  have hadd : (if (0 : ℝ) > l then |l| else 0) = -l := by
    split
    · next hh => rw [abs_of_neg hh]
    · next hh => have : l = 0 := le_antisymm hneg (not_lt.1 hh); simp [this]
  have hval : ∀ x, (x + -l) * ((max : ℝ) / (h - l)) = (x - l) / (h - l) * max := by
    intro x; field_simp; ring
  have hrange : ∀ x ∈ a, 0 ≤ (x - l) / (h - l) * max ∧ (x - l) / (h - l) * max ≤ max := by
    intro x hx
    obtain ⟨e1, e2⟩ := hb x hx
    have e3 : 0 ≤ (x - l) / (h - l) := div_nonneg (by linarith) hdp.le
    have e4 : (x - l) / (h - l) ≤ 1 := by rw [div_le_one hdp]; linarith
    have e5 : (0 : ℝ) ≤ max := by positivity
    exact ⟨mul_nonneg e3 e5, by nlinarith⟩
  have hm : (max : ℝ) ≤ 4294967295 := by exact_mod_cast Nat.le_of_lt_succ hmax
  refine ⟨fun x => ⌊1 / 2 + (x + -l) * ((max : ℝ) / (h - l))⌋.toNat, ?_, ?_, ?_, ?_⟩
  · rw [samplesScaleToTimes, h1, ok_bind']
    simp only
    rw [divSample_ok hd, ok_bind', hadd]
    apply scaleToTimesLoop_eq a _ _ out hout
    intro x hx
    rw [hval]
    obtain ⟨e1, e2⟩ := hrange x hx
    constructor <;> linarith
  · simp only [hval, sub_self, zero_div, zero_mul, add_zero]
    norm_num
  · simp only [hval, div_self hd, one_mul]
    have : ⌊(1 / 2 : ℝ) + max⌋ = (max : ℤ) := by
      rw [Int.floor_eq_iff]
      push_cast
      constructor <;> linarith
    rw [this]
    simp
  · intro x hx
    simp only [hval]
    obtain ⟨e1, e2⟩ := hrange x hx
    set v := (x - l) / (h - l) * max
    have f0 : 0 ≤ ⌊1 / 2 + v⌋ := Int.floor_nonneg.2 (by linarith)
    have hc : ((⌊1 / 2 + v⌋.toNat : ℕ) : ℝ) = (⌊1 / 2 + v⌋ : ℝ) := by
      have : ((⌊1 / 2 + v⌋.toNat : ℕ) : ℤ) = ⌊1 / 2 + v⌋ := Int.toNat_of_nonneg f0
      exact_mod_cast this
    have f1 := Int.floor_le (1 / 2 + v)
    have f2 := Int.lt_floor_add_one (1 / 2 + v)
    constructor
    · rw [hc, abs_le]
      constructor <;> linarith
    · have : ((⌊1 / 2 + v⌋.toNat : ℕ) : ℝ) < max + 1 := by rw [hc]; linarith
      have : ⌊1 / 2 + v⌋.toNat < max + 1 := by exact_mod_cast this
      omega

/-- C86 is false for positive samples: the largest result is not `max`. -/
theorem C86_positive_false : samplesScaleToTimes [1, 2] 2 10 [0, 0] = .ok [10, 20] := by
  have hr : statRange (fun x y : ℝ => x - y) [1, 2] 2 = .ok (1, 2, 1) := by
    have h1 : forRange 0 2 (rangeStep [(1 : ℝ), 2]) (1, 1) = .ok (1, 2) := by
      norm_num [forRange, iter, rangeStep, rd]
    have h0 : rd [(1 : ℝ), 2] 0 = .ok 1 := rfl
    rw [statRange, h0, ok_bind', h1, ok_bind']
    norm_num
  have f1 : ⌊(1 / 2 : ℝ) + 1 * 10⌋ = 10 := by rw [Int.floor_eq_iff]; norm_num
  have f2 : ⌊(1 / 2 : ℝ) + 2 * 10⌋ = 20 := by rw [Int.floor_eq_iff]; norm_num
  rw [samplesScaleToTimes, hr, ok_bind']
  simp only
  rw [divSample_ok (by norm_num), ok_bind', if_neg (by norm_num)]
  have := scaleToTimesLoop_eq [1, 2] 0 (((10 : ℕ) : ℝ) / 1) [0, 0] (by simp) (by
    intro x hx
    simp only [List.mem_cons, List.not_mem_nil, or_false] at hx
    rcases hx with rfl | rfl <;> norm_num)
  refine this.trans ?_
  simp only [List.map_cons, List.map_nil, add_zero, Nat.cast_ofNat, div_one, f1, f2]
  rfl

/-- C86 is false for samples that are all the same: the factor is not a number. -/
theorem C86_constant_false (x : ℝ) (n max : Nat) (out : Buf Nat) :
    samplesScaleToTimes (List.replicate (n + 1) x) (n + 1) max out = .error .divByZero := by
  obtain ⟨l, h, h1, h2, h3, _⟩ := C49_range (fun x y : ℝ => x - y) (List.replicate (n + 1) x) (by simp)
  rw [List.length_replicate] at h1
  rw [List.eq_of_mem_replicate h2, List.eq_of_mem_replicate h3] at h1
  rw [samplesScaleToTimes, h1, ok_bind']
  simp [divSample]

/-- The hypotheses of `C86_scale_partial` hold for this array. -/
example : ∃ f : ℝ → Nat, samplesScaleToTimes [-1, 3, 0] 3 8 [5, 5, 5, 5] = .ok ([-1, 3, 0].map f ++ [5]) ∧
    f (-1) = 0 ∧ f 3 = 8 := by
  obtain ⟨f, h1, h2, h3, _⟩ := C86_scale_partial [-1, 3, 0] 8 (by decide) [5, 5, 5, 5] (by simp) (lo := -1)
    (hi := 3) (by simp) (by simp) (by simp; norm_num) (by norm_num) (by norm_num)
  exact ⟨f, h1, h2, h3⟩

end Sp
