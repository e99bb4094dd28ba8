import Verif.Model.Units
import Verif.Props.Extra
import Verif.Props.RandomArrays
import Verif.Lemmas.Float

/-!
# C106: bounded random numbers with custom distributions. C107: unit conversions
-/

set_option linter.unusedSectionVars false

namespace Sp
variable {σ : Type}

/-! ### C106 -/

/-- **C106 for samples.** The result is one of `w.length` equally spaced values from 0 on and below the range, chosen with the
given weights: the one whose interval of cumulative weights contains the random number. -/
theorem C106_sample {rand : Rand σ} (hr : rand.InRange) {cudist w : List Nat} (hc : IsCumulative cudist w) (hpos : 0 < w.sum)
    (hl : cudist.length < 4294967296) {range : ℚ} (hrange : 0 < range) {s s' : σ} {v : ℚ}
    (h : sampleRandomDiscreteBounded rand cudist cudist.length range s = .ok (v, s')) :
    0 ≤ v ∧ v < range ∧ ∃ k x, ∃ hk : k < w.length, v = k * (range / w.length) ∧ rand w.sum s = .ok (x, s') ∧
      (w.take k).sum ≤ x ∧ x < (w.take k).sum + w[k] := by
  rw [sampleRandomDiscreteBounded, bind_eq_ok] at h
  obtain ⟨⟨k, s1⟩, h1, h2⟩ := h
  have h2 := Prod.mk.inj (Except.ok.inj h2)
  obtain ⟨rfl, rfl⟩ := h2
  obtain ⟨x, h3, h4, hk, h5, h6, h7⟩ := C44_random_discrete hr hc hpos hl h1
  have hlen : (0 : ℚ) < (w.length : ℚ) := by
    exact_mod_cast (show 0 < w.length by omega)
  have hkq : (k : ℚ) < (w.length : ℚ) := by exact_mod_cast hk
  have hk0 : (0 : ℚ) ≤ k := Nat.cast_nonneg k
  rw [hc.1]
  refine ⟨by positivity, ?_, k, x, hk, by ring, h4, h6, h7⟩
  have : (k : ℚ) / w.length < 1 := by rwa [div_lt_one hlen]
  nlinarith

/-- Non-vacuity: weights 1, 0, 3 and the range 6; the random number 2 gives 4. -/
example : sampleRandomDiscreteBounded (constRand 2) [1, 1, 4] 3 6 () = .ok (4, ()) := by
  have : timeRandomDiscrete (constRand 2) [1, 1, 4] 3 () = .ok (2, ()) := by decide
  rw [sampleRandomDiscreteBounded, this]
  simp only [ok_bind', pure_eq_ok]
  norm_num

theorem timeRandomDiscreteBounded_eq {rand : Rand σ} {cudist : Buf Nat} {n range k : Nat} {s s' : σ} (h2 : 2 ≤ n) (hn : n < 4294967296)
    (hk : k < n) (hrange : range < 4294967296) (h : timeRandomDiscrete rand cudist n s = .ok (k, s')) :
    timeRandomDiscreteBounded rand cudist n range s = .ok (⌊1 / 2 + (range : ℚ) * (k / (n - 1 : Nat))⌋₊, s') := by
  have hs : sub32 n 1 = n - 1 := sub32_of_le (a := n) (by omega) hn
  rw [timeRandomDiscreteBounded, h, ok_bind']
  simp only
  have h1 : (k : ℚ) ≤ ((n - 1 : Nat) : ℚ) := by exact_mod_cast (show k ≤ n - 1 by omega)
  have h2' : (0 : ℚ) < ((n - 1 : Nat) : ℚ) := by exact_mod_cast (show 0 < n - 1 by omega)
  have h3 : (k : ℚ) / ((n - 1 : Nat) : ℚ) ≤ 1 := by rwa [div_le_one h2']
  have h30 : 0 ≤ (k : ℚ) / ((n - 1 : Nat) : ℚ) := div_nonneg (Nat.cast_nonneg _) h2'.le
  have h4 : (0 : ℚ) ≤ range := Nat.cast_nonneg _
  have h5 : (range : ℚ) + 1 ≤ 4294967296 := by exact_mod_cast hrange
  rw [hs, if_neg (by omega)]
  generalize (k : ℚ) / ((n - 1 : Nat) : ℚ) = y at h3 h30 ⊢
  have h6 : (range : ℚ) * y ≤ range := mul_le_of_le_one_right h4 h3
  have h7 : 0 ≤ (range : ℚ) * y := mul_nonneg h4 h30
  rw [cheapRound, toTime_of (by linarith) (by linarith), ok_bind']
  rfl

/-- **C106 for times, partial.** With at least two elements the result is one of `w.length` equally spaced values from 0 to the range
inclusive, rounded to the nearest integer, chosen with the given weights. Missing: the end of the range is not exclusive, and one
element, see below. -/
theorem C106_time_partial {rand : Rand σ} (hr : rand.InRange) {cudist w : List Nat} (hc : IsCumulative cudist w) (hpos : 0 < w.sum)
    (hl : cudist.length < 4294967296) (hl2 : 2 ≤ w.length) {range : Nat} (hrange : range < 4294967296) {s s' : σ} {v : Nat}
    (h : timeRandomDiscreteBounded rand cudist cudist.length range s = .ok (v, s')) :
    v ≤ range ∧ ∃ k x, ∃ hk : k < w.length, |(v : ℚ) - k * (range / ((w.length : ℚ) - 1))| ≤ 1 / 2 ∧ rand w.sum s = .ok (x, s') ∧
      (w.take k).sum ≤ x ∧ x < (w.take k).sum + w[k] := by
  have hlen := hc.1
  have h0 := h
  rw [timeRandomDiscreteBounded, bind_eq_ok] at h0
  obtain ⟨⟨k, s1⟩, h1, h2⟩ := h0
  obtain ⟨x, h3, h4, hk, h5, h6, h7⟩ := C44_random_discrete hr hc hpos hl h1
  rw [timeRandomDiscreteBounded_eq (by omega) hl (by omega) hrange h1] at h
  obtain ⟨rfl, rfl⟩ := Prod.mk.inj (Except.ok.inj h)
  rw [hc.1, Nat.cast_sub (by omega)]
  have hk0 : (0 : ℚ) ≤ k := Nat.cast_nonneg k
  have hk1 : (k : ℚ) ≤ (w.length : ℚ) - 1 := by
    have : ((k + 1 : Nat) : ℚ) ≤ (w.length : ℚ) := by exact_mod_cast hk
    push_cast at this
    linarith
  have hw : (0 : ℚ) < (w.length : ℚ) - 1 := by
    have : ((2 : Nat) : ℚ) ≤ (w.length : ℚ) := by exact_mod_cast hl2
    push_cast at this
    linarith
  have hR : (0 : ℚ) ≤ range := Nat.cast_nonneg _
  have hle : (range : ℚ) * (k / ((w.length : ℚ) - 1)) ≤ range := by
    have : (k : ℚ) / ((w.length : ℚ) - 1) ≤ 1 := by rwa [div_le_one hw]
    nlinarith
  have hnn : (0 : ℚ) ≤ (range : ℚ) * (k / ((w.length : ℚ) - 1)) := by positivity
  push_cast
  refine ⟨?_, k, x, hk, ?_, h4, h6, h7⟩
  · rw [← Nat.lt_succ_iff, Nat.floor_lt (by linarith)]
    push_cast
    linarith
  · have ha := Nat.floor_le (show (0 : ℚ) ≤ 1 / 2 + (range : ℚ) * (k / ((w.length : ℚ) - 1)) by linarith)
    have hb := Nat.lt_floor_add_one (1 / 2 + (range : ℚ) * (k / ((w.length : ℚ) - 1)))
    have hc : (k : ℚ) * (range / ((w.length : ℚ) - 1)) = (range : ℚ) * (k / ((w.length : ℚ) - 1)) := by ring
    rw [hc, abs_le]
    constructor <;> linarith

/-- Non-vacuity: weights 1, 0, 3 and the range 7; the middle value has no weight. -/
example : timeRandomDiscreteBounded (constRand 2) [1, 1, 4] 3 7 () = .ok (7, ()) ∧
    timeRandomDiscreteBounded (constRand 0) [1, 1, 4] 3 7 () = .ok (0, ()) := by
  constructor
  · rw [timeRandomDiscreteBounded_eq (k := 2) (s' := ()) (by omega) (by omega) (by omega) (by omega) (by decide)]
    norm_num [Nat.floor_eq_iff]
  · rw [timeRandomDiscreteBounded_eq (k := 0) (s' := ()) (by omega) (by omega) (by omega) (by omega) (by decide)]
    norm_num

/-- **C106 is false for times**: the comment in the source says that the end of the range is exclusive, but for every distribution
whose last weight is not zero there is a random number for which the result is the end of the range; in particular a result
for the range 1 is not always 0, and as index of an array of that size it is outside. -/
theorem C106_time_range_end {cudist w : List Nat} (hc : IsCumulative cudist w) (hl : cudist.length < 4294967296)
    (hl2 : 2 ≤ w.length) (hw : 0 < w[w.length - 1]) {range : Nat} (hrange : range < 4294967296) :
    ∃ x, x < w.sum ∧ timeRandomDiscreteBounded (constRand x) cudist cudist.length range () = .ok (range, ()) := by
  have hlen := hc.1
  have hcard := C44_proportions hc hl (i := w.length - 1) (by omega)
  rw [← hcard, Finset.card_pos] at hw
  obtain ⟨x, hx⟩ := hw
  rw [Finset.mem_filter, Finset.mem_range] at hx
  refine ⟨x, hx.1, ?_⟩
  rw [timeRandomDiscreteBounded_eq (by omega) hl (by omega) hrange hx.2, hlen]
  have h1 : ((w.length - 1 : Nat) : ℚ) ≠ 0 := by
    have : w.length - 1 ≠ 0 := by omega
    exact_mod_cast this
  rw [div_self h1, mul_one]
  have : ⌊(1 / 2 : ℚ) + (range : ℚ)⌋₊ = range := by
    rw [Nat.floor_eq_iff (by positivity)]
    constructor <;> linarith
  rw [this]

example : ∃ x, x < [1, 0, 3].sum ∧ timeRandomDiscreteBounded (constRand x) [1, 1, 4] 3 100 () = .ok (100, ()) :=
  C106_time_range_end (w := [1, 0, 3]) (cudist := [1, 1, 4]) ⟨rfl, by decide⟩ (by decide) (by decide) (by decide) (by decide)

/-- **C106, one element**: the result is undefined. -/
theorem C106_time_one_undefined {rand : Rand σ} (hr : rand.InRange) (ht : rand.Total) {a : Nat} (ha : 0 < a) (range : Nat) (s : σ) :
    timeRandomDiscreteBounded rand [a] 1 range s = .error .divByZero := by
  obtain ⟨r, s', h⟩ := C44_random_discrete_returns hr ht (cudist := [a]) (w := [a]) ⟨rfl, by simp⟩ (by simpa using ha) (by simp) s
  rw [timeRandomDiscreteBounded]
  simp only [List.length_singleton] at h
  rw [h, ok_bind']
  exact if_pos (by decide)

/-! ### C107 -/

/-- **C107, `sp_rate_duration`, partial**: `n` times `1/d` seconds, exactly if `d` divides the sample rate. In general less than `n`
samples are missing. -/
theorem C107_duration_partial {rate n d : Nat} (hd : 0 < d) (h32 : rate * n / d < 4294967296) :
    ∃ r, rateDuration rate n d = .ok r ∧ r * d ≤ rate * n ∧ rate * n ≤ (r + n) * d ∧ (d ∣ rate → r * d = rate * n) := by
  have hq : rate / d * n ≤ rate * n / d := by
    rw [Nat.le_div_iff_mul_le hd]
    calc rate / d * n * d = rate / d * d * n := by ring
      _ ≤ rate * n := Nat.mul_le_mul_right _ (Nat.div_mul_le_self ..)
  refine ⟨rate / d * n, ?_, ?_, ?_, fun hdvd => ?_⟩
  · rw [rateDuration, divTime, if_neg (by omega), ok_bind', u32_of_lt (n := rate / d * n) (by omega)]
    rfl
  · rw [← Nat.le_div_iff_mul_le hd]
    exact hq
  · have : rate ≤ (rate / d + 1) * d := by
      have := Nat.lt_div_mul_add hd (a := rate)
      rw [Nat.add_mul]
      omega
    calc rate * n ≤ (rate / d + 1) * d * n := Nat.mul_le_mul_right _ this
      _ = (rate / d * n + n) * d := by ring
  · calc rate / d * n * d = rate / d * d * n := by ring
      _ = rate * n := by rw [Nat.div_mul_cancel hdvd]

/-- Non-vacuity, the example in the documentation: half a second. -/
example : rateDuration 48000 1 2 = .ok 24000 := by decide

/-- **C107 is false for `sp_rate_duration`** if `d` does not divide the rate: the division is rounded down before the multiplication.
Seven sevenths of a second are not a second, and at 100 seconds 100 samples are missing. -/
theorem C107_duration_false : rateDuration 48000 7 7 = .ok 47999 ∧ rateDuration 48000 700 7 = .ok 4799900 := by decide

/-- **C107, `sp_hz_to_samples` and `sp_samples_to_hz`** of integers: a period in samples is kept by a conversion to Hertz and back, the
frequency of the period is not below the given frequency, and it is equal to it if it divides the rate. -/
theorem C107_hz_samples {rate x : Nat} (hx : 0 < x) (hr : x ≤ rate) :
    ∃ p f, hzToSamples rate x = .ok p ∧ samplesToHz rate p = .ok f ∧ x ≤ f ∧ (x ∣ rate → f = x) ∧ hzToSamples rate f = .ok p ∧
      p * x ≤ rate ∧ rate < (p + 1) * x := by
  have hp : 0 < rate / x := Nat.div_pos hr hx
  have hf : x ≤ rate / (rate / x) := by
    rw [Nat.le_div_iff_mul_le hp]
    exact Nat.mul_div_le ..
  refine ⟨rate / x, rate / (rate / x), ?_, ?_, hf, ?_, ?_, Nat.div_mul_le_self .., ?_⟩
  · rw [hzToSamples, divTime, if_neg (by omega)]
  · rw [samplesToHz, divTime, if_neg (by omega)]
  · rintro ⟨k, rfl⟩
    have hk : 0 < k := by
      rcases Nat.eq_zero_or_pos k with h | h
      · simp [h] at hr; omega
      · exact h
    rw [Nat.mul_div_cancel_left _ hx, Nat.mul_div_cancel _ hk]
  · rw [hzToSamples, divTime, if_neg (by omega)]
    congr 1
    apply Nat.le_antisymm
    · exact Nat.div_le_div_left hf hx
    · rw [Nat.le_div_iff_mul_le (by omega)]
      exact Nat.mul_div_le ..
  · have := Nat.lt_div_mul_add hx (a := rate)
    rw [Nat.add_mul]
    omega

example : hzToSamples 48000 70 = .ok 685 ∧ samplesToHz 48000 685 = .ok 70 := by decide

/-- Frequencies above the sample rate have the period 0, and the conversion back divides by zero. -/
theorem C107_hz_above_rate_undefined {rate x : Nat} (h : rate < x) :
    hzToSamples rate x = .ok 0 ∧ samplesToHz rate 0 = .error .divByZero := by
  refine ⟨?_, rfl⟩
  rw [hzToSamples, divTime, if_neg (by omega), Nat.div_eq_of_lt h]

/-- **C107 is false for `sp_rad_to_hz`**: it is not the inverse of `sp_hz_to_rad` for any frequency but 0. -/
theorem C107_rad_false {a : ℝ} (ha : a ≠ 0) : radToHz (hzToRad a) ≠ a := by
  intro h
  rw [radToHz, hzToRad] at h
  have h1 : (Real.pi * Real.pi - 1) * a = 0 := by linarith
  rcases mul_eq_zero.1 h1 with h2 | h2
  · have := Real.pi_gt_three
    nlinarith
  · exact ha h2

/-- **C107, `sp_hz_to_factor` and `sp_factor_to_hz`, partial**: with every rounding to nearest, a conversion of a frequency to a factor
and back gives the frequency or one less. Missing: always the frequency. -/
theorem C107_factor_partial {rnd : ℚ → ℚ} (h : RoundsToNearest rnd) {rate x : Nat} (hr : 0 < rate) (hr2 : rate < 4294967296)
    (hx : x < 4294967296) (hx0 : 0 < x) :
    factorToHz rnd rate (hzToFactor rnd rate x) = .ok x ∨ factorToHz rnd rate (hzToFactor rnd rate x) = .ok (x - 1) := by
  have hrq : (0 : ℚ) < rate := by exact_mod_cast hr
  have hxq : (1 : ℚ) ≤ x := by exact_mod_cast hx0
  have hxq2 : (x : ℚ) + 1 ≤ 4294967296 := by exact_mod_cast hx
  have hrq1 : (1 : ℚ) ≤ rate := by exact_mod_cast hr
  have hrq2 : (rate : ℚ) + 1 ≤ 4294967296 := by exact_mod_cast hr2
  have hpos : (0 : ℚ) < (x : ℚ) / rate := by positivity
  have herr : |(x : ℚ) / rate - rnd ((x : ℚ) / rate)| ≤ (x : ℚ) / rate / 2 ^ 53 := by
    have := h.error_mid (q := (x : ℚ) / rate)
      (by rw [abs_of_pos hpos, le_div_iff₀ hrq]; norm_num; linarith)
      (by rw [abs_of_pos hpos, div_le_iff₀ hrq]; norm_num; linarith)
    rwa [abs_of_pos hpos] at this
  have e1 := abs_le.1 herr
  have hf : |(x : ℚ) - rnd ((x : ℚ) / rate) * rate| ≤ x / 2 ^ 53 := by
    have h1 : (x : ℚ) - rnd ((x : ℚ) / rate) * rate = ((x : ℚ) / rate - rnd ((x : ℚ) / rate)) * rate := by
      rw [sub_mul, div_mul_cancel₀ _ hrq.ne']
    rw [h1, abs_mul, abs_of_pos hrq]
    refine (mul_le_mul_of_nonneg_right herr hrq.le).trans (le_of_eq ?_)
    field_simp
  have hf' := abs_le.1 hf
  norm_num at hf'
  have hpos2 : (0 : ℚ) < rnd ((x : ℚ) / rate) * rate := by linarith
  have herr2 := h.error_mid (q := rnd ((x : ℚ) / rate) * rate) (by rw [abs_of_pos hpos2]; norm_num; linarith)
    (by rw [abs_of_pos hpos2]; norm_num; linarith)
  rw [abs_of_pos hpos2] at herr2
  have e2 := abs_le.1 herr2
  norm_num at e2
  set y := rnd (rnd ((x : ℚ) / rate) * rate) with hy
  have hy1 : (x : ℚ) - 1 < y := by linarith
  have hy2 : y < x + 1 / 2 := by linarith
  rw [factorToHz, hzToFactor, ← hy, toTime_of (by linarith) (by linarith)]
  by_cases hc : (x : ℚ) ≤ y
  · left
    congr 1
    rw [Nat.floor_eq_iff (by linarith)]
    exact ⟨hc, by linarith⟩
  · right
    congr 1
    rw [Nat.floor_eq_iff (by linarith), Nat.cast_sub (by omega)]
    push_cast
    exact ⟨hy1.le, by linarith⟩

/-- **C107 is false for `sp_hz_to_factor` and `sp_factor_to_hz`**: at the default rate, with every rounding to nearest, a conversion of
27 Hertz to a factor and back gives 26. -/
theorem C107_factor_false {rnd : ℚ → ℚ} (h : RoundsToNearest rnd) : factorToHz rnd 48000 (hzToFactor rnd 48000 27) = .ok 26 := by
  have h1 : rnd ((27 : Nat) / (48000 : Nat)) = (5188146770730811 : ℤ) * (2 : ℚ) ^ ((-11 : ℤ) - 52) :=
    h.eq_of (k := -11) (by norm_num) (by norm_num) (by norm_num) (by norm_num [abs_of_pos, abs_of_neg])
      (by norm_num [abs_of_pos, abs_of_neg]) (by norm_num [abs_of_pos, abs_of_neg])
  have h2 : rnd ((5188146770730811 : ℤ) * (2 : ℚ) ^ ((-11 : ℤ) - 52) * (48000 : Nat)) = (7599824371187711 : ℤ) * (2 : ℚ) ^ ((4 : ℤ) - 52) :=
    h.eq_of (k := 4) (by norm_num) (by norm_num) (by norm_num) (by norm_num [abs_of_pos, abs_of_neg])
      (by norm_num [abs_of_pos, abs_of_neg]) (by norm_num [abs_of_pos, abs_of_neg])
  rw [hzToFactor, h1, factorToHz, h2, toTime_of (by norm_num) (by norm_num)]
  congr 1
  rw [Nat.floor_eq_iff (by norm_num)]
  norm_num

end Sp
