import Verif.Props.FloatChord
import Verif.Props.FloatFft

/-! # C177: the spectrum of tones -/

set_option linter.unusedSectionVars false

noncomputable section

namespace Sp
variable {rnd : ℚ → ℚ}

private theorem sin_fexp (r : ℝ) : ((Real.sin (2 * Real.pi * r) : ℝ) : ℂ) = (fexp (-r) - fexp r) / (2 * Complex.I) := by
  have h2 : (2 * Complex.I) ≠ 0 := by simp
  rw [eq_div_iff h2]
  apply Complex.ext
  · rw [Complex.sub_re, fexp_re, fexp_re, mul_neg, Real.cos_neg, Complex.re_ofReal_mul]
    simp
  · rw [Complex.sub_im, fexp_im, fexp_im, mul_neg, Real.sin_neg, Complex.im_ofReal_mul]
    simp
    ring

/-- One element of the transform of a sine with `m` periods. -/
private theorem sine_dft {n m k : Nat} (hm : 0 < m) (hm2 : 2 * m < n) (hk : 2 * k < n) (q : ℝ) :
    dft n (fun t => ((Real.sin (2 * Real.pi * (q + t * ((m : ℝ) / n))) : ℝ) : ℂ)) k = if m = k then n / (2 * Complex.I) * fexp (-q) else 0 := by
  have hn : 0 < n := by omega
  have hn0 : (n : ℝ) ≠ 0 := by positivity
  have e : dft n (fun t => ((Real.sin (2 * Real.pi * (q + t * ((m : ℝ) / n))) : ℝ) : ℂ)) k =
      fexp (-q) / (2 * Complex.I) * ∑ t ∈ Finset.range n, fexp (t * ((((k : ℤ) - m : ℤ) : ℝ) / n)) -
      fexp q / (2 * Complex.I) * ∑ t ∈ Finset.range n, fexp (t * ((((k : ℤ) + m : ℤ) : ℝ) / n)) := by
    rw [dft_eq, Finset.mul_sum, Finset.mul_sum, ← Finset.sum_sub_distrib]
    refine Finset.sum_congr rfl fun t _ => ?_
    rw [sin_fexp, div_mul_eq_mul_div, div_mul_eq_mul_div, div_mul_eq_mul_div, ← sub_div, sub_mul, ← fexp_add, ← fexp_add, ← fexp_add, ← fexp_add]
    have e1 : -(q + (t : ℝ) * ((m : ℝ) / n)) + (t : ℝ) * k / n = -q + t * ((((k : ℤ) - m : ℤ) : ℝ) / n) := by
      push_cast
      ring
    have e2 : q + (t : ℝ) * ((m : ℝ) / n) + (t : ℝ) * k / n = q + t * ((((k : ℤ) + m : ℤ) : ℝ) / n) := by
      push_cast
      ring
    rw [e1, e2]
  rw [e, fexp_sum hn, fexp_sum hn]
  have h2 : ¬ (n : ℤ) ∣ (k : ℤ) + m := by
    intro hd
    have := Int.le_of_dvd (by omega) hd
    omega
  rw [if_neg h2, mul_zero, sub_zero]
  by_cases hmk : m = k
  · rw [if_pos hmk, if_pos (by rw [hmk, sub_self]; exact dvd_zero _)]
    ring
  · rw [if_neg hmk, if_neg, mul_zero]
    intro hd
    have := Int.eq_zero_of_abs_lt_dvd hd (by rw [abs_lt]; omega)
    omega

/-- What a tone contributes to its element of the transform. -/
private def phasor (rate n : Nat) (x : SineTone (Fl rnd)) : ℂ := x.amp.val * (n / (2 * Complex.I) * fexp (-(x.phase / rate)))

private theorem norm_phasor (rate n : Nat) (x : SineTone (Fl rnd)) : ‖phasor rate n x‖ = |(x.amp.val : ℝ)| * (n / 2) := by
  have : ((x.amp.val : ℚ) : ℂ) = (((x.amp.val : ℚ) : ℝ) : ℂ) := by push_cast; rfl
  rw [phasor, norm_mul, norm_mul, norm_fexp, norm_div, norm_mul, Complex.norm_I, this, Complex.norm_real, Real.norm_eq_abs]
  simp

private theorem dft_add' (n : Nat) (x y : Nat → ℂ) (k : Nat) : dft n (fun t => x t + y t) k = dft n x k + dft n y k := by
  simp only [dft_eq, add_mul, Finset.sum_add_distrib]

private theorem dft_mul' (n : Nat) (a : ℂ) (y : Nat → ℂ) (k : Nat) : dft n (fun t => a * y t) k = a * dft n y k := by
  simp only [dft_eq, mul_assoc, Finset.mul_sum]

private theorem chord_dft {rate n k : Nat} (hr : 2 ≤ rate) (hk : 2 * k < n) {tones : List (SineTone (Fl rnd))} (hf : WholePeriods rate n tones) :
    dft n (fun t => ((chordAt rate tones t : ℝ) : ℂ)) k = ((tones.filter fun x => x.frq * n = k * rate).map (phasor rate n)).sum := by
  have hn : 0 < n := by omega
  have hn0 : (n : ℝ) ≠ 0 := by positivity
  have hr0 : (rate : ℝ) ≠ 0 := by positivity
  induction tones with
  | nil => simp [chordAt, dft_eq]
  | cons x xs ih =>
    obtain ⟨⟨m, hm⟩, h1, h2⟩ := hf x (by simp)
    have hm0 : 0 < m := by
      rcases Nat.eq_zero_or_pos m with h | h
      · rw [h, Nat.mul_zero] at hm
        have := Nat.mul_pos h1 hn
        omega
      · exact h
    have hm2 : 2 * m < n := by
      have a : rate * (2 * m) < rate * n := by
        have : rate * (2 * m) = 2 * x.frq * n := by rw [Nat.mul_left_comm, ← hm]; ring
        rw [this]
        exact Nat.mul_lt_mul_of_pos_right h2 hn
      exact Nat.lt_of_mul_lt_mul_left a
    have hmr : (x.frq : ℝ) * n = rate * m := by exact_mod_cast hm
    have e : (fun t : Nat => ((chordAt rate (x :: xs) t : ℝ) : ℂ)) =
        fun t : Nat => (x.amp.val : ℂ) * ((Real.sin (2 * Real.pi * ((x.phase : ℝ) / rate + t * ((m : ℝ) / n))) : ℝ) : ℂ) + ((chordAt rate xs t : ℝ) : ℂ) := by
      funext t
      simp only [chordAt, List.map_cons, List.sum_cons]
      have e1 : 2 * Real.pi * ((x.phase : ℝ) + x.frq * t) / rate = 2 * Real.pi * ((x.phase : ℝ) / rate + t * ((m : ℝ) / n)) := by
        have : (x.frq : ℝ) / rate = m / n := by
          rw [div_eq_div_iff hr0 hn0, hmr]
          ring
        rw [← this]
        field_simp
      rw [e1]
      push_cast
      ring
    rw [e, dft_add', dft_mul', sine_dft hm0 hm2 hk, ih fun y hy => hf y (by simp [hy])]
    have hiff : x.frq * n = k * rate ↔ m = k := by
      rw [hm, Nat.mul_comm k]
      exact ⟨fun h => Nat.eq_of_mul_eq_mul_left (by omega) h, fun h => by rw [h]⟩
    by_cases hmk : m = k
    · rw [if_pos hmk, List.filter_cons_of_pos (by simpa using hiff.2 hmk), List.map_cons, List.sum_cons]
      rfl
    · rw [if_neg hmk, List.filter_cons_of_neg (by simpa using fun h => hmk (hiff.1 h)), mul_zero, zero_add]

/-- **C177 in exact arithmetic.** The transform of tones with whole periods in `n` samples, multiplied by `2 / n`, has for each element of the first half the absolute
value of the amplitude of the tone with this frequency, and zero if there is none. -/
theorem C177_exact {rate n k : Nat} (hr : 2 ≤ rate) (hk : 2 * k < n) {tones : List (SineTone (Fl rnd))} (hf : WholePeriods rate n tones) :
    (∀ x, (tones.filter fun y => y.frq * n = k * rate) = [x] → 2 / n * ‖dft n (fun t => ((chordAt rate tones t : ℝ) : ℂ)) k‖ = |(x.amp.val : ℝ)|) ∧
    ((∀ x ∈ tones, x.frq * n ≠ k * rate) → 2 / n * ‖dft n (fun t => ((chordAt rate tones t : ℝ) : ℂ)) k‖ = 0) := by
  have hn0 : (n : ℝ) ≠ 0 := by
    have : 0 < n := by omega
    positivity
  rw [chord_dft hr hk hf]
  refine ⟨fun x hx => ?_, fun h => ?_⟩
  · rw [hx, List.map_singleton, List.sum_singleton, norm_phasor]
    field_simp
  · rw [List.filter_eq_nil_iff.2 (by simpa using h)]
    simp

private theorem flat_abs {rate n : Nat} {tones : List (SineTone (Fl rnd))} (hp : ChordValid rate tones) (hk : tones.length ≤ 2 ^ 20) {x : Buf (Fl rnd)}
    (hx : ∀ i, i < n → |((x.getD i 0).val : ℝ) - chordAt rate tones i| ≤ (tones.length : ℝ) * (tones.length + 1) / 2 ^ 47) (i : Nat) (hi : i < n) :
    |((x.getD i 0).val : ℝ)| ≤ tones.length + 1 := by
  have a1 := hx i hi
  have a2 := (chordAt_abs rate tones i).trans (chordAmp_le hp).2
  have hT : (tones.length : ℝ) ≤ 2 ^ 20 := by exact_mod_cast hk
  have h0 : (0 : ℝ) ≤ tones.length := Nat.cast_nonneg _
  have a3 : (tones.length : ℝ) * (tones.length + 1) / 2 ^ 47 ≤ 1 := by
    rw [div_le_one (by norm_num)]
    refine (mul_le_mul hT (by linarith : (tones.length : ℝ) + 1 ≤ 2 ^ 20 + 1) (by linarith) (by norm_num)).trans (by norm_num)
  rw [abs_le] at a1 a2 ⊢
  constructor <;> linarith

private theorem sampleAt_real {n : Nat} {x : Buf (Fl rnd)} {i : Nat} (hi : i < n) :
    sampleAt x (List.replicate n 0) i = (((x.getD i 0).val : ℝ) : ℂ) := by
  rw [sampleAt, complexAt, realValues, realValues, List.getD_eq_getElem?_getD, List.getD_eq_getElem?_getD, List.getElem?_map, List.getElem?_map,
    List.getElem?_replicate, if_pos hi, List.getD_eq_getElem?_getD]
  cases x[i]? with
  | none =>
    apply Complex.ext
    · simp
    · simp
  | some v =>
    apply Complex.ext
    · simp
    · simp

private theorem bound_le {rate n : Nat} {tones : List (SineTone (Fl rnd))} (hp : ChordValid rate tones) (hk : tones.length ≤ 2 ^ 20) {x : Buf (Fl rnd)}
    (hx : ∀ i, i < n → |((x.getD i 0).val : ℝ) - chordAt rate tones i| ≤ (tones.length : ℝ) * (tones.length + 1) / 2 ^ 47) :
    spectrumBound n x (List.replicate n 0) ≤ n * (tones.length + 1) := by
  unfold spectrumBound
  refine (Finset.sum_le_sum (g := fun _ => (tones.length : ℝ) + 1) fun i hi => ?_).trans (by rw [Finset.sum_const, Finset.card_range, nsmul_eq_mul])
  rw [sampleAt_real (Finset.mem_range.1 hi), Complex.norm_real, Real.norm_eq_abs]
  exact flat_abs hp hk hx i (Finset.mem_range.1 hi)

/-- A transform with an error that is at most `η` times the sum of the absolute values. -/
private theorem near {rate n k : Nat} (hr : 2 ≤ rate) (hk : 2 * k < n) {tones : List (SineTone (Fl rnd))} (hf : WholePeriods rate n tones)
    (hp : ChordValid rate tones) (ht : tones.length ≤ 2 ^ 20) {x re im : Buf (Fl rnd)}
    (hx : ∀ i, i < n → |((x.getD i 0).val : ℝ) - chordAt rate tones i| ≤ (tones.length : ℝ) * (tones.length + 1) / 2 ^ 47) {η δ : ℝ} (hη : 0 ≤ η) (hδ : δ ≤ 1 / 2 ^ 50)
    (he : ‖sampleAt re im k - dft n (sampleAt x (List.replicate n 0)) k‖ ≤ η * spectrumBound n x (List.replicate n 0) + δ) :
    (∀ y, (tones.filter fun y => y.frq * n = k * rate) = [y] →
      |2 / n * ‖sampleAt re im k‖ - abs (y.amp.val : ℝ)| ≤ 2 * η * (tones.length + 1) + ((tones.length : ℝ) + 1) ^ 2 / 2 ^ 46) ∧
    ((∀ y ∈ tones, y.frq * n ≠ k * rate) → 2 / n * ‖sampleAt re im k‖ ≤ 2 * η * (tones.length + 1) + ((tones.length : ℝ) + 1) ^ 2 / 2 ^ 46) := by
  have hn : (1 : ℝ) ≤ n := by exact_mod_cast (by omega : 1 ≤ n)
  have h0 : (0 : ℝ) ≤ tones.length := Nat.cast_nonneg _
  have a1 : ‖dft n (sampleAt x (List.replicate n 0)) k - dft n (fun t => ((chordAt rate tones t : ℝ) : ℂ)) k‖ ≤ n * ((tones.length : ℝ) * (tones.length + 1) / 2 ^ 47) := by
    refine (norm_dft_sub_le _ _ _ _).trans ((Finset.sum_le_sum (g := fun _ => (tones.length : ℝ) * (tones.length + 1) / 2 ^ 47) fun i hi => ?_).trans
      (by rw [Finset.sum_const, Finset.card_range, nsmul_eq_mul]))
    rw [sampleAt_real (Finset.mem_range.1 hi), ← Complex.ofReal_sub, Complex.norm_real, Real.norm_eq_abs]
    exact hx i (Finset.mem_range.1 hi)
  have a2 := mul_le_mul_of_nonneg_left (bound_le hp ht hx) hη
  have a3 : ‖sampleAt re im k - dft n (fun t => ((chordAt rate tones t : ℝ) : ℂ)) k‖ ≤
      η * (n * (tones.length + 1)) + δ + n * ((tones.length : ℝ) * (tones.length + 1) / 2 ^ 47) := by
    refine (norm_sub_le_norm_sub_add_norm_sub _ (dft n (sampleAt x (List.replicate n 0)) k) _).trans ?_
    linarith
  have a4 : |2 / n * ‖sampleAt re im k‖ - 2 / n * ‖dft n (fun t => ((chordAt rate tones t : ℝ) : ℂ)) k‖| ≤
      2 * η * (tones.length + 1) + ((tones.length : ℝ) + 1) ^ 2 / 2 ^ 46 := by
    rw [← mul_sub, abs_mul, abs_of_pos (by positivity : (0 : ℝ) < 2 / n)]
    have b1 := (abs_norm_sub_norm_le (sampleAt re im k) (dft n (fun t => ((chordAt rate tones t : ℝ) : ℂ)) k)).trans a3
    have b2 := mul_le_mul_of_nonneg_left b1 (by positivity : (0 : ℝ) ≤ 2 / n)
    refine b2.trans ?_
    have e : 2 / (n : ℝ) * (η * (n * (tones.length + 1)) + δ + n * ((tones.length : ℝ) * (tones.length + 1) / 2 ^ 47)) =
        2 * η * (tones.length + 1) + (2 / n * δ + (tones.length : ℝ) * (tones.length + 1) / 2 ^ 46) := by
      field_simp
      ring
    rw [e]
    have b3 : 2 / (n : ℝ) * δ ≤ 1 / 2 ^ 46 := by
      rcases le_or_gt δ 0 with h | h
      · exact (mul_nonpos_of_nonneg_of_nonpos (by positivity) h).trans (by norm_num)
      · have : 2 / (n : ℝ) ≤ 2 := by rw [div_le_iff₀ (by linarith)]; linarith
        refine (mul_le_mul this hδ h.le (by norm_num)).trans (by norm_num)
    have b4 : ((tones.length : ℝ) + 1) ^ 2 / 2 ^ 46 = (tones.length : ℝ) * (tones.length + 1) / 2 ^ 46 + (tones.length + 1) / 2 ^ 46 := by ring
    have b5 : (1 : ℝ) / 2 ^ 46 ≤ (tones.length + 1) / 2 ^ 46 := div_le_div_of_nonneg_right (by linarith) (by norm_num)
    rw [b4]
    linarith
  obtain ⟨c1, c2⟩ := C177_exact hr hk hf
  refine ⟨fun y hy => ?_, fun h => ?_⟩
  · rw [c1 y hy] at a4
    exact a4
  · rw [c2 h, sub_zero] at a4
    exact (le_abs_self _).trans a4

/-- **C177.** A program plays tones with `sp_sine` block by block and transforms all the samples with `sp_fft`, all with numbers of type `double`. If the tones have
whole periods in the `n` samples then, for each element of the first half of the result, the absolute value multiplied by `2 / n` is the absolute value of the amplitude
of the tone that has the frequency of the element, and nearly zero if there is none. -/
theorem C177_spectrum (h : RoundsToNearest rnd) [Trig (Fl rnd)] (ht : TrigAccurate rnd) {rate n : Nat} (hr : 2 ≤ rate) (heven : rate % 2 = 0)
    (hr2 : rate < 4294967296) {table lfo : Buf (Fl rnd)} (hi : sineTables rate = .ok (table, lfo)) {sizes : List Nat} (hs : sizes.sum = n) (hn : n < 4294967296)
    {tones : List (SineTone (Fl rnd))} (hp : ChordValid rate tones) (hl : tones.length ≤ 2 ^ 20) (hf : WholePeriods rate n tones) :
    ∃ blocks re im, chordBlocks table rate sizes tones = .ok blocks ∧ spFft n blocks.flatten (List.replicate n 0) = .ok (0, re, im) ∧
      re.length = n ∧ im.length = n ∧ ∀ k, 2 * k < n →
      (∀ x, (tones.filter fun y => y.frq * n = k * rate) = [x] →
        |2 / n * ‖sampleAt re im k‖ - abs (x.amp.val : ℝ)| ≤ n * (tones.length + 1) / 2 ^ 34 + ((tones.length : ℝ) + 1) ^ 2 / 2 ^ 46) ∧
      ((∀ x ∈ tones, x.frq * n ≠ k * rate) →
        2 / n * ‖sampleAt re im k‖ ≤ n * (tones.length + 1) / 2 ^ 34 + ((tones.length : ℝ) + 1) ^ 2 / 2 ^ 46) := by
  obtain ⟨blocks, b1, b2, b3⟩ := chordBlocks_eq h ht hr heven hr2 hi sizes hp hl
  rw [hs] at b3
  have hlen : blocks.flatten.length = n := by rw [List.length_flatten, b2, hs]
  have hb := bound_le hp hl b3
  have hT : (tones.length : ℝ) + 1 ≤ 2 ^ 21 := by
    have : (tones.length : ℝ) ≤ 2 ^ 20 := by exact_mod_cast hl
    linarith [(by norm_num : (2 : ℝ) ^ 20 + 1 ≤ 2 ^ 21)]
  have hn' : (n : ℝ) ≤ 2 ^ 32 := by
    have : n ≤ 2 ^ 32 := by omega
    exact_mod_cast this
  have hmax : 2 ^ 80 * spectrumBound n blocks.flatten (List.replicate n 0) + 2 ^ 80 ≤ ((doubleMax : ℚ) : ℝ) := by
    have e1 : (n : ℝ) * (tones.length + 1) ≤ 2 ^ 32 * 2 ^ 21 := mul_le_mul hn' hT (by positivity) (by norm_num)
    have e2 := fmax_ge (e := 200) (by norm_num)
    rw [fmax] at e2
    have e3 : (2 : ℝ) ^ 80 * (2 ^ 32 * 2 ^ 21) + 2 ^ 80 ≤ (2 : ℝ) ^ (200 : ℤ) := by norm_num
    linarith
  obtain ⟨re, im, f1, f2, f3, f4, -⟩ := C133_fft h ht (n := n) (re := blocks.flatten) (im := List.replicate n 0) hn (by simp [hlen]) (by omega) hmax
  refine ⟨blocks, re, im, b1, f1, by rw [f2, hlen], by rw [f3, List.length_replicate], fun k hk => ?_⟩
  have hδ : (2 : ℝ) ^ (-950 : ℤ) ≤ 1 / 2 ^ 50 := by
    rw [show (1 : ℝ) / 2 ^ 50 = 2 ^ (-50 : ℤ) by norm_num]
    exact zpow_le_zpow_right₀ (by norm_num) (by norm_num)
  have := near hr hk hf hp hl b3 (by positivity) hδ (f4 k (by omega))
  rwa [show 2 * ((n : ℝ) / 2 ^ 35) * (tones.length + 1) = n * (tones.length + 1) / 2 ^ 34 by ring] at this

/-- **C177 for powers of two**, where the transform is more accurate. -/
theorem C177_spectrum_power (h : RoundsToNearest rnd) [Trig (Fl rnd)] (ht : TrigAccurate rnd) {rate L : Nat} (hr : 2 ≤ rate) (heven : rate % 2 = 0)
    (hr2 : rate < 4294967296) {table lfo : Buf (Fl rnd)} (hi : sineTables rate = .ok (table, lfo)) {sizes : List Nat} (hs : sizes.sum = 2 ^ L) (hL : L ≤ 31)
    {tones : List (SineTone (Fl rnd))} (hp : ChordValid rate tones) (hl : tones.length ≤ 2 ^ 20) (hf : WholePeriods rate (2 ^ L) tones) :
    ∃ blocks re im, chordBlocks table rate sizes tones = .ok blocks ∧ spFft (2 ^ L) blocks.flatten (List.replicate (2 ^ L) 0) = .ok (0, re, im) ∧
      re.length = 2 ^ L ∧ im.length = 2 ^ L ∧ ∀ k, 2 * k < 2 ^ L →
      (∀ x, (tones.filter fun y => y.frq * 2 ^ L = k * rate) = [x] →
        |2 / 2 ^ L * ‖sampleAt re im k‖ - abs (x.amp.val : ℝ)| ≤ L * (tones.length + 1) / 2 ^ 44 + ((tones.length : ℝ) + 1) ^ 2 / 2 ^ 46) ∧
      ((∀ x ∈ tones, x.frq * 2 ^ L ≠ k * rate) →
        2 / 2 ^ L * ‖sampleAt re im k‖ ≤ L * (tones.length + 1) / 2 ^ 44 + ((tones.length : ℝ) + 1) ^ 2 / 2 ^ 46) := by
  obtain ⟨blocks, b1, b2, b3⟩ := chordBlocks_eq h ht hr heven hr2 hi sizes hp hl
  rw [hs] at b3
  have hlen : blocks.flatten.length = 2 ^ L := by rw [List.length_flatten, b2, hs]
  have hb := bound_le hp hl b3
  have hT : (tones.length : ℝ) + 1 ≤ 2 ^ 21 := by
    have : (tones.length : ℝ) ≤ 2 ^ 20 := by exact_mod_cast hl
    linarith [(by norm_num : (2 : ℝ) ^ 20 + 1 ≤ 2 ^ 21)]
  have hn' : ((2 ^ L : Nat) : ℝ) ≤ 2 ^ 31 := by
    have : 2 ^ L ≤ 2 ^ 31 := Nat.pow_le_pow_right (by omega) hL
    exact_mod_cast this
  have hmax : 64 * spectrumBound (2 ^ L) blocks.flatten (List.replicate (2 ^ L) 0) + 64 ≤ ((doubleMax : ℚ) : ℝ) := by
    have e1 : ((2 ^ L : Nat) : ℝ) * (tones.length + 1) ≤ 2 ^ 31 * 2 ^ 21 := mul_le_mul hn' hT (by positivity) (by norm_num)
    have e2 := fmax_ge (e := 200) (by norm_num)
    rw [fmax] at e2
    have e3 : (64 : ℝ) * (2 ^ 31 * 2 ^ 21) + 64 ≤ (2 : ℝ) ^ (200 : ℤ) := by norm_num
    linarith
  obtain ⟨re, im, f1, f2, f3, f4, -⟩ := C133_fft_power h ht (L := L) (re := blocks.flatten) (im := List.replicate (2 ^ L) 0) hL (by rw [List.length_replicate, hlen])
    (by omega) hmax
  refine ⟨blocks, re, im, b1, f1, by rw [f2, hlen], by rw [f3, List.length_replicate], fun k hk => ?_⟩
  have hδ : (2 : ℝ) ^ (-1020 : ℤ) ≤ 1 / 2 ^ 50 := by
    rw [show (1 : ℝ) / 2 ^ 50 = 2 ^ (-50 : ℤ) by norm_num]
    exact zpow_le_zpow_right₀ (by norm_num) (by norm_num)
  have := near hr hk hf hp hl b3 (by positivity) hδ (f4 k (by omega))
  rw [show 2 * ((L : ℝ) / 2 ^ 45) * (tones.length + 1) = L * (tones.length + 1) / 2 ^ 44 by ring] at this
  push_cast at this
  exact this

/-! ### A case -/

attribute [local instance] kernelLibm

/-- Non-vacuity: tones of 440 and 660 Hz and 4800 samples at 48000 samples per second. The elements 44 and 66 show the amplitudes, all others of the first half nothing. -/
example : ∃ (table lfo re im : Buf (Fl nearestDouble)) (a b : SineTone (Fl nearestDouble)) (blocks : List (Buf (Fl nearestDouble))),
    sineTables 48000 = .ok (table, lfo) ∧ (a.frq, b.frq) = (440, 660) ∧ (a.amp.val, b.amp.val) = (1 / 2, -1 / 4) ∧
    chordBlocks table 48000 [1000, 0, 3800] [a, b] = .ok blocks ∧ spFft 4800 blocks.flatten (List.replicate 4800 0) = .ok (0, re, im) ∧
    |2 / (4800 : ℝ) * ‖sampleAt re im 44‖ - 1 / 2| ≤ 1 / 2 ^ 20 ∧ |2 / (4800 : ℝ) * ‖sampleAt re im 66‖ - 1 / 4| ≤ 1 / 2 ^ 20 ∧
    ∀ k, k < 2400 → k ≠ 44 → k ≠ 66 → 2 / (4800 : ℝ) * ‖sampleAt re im k‖ ≤ 1 / 2 ^ 20 := by
  have hu : u32 (48000 * sineLfoFactor) = 4800000 := by decide
  obtain ⟨table, t1, -⟩ := C81_double_partial nearestDouble_rounds kernelLibm_trig (size := 48000) (out := List.replicate 48000 0) (by norm_num) (by norm_num)
    (by norm_num) (by rw [List.length_replicate])
  obtain ⟨lfo, l1, -⟩ := C81_double_partial nearestDouble_rounds kernelLibm_trig (size := 4800000) (out := List.replicate 4800000 0) (by norm_num)
    (by norm_num) (by norm_num) (by rw [List.length_replicate])
  have hi : sineTables (S := Fl nearestDouble) 48000 = .ok (table, lfo) := by
    rw [sineTables, t1, hu, l1, ok_bind', ok_bind']
    rfl
  let a : SineTone (Fl nearestDouble) := ⟨⟨1 / 2⟩, 440, 7⟩
  let b : SineTone (Fl nearestDouble) := ⟨⟨-1 / 4⟩, 660, 0⟩
  obtain ⟨blocks, re, im, e1, e2, -, -, e3⟩ := C177_spectrum nearestDouble_rounds kernelLibm_trig (rate := 48000) (n := 4800) (by norm_num) (by norm_num) (by norm_num) hi
    (sizes := [1000, 0, 3800]) (by norm_num) (by norm_num) (tones := [a, b]) (by
    intro x hx
    simp only [List.mem_cons, List.not_mem_nil, or_false] at hx
    rcases hx with rfl | rfl <;> simp only [a, b] <;> norm_num [abs_of_pos, abs_of_neg]) (by simp) (by
    intro x hx
    simp only [List.mem_cons, List.not_mem_nil, or_false] at hx
    rcases hx with rfl | rfl <;> simp only [a, b] <;> norm_num)
  refine ⟨table, lfo, re, im, a, b, blocks, hi, rfl, rfl, e1, e2, ?_, ?_, ?_⟩
  · have f := (e3 44 (by norm_num)).1 a (by
      rw [List.filter_cons_of_pos (by norm_num [a]), List.filter_cons_of_neg (by norm_num [b]), List.filter_nil])
    simp only [a] at f
    push_cast at f
    rw [abs_of_pos (show (0 : ℝ) < 1 / 2 by norm_num)] at f
    refine f.trans ?_
    norm_num
  · have f := (e3 66 (by norm_num)).1 b (by
      rw [List.filter_cons_of_neg (by norm_num [a]), List.filter_cons_of_pos (by norm_num [b]), List.filter_nil])
    simp only [b] at f
    push_cast at f
    rw [abs_of_neg (show (-1 / 4 : ℝ) < 0 by norm_num), show -(-1 / 4 : ℝ) = 1 / 4 by norm_num] at f
    refine f.trans ?_
    norm_num
  · intro k hk h1 h2
    have f := (e3 k (by omega)).2 (by
      intro x hx
      simp only [List.mem_cons, List.not_mem_nil, or_false] at hx
      rcases hx with rfl | rfl <;> simp only [a, b] <;> omega)
    push_cast at f
    refine f.trans ?_
    norm_num

end Sp
