import Verif.Props.FloatSpectrum
import Verif.Props.Fft

/-!
# C183: the spectrum of a filter kernel is the frequency response of the filter

A program makes a filter kernel, puts zeros behind it and transforms it with `sp_fft`, to see what the filter does.
-/

set_option linter.unusedSectionVars false

noncomputable section

namespace Sp
variable {rnd : ℚ → ℚ}

private theorem getD_padded (ir : List ℝ) (m i : Nat) : (ir ++ List.replicate m 0).getD i 0 = ir.getD i 0 := by
  rw [List.getD_eq_getElem?_getD, List.getD_eq_getElem?_getD]
  by_cases h : i < ir.length
  · rw [List.getElem?_append_left h]
  · rw [List.getElem?_append_right (by omega), List.getElem?_replicate, List.getElem?_eq_none (by omega)]
    split <;> rfl

private theorem getD_zeros (n i : Nat) : (List.replicate n (0 : ℝ)).getD i 0 = 0 := by
  rw [List.getD_eq_getElem?_getD, List.getElem?_replicate]
  split <;> rfl

private theorem realValues_padded (ir : List (Fl rnd)) (m : Nat) : realValues (ir ++ List.replicate m 0) = realValues ir ++ List.replicate m 0 := by
  rw [realValues, List.map_append, List.map_replicate, realValues]
  congr 2
  exact Rat.cast_zero

private theorem realValues_zeros (n : Nat) : realValues (List.replicate n (0 : Fl rnd)) = List.replicate n 0 := by
  simp [realValues]

/-- The transform of numbers with zeros behind them. -/
private theorem dft_padded {ir : List ℝ} {n : Nat} (hl : ir.length ≤ n) (k : Nat) (x : Nat → ℂ) (hx : ∀ t, x t = (ir.getD t 0 : ℂ)) :
    dft n x k = response ir ((k : ℝ) / n) := by
  unfold dft response
  rw [← Finset.sum_subset (Finset.range_subset_range.2 hl)]
  · refine Finset.sum_congr rfl fun t _ => ?_
    rw [hx]
    congr 2
    push_cast
    ring
  · intro t _ ht
    rw [hx, List.getD_eq_getElem?_getD, List.getElem?_eq_none (by simpa using ht)]
    simp

/-- **C183, exact.** For every kernel and every length that holds it, the elements of the transform are the frequency response at the multiples of `1 / n`. -/
theorem C183_response (ir : List ℝ) {n : Nat} (hn : n < 4294967296) (hl : ir.length ≤ n) :
    ∃ re im, spFft n (ir ++ List.replicate (n - ir.length) 0) (List.replicate n 0) = .ok (0, re, im) ∧
      ∀ k, k < n → complexAt re im k = response ir ((k : ℝ) / n) := by
  obtain ⟨re, im, e, -, -, h, -⟩ := C71_dft (n := n) (re := ir ++ List.replicate (n - ir.length) 0) (im := List.replicate n 0) hn (by simp; omega) (by simp; omega)
  refine ⟨re, im, e, fun k hk => ?_⟩
  rw [h k hk]
  refine dft_padded hl k _ fun t => ?_
  rw [complexAt, getD_padded, getD_zeros]
  rfl

private theorem sum_getD_abs (b : List ℝ) : ∑ j ∈ Finset.range b.length, |b.getD j 0| = (b.map abs).sum := by
  rw [List.sum_eq_foldr, ← List.sum_eq_foldr]
  have : b.map abs = tab b.length fun j => |b.getD j 0| := by
    refine List.ext_getElem (by rw [List.length_map, tab_length]) fun k hk hk' => ?_
    simp only [List.length_map] at hk
    simp [tab, List.getD_eq_getElem?_getD, hk]
  rw [this, sum_tab]

/-- **C183, in double precision**: up to the error of the transform. -/
theorem C183_double_response (h : RoundsToNearest rnd) [Trig (Fl rnd)] (ht : TrigAccurate rnd) (ir : List (Fl rnd)) {n : Nat} (hn : n < 4294967296) (hl : ir.length ≤ n)
    (hs : kernelSize ir ≤ 2 ^ 100) :
    ∃ re im, spFft n (ir ++ List.replicate (n - ir.length) 0) (List.replicate n 0) = .ok (0, re, im) ∧ re.length = n ∧ im.length = n ∧
      ∀ k, k < n → ‖sampleAt re im k - response (realValues ir) ((k : ℝ) / n)‖ ≤ n / 2 ^ 35 * kernelSize ir + (2 : ℝ) ^ (-950 : ℤ) := by
  have hx : ∀ t, sampleAt (ir ++ List.replicate (n - ir.length) 0) (List.replicate n 0) t = ((realValues ir).getD t 0 : ℂ) := by
    intro t
    rw [sampleAt, realValues_padded, realValues_zeros, complexAt, getD_padded, getD_zeros]
    rfl
  have hlr : (realValues ir).length = ir.length := by rw [realValues, List.length_map]
  have hb : spectrumBound n (ir ++ List.replicate (n - ir.length) 0) (List.replicate n 0) = kernelSize ir := by
    unfold spectrumBound kernelSize
    rw [← sum_getD_abs, hlr, ← Finset.sum_subset (Finset.range_subset_range.2 hl)]
    · refine Finset.sum_congr rfl fun i _ => ?_
      rw [hx, Complex.norm_real, Real.norm_eq_abs]
    · intro t _ h2
      rw [hx, List.getD_eq_getElem?_getD, List.getElem?_eq_none (by rw [hlr]; simpa using h2)]
      simp
  have hmax : 2 ^ 80 * spectrumBound n (ir ++ List.replicate (n - ir.length) 0) (List.replicate n 0) + 2 ^ 80 ≤ ((doubleMax : ℚ) : ℝ) := by
    rw [hb]
    have e2 := fmax_ge (e := 200) (by norm_num)
    rw [fmax] at e2
    have e3 : (2 : ℝ) ^ 80 * 2 ^ 100 + 2 ^ 80 ≤ (2 : ℝ) ^ (200 : ℤ) := by norm_num
    have e4 := mul_le_mul_of_nonneg_left hs (by norm_num : (0 : ℝ) ≤ 2 ^ 80)
    linarith
  have hlen : (ir ++ List.replicate (n - ir.length) (0 : Fl rnd)).length = n := by simp; omega
  obtain ⟨re, im, f1, f2, f3, f4, -⟩ := C133_fft h ht (n := n) (re := ir ++ List.replicate (n - ir.length) 0) (im := List.replicate n 0) hn (by rw [hlen]; simp)
    (by rw [hlen]) hmax
  refine ⟨re, im, f1, by rw [f2, hlen], by rw [f3, List.length_replicate], fun k hk => ?_⟩
  have := f4 k hk
  rw [hb, dft_padded (ir := realValues ir) (by rw [hlr]; exact hl) k _ hx] at this
  exact this

private theorem norm_delay (d : Nat) (f : ℝ) : ‖delayResponse d f‖ = 1 := by
  rw [delayResponse, show (-2 * Real.pi * Complex.I * f * d : ℂ) = ((-2 * Real.pi * f * d : ℝ) : ℂ) * Complex.I by push_cast; ring]
  exact Complex.norm_exp_ofReal_mul_I _

/-- Bounds of the elements from bounds of the response. -/
private theorem element_bounds {z w : ℂ} {d : Nat} {f ε δ : ℝ} (h1 : ‖z - w‖ ≤ δ) :
    (‖w - delayResponse d f‖ ≤ ε → |‖z‖ - 1| ≤ ε + δ) ∧ (‖w‖ ≤ ε → ‖z‖ ≤ ε + δ) := by
  constructor
  · intro h2
    have h3 := abs_norm_sub_norm_le z (delayResponse d f)
    rw [norm_delay] at h3
    have h4 := norm_sub_le_norm_sub_add_norm_sub z w (delayResponse d f)
    linarith
  · intro h2
    have h4 := norm_le_norm_add_norm_sub w z
    rw [norm_sub_rev] at h4
    linarith

private theorem error_le {n : Nat} {K L W a b c : ℝ} (hn : 1 ≤ n) (hK : K ≤ W) (hL : L ≤ n) (ha : 0 < a) (hb : 1 / a + W / 2 ^ 35 + 1 / 2 ^ 50 ≤ b) :
    c + L / a + (n / 2 ^ 35 * K + (2 : ℝ) ^ (-950 : ℤ)) ≤ c + n * b := by
  have hδ : (2 : ℝ) ^ (-950 : ℤ) ≤ 1 / 2 ^ 50 := by
    rw [show (1 : ℝ) / 2 ^ 50 = 2 ^ (-50 : ℤ) by norm_num]
    exact zpow_le_zpow_right₀ (by norm_num) (by norm_num)
  have hn' : (1 : ℝ) ≤ n := by exact_mod_cast hn
  have h1 : L / a ≤ n * (1 / a) := by
    rw [mul_one_div]
    exact div_le_div_of_nonneg_right hL ha.le
  have h2 : (n : ℝ) / 2 ^ 35 * K ≤ n * (W / 2 ^ 35) := by
    rw [show (n : ℝ) * (W / 2 ^ 35) = n / 2 ^ 35 * W by ring]
    exact mul_le_mul_of_nonneg_left hK (by positivity)
  have h3 : (1 : ℝ) / 2 ^ 50 ≤ n * (1 / 2 ^ 50) := by
    have := mul_le_mul_of_nonneg_right hn' (by norm_num : (0 : ℝ) ≤ 1 / 2 ^ 50)
    linarith
  have h4 := mul_le_mul_of_nonneg_left hb (by linarith : (0 : ℝ) ≤ n)
  have h5 : (n : ℝ) * (1 / a + W / 2 ^ 35 + 1 / 2 ^ 50) = n * (1 / a) + n * (W / 2 ^ 35) + n * (1 / 2 ^ 50) := by ring
  linarith

private theorem freq_abs {k n : Nat} : |((k : ℝ) / n)| = (k : ℝ) / n := abs_of_nonneg (by positivity)

private theorem le_freq {k n : Nat} (hk : k < n) {q : ℚ} : ((q : ℚ) : ℝ) ≤ (k : ℝ) / n ↔ q * n ≤ k := by
  have hn : (0 : ℝ) < n := by exact_mod_cast (by omega : 0 < n)
  rw [le_div_iff₀ hn]
  exact_mod_cast Iff.rfl

private theorem freq_le {k n : Nat} (hk : k < n) {q : ℚ} : (k : ℝ) / n ≤ ((q : ℚ) : ℝ) ↔ (k : ℚ) ≤ q * n := by
  have hn : (0 : ℝ) < n := by exact_mod_cast (by omega : 0 < n)
  rw [div_le_iff₀ hn]
  exact_mod_cast Iff.rfl

private theorem freq_half {k n : Nat} (hk : k < n) (h : 2 * k ≤ n) : (k : ℝ) / n ≤ 1 / 2 := by
  have hn : (0 : ℝ) < n := by exact_mod_cast (by omega : 0 < n)
  rw [div_le_iff₀ hn]
  have : (2 : ℝ) * k ≤ n := by exact_mod_cast h
  linarith

/-- **C183, low-pass.** The elements of the first half of the spectrum of a low-pass kernel made by the library with numbers of type double have the size 1 up to
cutoff - transition and 0 from cutoff + transition on, up to `1 / 75`, `1 / 150` and `n / 2 ^ 29`. -/
theorem C183_double_low_pass (h : RoundsToNearest rnd) [Trig (Fl rnd)] (ht : TrigAccurate rnd) (ht' : LibmAccurate rnd) (junk : Fl rnd) {c t : Fl rnd} (hc : IsDouble c.val)
    (t0 : 4 / 1073741824 ≤ t.val) (h0 : t.val ≤ c.val) (h1 : c.val ≤ 1 / 2) :
    ∃ ir : List (Fl rnd), lpHpIr junk c t false = .ok ir ∧ ∀ n, ir.length ≤ n → n < 4294967296 →
      ∃ re im, spFft n (ir ++ List.replicate (n - ir.length) 0) (List.replicate n 0) = .ok (0, re, im) ∧ re.length = n ∧ im.length = n ∧ ∀ k, k < n → 2 * k ≤ n →
        (k ≤ (c.val - t.val) * n → |‖sampleAt re im k‖ - 1| ≤ 1 / 75 + n * (1 / 2 ^ 29)) ∧
        ((c.val + t.val) * n ≤ k → ‖sampleAt re im k‖ ≤ 1 / 150 + n * (1 / 2 ^ 29)) := by
  obtain ⟨ir, i1, -, i2⟩ := C169_double_low_pass h ht' junk hc (le_trans (by norm_num) t0) h0 h1
  have hsize := (C169_double_sizes h ht' junk hc t0 h0 h1 (ir := ir)).1 i1
  refine ⟨ir, i1, fun n hl hn => ?_⟩
  obtain ⟨re, im, e, e1, e2, e3⟩ := C183_double_response h ht ir hn hl (hsize.trans (by norm_num))
  refine ⟨re, im, e, e1, e2, fun k hk hk2 => ?_⟩
  have hL : (ir.length : ℝ) ≤ n := by exact_mod_cast hl
  obtain ⟨g1, g2⟩ := i2 ((k : ℝ) / n)
  rw [freq_abs] at g1 g2
  refine ⟨fun hf => ?_, fun hf => ?_⟩
  · refine ((element_bounds (e3 k hk)).1 (g1 ?_)).trans (error_le (by omega) hsize hL (by norm_num) (by norm_num))
    have := (freq_le hk).2 hf
    push_cast at this
    exact this
  · refine ((element_bounds (d := 0) (f := 0) (e3 k hk)).2 (g2 ?_ (freq_half hk hk2))).trans (error_le (by omega) hsize hL (by norm_num) (by norm_num))
    have := (le_freq hk).2 hf
    push_cast at this
    exact this

/-- **C183, high-pass.** The other way around. -/
theorem C183_double_high_pass (h : RoundsToNearest rnd) [Trig (Fl rnd)] (ht : TrigAccurate rnd) (ht' : LibmAccurate rnd) (junk : Fl rnd) {c t : Fl rnd} (hc : IsDouble c.val)
    (t0 : 4 / 1073741824 ≤ t.val) (h0 : t.val ≤ c.val) (h1 : c.val ≤ 1 / 2) :
    ∃ ir : List (Fl rnd), lpHpIr junk c t true = .ok ir ∧ ∀ n, ir.length ≤ n → n < 4294967296 →
      ∃ re im, spFft n (ir ++ List.replicate (n - ir.length) 0) (List.replicate n 0) = .ok (0, re, im) ∧ re.length = n ∧ im.length = n ∧ ∀ k, k < n → 2 * k ≤ n →
        (k ≤ (c.val - t.val) * n → ‖sampleAt re im k‖ ≤ 1 / 75 + n * (1 / 2 ^ 29)) ∧
        ((c.val + t.val) * n ≤ k → |‖sampleAt re im k‖ - 1| ≤ 1 / 150 + n * (1 / 2 ^ 29)) := by
  obtain ⟨ir, i1, -, i2⟩ := C169_double_high_pass h ht' junk hc (le_trans (by norm_num) t0) h0 h1
  have hsize := (C169_double_sizes h ht' junk hc t0 h0 h1 (ir := ir)).2 i1
  refine ⟨ir, i1, fun n hl hn => ?_⟩
  obtain ⟨re, im, e, e1, e2, e3⟩ := C183_double_response h ht ir hn hl (hsize.trans (by norm_num))
  refine ⟨re, im, e, e1, e2, fun k hk hk2 => ?_⟩
  have hL : (ir.length : ℝ) ≤ n := by exact_mod_cast hl
  obtain ⟨g1, g2⟩ := i2 ((k : ℝ) / n)
  rw [freq_abs] at g1 g2
  refine ⟨fun hf => ?_, fun hf => ?_⟩
  · refine ((element_bounds (d := 0) (f := 0) (e3 k hk)).2 (g1 ?_)).trans (error_le (by omega) hsize hL (by norm_num) (by norm_num))
    have := (freq_le hk).2 hf
    push_cast at this
    exact this
  · refine ((element_bounds (e3 k hk)).1 (g2 ?_ (freq_half hk hk2))).trans (error_le (by omega) hsize hL (by norm_num) (by norm_num))
    have := (le_freq hk).2 hf
    push_cast at this
    exact this

/-- **C183, band-pass.** -/
theorem C183_double_band_pass (h : RoundsToNearest rnd) [Trig (Fl rnd)] (ht : TrigAccurate rnd) (ht' : LibmAccurate rnd) (junk : Fl rnd) {cl ch tl th : Fl rnd}
    (hcl : IsDouble cl.val) (hch : IsDouble ch.val) (tl0 : 4 / 1073741824 ≤ tl.val) (th0 : 4 / 1073741824 ≤ th.val) (h0 : tl.val ≤ cl.val)
    (hm : cl.val + tl.val ≤ ch.val - th.val) (h1 : ch.val < 1 / 2) :
    ∃ ir : List (Fl rnd), bpBrIr junk cl ch tl th false = .ok (ir, 3) ∧ ∀ n, ir.length ≤ n → n < 4294967296 →
      ∃ re im, spFft n (ir ++ List.replicate (n - ir.length) 0) (List.replicate n 0) = .ok (0, re, im) ∧ re.length = n ∧ im.length = n ∧ ∀ k, k < n → 2 * k ≤ n →
        (k ≤ (cl.val - tl.val) * n → ‖sampleAt re im k‖ ≤ 1 / 70 + n * (1 / 2 ^ 25)) ∧
        ((cl.val + tl.val) * n ≤ k → k ≤ (ch.val - th.val) * n → |‖sampleAt re im k‖ - 1| ≤ 1 / 45 + n * (1 / 2 ^ 25)) ∧
        ((ch.val + th.val) * n ≤ k → ‖sampleAt re im k‖ ≤ 1 / 70 + n * (1 / 2 ^ 25)) := by
  obtain ⟨ir, i1, -, -, hsize, i2⟩ := C169_double_band_pass h ht' junk hcl hch tl0 th0 h0 hm h1
  refine ⟨ir, i1, fun n hl hn => ?_⟩
  obtain ⟨re, im, e, e1, e2, e3⟩ := C183_double_response h ht ir hn hl (hsize.trans (by norm_num))
  refine ⟨re, im, e, e1, e2, fun k hk hk2 => ?_⟩
  have hL : (ir.length : ℝ) ≤ n := by exact_mod_cast hl
  obtain ⟨g1, g2, g3⟩ := i2 ((k : ℝ) / n)
  rw [freq_abs] at g1 g2 g3
  refine ⟨fun hf => ?_, fun hf hf' => ?_, fun hf => ?_⟩
  · refine ((element_bounds (d := 0) (f := 0) (e3 k hk)).2 (g1 ?_)).trans (error_le (by omega) hsize hL (by norm_num) (by norm_num))
    have := (freq_le hk).2 hf
    push_cast at this
    exact this
  · refine ((element_bounds (e3 k hk)).1 (g2 ?_ ?_)).trans (error_le (by omega) hsize hL (by norm_num) (by norm_num))
    · have := (le_freq hk).2 hf
      push_cast at this
      exact this
    · have := (freq_le hk).2 hf'
      push_cast at this
      exact this
  · refine ((element_bounds (d := 0) (f := 0) (e3 k hk)).2 (g3 ?_ (freq_half hk hk2))).trans (error_le (by omega) hsize hL (by norm_num) (by norm_num))
    have := (le_freq hk).2 hf
    push_cast at this
    exact this

/-- **C183, band-reject.** -/
theorem C183_double_band_reject (h : RoundsToNearest rnd) [Trig (Fl rnd)] (ht : TrigAccurate rnd) (ht' : LibmAccurate rnd) (junk : Fl rnd) {cl ch tl th : Fl rnd}
    (hcl : IsDouble cl.val) (hch : IsDouble ch.val) (tl0 : 4 / 1073741824 ≤ tl.val) (th0 : 4 / 1073741824 ≤ th.val) (h0 : tl.val ≤ cl.val)
    (hm : cl.val + tl.val ≤ ch.val - th.val) (h1 : ch.val < 1 / 2) :
    ∃ ir : List (Fl rnd), bpBrIr junk cl ch tl th true = .ok (ir, 1) ∧ ∀ n, ir.length ≤ n → n < 4294967296 →
      ∃ re im, spFft n (ir ++ List.replicate (n - ir.length) 0) (List.replicate n 0) = .ok (0, re, im) ∧ re.length = n ∧ im.length = n ∧ ∀ k, k < n → 2 * k ≤ n →
        (k ≤ (cl.val - tl.val) * n → |‖sampleAt re im k‖ - 1| ≤ 2 / 75 + n * (1 / 2 ^ 29)) ∧
        ((cl.val + tl.val) * n ≤ k → k ≤ (ch.val - th.val) * n → ‖sampleAt re im k‖ ≤ 1 / 50 + n * (1 / 2 ^ 29)) ∧
        ((ch.val + th.val) * n ≤ k → |‖sampleAt re im k‖ - 1| ≤ 2 / 75 + n * (1 / 2 ^ 29)) := by
  obtain ⟨ir, i1, -, -, hsize, i2⟩ := C169_double_band_reject h ht' junk hcl hch tl0 th0 h0 hm h1
  refine ⟨ir, i1, fun n hl hn => ?_⟩
  obtain ⟨re, im, e, e1, e2, e3⟩ := C183_double_response h ht ir hn hl (hsize.trans (by norm_num))
  refine ⟨re, im, e, e1, e2, fun k hk hk2 => ?_⟩
  have hL : (ir.length : ℝ) ≤ n := by exact_mod_cast hl
  obtain ⟨g1, g2, g3⟩ := i2 ((k : ℝ) / n)
  rw [freq_abs] at g1 g2 g3
  refine ⟨fun hf => ?_, fun hf hf' => ?_, fun hf => ?_⟩
  · refine ((element_bounds (e3 k hk)).1 (g1 ?_)).trans (error_le (by omega) hsize hL (by norm_num) (by norm_num))
    have := (freq_le hk).2 hf
    push_cast at this
    exact this
  · refine ((element_bounds (d := 0) (f := 0) (e3 k hk)).2 (g2 ?_ ?_)).trans (error_le (by omega) hsize hL (by norm_num) (by norm_num))
    · have := (le_freq hk).2 hf
      push_cast at this
      exact this
    · have := (freq_le hk).2 hf'
      push_cast at this
      exact this
  · refine ((element_bounds (e3 k hk)).1 (g3 ?_ (freq_half hk hk2))).trans (error_le (by omega) hsize hL (by norm_num) (by norm_num))
    have := (le_freq hk).2 hf
    push_cast at this
    exact this

/-! ### A case -/

attribute [local instance] kernelLibm

/-- A low-pass kernel with cutoff 1/16 and transition 1/32, transformed over 2^23 elements: the element for 1/64 of the sampling rate is 1 and the one for 1/4 is 0, up
to 1/33. -/
example : ∃ ir re im : List (Fl nearestDouble), lpHpIr (⟨7⟩ : Fl nearestDouble) ⟨1 / 16⟩ ⟨1 / 32⟩ false = .ok ir ∧
    spFft (2 ^ 23) (ir ++ List.replicate (2 ^ 23 - ir.length) 0) (List.replicate (2 ^ 23) 0) = .ok (0, re, im) ∧
    |‖sampleAt re im (2 ^ 17)‖ - 1| ≤ 1 / 33 ∧ ‖sampleAt re im (2 ^ 21)‖ ≤ 1 / 40 := by
  have hd : IsDouble (1 / 16) := ⟨1, -4, by norm_num, by norm_num, by norm_num, by norm_num⟩
  obtain ⟨ir, i1, i2⟩ := C183_double_low_pass nearestDouble_rounds kernelLibm_trig kernelLibm_accurate ⟨7⟩ (c := ⟨1 / 16⟩) (t := ⟨1 / 32⟩) hd (by norm_num) (by norm_num)
    (by norm_num)
  have hl : ir.length ≤ 4194307 := by
    obtain ⟨k, k1, k2, -⟩ := C169_double_tone_low_pass (F := Unit) nearestDouble_rounds kernelLibm_accurate ⟨7⟩ (c := ⟨1 / 16⟩)
      (t := ⟨1 / 32⟩) hd (by norm_num) (by norm_num) (by norm_num)
    rw [i1] at k1
    rw [Except.ok.inj k1]
    exact k2
  obtain ⟨re, im, e, -, -, f⟩ := i2 (2 ^ 23) (hl.trans (by norm_num)) (by norm_num)
  refine ⟨ir, re, im, i1, e, ?_, ?_⟩
  · refine ((f (2 ^ 17) (by norm_num) (by norm_num)).1 (by norm_num)).trans ?_
    norm_num
  · refine ((f (2 ^ 21) (by norm_num) (by norm_num)).2 (by norm_num)).trans ?_
    norm_num

end Sp
