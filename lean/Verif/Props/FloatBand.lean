import Verif.Props.FloatLowPass
import Verif.Lemmas.FloatBand

/-! # C169: band-pass and band-reject filters in double precision -/

set_option linter.unusedSectionVars false

noncomputable section

namespace Sp
variable {rnd : ℚ → ℚ}

/-- Both kernels of a cutoff, with their responses. -/
theorem both_kernels (h : RoundsToNearest rnd) [Trig (Fl rnd)] (ht : LibmAccurate rnd) (junk : Fl rnd) {c t : Fl rnd} (hc : IsDouble c.val)
    (t0 : 4 / 1073741824 ≤ t.val) (h0 : t.val ≤ c.val) (h1 : c.val ≤ 1 / 2) :
    ∃ (M : Nat) (y z : Nat → Fl rnd), M ≤ 536870914 ∧ ((2 * M + 1 : Nat) : ℚ) ≤ 4 / t.val + 3 ∧ lpHpIr junk c t false = .ok (tab (2 * M + 1) y) ∧ lpHpIr junk c t true = .ok (tab (2 * M + 1) z) ∧
      ∑ k ∈ Finset.range (2 * M + 1), |((y k).val : ℝ)| ≤ 17 ∧ ∑ k ∈ Finset.range (2 * M + 1), |((z k).val : ℝ)| ≤ 36 ∧ ∀ f : ℝ,
      ((|f| ≤ c.val - t.val → ‖response (realValues (tab (2 * M + 1) y)) f - delayResponse M f‖ ≤ 1 / 75 + ((2 * M + 1 : Nat) : ℝ) / 2 ^ 40) ∧
      (c.val + t.val ≤ |f| → |f| ≤ 1 / 2 → ‖response (realValues (tab (2 * M + 1) y)) f‖ ≤ 1 / 150 + ((2 * M + 1 : Nat) : ℝ) / 2 ^ 40)) ∧
      ((|f| ≤ c.val - t.val → ‖response (realValues (tab (2 * M + 1) z)) f‖ ≤ 1 / 75 + ((2 * M + 1 : Nat) : ℝ) / 2 ^ 40) ∧
      (c.val + t.val ≤ |f| → |f| ≤ 1 / 2 →
        ‖response (realValues (tab (2 * M + 1) z)) f - delayResponse M f‖ ≤ 1 / 150 + ((2 * M + 1 : Nat) : ℝ) / 2 ^ 40)) := by
  have t00 : 0 < t.val := lt_of_lt_of_le (by norm_num) t0
  have t4 : 4 / t.val ≤ 1073741824 := by
    rw [div_le_iff₀ (by norm_num)] at t0
    rw [div_le_iff₀ t00]
    linarith
  have t0' : 4 / 4294967294 ≤ t.val := le_trans (by norm_num) t0
  obtain ⟨M, e, hM, hlt, hd, c1, -, -, -⟩ := double_facts h t0' h0 h1
  obtain ⟨n, e', -, -, l2⟩ := C167_length h t00 (t4.trans (by norm_num)) (by linarith)
  have en : n = 2 * M + 1 := by rw [e] at e'; exact (Except.ok.inj e').symm
  have hM' : M ≤ 536870914 := by
    have h3 : (n : ℚ) < 1073741828 := by
      refine lt_of_lt_of_le l2 ?_
      have := mul_le_mul_of_nonneg_left t4 (by norm_num : (0 : ℚ) ≤ 1 + 1 / 2 ^ 53)
      linarith
    have h4 : n < 1073741828 := by exact_mod_cast h3
    omega
  obtain ⟨b1, b2⟩ := errorBound_le hM hlt hd c1
  obtain ⟨y, z, y1, z1, y2, z2⟩ := kernel_sizes h ht junk hc (le_trans (by norm_num) (t0'.trans h0)) h1 e (by omega) b1 (b2.trans (bound_small hlt))
    (cancellation_le hM hlt hd c1)
  obtain ⟨ir, i1, -, i2⟩ := C169_double_low_pass h ht junk hc t0' h0 h1
  obtain ⟨ir', i1', -, i2'⟩ := C169_double_high_pass h ht junk hc t0' h0 h1
  obtain rfl : tab (2 * M + 1) y = ir := by rw [y1] at i1; exact Except.ok.inj i1
  obtain rfl : tab (2 * M + 1) z = ir' := by rw [z1] at i1'; exact Except.ok.inj i1'
  refine ⟨M, y, z, hM', by rw [← en]; linarith, y1, z1, y2, z2, fun f => ⟨?_, ?_⟩⟩
  · have := i2 f
    rw [tab_length, show (2 * M + 1 - 1) / 2 = M by omega] at this
    exact this
  · have := i2' f
    rw [tab_length, show (2 * M + 1 - 1) / 2 = M by omega] at this
    exact this

/-- Comparison with the highest frequency. -/
private theorem not_half_le (h : RoundsToNearest rnd) {c : Fl rnd} (hc : c.val < 1 / 2) : ¬ (0.5 : Fl rnd) ≤ c := by
  have e : ((0.5 : Fl rnd)).val = 1 / 2 := by
    change rnd (OfScientific.ofScientific 5 true 1) = _
    have : (OfScientific.ofScientific 5 true 1 : ℚ) = 1 / 2 := by norm_num
    rw [this]
    exact h.exact ⟨1, -1, by norm_num, by norm_num, by norm_num, by norm_num⟩
  rw [Fl.le_def, e, not_le]
  exact hc

private theorem not_le_zero {c : Fl rnd} (hc : 0 < c.val) : ¬ (0 : Fl rnd) ≥ c := by
  intro h
  have : c.val ≤ 0 := h
  linarith

private theorem norm_near {z w : ℂ} {a b : ℝ} (h1 : ‖z - w‖ ≤ a) (h2 : ‖w‖ ≤ b) : ‖z‖ ≤ b + a := by
  have := norm_add_le (z - w) w
  rw [sub_add_cancel] at this
  linarith

private theorem norm_near' {z w d : ℂ} {a b : ℝ} (h1 : ‖z - w‖ ≤ a) (h2 : ‖w - d‖ ≤ b) : ‖z - d‖ ≤ b + a := by
  have := norm_add_le (z - w) (w - d)
  rw [sub_add_sub_cancel] at this
  linarith

/-- The errors of two kernels that are used one after the other. -/
private theorem product_bounds {L H D D' : ℂ} (d1 : ‖D‖ = 1) (d2 : ‖D'‖ = 1) {x y N : ℝ} (x0 : 0 ≤ x) (y0 : 0 ≤ y) (x1 : x ≤ 1 / 512) (y1 : y ≤ 1 / 512)
    (hN : x + y ≤ N) :
    (‖L - D‖ ≤ 1 / 75 + x → ‖H‖ ≤ 1 / 75 + y → ‖L * H‖ ≤ 1 / 70 + 3 / 2 * N) ∧
    (‖L - D‖ ≤ 1 / 75 + x → ‖H - D'‖ ≤ 1 / 150 + y → ‖L * H - D * D'‖ ≤ 1 / 45 + 3 / 2 * N) ∧
    (‖L‖ ≤ 1 / 150 + x → ‖H - D'‖ ≤ 1 / 150 + y → ‖L * H‖ ≤ 1 / 70 + 3 / 2 * N) := by
  have hL : ‖L‖ ≤ 1 + ‖L - D‖ := by
    have := norm_add_le D (L - D)
    rw [add_sub_cancel, d1] at this
    exact this
  have hH : ‖H‖ ≤ 1 + ‖H - D'‖ := by
    have := norm_add_le D' (H - D')
    rw [add_sub_cancel, d2] at this
    exact this
  have hxy : x * y ≤ 1 / 512 * y := mul_le_mul_of_nonneg_right x1 y0
  refine ⟨fun a b => ?_, fun a b => ?_, fun a b => ?_⟩
  · rw [norm_mul]
    have h5 : ‖L‖ ≤ 76 / 75 + x := by linarith
    have := mul_le_mul h5 b (norm_nonneg _) (by linarith)
    nlinarith
  · have e : L * H - D * D' = (L - D) * H + D * (H - D') := by ring
    rw [e]
    refine (norm_add_le _ _).trans ?_
    rw [norm_mul, norm_mul, d1, one_mul]
    have h5 : ‖H‖ ≤ 151 / 150 + y := by linarith
    have := mul_le_mul a h5 (norm_nonneg _) (by linarith)
    nlinarith
  · rw [norm_mul]
    have h5 : ‖H‖ ≤ 151 / 150 + y := by linarith
    have := mul_le_mul a h5 (norm_nonneg _) (by linarith)
    nlinarith

/-- **C169, band-pass in double precision.** The kernel exists, with errors that grow with its length by less than `2 ^ -38` per element. -/
theorem C169_double_band_pass (h : RoundsToNearest rnd) [Trig (Fl rnd)] (ht : LibmAccurate rnd) (junk : Fl rnd) {cl ch tl th : Fl rnd}
    (hcl : IsDouble cl.val) (hch : IsDouble ch.val) (tl0 : 4 / 1073741824 ≤ tl.val) (th0 : 4 / 1073741824 ≤ th.val) (h0 : tl.val ≤ cl.val)
    (hm : cl.val + tl.val ≤ ch.val - th.val) (h1 : ch.val < 1 / 2) :
    ∃ ir : List (Fl rnd), bpBrIr junk cl ch tl th false = .ok (ir, 3) ∧ 1 ≤ ir.length ∧ (ir.length : ℚ) ≤ 4 / tl.val + 4 / th.val + 5 ∧ kernelSize ir ≤ 613 ∧ ∀ f : ℝ,
      (|f| ≤ cl.val - tl.val → ‖response (realValues ir) f‖ ≤ 1 / 70 + ir.length / 2 ^ 38) ∧
      (cl.val + tl.val ≤ |f| → |f| ≤ ch.val - th.val →
        ‖response (realValues ir) f - delayResponse ((ir.length - 1) / 2) f‖ ≤ 1 / 45 + ir.length / 2 ^ 38) ∧
      (ch.val + th.val ≤ |f| → |f| ≤ 1 / 2 → ‖response (realValues ir) f‖ ≤ 1 / 70 + ir.length / 2 ^ 38) := by
  have tl00 : 0 < tl.val := lt_of_lt_of_le (by norm_num) tl0
  have th00 : 0 < th.val := lt_of_lt_of_le (by norm_num) th0
  obtain ⟨m, _, z, hm', zl, -, z1, -, z2, z3⟩ := both_kernels h ht junk hcl tl0 h0 (by linarith)
  obtain ⟨n, y, _, hn', yl, y1, -, y2, -, y3⟩ := both_kernels h ht junk hch th0 (by linarith) h1.le
  obtain ⟨out, o1, o2, o4, o3⟩ := convolution_response h y z (by omega : 0 < 2 * n + 1) (by omega : 0 < 2 * m + 1) (by omega) y2 z2
  have e : bpBrIr junk cl ch tl th false = .ok (out, 3) := by
    rw [bpBrIr, if_neg (by simp), if_neg (not_le_zero (by linarith)), if_neg (not_half_le h h1), z1, y1]
    simp only [ok_bind']
    rw [tab_length, tab_length, u32_of_lt (by omega), sub32_of_le (by omega) (by omega), o1]
    rfl
  refine ⟨out, e, by omega, ?_, o4, fun f => ?_⟩
  · rw [o2, Nat.cast_sub (by omega), Nat.cast_add]
    push_cast at yl zl ⊢
    linarith
  have key := o3 f
  obtain ⟨a1, a2⟩ := (y3 f).1
  obtain ⟨b1, b2⟩ := (z3 f).2
  have hD : delayResponse ((out.length - 1) / 2) f = delayResponse n f * delayResponse m f := by
    rw [delayResponse_eq, delayResponse_eq, delayResponse_eq, ← pow_add, o2]
    congr 1
    omega
  have len : ((2 * n + 1 : Nat) : ℝ) / 2 ^ 40 + ((2 * m + 1 : Nat) : ℝ) / 2 ^ 40 ≤ 2 * (((2 * n + 1 + (2 * m + 1) - 1 : Nat) : ℝ) / 2 ^ 40) := by
    have : 2 * n + 1 + (2 * m + 1) ≤ 2 * (2 * n + 1 + (2 * m + 1) - 1) := by omega
    have h2 : ((2 * n + 1 : Nat) : ℝ) + ((2 * m + 1 : Nat) : ℝ) ≤ 2 * ((2 * n + 1 + (2 * m + 1) - 1 : Nat) : ℝ) := by exact_mod_cast this
    rw [← add_div, ← mul_div_assoc]
    exact div_le_div_of_nonneg_right h2 (by norm_num)
  have small : ∀ k, k ≤ 536870914 → ((2 * k + 1 : Nat) : ℝ) / 2 ^ 40 ≤ 1 / 512 := by
    intro k hk
    have : ((2 * k + 1 : Nat) : ℝ) ≤ 1073741829 := by
      have : 2 * k + 1 ≤ 1073741829 := by omega
      exact_mod_cast this
    rw [div_le_iff₀ (by norm_num)]
    linarith
  obtain ⟨p1, p2, p3⟩ := product_bounds (L := response (realValues (tab (2 * n + 1) y)) f) (H := response (realValues (tab (2 * m + 1) z)) f)
    (norm_delayResponse n f) (norm_delayResponse m f) (by positivity) (by positivity) (small n hn') (small m hm') len
  have tcl : ((cl.val : ℚ) : ℝ) + tl.val ≤ ch.val - th.val := by exact_mod_cast hm
  have tl0' : (0 : ℝ) < tl.val := by exact_mod_cast tl00
  have th0' : (0 : ℝ) < th.val := by exact_mod_cast th00
  have h1' : ((ch.val : ℚ) : ℝ) < 1 / 2 := by
    have := (Rat.cast_lt (K := ℝ)).2 h1
    push_cast at this
    exact this
  rw [o2]
  have hlen : (0 : ℝ) ≤ ((2 * n + 1 + (2 * m + 1) - 1 : Nat) : ℝ) := Nat.cast_nonneg _
  have fin : ∀ b : ℝ, b + 3 / 2 * (2 * (((2 * n + 1 + (2 * m + 1) - 1 : Nat) : ℝ) / 2 ^ 40)) + ((2 * n + 1 + (2 * m + 1) - 1 : Nat) : ℝ) / 2 ^ 41 ≤
      b + ((2 * n + 1 + (2 * m + 1) - 1 : Nat) : ℝ) / 2 ^ 38 := by
    intro b
    generalize ((2 * n + 1 + (2 * m + 1) - 1 : Nat) : ℝ) = N at *
    linarith
  rw [o2] at hD
  refine ⟨fun hf => ?_, fun hf hf' => ?_, fun hf hf' => ?_⟩
  · exact (norm_near key (p1 (a1 (by linarith)) (b1 hf))).trans (fin _)
  · rw [hD]
    exact (norm_near' key (p2 (a1 hf') (b2 hf (by linarith)))).trans (fin _)
  · exact (norm_near key (p3 (a2 hf hf') (b2 (by linarith) hf'))).trans (fin _)

/-- The sum of two kernels, the shorter one in the middle of the longer one. -/
private theorem sum_kernel (h : RoundsToNearest rnd) {n m : Nat} (hn : n ≤ 536870914) (hm : m ≤ 536870914) (y z : Nat → Fl rnd)
    (y2 : ∑ k ∈ Finset.range (2 * n + 1), |((y k).val : ℝ)| ≤ 17) (z2 : ∑ k ∈ Finset.range (2 * m + 1), |((z k).val : ℝ)| ≤ 36) :
    ∃ out, irAdd (tab (2 * n + 1) y) (tab (2 * m + 1) z) = .ok out ∧ out.length = 2 * max n m + 1 ∧ kernelSize out ≤ 54 ∧ ∀ f,
      ‖response (realValues out) f - (delayResponse (max n m - n) f * response (realValues (tab (2 * n + 1) y)) f +
        delayResponse (max n m - m) f * response (realValues (tab (2 * m + 1) z)) f)‖ ≤ ((2 * max n m + 1 : Nat) : ℝ) / 2 ^ 42 := by
  have d0 : ∀ f, delayResponse 0 f = 1 := fun f => by rw [delayResponse_eq, pow_zero]
  have small : ∀ k, k ≤ 536870914 → (17 : ℝ) + 36 + ((2 * k + 1 : Nat) : ℝ) / 2 ^ 42 ≤ 54 := by
    intro k hk
    have : ((2 * k + 1 : Nat) : ℝ) ≤ 1073741829 := by
      have : 2 * k + 1 ≤ 1073741829 := by omega
      exact_mod_cast this
    have : ((2 * k + 1 : Nat) : ℝ) / 2 ^ 42 ≤ 1 := by
      rw [div_le_one (by norm_num)]
      exact this.trans (by norm_num)
    linarith
  rw [irAdd_tab (by omega) (by omega) (by omega) (by omega)]
  by_cases hc : 2 * n + 1 > 2 * m + 1
  · rw [if_pos hc]
    have e : max n m = n := by omega
    obtain ⟨g, key⟩ := addMiddle_response h y z (s := (2 * n + 1 - 1) / 2 - (2 * m + 1 - 1) / 2) (by omega : _ + (2 * m + 1) ≤ 2 * n + 1) y2 z2 (by norm_num)
    refine ⟨_, rfl, by rw [tab_length, e], g.trans (small n hn), fun f => ?_⟩
    have := key f
    rw [e, Nat.sub_self, d0, one_mul]
    rw [show n - m = (2 * n + 1 - 1) / 2 - (2 * m + 1 - 1) / 2 by omega]
    exact this
  · rw [if_neg hc]
    have e : max n m = m := by omega
    obtain ⟨g, key⟩ := addMiddle_response h z y (s := (2 * m + 1 - 1) / 2 - (2 * n + 1 - 1) / 2) (by omega : _ + (2 * n + 1) ≤ 2 * m + 1) z2 y2 (by norm_num)
    refine ⟨_, rfl, by rw [tab_length, e], g.trans (by have := small m hm; linarith), fun f => ?_⟩
    have := key f
    rw [e, Nat.sub_self, d0, one_mul, add_comm (delayResponse (m - n) f * _)]
    rw [show m - n = (2 * m + 1 - 1) / 2 - (2 * n + 1 - 1) / 2 by omega]
    exact this

/-- **C169, band-reject in double precision.** -/
theorem C169_double_band_reject (h : RoundsToNearest rnd) [Trig (Fl rnd)] (ht : LibmAccurate rnd) (junk : Fl rnd) {cl ch tl th : Fl rnd}
    (hcl : IsDouble cl.val) (hch : IsDouble ch.val) (tl0 : 4 / 1073741824 ≤ tl.val) (th0 : 4 / 1073741824 ≤ th.val) (h0 : tl.val ≤ cl.val)
    (hm : cl.val + tl.val ≤ ch.val - th.val) (h1 : ch.val < 1 / 2) :
    ∃ ir : List (Fl rnd), bpBrIr junk cl ch tl th true = .ok (ir, 1) ∧ 1 ≤ ir.length ∧ (ir.length : ℚ) ≤ max (4 / tl.val) (4 / th.val) + 3 ∧ kernelSize ir ≤ 54 ∧ ∀ f : ℝ,
      (|f| ≤ cl.val - tl.val → ‖response (realValues ir) f - delayResponse ((ir.length - 1) / 2) f‖ ≤ 2 / 75 + ir.length / 2 ^ 38) ∧
      (cl.val + tl.val ≤ |f| → |f| ≤ ch.val - th.val → ‖response (realValues ir) f‖ ≤ 1 / 50 + ir.length / 2 ^ 38) ∧
      (ch.val + th.val ≤ |f| → |f| ≤ 1 / 2 → ‖response (realValues ir) f - delayResponse ((ir.length - 1) / 2) f‖ ≤ 2 / 75 + ir.length / 2 ^ 38) := by
  have tl00 : 0 < tl.val := lt_of_lt_of_le (by norm_num) tl0
  have th00 : 0 < th.val := lt_of_lt_of_le (by norm_num) th0
  obtain ⟨n, y, _, hn', yl, y1, -, y2, -, y3⟩ := both_kernels h ht junk hcl tl0 h0 (by linarith)
  obtain ⟨m, _, z, hm', zl, -, z1, -, z2, z3⟩ := both_kernels h ht junk hch th0 (by linarith) h1.le
  obtain ⟨out, o1, o2, o4, o3⟩ := sum_kernel h hn' hm' y z y2 z2
  have e : bpBrIr junk cl ch tl th true = .ok (out, 1) := by
    rw [bpBrIr, if_pos rfl, if_neg (not_le_zero (by linarith)), if_neg (not_half_le h h1), z1, y1]
    simp only [ok_bind', o1]
    rfl
  refine ⟨out, e, by omega, ?_, o4, fun f => ?_⟩
  · rw [o2]
    rcases le_total n m with hnm | hnm
    · rw [max_eq_right hnm]
      exact zl.trans (add_le_add_left (le_max_right _ _) _)
    · rw [max_eq_left hnm]
      exact yl.trans (add_le_add_left (le_max_left _ _) _)
  have key := o3 f
  obtain ⟨a1, a2⟩ := (y3 f).1
  obtain ⟨b1, b2⟩ := (z3 f).2
  have hD : delayResponse ((out.length - 1) / 2) f = delayResponse (max n m - n) f * delayResponse n f := by
    rw [delayResponse_eq, delayResponse_eq, delayResponse_eq, ← pow_add, o2]
    congr 1
    omega
  have hD' : delayResponse ((out.length - 1) / 2) f = delayResponse (max n m - m) f * delayResponse m f := by
    rw [delayResponse_eq, delayResponse_eq, delayResponse_eq, ← pow_add, o2]
    congr 1
    omega
  have d1 := norm_delayResponse (max n m - n) f
  have d2 := norm_delayResponse (max n m - m) f
  have tcl : ((cl.val : ℚ) : ℝ) + tl.val ≤ ch.val - th.val := by exact_mod_cast hm
  have tl0' : (0 : ℝ) < tl.val := by exact_mod_cast tl00
  have th0' : (0 : ℝ) < th.val := by exact_mod_cast th00
  have h1' : ((ch.val : ℚ) : ℝ) < 1 / 2 := by
    have := (Rat.cast_lt (K := ℝ)).2 h1
    push_cast at this
    exact this
  rw [o2] at hD hD' ⊢
  have fin : ∀ b : ℝ, (b + ((2 * n + 1 : Nat) : ℝ) / 2 ^ 40 + ((2 * m + 1 : Nat) : ℝ) / 2 ^ 40) + ((2 * max n m + 1 : Nat) : ℝ) / 2 ^ 42 ≤
      b + ((2 * max n m + 1 : Nat) : ℝ) / 2 ^ 38 := by
    intro b
    have l1 : ((2 * n + 1 : Nat) : ℝ) ≤ ((2 * max n m + 1 : Nat) : ℝ) := by
      have : 2 * n + 1 ≤ 2 * max n m + 1 := by omega
      exact_mod_cast this
    have l2 : ((2 * m + 1 : Nat) : ℝ) ≤ ((2 * max n m + 1 : Nat) : ℝ) := by
      have : 2 * m + 1 ≤ 2 * max n m + 1 := by omega
      exact_mod_cast this
    have l0 : (0 : ℝ) ≤ ((2 * max n m + 1 : Nat) : ℝ) := Nat.cast_nonneg _
    generalize ((2 * max n m + 1 : Nat) : ℝ) = N at *
    generalize ((2 * n + 1 : Nat) : ℝ) = P at *
    generalize ((2 * m + 1 : Nat) : ℝ) = Q at *
    linarith
  generalize delayResponse (max n m - n) f = A at *
  generalize delayResponse (max n m - m) f = B at *
  generalize response (realValues (tab (2 * n + 1) y)) f = L at *
  generalize response (realValues (tab (2 * m + 1) z)) f = H at *
  refine ⟨fun hf => ?_, fun hf hf' => ?_, fun hf hf' => ?_⟩
  · have x1 := a1 hf
    have x2 := b1 (by linarith)
    refine le_trans (norm_near' key (b := 2 / 75 + ((2 * n + 1 : Nat) : ℝ) / 2 ^ 40 + ((2 * m + 1 : Nat) : ℝ) / 2 ^ 40) ?_) (fin _)
    rw [hD, show ∀ D : ℂ, A * L + B * H - A * D = A * (L - D) + B * H by intro D; ring]
    refine (norm_add_le _ _).trans ?_
    rw [norm_mul, norm_mul, d1, d2]
    linarith
  · have x1 := a2 hf (by linarith)
    have x2 := b1 hf'
    refine le_trans (norm_near key (b := 1 / 50 + ((2 * n + 1 : Nat) : ℝ) / 2 ^ 40 + ((2 * m + 1 : Nat) : ℝ) / 2 ^ 40) ?_) (fin _)
    refine (norm_add_le _ _).trans ?_
    rw [norm_mul, norm_mul, d1, d2]
    linarith
  · have x1 := a2 (by linarith) hf'
    have x2 := b2 hf hf'
    refine le_trans (norm_near' key (b := 2 / 75 + ((2 * n + 1 : Nat) : ℝ) / 2 ^ 40 + ((2 * m + 1 : Nat) : ℝ) / 2 ^ 40) ?_) (fin _)
    rw [hD', show ∀ D : ℂ, A * L + B * H - B * D = A * L + B * (H - D) by intro D; ring]
    refine (norm_add_le _ _).trans ?_
    rw [norm_mul, norm_mul, d1, d2]
    linarith

attribute [local instance] kernelLibm

/-- A band from 1/64 to 1/8 of the sampling rate, with different transitions: the band passes and a tone at 1/4 is stopped, and the other way around. -/
example : (∃ ir : List (Fl nearestDouble), bpBrIr ⟨7⟩ ⟨1 / 64⟩ ⟨1 / 8⟩ ⟨1 / 128⟩ ⟨1 / 64⟩ false = .ok (ir, 3) ∧
      ‖response (realValues ir) (1 / 4)‖ ≤ 1 / 70 + ir.length / 2 ^ 38) ∧
    ∃ ir : List (Fl nearestDouble), bpBrIr ⟨7⟩ ⟨1 / 64⟩ ⟨1 / 8⟩ ⟨1 / 128⟩ ⟨1 / 64⟩ true = .ok (ir, 1) ∧
      ‖response (realValues ir) (1 / 16)‖ ≤ 1 / 50 + ir.length / 2 ^ 38 := by
  have hd : IsDouble (1 / 64) := ⟨1, -6, by norm_num, by norm_num, by norm_num, by norm_num⟩
  have hd' : IsDouble (1 / 8) := ⟨1, -3, by norm_num, by norm_num, by norm_num, by norm_num⟩
  constructor
  · obtain ⟨ir, h1, -, -, -, h2⟩ := C169_double_band_pass nearestDouble_rounds kernelLibm_accurate ⟨7⟩ (cl := ⟨1 / 64⟩) (ch := ⟨1 / 8⟩) (tl := ⟨1 / 128⟩)
      (th := ⟨1 / 64⟩) hd hd' (by norm_num) (by norm_num) (by norm_num) (by norm_num) (by norm_num)
    refine ⟨ir, h1, (h2 _).2.2 ?_ ?_⟩
    · rw [abs_of_pos (by norm_num)]; push_cast; norm_num
    · rw [abs_of_pos (by norm_num)]; norm_num
  · obtain ⟨ir, h1, -, -, -, h2⟩ := C169_double_band_reject nearestDouble_rounds kernelLibm_accurate ⟨7⟩ (cl := ⟨1 / 64⟩) (ch := ⟨1 / 8⟩) (tl := ⟨1 / 128⟩)
      (th := ⟨1 / 64⟩) hd hd' (by norm_num) (by norm_num) (by norm_num) (by norm_num) (by norm_num)
    refine ⟨ir, h1, (h2 _).2.1 ?_ ?_⟩
    · rw [abs_of_pos (by norm_num)]; push_cast; norm_num
    · rw [abs_of_pos (by norm_num)]; push_cast; norm_num

end Sp
