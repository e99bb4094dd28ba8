import Mathlib.NumberTheory.Harmonic.Bounds
import Mathlib.Analysis.Complex.ExponentialBounds
import Verif.Props.LowPass
import Verif.Props.FloatSinc

/-! # C168, C169 in double precision -/

set_option linter.unusedSectionVars false

noncomputable section

namespace Sp
variable {rnd : ℚ → ℚ}

private theorem centered_le_one (M d : Nat) : centered M d ≤ 1 := by
  rw [centered]
  have := Real.cos_le_one (Real.pi * d / M)
  have := Real.cos_le_one (2 * Real.pi * d / M)
  linarith

/-- The sum of the sizes of the values, from the center. -/
private theorem abs_sum {M : Nat} (hM : 0 < M) (c : ℝ) :
    ∑ k ∈ Finset.range (2 * M + 1), |sincKernel c (2 * M + 1) k| =
      1 + 2 * ∑ j ∈ Finset.range M, |centered M (j + 1) * spSinc (2 * c * (j + 1))| := by
  have h := response_symmetric (m := M) (g := fun k => |sincKernel c (2 * M + 1) k|)
    (fun i hi => congrArg abs (sincKernel_symm hi (by omega)).symm) 0
  rw [response_zero, delayResponse_eq, fexp_zero, one_pow, one_mul, sum_tab] at h
  have h' : ∑ k ∈ Finset.range (2 * M + 1), |sincKernel c (2 * M + 1) k| = |sincKernel c (2 * M + 1) M| +
    2 * ∑ j ∈ Finset.range M, |sincKernel c (2 * M + 1) (M - 1 - j)| * Real.cos (2 * Real.pi * 0 * (j + 1)) := by exact_mod_cast h
  rw [h', sincKernel_center hM, abs_one]
  congr 2
  refine Finset.sum_congr rfl fun j hj => ?_
  rw [sincKernel_off c (Finset.mem_range.1 hj), mul_zero, zero_mul, Real.cos_zero, mul_one]

private theorem abs_spSinc_le {c : ℝ} (hc : 0 < c) (j : Nat) : |spSinc (2 * c * ((j : ℝ) + 1))| ≤ 1 / (2 * Real.pi * c) * (1 / (j + 1)) := by
  have hpi := Real.pi_pos
  have h0 : (0 : ℝ) < 2 * c * (j + 1) := by positivity
  rw [spSinc_real, if_neg h0.ne, abs_div, abs_of_pos (by positivity : 0 < Real.pi * (2 * c * ((j : ℝ) + 1)))]
  refine (div_le_div_of_nonneg_right (Real.abs_sin_le_one _) (by positivity)).trans (le_of_eq ?_)
  field_simp

private theorem harmonic_bound {M : Nat} (hM0 : 0 < M) (hM : M < 2147483648) : ∑ j ∈ Finset.range M, 1 / ((j : ℝ) + 1) ≤ 22.5 := by
  have h := harmonic_le_one_add_log M
  have e : ((harmonic M : ℚ) : ℝ) = ∑ j ∈ Finset.range M, 1 / ((j : ℝ) + 1) := by
    rw [harmonic, Rat.cast_sum]
    refine Finset.sum_congr rfl fun j _ => ?_
    push_cast
    rw [one_div]
  rw [e] at h
  have h1 : Real.log M ≤ Real.log (2 ^ 31) := by
    refine Real.log_le_log (by exact_mod_cast hM0) ?_
    have : (M : ℝ) ≤ 2147483648 := by exact_mod_cast hM.le
    linarith
  rw [Real.log_pow] at h1
  have h2 := Real.log_two_lt_d9
  push_cast at h1
  linarith

/-- How much the values cancel each other is bounded for all lengths. -/
theorem cancellation_le {M : Nat} (hM : 4 ≤ M) (hM2 : 2 * M + 1 < 4294967296) {c : ℝ} (hc0 : 3 / (2 * M) ≤ c) (hc1 : c ≤ 1 / 2) :
    sincCancellation c (2 * M + 1) ≤ 16 := by
  have hpi := Real.pi_pos
  have hpi2 := Real.pi_gt_d2
  have hpi3 := Real.pi_lt_d2
  have hM0 : (0 : ℝ) < M := by
    have : 0 < M := by omega
    exact_mod_cast this
  have hM4 : (4 : ℝ) ≤ M := by exact_mod_cast hM
  have hδ0 : 0 < 3 / (2 * (M : ℝ)) := by positivity
  have hδ1 : 3 / (2 * (M : ℝ)) ≤ 1 / 2 := by rw [div_le_div_iff₀ (by positivity) (by norm_num)]; linarith
  have hcp : 0 < c := by linarith
  have hP : 3.11 ≤ stepP M (2 * Real.pi * c) := by
    have e : 3 * (Real.pi / M) = 2 * Real.pi * (3 / (2 * M)) := by field_simp
    have := stepP_near' hM (x := 2 * Real.pi * c) (by rw [e]; exact mul_le_mul_of_nonneg_left hc0 (by positivity)) (by
      rw [e]
      have := mul_le_mul_of_nonneg_left (by linarith : c ≤ 1 - 3 / (2 * (M : ℝ))) (by positivity : 0 ≤ 2 * Real.pi)
      linarith)
    rw [abs_le] at this
    linarith
  have hS := kernelSum_step (M := M) (by omega) hcp.ne'
  have hS1 := one_le_kernelSum (n := 2 * M + 1) (c := c) (by omega) (by omega) (by rw [abs_of_pos hcp]; exact hc1)
  have hA : ∑ k ∈ Finset.range (2 * M + 1), |sincKernel c (2 * M + 1) k| ≤ 1 + 2 * (1 / (2 * Real.pi * c) * 22.5) := by
    rw [abs_sum (by omega)]
    have : ∑ j ∈ Finset.range M, |centered M (j + 1) * spSinc (2 * c * (j + 1))| ≤ ∑ j ∈ Finset.range M, 1 / (2 * Real.pi * c) * (1 / ((j : ℝ) + 1)) := by
      refine Finset.sum_le_sum fun j _ => ?_
      rw [abs_mul, abs_of_nonneg (centered_nonneg _ _)]
      exact (mul_le_of_le_one_left (abs_nonneg _) (centered_le_one _ _)).trans (abs_spSinc_le hcp j)
    rw [← Finset.mul_sum] at this
    have h2 := mul_le_mul_of_nonneg_left (harmonic_bound (by omega : 0 < M) (by omega)) (by positivity : 0 ≤ 1 / (2 * Real.pi * c))
    linarith
  have hsum : windowedSincSum c (2 * M + 1) = kernelSum c (2 * M + 1) := by
    rw [windowedSincSum, kernelSum]
    exact Finset.sum_congr rfl fun k _ => windowedSincValue_eq _ _ _
  rw [sincCancellation, hsum, abs_of_pos (by linarith), div_le_iff₀ (by linarith)]
  simp only [windowedSincValue_eq]
  refine hA.trans ?_
  have hx : 0 < 2 * Real.pi * c := by positivity
  refine le_of_mul_le_mul_left ?_ hx
  rw [show 2 * Real.pi * c * (16 * kernelSum c (2 * M + 1)) = 16 * (2 * Real.pi * c * kernelSum c (2 * M + 1)) by ring, hS]
  have e : 2 * Real.pi * c * (1 + 2 * (1 / (2 * Real.pi * c) * 22.5)) = 2 * Real.pi * c + 45 := by field_simp; norm_num; ring
  rw [e]
  nlinarith

/-- The bound for the errors, in proportion to the length. -/
theorem errorBound_le {M : Nat} (hM : 4 ≤ M) (hM2 : 2 * M + 1 < 4294967296) {c : ℝ} (hc0 : 3 / (2 * M) ≤ c) (hc1 : c ≤ 1 / 2) :
    windowedSincSum c (2 * M + 1) ≠ 0 ∧ kernelErrorBound c (2 * M + 1) ≤ 7680 * ((2 * M + 1 : Nat) : ℝ) / 2 ^ 53 := by
  have hM0 : (0 : ℝ) < M := by
    have : 0 < M := by omega
    exact_mod_cast this
  have hδ0 : 0 < 3 / (2 * (M : ℝ)) := by positivity
  have hcp : 0 < c := by linarith
  have hK := cancellation_le hM hM2 hc0 hc1
  have hK0 : 0 ≤ sincCancellation c (2 * M + 1) := by
    rw [sincCancellation]
    exact div_nonneg (Finset.sum_nonneg fun _ _ => abs_nonneg _) (abs_nonneg _)
  have hS1 := one_le_kernelSum (n := 2 * M + 1) (c := c) (by omega) (by omega) (by rw [abs_of_pos hcp]; exact hc1)
  have hsum : windowedSincSum c (2 * M + 1) = kernelSum c (2 * M + 1) := by
    rw [windowedSincSum, kernelSum]
    exact Finset.sum_congr rfl fun k _ => windowedSincValue_eq _ _ _
  refine ⟨by rw [hsum]; linarith, ?_⟩
  rw [kernelErrorBound, hsum, abs_of_pos (by linarith)]
  refine div_le_div_of_nonneg_right ?_ (by norm_num)
  have hn0 : (0 : ℝ) ≤ ((2 * M + 1 : Nat) : ℝ) := Nat.cast_nonneg _
  have h1 : ((2 * M + 1 : Nat) : ℝ) / kernelSum c (2 * M + 1) ≤ ((2 * M + 1 : Nat) : ℝ) := div_le_self hn0 hS1
  have h10 : 0 ≤ ((2 * M + 1 : Nat) : ℝ) / kernelSum c (2 * M + 1) := div_nonneg hn0 (by linarith)
  generalize ((2 * M + 1 : Nat) : ℝ) = n at *
  generalize sincCancellation c (2 * M + 1) = K at *
  generalize n / kernelSum c (2 * M + 1) = R at *
  have h2 : 20 * n * K + 160 * R ≤ 480 * n := by nlinarith
  calc K * (20 * n * K + 160 * R) ≤ 16 * (480 * n) := mul_le_mul hK h2 (by positivity) (by norm_num)
    _ = 7680 * n := by ring

/-- The hypotheses of the kernels in double precision. -/
theorem double_facts (h : RoundsToNearest rnd) {c t : Fl rnd} (t0 : 4 / 4294967294 ≤ t.val) (h0 : t.val ≤ c.val) (h1 : c.val ≤ 1 / 2) :
    ∃ M, irLength t = .ok (2 * M + 1) ∧ 4 ≤ M ∧ 2 * M + 1 < 4294967296 ∧ 3 / (2 * (M : ℝ)) ≤ c.val ∧ ((c.val : ℚ) : ℝ) ≤ 1 / 2 ∧
      3.9 / (t.val : ℝ) ≤ ((2 * M + 1 : Nat) : ℝ) ∧ (0 : ℝ) < t.val ∧ ((t.val : ℚ) : ℝ) ≤ c.val := by
  have t00 : 0 < t.val := lt_of_lt_of_le (by norm_num) t0
  have t4 : 4 / t.val ≤ 4294967294 := by
    rw [div_le_iff₀ (by norm_num)] at t0
    rw [div_le_iff₀ t00]
    linarith
  obtain ⟨n, e, hodd, l1, l2⟩ := C167_length h t00 t4 (by linarith)
  obtain ⟨M, rfl⟩ := hodd
  obtain ⟨-, hlt⟩ := irLength_odd e
  have tr : (0 : ℝ) < t.val := by exact_mod_cast t00
  have hn : 3.9 / (t.val : ℝ) ≤ ((2 * M + 1 : Nat) : ℝ) := by
    have h3 := (Rat.cast_le (K := ℝ)).2 l1
    push_cast at h3
    push_cast
    refine le_trans ?_ h3
    rw [← mul_div_assoc]
    exact div_le_div_of_nonneg_right (by norm_num) tr.le
  have c1 : ((c.val : ℚ) : ℝ) ≤ 1 / 2 := by
    have := (Rat.cast_le (K := ℝ)).2 h1
    push_cast at this
    exact this
  have tc : ((t.val : ℚ) : ℝ) ≤ c.val := by exact_mod_cast h0
  obtain ⟨hM, hd⟩ := lobe_le tr (tc.trans c1) hn
  exact ⟨M, e, hM, hlt, hd.trans tc, c1, hn, tr, tc⟩

theorem bound_small {M : Nat} (h : 2 * M + 1 < 4294967296) : 7680 * ((2 * M + 1 : Nat) : ℝ) / 2 ^ 53 ≤ 1 / 8 := by
  have : ((2 * M + 1 : Nat) : ℝ) ≤ 4294967296 := by exact_mod_cast h.le
  rw [div_le_iff₀ (by norm_num)]
  generalize ((2 * M + 1 : Nat) : ℝ) = n at *
  linarith

private theorem norm_near {z w : ℂ} {a b : ℝ} (h1 : ‖z - w‖ ≤ a) (h2 : ‖w‖ ≤ b) : ‖z‖ ≤ b + a := by
  have := norm_add_le (z - w) w
  rw [sub_add_cancel] at this
  linarith

private theorem norm_near' {z w d : ℂ} {a b : ℝ} (h1 : ‖z - w‖ ≤ a) (h2 : ‖w - d‖ ≤ b) : ‖z - d‖ ≤ b + a := by
  have := norm_add_le (z - w) (w - d)
  rw [sub_add_sub_cancel] at this
  linarith

/-- **C169, low-pass in double precision.** The kernel exists, and passes and stops the same frequencies, with errors that grow with the length by less
than `2 ^ -40` per element. -/
theorem C169_double_low_pass (h : RoundsToNearest rnd) [Trig (Fl rnd)] (ht : LibmAccurate rnd) (junk : Fl rnd) {c t : Fl rnd} (hc : IsDouble c.val)
    (t0 : 4 / 4294967294 ≤ t.val) (h0 : t.val ≤ c.val) (h1 : c.val ≤ 1 / 2) :
    ∃ ir : List (Fl rnd), lpHpIr junk c t false = .ok ir ∧ (∀ x ∈ ir, IsDouble x.val) ∧ ∀ f : ℝ,
      (|f| ≤ c.val - t.val → ‖response (realValues ir) f - delayResponse ((ir.length - 1) / 2) f‖ ≤ 1 / 75 + ir.length / 2 ^ 40) ∧
      (c.val + t.val ≤ |f| → |f| ≤ 1 / 2 → ‖response (realValues ir) f‖ ≤ 1 / 150 + ir.length / 2 ^ 40) := by
  obtain ⟨M, e, hM, hlt, hd, c1, hn, tr, tc⟩ := double_facts h t0 h0 h1
  obtain ⟨b1, b2⟩ := errorBound_le hM hlt hd c1
  obtain ⟨ir, i1, i2, i3, -, i4⟩ := C167_low_pass h ht junk hc (le_trans (by norm_num) (t0.trans h0)) h1 e (by omega) b1 (b2.trans (bound_small hlt))
  refine ⟨ir, i1, i3, fun f => ?_⟩
  have key := i4 f
  obtain ⟨g1, g2⟩ := exact_bounds tr tc c1 hn f
  have er : response ((List.range (2 * M + 1)).map (lowPassKernel c.val (2 * M + 1))) f =
      delayResponse M f * ((unscaledGain M c.val f / kernelSum c.val (2 * M + 1) : ℝ) : ℂ) := by
    rw [← response_scaled (by omega)]
    congr 1
    exact tab_congr fun k _ => lowPassKernel_eq _ _ _
  rw [er] at key
  have key2 := key.trans (b2.trans (by
    rw [div_le_div_iff₀ (by norm_num) (by norm_num)]
    have : (0 : ℝ) ≤ ((2 * M + 1 : Nat) : ℝ) := Nat.cast_nonneg _
    generalize ((2 * M + 1 : Nat) : ℝ) = n at *
    linarith : _ ≤ ((2 * M + 1 : Nat) : ℝ) / 2 ^ 40))
  rw [i2, show (2 * M + 1 - 1) / 2 = M by omega]
  constructor
  · intro hf
    refine norm_near' key2 ?_
    have : delayResponse M f * ((unscaledGain M c.val f / kernelSum c.val (2 * M + 1) : ℝ) : ℂ) - delayResponse M f =
        delayResponse M f * ((unscaledGain M c.val f / kernelSum c.val (2 * M + 1) - 1 : ℝ) : ℂ) := by push_cast; ring
    rw [this, norm_mul, norm_delayResponse, one_mul, Complex.norm_real, Real.norm_eq_abs]
    exact g1 hf
  · intro hf hf'
    refine norm_near key2 ?_
    rw [norm_mul, norm_delayResponse, one_mul, Complex.norm_real, Real.norm_eq_abs]
    exact g2 hf hf'

/-- **C169, high-pass in double precision.** -/
theorem C169_double_high_pass (h : RoundsToNearest rnd) [Trig (Fl rnd)] (ht : LibmAccurate rnd) (junk : Fl rnd) {c t : Fl rnd} (hc : IsDouble c.val)
    (t0 : 4 / 4294967294 ≤ t.val) (h0 : t.val ≤ c.val) (h1 : c.val ≤ 1 / 2) :
    ∃ ir : List (Fl rnd), lpHpIr junk c t true = .ok ir ∧ (∀ x ∈ ir, IsDouble x.val) ∧ ∀ f : ℝ,
      (|f| ≤ c.val - t.val → ‖response (realValues ir) f‖ ≤ 1 / 75 + ir.length / 2 ^ 40) ∧
      (c.val + t.val ≤ |f| → |f| ≤ 1 / 2 →
        ‖response (realValues ir) f - delayResponse ((ir.length - 1) / 2) f‖ ≤ 1 / 150 + ir.length / 2 ^ 40) := by
  obtain ⟨M, e, hM, hlt, hd, c1, hn, tr, tc⟩ := double_facts h t0 h0 h1
  obtain ⟨b1, b2⟩ := errorBound_le hM hlt hd c1
  obtain ⟨ir, i1, i2, i3, -, i4⟩ := C167_high_pass h ht junk hc (le_trans (by norm_num) (t0.trans h0)) h1 e (by omega) b1 (b2.trans (bound_small hlt))
  refine ⟨ir, i1, i3, fun f => ?_⟩
  have key := i4 f
  obtain ⟨g1, g2⟩ := exact_bounds tr tc c1 hn f
  have er : response ((List.range (2 * M + 1)).map fun k => (if 2 * k + 1 = 2 * M + 1 then 1 else 0) - lowPassKernel c.val (2 * M + 1) k) f =
      delayResponse M f * ((1 - unscaledGain M c.val f / kernelSum c.val (2 * M + 1) : ℝ) : ℂ) := by
    rw [← response_inverted (by omega)]
    congr 1
    refine tab_congr fun k _ => ?_
    rw [lowPassKernel_eq]
    by_cases hk : k = M
    · rw [if_pos (by omega), if_pos hk]; ring
    · rw [if_neg (by omega), if_neg hk]; ring
  rw [er] at key
  have key2 := key.trans (b2.trans (by
    rw [div_le_div_iff₀ (by norm_num) (by norm_num)]
    have : (0 : ℝ) ≤ ((2 * M + 1 : Nat) : ℝ) := Nat.cast_nonneg _
    generalize ((2 * M + 1 : Nat) : ℝ) = n at *
    linarith : _ ≤ ((2 * M + 1 : Nat) : ℝ) / 2 ^ 40))
  rw [i2, show (2 * M + 1 - 1) / 2 = M by omega]
  constructor
  · intro hf
    refine norm_near key2 ?_
    rw [norm_mul, norm_delayResponse, one_mul, Complex.norm_real, Real.norm_eq_abs, abs_sub_comm]
    exact g1 hf
  · intro hf hf'
    refine norm_near' key2 ?_
    have : delayResponse M f * ((1 - unscaledGain M c.val f / kernelSum c.val (2 * M + 1) : ℝ) : ℂ) - delayResponse M f =
        delayResponse M f * ((-(unscaledGain M c.val f / kernelSum c.val (2 * M + 1)) : ℝ) : ℂ) := by push_cast; ring
    rw [this, norm_mul, norm_delayResponse, one_mul, Complex.norm_real, Real.norm_eq_abs, abs_neg]
    exact g2 hf hf'

/-- **C167, every cutoff.** If the cutoff is at least the transition, nothing has to be known about the sums: the kernel exists in double precision and the
errors of the elements and of the response are at most `7680 * n / 2 ^ 53`. -/
theorem C167_every_cutoff (h : RoundsToNearest rnd) [Trig (Fl rnd)] (ht : LibmAccurate rnd) (junk : Fl rnd) {c t : Fl rnd} (hc : IsDouble c.val)
    (t0 : 4 / 4294967294 ≤ t.val) (h0 : t.val ≤ c.val) (h1 : c.val ≤ 1 / 2) :
    ∃ ir : List (Fl rnd), lpHpIr junk c t false = .ok ir ∧ irLength t = .ok ir.length ∧ (∀ x ∈ ir, IsDouble x.val) ∧
      (∀ (k : Nat) x, ir[k]? = some x → |(x.val : ℝ) - lowPassKernel c.val ir.length k| ≤ 7680 * ir.length / 2 ^ 53) ∧
      ∀ f, ‖response (realValues ir) f - response ((List.range ir.length).map (lowPassKernel c.val ir.length)) f‖ ≤ 7680 * ir.length / 2 ^ 53 := by
  obtain ⟨M, e, hM, hlt, hd, c1, hn, tr, tc⟩ := double_facts h t0 h0 h1
  obtain ⟨b1, b2⟩ := errorBound_le hM hlt hd c1
  obtain ⟨ir, i1, i2, i3, i4, i5⟩ := C167_low_pass h ht junk hc (le_trans (by norm_num) (t0.trans h0)) h1 e (by omega) b1 (b2.trans (bound_small hlt))
  rw [← i2] at e i4 i5 b2
  exact ⟨ir, i1, e, i3, fun k x hx => (i4 k x hx).trans b2, fun f => (i5 f).trans b2⟩

attribute [local instance] kernelLibm

/-- A low-pass for a quarter of the sampling rate with a transition of 1/1024, about 4097 elements and 1024 sign changes: a tone at 3/8 of the rate is
stopped. -/
example : ∃ ir : List (Fl nearestDouble), lpHpIr ⟨7⟩ ⟨1 / 4⟩ ⟨1 / 1024⟩ false = .ok ir ∧ ‖response (realValues ir) (3 / 8)‖ ≤ 1 / 150 + ir.length / 2 ^ 40 := by
  have hd : IsDouble (1 / 4) := ⟨1, -2, by norm_num, by norm_num, by norm_num, by norm_num⟩
  obtain ⟨ir, h1, -, h2⟩ := C169_double_low_pass nearestDouble_rounds kernelLibm_accurate ⟨7⟩ (c := ⟨1 / 4⟩) (t := ⟨1 / 1024⟩) hd (by norm_num) (by norm_num)
    (by norm_num)
  refine ⟨ir, h1, (h2 _).2 ?_ ?_⟩
  · rw [abs_of_pos (by norm_num)]; push_cast; norm_num
  · rw [abs_of_pos (by norm_num)]; norm_num

end Sp
