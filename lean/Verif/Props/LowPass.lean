import Verif.Lemmas.LowPass
import Verif.Props.SteadyTone
import Verif.Props.FilterFormula

/-! # C168, C169: for which parameters kernels exist, and what they pass and stop -/

set_option linter.unusedSectionVars false

noncomputable section

namespace Sp

/-! ### The kernel around its center -/

private theorem blackman_center {M d : Nat} (hM : 0 < M) {x : ℝ} (hx : x = (M : ℝ) - d) : blackman x (2 * M + 1) = centered M d := by
  have h0 : (M : ℝ) ≠ 0 := by positivity
  have e1 : 2 * Real.pi * x / (((2 * M + 1 : Nat) : ℝ) - 1) = Real.pi - Real.pi * d / M := by
    rw [hx]; push_cast; field_simp; ring
  have e2 : 4 * Real.pi * x / (((2 * M + 1 : Nat) : ℝ) - 1) = 2 * Real.pi - 2 * Real.pi * d / M := by
    rw [hx]; push_cast; field_simp; ring
  rw [blackman, e1, e2, Real.cos_pi_sub, Real.cos_two_pi_sub, centered]
  ring

private theorem spSinc_center (c : ℝ) (d : Nat) : spSinc (2 * c * -(d : ℝ)) = spSinc (2 * c * d) := by
  rw [mul_neg, spSinc_neg]

theorem sincKernel_center {M : Nat} (hM : 0 < M) (c : ℝ) : sincKernel c (2 * M + 1) M = 1 := by
  have e : 2 * c * ((M : ℝ) - (((2 * M + 1 : Nat) : ℝ) - 1) / 2) = 0 := by push_cast; ring
  rw [sincKernel, blackman_center hM (d := 0) (by simp), e, spSinc_real, if_pos rfl, centered]
  norm_num

theorem sincKernel_off {M : Nat} (c : ℝ) {j : Nat} (hj : j < M) :
    sincKernel c (2 * M + 1) (M - 1 - j) = centered M (j + 1) * spSinc (2 * c * (j + 1)) := by
  have e0 : ((M - 1 - j : Nat) : ℝ) = M - ((j + 1 : Nat) : ℝ) := by
    rw [Nat.sub_sub, Nat.cast_sub (by omega)]; push_cast; ring
  have e : 2 * c * (((M - 1 - j : Nat) : ℝ) - (((2 * M + 1 : Nat) : ℝ) - 1) / 2) = 2 * c * -((j + 1 : Nat) : ℝ) := by
    rw [e0]; push_cast; ring
  rw [sincKernel, blackman_center (by omega) e0, e, spSinc_center]
  push_cast
  rfl

/-- The gain of the windowed sinc before the scaling. -/
def unscaledGain (M : Nat) (c f : ℝ) : ℝ :=
  1 + 2 * ∑ j ∈ Finset.range M, centered M (j + 1) * spSinc (2 * c * (j + 1)) * Real.cos (2 * Real.pi * f * (j + 1))

theorem unscaledGain_abs (M : Nat) (c f : ℝ) : unscaledGain M c |f| = unscaledGain M c f := by
  rcases abs_choice f with h | h <;> rw [h]
  rw [unscaledGain, unscaledGain]
  congr 2
  refine Finset.sum_congr rfl fun j _ => ?_
  rw [mul_neg, neg_mul, Real.cos_neg]

theorem unscaledGain_neg (M : Nat) (c f : ℝ) : unscaledGain M (-c) f = unscaledGain M c f := by
  rw [unscaledGain, unscaledGain]
  congr 2
  refine Finset.sum_congr rfl fun j _ => ?_
  rw [mul_neg, neg_mul, spSinc_neg]

theorem mul_unscaledGain (M : Nat) {c : ℝ} (hc : c ≠ 0) (f : ℝ) :
    2 * (2 * Real.pi * c) * unscaledGain M c f = stepP M (2 * Real.pi * (f + c)) - stepP M (2 * Real.pi * (f - c)) := by
  have hpi := Real.pi_ne_zero
  have key : stepP M (2 * Real.pi * (f + c)) - stepP M (2 * Real.pi * (f - c)) = 2 * (2 * Real.pi * c) +
      2 * ∑ d ∈ Finset.range M, (centered M (d + 1) * (Real.sin ((d + 1) * (2 * Real.pi * (f + c))) / (d + 1)) -
        centered M (d + 1) * (Real.sin ((d + 1) * (2 * Real.pi * (f - c))) / (d + 1))) := by
    rw [stepP, stepP, Finset.sum_sub_distrib]
    ring
  have e0 : ∀ a b : ℝ, a * (1 + 2 * b) = a + 2 * (a * b) := fun a b => by ring
  rw [key, unscaledGain, e0, Finset.mul_sum]
  refine congrArg (fun z : ℝ => 2 * (2 * Real.pi * c) + 2 * z) (Finset.sum_congr rfl fun d _ => ?_)
  have hd : ((d : ℝ) + 1) ≠ 0 := by positivity
  have e1 : ((d : ℝ) + 1) * (2 * Real.pi * (f + c)) = 2 * Real.pi * f * (d + 1) + 2 * Real.pi * c * (d + 1) := by ring
  have e2 : ((d : ℝ) + 1) * (2 * Real.pi * (f - c)) = 2 * Real.pi * f * (d + 1) - 2 * Real.pi * c * (d + 1) := by ring
  have e3 : spSinc (2 * c * ((d : ℝ) + 1)) = Real.sin (2 * Real.pi * c * (d + 1)) / (2 * Real.pi * c * (d + 1)) := by
    have h0 : (0 : ℝ) ≠ 2 * c * (d + 1) := fun h => by
      rcases mul_eq_zero.1 h.symm with h | h
      · exact hc (by linarith)
      · exact hd h
    rw [spSinc_real, if_neg h0]
    congr 1
    · congr 1; ring
    · ring
  rw [e1, e2, e3, Real.sin_add, Real.sin_sub]
  field_simp
  ring

theorem response_sincKernel {M : Nat} (hM : 0 < M) (c f : ℝ) :
    response (tab (2 * M + 1) (sincKernel c (2 * M + 1))) f = delayResponse M f * ((unscaledGain M c f : ℝ) : ℂ) := by
  rw [response_symmetric (fun i hi => (sincKernel_symm hi (by omega)).symm), sincKernel_center hM, unscaledGain]
  refine congrArg (fun z : ℝ => delayResponse M f * ((1 + 2 * z : ℝ) : ℂ)) (Finset.sum_congr rfl fun j hj => ?_)
  rw [sincKernel_off c (Finset.mem_range.1 hj)]

theorem kernelSum_gain {M : Nat} (hM : 0 < M) (c : ℝ) : kernelSum c (2 * M + 1) = unscaledGain M c 0 := by
  have h := response_sincKernel hM c 0
  rw [response_zero, delayResponse_eq, fexp_zero, one_pow, one_mul, sum_tab] at h
  exact_mod_cast h

theorem kernelSum_step {M : Nat} (hM : 0 < M) {c : ℝ} (hc : c ≠ 0) : 2 * Real.pi * c * kernelSum c (2 * M + 1) = stepP M (2 * Real.pi * c) := by
  have h := mul_unscaledGain M hc 0
  rw [zero_add, zero_sub, mul_neg, stepP_neg, ← kernelSum_gain hM] at h
  linarith

/-- The sum of the windowed sinc is at least one for all cutoffs up to half of the sampling rate. -/
theorem one_le_kernelSum {n : Nat} (h3 : 3 ≤ n) (hodd : n % 2 = 1) {c : ℝ} (hc : |c| ≤ 1 / 2) : 1 ≤ kernelSum c n := by
  obtain ⟨M, rfl⟩ : ∃ M, n = 2 * M + 1 := ⟨n / 2, by omega⟩
  have hM : 0 < M := by omega
  have pos : ∀ c : ℝ, 0 < c → c ≤ 1 / 2 → 1 ≤ kernelSum c (2 * M + 1) := by
    intro c h0 h1
    have hpi := Real.pi_pos
    have h := kernelSum_step hM h0.ne'
    have hx : 0 < 2 * Real.pi * c := by positivity
    have := le_stepP (M := M) (x := 2 * Real.pi * c) hx.le (by nlinarith)
    rw [← h] at this
    exact le_of_mul_le_mul_left (by linarith) hx
  rcases lt_trichotomy c 0 with h | h | h
  · rw [kernelSum_gain hM, ← unscaledGain_neg, ← kernelSum_gain hM]
    exact pos _ (by linarith) (by rw [abs_of_neg h] at hc; exact hc)
  · subst h
    rw [kernelSum_gain hM, unscaledGain]
    have : 0 ≤ ∑ j ∈ Finset.range M, centered M (j + 1) * spSinc (2 * 0 * ((j : ℝ) + 1)) * Real.cos (2 * Real.pi * 0 * (j + 1)) := by
      refine Finset.sum_nonneg fun j _ => ?_
      rw [mul_zero, zero_mul, mul_zero, zero_mul, Real.cos_zero, spSinc_real, if_pos rfl, mul_one, mul_one]
      exact centered_nonneg _ _
    linarith
  · exact pos c h (by rw [abs_of_pos h] at hc; exact hc)

/-- **C168.** A low-pass or high-pass kernel is created for every cutoff up to half of the sampling rate and every transition below 4 for which the
length fits into 32 bit; the division by the sum never fails. -/
theorem C168_kernels_exist (junk : ℝ) {cutoff transition : ℝ} (hp : Bool) (h0 : 0 < transition) (h4 : transition < 4)
    (h32 : 4 / transition ≤ 4294967295) (hc : |cutoff| ≤ 1 / 2) : ∃ ir, lpHpIr junk cutoff transition hp = .ok ir := by
  have hx : 1 < 4 / transition := by rw [lt_div_iff₀ h0]; linarith
  have hcl : ⌈4 / transition⌉ ≤ 4294967295 := Int.ceil_le.2 (by exact_mod_cast h32)
  have hcl1 : 1 < ⌈4 / transition⌉ := Int.lt_ceil.2 (by exact_mod_cast hx)
  obtain ⟨len, hl⟩ : ∃ len, irLength transition = .ok len := by
    rw [irLength, divOf, if_neg (ne_of_gt h0)]
    simp only [ok_bind']
    rw [ceilTime_real, timeOfSample, if_neg]
    · exact ⟨_, rfl⟩
    · rintro (h | h)
      · have : ⌈4 / transition⌉ ≤ -1 := by exact_mod_cast h
        omega
      · have : (4294967296 : ℤ) ≤ ⌈4 / transition⌉ := by exact_mod_cast h
        omega
  obtain ⟨hodd, hlt, hge, hub⟩ := irLength_ok hl
  have h3 : 3 ≤ len := by
    have h1 : (1 : ℝ) < len := lt_of_lt_of_le hx hge
    have : 1 < len := by exact_mod_cast h1
    omega
  rw [lpHpIr_eq hl h3 hlt, if_neg (by have := one_le_kernelSum h3 hodd hc; intro h; linarith)]
  cases hp
  · exact ⟨_, rfl⟩
  · exact ⟨_, rfl⟩

/-- **C168, band filters.** The same for band-pass and band-reject kernels with cutoffs inside of the range; the length of the band-pass kernel has
to fit into 32 bit too. -/
theorem C168_band_kernels_exist (junk : ℝ) {cl ch tl th : ℝ} (reject : Bool) (h0 : 0 < cl) (h1 : cl ≤ ch) (h2 : ch < 1 / 2) (tl0 : 0 < tl) (tl4 : tl < 4)
    (hl : 4 / tl ≤ 1073741824) (th0 : 0 < th) (th4 : th < 4) (hh : 4 / th ≤ 1073741824) :
    ∃ ir k, bpBrIr junk cl ch tl th reject = .ok (ir, k) := by
  have h1' : ∀ b, ∃ ir, lpHpIr junk cl tl b = .ok ir := fun b =>
    C168_kernels_exist junk b tl0 tl4 (by linarith) (by rw [abs_of_pos h0]; linarith)
  have h2' : ∀ b, ∃ ir, lpHpIr junk ch th b = .ok ir := fun b =>
    C168_kernels_exist junk b th0 th4 (by linarith) (by rw [abs_of_pos (by linarith)]; linarith)
  cases reject
  · obtain ⟨hp, e1⟩ := h1' true
    obtain ⟨lp, e2⟩ := h2' false
    rw [bpBrIr, if_neg (by simp), if_neg (not_le.2 h0), if_neg (by rw [not_le]; norm_num; linarith), e1, e2]
    simp only [ok_bind']
    obtain ⟨n, g, rfl, h3, h32, _, _, hu, _⟩ := lp_facts e1
    obtain ⟨n', g', rfl, h3', h32', _, _, hu', _⟩ := lp_facts e2
    have b1 : n < 1073741826 := by
      have : (n : ℝ) < 1073741826 := lt_of_lt_of_le hu (by
        have : max (4 / tl) 0 ≤ 1073741824 := max_le hl (by norm_num)
        linarith)
      exact_mod_cast this
    have b2 : n' < 1073741826 := by
      have : (n' : ℝ) < 1073741826 := lt_of_lt_of_le hu' (by
        have : max (4 / th) 0 ≤ 1073741824 := max_le hh (by norm_num)
        linarith)
      exact_mod_cast this
    rw [tab_length, tab_length, u32_of_lt (by omega), sub32_of_le (by omega) (by omega), convolveOne_kernel (by omega) (by omega)]
    exact ⟨_, _, rfl⟩
  · obtain ⟨lp, e1⟩ := h1' false
    obtain ⟨hp, e2⟩ := h2' true
    rw [bpBrIr, if_pos rfl, if_neg (not_le.2 h0), if_neg (by rw [not_le]; norm_num; linarith), e1, e2]
    simp only [ok_bind']
    obtain ⟨n, g, rfl, h3, h32, _⟩ := lp_facts e1
    obtain ⟨n', g', rfl, h3', h32', _⟩ := lp_facts e2
    rw [irAdd_tab h32 h32' (by omega) (by omega)]
    by_cases hc : n > n'
    · rw [if_pos hc]; exact ⟨_, _, rfl⟩
    · rw [if_neg hc]; exact ⟨_, _, rfl⟩

/-- A telephone band at a rate of 44100 samples per second: sharp kernels exist, with more than 200 sign changes of the sinc inside of the window. -/
example : ∃ ir k, bpBrIr (7 : ℝ) (300 / 44100) (3400 / 44100) (100 / 44100) (100 / 44100) false = .ok (ir, k) :=
  C168_band_kernels_exist 7 false (by norm_num) (by norm_num) (by norm_num) (by norm_num) (by norm_num) (by norm_num) (by norm_num) (by norm_num) (by norm_num)

/-! ### What is passed and what is stopped -/

/-- The gain of the scaled kernel: near to one below the cutoff, near to zero above. -/
theorem gain_bounds {M : Nat} (hM : 4 ≤ M) {c f : ℝ} (hc0 : 3 / (2 * M) ≤ c) (hc1 : c ≤ 1 / 2) :
    (|f| ≤ c - 3 / (2 * M) → |unscaledGain M c f / kernelSum c (2 * M + 1) - 1| ≤ 1 / 75) ∧
    (c + 3 / (2 * M) ≤ |f| → |f| ≤ 1 / 2 → |unscaledGain M c f / kernelSum c (2 * M + 1)| ≤ 1 / 150) := by
  have hpi := Real.pi_pos
  have hpi3 := Real.pi_gt_d2
  have hM0 : (0 : ℝ) < M := by
    have : 0 < M := by omega
    exact_mod_cast this
  have hM4 : (4 : ℝ) ≤ M := by exact_mod_cast hM
  set δ : ℝ := 3 / (2 * M) with hδ
  have hδ0 : 0 < δ := by positivity
  have hδ1 : δ ≤ 1 / 2 := by rw [hδ, div_le_div_iff₀ (by positivity) (by norm_num)]; linarith
  have hδπ : 3 * (Real.pi / M) = 2 * Real.pi * δ := by rw [hδ]; field_simp
  have hcp : 0 < c := by linarith
  have near : ∀ x, δ ≤ x → x ≤ 1 - δ → |stepP M (2 * Real.pi * x) - Real.pi| ≤ 0.02 := by
    intro x h0 h1
    refine stepP_near' hM ?_ ?_
    · rw [hδπ]; exact mul_le_mul_of_nonneg_left h0 (by positivity)
    · rw [hδπ]
      have := mul_le_mul_of_nonneg_left h1 (by positivity : 0 ≤ 2 * Real.pi)
      linarith
  have hS := kernelSum_step (M := M) (by omega) hcp.ne'
  have hG := mul_unscaledGain M hcp.ne' |f|
  rw [unscaledGain_abs] at hG
  have h1 := near c hc0 (by linarith)
  rw [abs_le] at h1
  have hP : 3.11 < stepP M (2 * Real.pi * c) := by linarith
  have hS0 : 0 < kernelSum c (2 * M + 1) := by
    have : 0 < 2 * Real.pi * c * kernelSum c (2 * M + 1) := by rw [hS]; linarith
    exact (pos_iff_pos_of_mul_pos this).1 (by positivity)
  have eq : unscaledGain M c f / kernelSum c (2 * M + 1) =
      (stepP M (2 * Real.pi * (|f| + c)) - stepP M (2 * Real.pi * (|f| - c))) / (2 * stepP M (2 * Real.pi * c)) := by
    rw [← hG, ← hS]
    field_simp
  rw [eq]
  have hf0 := abs_nonneg f
  constructor
  · intro hf
    have h2 := near (|f| + c) (by linarith) (by linarith)
    have h3 := near (c - |f|) (by linarith) (by linarith)
    have e : stepP M (2 * Real.pi * (|f| - c)) = -stepP M (2 * Real.pi * (c - |f|)) := by
      rw [← stepP_neg]; congr 1; ring
    rw [e, div_sub_one (by linarith), abs_div, abs_of_pos (by linarith : 0 < 2 * stepP M (2 * Real.pi * c)), div_le_iff₀ (by linarith), abs_le]
    rw [abs_le] at h2 h3
    constructor <;> linarith
  · intro hf hf1
    have h2 := near (|f| + c) (by linarith) (by linarith)
    have h3 := near (|f| - c) (by linarith) (by linarith)
    rw [abs_div, abs_of_pos (by linarith : 0 < 2 * stepP M (2 * Real.pi * c)), div_le_iff₀ (by linarith), abs_le]
    rw [abs_le] at h2 h3
    constructor <;> linarith

theorem response_scaled {M : Nat} (hM : 0 < M) (c f : ℝ) :
    response (tab (2 * M + 1) fun k => sincKernel c (2 * M + 1) k / kernelSum c (2 * M + 1)) f =
      delayResponse M f * ((unscaledGain M c f / kernelSum c (2 * M + 1) : ℝ) : ℂ) := by
  have h := response_sincKernel hM c f
  rw [response_tab] at h ⊢
  rw [Complex.ofReal_div, ← mul_div_assoc, ← h, div_eq_mul_inv, Finset.sum_mul]
  refine Finset.sum_congr rfl fun k _ => ?_
  rw [Complex.ofReal_div]
  ring

theorem response_inverted {M : Nat} (hM : 0 < M) (c f : ℝ) :
    response (tab (2 * M + 1) fun k => if k = M then -(sincKernel c (2 * M + 1) k / kernelSum c (2 * M + 1)) + 1
      else -(sincKernel c (2 * M + 1) k / kernelSum c (2 * M + 1))) f =
      delayResponse M f * ((1 - unscaledGain M c f / kernelSum c (2 * M + 1) : ℝ) : ℂ) := by
  have h := response_scaled hM c f
  rw [response_tab] at h ⊢
  rw [Complex.ofReal_sub, Complex.ofReal_one, mul_sub, mul_one, ← h, delayResponse_eq,
    ← Finset.sum_ite_eq_of_mem' (Finset.range (2 * M + 1)) M (fun k => fexp f ^ k) (Finset.mem_range.2 (by omega)), ← Finset.sum_sub_distrib]
  refine Finset.sum_congr rfl fun k _ => ?_
  split
  · push_cast; ring
  · push_cast; ring

theorem norm_delayResponse (d : Nat) (f : ℝ) : ‖delayResponse d f‖ = 1 := by
  have : -2 * (Real.pi : ℂ) * Complex.I * f * d = ((-2 * Real.pi * f * d : ℝ) : ℂ) * Complex.I := by push_cast; ring
  rw [delayResponse, this, Complex.norm_exp_ofReal_mul_I]

private theorem norm_delay_mul (d : Nat) (f x : ℝ) : ‖delayResponse d f * (x : ℂ)‖ = |x| := by
  rw [norm_mul, norm_delayResponse, one_mul, Complex.norm_real, Real.norm_eq_abs]

private theorem norm_delay_sub (d : Nat) (f x : ℝ) : ‖delayResponse d f * (x : ℂ) - delayResponse d f‖ = |x - 1| := by
  have : delayResponse d f * (x : ℂ) - delayResponse d f = delayResponse d f * ((x - 1 : ℝ) : ℂ) := by push_cast; ring
  rw [this, norm_delay_mul]

/-- The transition is wider than the main lobe of the window. -/
theorem lobe_le {M : Nat} {t : ℝ} (h0 : 0 < t) (h1 : t ≤ 1 / 2) (hn : 3.9 / t ≤ ((2 * M + 1 : Nat) : ℝ)) : 4 ≤ M ∧ 3 / (2 * (M : ℝ)) ≤ t := by
  have h8 : 7 < 3.9 / t := by rw [lt_div_iff₀ h0]; linarith
  have hM : 4 ≤ M := by
    have : (7 : ℝ) < ((2 * M + 1 : Nat) : ℝ) := h8.trans_le hn
    have : 7 < 2 * M + 1 := by exact_mod_cast this
    omega
  have hM4 : (4 : ℝ) ≤ M := by exact_mod_cast hM
  refine ⟨hM, ?_⟩
  rw [div_le_iff₀ h0] at hn
  push_cast at hn
  rw [div_le_iff₀ (by linarith)]
  nlinarith

/-- The exact kernel passes below the cutoff, and stops above, outside of the transition. -/
theorem exact_bounds {M : Nat} {c t : ℝ} (t0 : 0 < t) (h0 : t ≤ c) (h1 : c ≤ 1 / 2) (hn : 3.9 / t ≤ ((2 * M + 1 : Nat) : ℝ)) (f : ℝ) :
    (|f| ≤ c - t → |unscaledGain M c f / kernelSum c (2 * M + 1) - 1| ≤ 1 / 75) ∧
    (c + t ≤ |f| → |f| ≤ 1 / 2 → |unscaledGain M c f / kernelSum c (2 * M + 1)| ≤ 1 / 150) := by
  obtain ⟨hM, hd⟩ := lobe_le t0 (h0.trans h1) hn
  obtain ⟨g1, g2⟩ := gain_bounds (f := f) hM (hd.trans h0) h1
  exact ⟨fun h => g1 (by linarith), fun h => g2 (by linarith)⟩

/-- **C169, low-pass.** If the cutoff is at least the transition, then frequencies below the cutoff, without the transition, are passed: the
response is that of a delay by half of the kernel length, with an error of at most 1/75. Frequencies above, up to half of the sampling rate, are
attenuated to at most 1/150. -/
theorem C169_low_pass {junk cutoff transition : ℝ} {ir : List ℝ} (h : lpHpIr junk cutoff transition false = .ok ir) (t0 : 0 < transition)
    (h0 : transition ≤ cutoff) (h1 : cutoff ≤ 1 / 2) (f : ℝ) :
    (|f| ≤ cutoff - transition → ‖response ir f - delayResponse ((ir.length - 1) / 2) f‖ ≤ 1 / 75) ∧
    (cutoff + transition ≤ |f| → |f| ≤ 1 / 2 → ‖response ir f‖ ≤ 1 / 150) := by
  obtain ⟨n, hl, h3, h32, hodd, -, rfl⟩ := lpHpIr_ok h
  obtain ⟨-, -, h4, -⟩ := irLength_ok hl
  obtain ⟨M, rfl⟩ : ∃ M, n = 2 * M + 1 := ⟨n / 2, by omega⟩
  obtain ⟨g1, g2⟩ := exact_bounds t0 h0 h1 ((div_le_div_of_nonneg_right (by norm_num) t0.le).trans h4) f
  simp only [Bool.false_eq_true, if_false]
  rw [response_scaled (by omega), tab_length, show (2 * M + 1 - 1) / 2 = M by omega, norm_delay_mul, norm_delay_sub]
  exact ⟨g1, g2⟩

/-- **C169, high-pass.** The other way around. -/
theorem C169_high_pass {junk cutoff transition : ℝ} {ir : List ℝ} (h : lpHpIr junk cutoff transition true = .ok ir) (t0 : 0 < transition)
    (h0 : transition ≤ cutoff) (h1 : cutoff ≤ 1 / 2) (f : ℝ) :
    (|f| ≤ cutoff - transition → ‖response ir f‖ ≤ 1 / 75) ∧
    (cutoff + transition ≤ |f| → |f| ≤ 1 / 2 → ‖response ir f - delayResponse ((ir.length - 1) / 2) f‖ ≤ 1 / 150) := by
  obtain ⟨n, hl, h3, h32, hodd, -, rfl⟩ := lpHpIr_ok h
  obtain ⟨-, -, h4, -⟩ := irLength_ok hl
  obtain ⟨M, rfl⟩ : ∃ M, n = 2 * M + 1 := ⟨n / 2, by omega⟩
  obtain ⟨g1, g2⟩ := exact_bounds t0 h0 h1 ((div_le_div_of_nonneg_right (by norm_num) t0.le).trans h4) f
  have e : (2 * M + 1 - 1) / 2 = M := by omega
  simp only [if_true, e, tab_length]
  rw [response_inverted (by omega), norm_delay_mul, norm_delay_sub, sub_sub_cancel_left, abs_neg, abs_sub_comm]
  exact ⟨g1, g2⟩

/-- **C169, band-pass.** Frequencies between the cutoffs are passed with a relative error of at most 1/45, those below the lower and above the higher cutoff
are attenuated to at most 1/70, all without the transitions. -/
theorem C169_band_pass {junk cl ch tl th : ℝ} {ir : List ℝ} {k : Nat} (hl : 4 / tl ≤ 1073741824) (hh : 4 / th ≤ 1073741824)
    (h : bpBrIr junk cl ch tl th false = .ok (ir, k)) (tl0 : 0 < tl) (th0 : 0 < th) (h0 : tl ≤ cl) (hm : cl + tl ≤ ch - th) (h1 : ch < 1 / 2) (f : ℝ) :
    (|f| ≤ cl - tl → ‖response ir f‖ ≤ 1 / 70) ∧
    (cl + tl ≤ |f| → |f| ≤ ch - th → ‖response ir f - delayResponse ((ir.length - 1) / 2) f‖ ≤ 1 / 45) ∧
    (ch + th ≤ |f| → |f| ≤ 1 / 2 → ‖response ir f‖ ≤ 1 / 70) := by
  obtain ⟨lp, hp, e1, e2, e3, e4⟩ := C93_band_pass_response (by linarith) h1 hl hh h
  obtain ⟨a1, a2⟩ := C169_low_pass e1 th0 (by linarith) h1.le f
  obtain ⟨b1, b2⟩ := C169_high_pass e2 tl0 h0 (by linarith) f
  have c1 := (C08_low_pass e1).1
  have c2 := (C08_high_pass e2).1
  have hD : delayResponse ((ir.length - 1) / 2) f = delayResponse ((lp.length - 1) / 2) f * delayResponse ((hp.length - 1) / 2) f := by
    rw [delayResponse_eq, delayResponse_eq, delayResponse_eq, ← pow_add, e3]
    congr 1
    obtain ⟨m, hm⟩ := c1
    obtain ⟨m', hm'⟩ := c2
    omega
  have d1 := norm_delayResponse ((lp.length - 1) / 2) f
  have d2 := norm_delayResponse ((hp.length - 1) / 2) f
  rw [e4 f, hD]
  generalize delayResponse ((lp.length - 1) / 2) f = D at *
  generalize delayResponse ((hp.length - 1) / 2) f = D' at *
  generalize response lp f = L at *
  generalize response hp f = H at *
  have hL : ‖L‖ ≤ 1 + ‖L - D‖ := by
    have := norm_add_le D (L - D)
    rw [add_sub_cancel, d1] at this
    exact this
  have hH : ‖H‖ ≤ 1 + ‖H - D'‖ := by
    have := norm_add_le D' (H - D')
    rw [add_sub_cancel, d2] at this
    exact this
  refine ⟨fun hf => ?_, fun hf hf' => ?_, fun hf hf' => ?_⟩
  · rw [norm_mul]
    have := a1 (by linarith)
    have h5 : ‖L‖ ≤ 76 / 75 := by linarith
    have := mul_le_mul h5 (b1 hf) (norm_nonneg _) (by norm_num)
    linarith
  · have x1 := a1 hf'
    have x2 := b2 hf (by linarith)
    have e : L * H - D * D' = (L - D) * H + D * (H - D') := by ring
    rw [e]
    refine (norm_add_le _ _).trans ?_
    rw [norm_mul, norm_mul, d1, one_mul]
    have h5 : ‖H‖ ≤ 151 / 150 := by linarith
    have := mul_le_mul x1 h5 (norm_nonneg _) (by norm_num)
    linarith
  · rw [norm_mul]
    have := b2 (by linarith) hf'
    have h5 : ‖H‖ ≤ 151 / 150 := by linarith
    have := mul_le_mul (a2 hf hf') h5 (norm_nonneg _) (by norm_num)
    linarith

/-- **C169, band-reject.** Frequencies between the cutoffs are attenuated to at most 1/50, those below the lower and above the higher cutoff are passed with a
relative error of at most 2/75, all without the transitions. -/
theorem C169_band_reject {junk cl ch tl th : ℝ} {ir : List ℝ} {k : Nat} (h : bpBrIr junk cl ch tl th true = .ok (ir, k)) (tl0 : 0 < tl) (th0 : 0 < th)
    (h0 : tl ≤ cl) (hm : cl + tl ≤ ch - th) (h1 : ch < 1 / 2) (f : ℝ) :
    (|f| ≤ cl - tl → ‖response ir f - delayResponse ((ir.length - 1) / 2) f‖ ≤ 2 / 75) ∧
    (cl + tl ≤ |f| → |f| ≤ ch - th → ‖response ir f‖ ≤ 1 / 50) ∧
    (ch + th ≤ |f| → |f| ≤ 1 / 2 → ‖response ir f - delayResponse ((ir.length - 1) / 2) f‖ ≤ 2 / 75) := by
  obtain ⟨lp, hp, e1, e2, e3, e4⟩ := C93_band_reject_response (by linarith) h1 h
  obtain ⟨a1, a2⟩ := C169_low_pass e1 tl0 h0 (by linarith) f
  obtain ⟨b1, b2⟩ := C169_high_pass e2 th0 (by linarith) h1.le f
  obtain ⟨m, c1⟩ := (C08_low_pass e1).1
  obtain ⟨m', c2⟩ := (C08_high_pass e2).1
  have hD : delayResponse ((ir.length - 1) / 2) f = delayResponse ((ir.length - lp.length) / 2) f * delayResponse ((lp.length - 1) / 2) f := by
    rw [delayResponse_eq, delayResponse_eq, delayResponse_eq, ← pow_add]
    congr 1
    omega
  have hD' : delayResponse ((ir.length - 1) / 2) f = delayResponse ((ir.length - hp.length) / 2) f * delayResponse ((hp.length - 1) / 2) f := by
    rw [delayResponse_eq, delayResponse_eq, delayResponse_eq, ← pow_add]
    congr 1
    omega
  have d1 := norm_delayResponse ((ir.length - lp.length) / 2) f
  have d2 := norm_delayResponse ((ir.length - hp.length) / 2) f
  rw [e4 f]
  generalize delayResponse ((ir.length - lp.length) / 2) f = A at *
  generalize delayResponse ((ir.length - hp.length) / 2) f = B at *
  generalize response lp f = L at *
  generalize response hp f = H at *
  refine ⟨fun hf => ?_, fun hf hf' => ?_, fun hf hf' => ?_⟩
  · have x1 := a1 hf
    have x2 := b1 (by linarith)
    rw [hD, show ∀ D : ℂ, A * L + B * H - A * D = A * (L - D) + B * H by intro D; ring]
    refine (norm_add_le _ _).trans ?_
    rw [norm_mul, norm_mul, d1, d2]
    linarith
  · have x1 := a2 hf (by linarith)
    have x2 := b1 hf'
    refine (norm_add_le _ _).trans ?_
    rw [norm_mul, norm_mul, d1, d2]
    linarith
  · have x1 := a2 (by linarith) hf'
    have x2 := b2 hf hf'
    rw [hD', show ∀ D : ℂ, A * L + B * H - B * D = A * L + B * (H - D) by intro D; ring]
    refine (norm_add_le _ _).trans ?_
    rw [norm_mul, norm_mul, d1, d2]
    linarith

/-- **C169, tones.** What the bounds of the response mean for a tone that is filtered block by block, for every division into blocks: where the response is
near to that of a delay, the output is the delayed tone, where the response is small, the output is silent, with errors in proportion to the amplitude. -/
theorem C169_tone {F : Type} [DecidableEq F] {junk low : ℝ} {ir : List ℝ} (hk : SincKernel junk ir low) (f : ℝ)
    (irOf : F → List UInt8 → Option (Buf ℝ)) (kind : F) (args : List UInt8) (hir : irOf kind args = some ir) (a p junk' : ℝ) (blocks : List (Buf ℝ))
    (h32 : ∀ x ∈ blocks, x.length + ir.length ≤ 4294967296) (hx : ∀ n, n < blocks.flatten.length → blocks.flatten.getD n 0 = toneSample a f p n) :
    ∃ rs, filterCalls irOf junk' (blocks.map fun x => (x, kind, args)) none = .ok rs ∧ (∀ r ∈ rs, r.success = true) ∧
      ∀ n, ir.length ≤ n + 1 → n < blocks.flatten.length → ∃ y, (rs.map fun r => r.out).flatten[n]? = some y ∧
        (∀ ε, ‖response ir f‖ ≤ ε → |y| ≤ ε * |a|) ∧
        ∀ ε, ‖response ir f - delayResponse ((ir.length - 1) / 2) f‖ ≤ ε →
          |y - toneSample a f p ((n : ℝ) - ((ir.length - 1) / 2 : Nat))| ≤ ε * |a| := by
  obtain ⟨gain, g1, -, g2⟩ := C149_tone (F := F) hk f
  obtain ⟨rs, r1, r2, -, r3⟩ := g2 irOf kind args hir a p junk' blocks h32 hx
  refine ⟨rs, r1, r2, fun n n1 n2 => ⟨_, r3 n n1 n2, ?_⟩⟩
  have ht : ∀ y, |toneSample a f p y| ≤ |a| := by
    intro y
    rw [toneSample, abs_mul]
    exact mul_le_of_le_one_right (abs_nonneg _) (Real.abs_cos_le_one _)
  rw [g1, norm_delay_mul, norm_delay_sub]
  have hx := ht ((n : ℝ) - ((ir.length - 1) / 2 : Nat))
  generalize toneSample a f p ((n : ℝ) - ((ir.length - 1) / 2 : Nat)) = x at *
  constructor
  · intro ε hε
    rw [abs_mul]
    exact mul_le_mul hε hx (abs_nonneg _) ((abs_nonneg _).trans hε)
  · intro ε hε
    rw [show gain * x - x = (gain - 1) * x by ring, abs_mul]
    exact mul_le_mul hε hx (abs_nonneg _) ((abs_nonneg _).trans hε)

/-- At 44100 samples per second a tone of 5000 Hz and amplitude 1 is filtered to below 1/150 by a low-pass filter for 4000 Hz with a transition of
500 Hz, and one of 3000 Hz is passed. -/
example : ∃ ir, lpHpIr (7 : ℝ) (4000 / 44100) (500 / 44100) false = .ok ir ∧ ‖response ir (5000 / 44100)‖ ≤ 1 / 150 ∧
    ‖response ir (3000 / 44100) - delayResponse ((ir.length - 1) / 2) (3000 / 44100)‖ ≤ 1 / 75 := by
  obtain ⟨ir, h⟩ := C168_kernels_exist (7 : ℝ) (cutoff := 4000 / 44100) (transition := 500 / 44100) false (by norm_num) (by norm_num) (by norm_num)
    (by rw [abs_of_pos (by norm_num)]; norm_num)
  refine ⟨ir, h, (C169_low_pass h (by norm_num) (by norm_num) (by norm_num) _).2 ?_ ?_, (C169_low_pass h (by norm_num) (by norm_num) (by norm_num) _).1 ?_⟩ <;>
    rw [abs_of_pos (by norm_num)] <;> norm_num

/-- The telephone band: 1000 Hz is passed and 50 Hz and 10000 Hz are not. -/
example : ∃ ir k, bpBrIr (7 : ℝ) (300 / 44100) (3400 / 44100) (100 / 44100) (200 / 44100) false = .ok (ir, k) ∧
    ‖response ir (50 / 44100)‖ ≤ 1 / 70 ∧ ‖response ir (10000 / 44100)‖ ≤ 1 / 70 ∧
    ‖response ir (1000 / 44100) - delayResponse ((ir.length - 1) / 2) (1000 / 44100)‖ ≤ 1 / 45 := by
  obtain ⟨ir, k, h⟩ := C168_band_kernels_exist (7 : ℝ) (cl := 300 / 44100) (ch := 3400 / 44100) (tl := 100 / 44100) (th := 200 / 44100) false
    (by norm_num) (by norm_num) (by norm_num) (by norm_num) (by norm_num) (by norm_num) (by norm_num) (by norm_num) (by norm_num)
  have key := C169_band_pass (by norm_num) (by norm_num) h (by norm_num) (by norm_num) (by norm_num) (by norm_num) (by norm_num)
  refine ⟨ir, k, h, (key _).1 ?_, (key _).2.2 ?_ ?_, (key _).2.1 ?_ ?_⟩ <;> rw [abs_of_pos (by norm_num)] <;> norm_num

/-- The same band removed. -/
example : ∃ ir k, bpBrIr (7 : ℝ) (300 / 44100) (3400 / 44100) (100 / 44100) (200 / 44100) true = .ok (ir, k) ∧
    ‖response ir (50 / 44100) - delayResponse ((ir.length - 1) / 2) (50 / 44100)‖ ≤ 2 / 75 ∧ ‖response ir (1000 / 44100)‖ ≤ 1 / 50 := by
  obtain ⟨ir, k, h⟩ := C168_band_kernels_exist (7 : ℝ) (cl := 300 / 44100) (ch := 3400 / 44100) (tl := 100 / 44100) (th := 200 / 44100) true
    (by norm_num) (by norm_num) (by norm_num) (by norm_num) (by norm_num) (by norm_num) (by norm_num) (by norm_num) (by norm_num)
  have key := C169_band_reject h (by norm_num) (by norm_num) (by norm_num) (by norm_num) (by norm_num)
  refine ⟨ir, k, h, (key _).1 ?_, (key _).2.1 ?_ ?_⟩ <;> rw [abs_of_pos (by norm_num)] <;> norm_num

end Sp
