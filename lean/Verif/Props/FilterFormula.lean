import Verif.Props.Filter

/-! # The windowed sinc kernels and their delay: C135 -/

set_option linter.unusedSectionVars false

namespace Sp

theorem blackmanOf_eq (n i : Nat) : blackmanOf n i = blackman i n := rfl

theorem sincOf_eq (x : ℝ) : sincOf x = spSinc x := by
  rw [sincOf, spSinc_real]
  exact if_congr eq_comm rfl rfl

theorem windowedSincValue_eq (c : ℝ) (n i : Nat) : windowedSincValue c n i = sincKernel c n i := by
  rw [windowedSincValue, sincKernel, blackmanOf_eq, sincOf_eq]

theorem lowPassKernel_eq (c : ℝ) (n i : Nat) : lowPassKernel c n i = sincKernel c n i / kernelSum c n := by
  rw [lowPassKernel, windowedSincValue_eq, kernelSum]
  simp only [windowedSincValue_eq]

theorem isKernelLength_of {t : ℝ} {n : Nat} (h : irLength t = .ok n) (h3 : 3 ≤ n) : IsKernelLength t n := by
  obtain ⟨hodd, _, hge, hub⟩ := irLength_ok h
  refine ⟨Nat.odd_iff.2 hodd, hge, fun m hm hle => ?_⟩
  by_contra hc
  have hm' := Nat.odd_iff.1 hm
  have : m + 2 ≤ n := by omega
  have : ((m + 2 : ℕ) : ℝ) ≤ n := by exact_mod_cast this
  push_cast at this
  have h0 : (0 : ℝ) ≤ m := Nat.cast_nonneg m
  have := max_le hle h0
  linarith

/-- **C135, low-pass.** Whenever a kernel is created, its length is the smallest odd number that is not below `4 / transition`, and its
values are those of the sinc function for the cutoff frequency times the Blackman window, scaled to the sum 1. -/
theorem C135_low_pass {junk cutoff transition : ℝ} {ir : List ℝ} (h : lpHpIr junk cutoff transition false = .ok ir) :
    IsKernelLength transition ir.length ∧ ∀ i, i < ir.length → ir[i]? = some (lowPassKernel cutoff ir.length i) := by
  obtain ⟨n, hl, h3, _, _, _, rfl⟩ := lpHpIr_ok h
  rw [tab_length]
  refine ⟨isKernelLength_of hl h3, fun i hi => ?_⟩
  rw [tab_getElem?, if_pos hi, lowPassKernel_eq]
  rfl

/-- **C135, high-pass.** The kernel is the delayed impulse without the low-pass kernel for the same parameters. -/
theorem C135_high_pass {junk cutoff transition : ℝ} {ir : List ℝ} (h : lpHpIr junk cutoff transition true = .ok ir) :
    IsKernelLength transition ir.length ∧ ∀ i, i < ir.length →
      ir[i]? = some ((if 2 * i + 1 = ir.length then 1 else 0) - lowPassKernel cutoff ir.length i) := by
  obtain ⟨n, hl, h3, _, hodd, _, rfl⟩ := lpHpIr_ok h
  rw [tab_length]
  refine ⟨isKernelLength_of hl h3, fun i hi => ?_⟩
  rw [tab_getElem?, if_pos hi, lowPassKernel_eq]
  simp only [if_true]
  congr 1
  by_cases hm : i = (n - 1) / 2
  · rw [if_pos hm, if_pos (by omega)]; ring
  · rw [if_neg hm, if_neg (by omega)]; ring

theorem response_symmetric {m : Nat} {g : Nat → ℝ} (hs : ∀ i, i < 2 * m + 1 → g i = g (2 * m + 1 - 1 - i)) (f : ℝ) :
    response (tab (2 * m + 1) g) f =
      delayResponse m f * ((g m + 2 * ∑ j ∈ Finset.range m, g (m - 1 - j) * Real.cos (2 * Real.pi * f * (j + 1)) : ℝ) : ℂ) := by
  rw [response_tab, delayResponse_eq, show 2 * m + 1 = m + (1 + m) by omega, Finset.sum_range_add, Finset.sum_range_add,
    ← Finset.sum_range_reflect (n := m)]
  rw [Finset.sum_range_one, Complex.ofReal_add, Complex.ofReal_mul, Complex.ofReal_sum, mul_add, add_comm _ (_ + _), add_assoc]
  congr 1
  · rw [Nat.add_zero, mul_comm]
  · rw [← Finset.sum_add_distrib, Finset.mul_sum, Finset.mul_sum]
    refine Finset.sum_congr rfl fun j hj => ?_
    have hj' := Finset.mem_range.1 hj
    rw [hs (m + (1 + j)) (by omega), show 2 * m + 1 - 1 - (m + (1 + j)) = m - 1 - j by omega]
    have e1 : fexp f ^ (m + (1 + j)) = fexp f ^ m * fexp f ^ (j + 1) := by rw [pow_add, add_comm 1 j]
    have e2 : fexp f ^ (m - 1 - j) = fexp f ^ m * fexp (-f) ^ (j + 1) := by
      have hinv : fexp f * fexp (-f) = 1 := by rw [← fexp_add, add_neg_cancel, fexp_zero]
      conv_rhs => rw [show m = (m - 1 - j) + (j + 1) by omega, pow_add, mul_assoc, ← mul_pow, hinv, one_pow, mul_one]
    have e3 : fexp f ^ (j + 1) + fexp (-f) ^ (j + 1) = 2 * ((Real.cos (2 * Real.pi * f * (j + 1)) : ℝ) : ℂ) := by
      rw [← fexp_pow, ← fexp_pow, fexp, fexp, Complex.ofReal_cos, Complex.two_cos, add_comm]
      congr 2
      · push_cast; ring
      · push_cast; ring
    rw [e1, e2]
    push_cast at e3 ⊢
    linear_combination (g (m - 1 - j) : ℂ) * fexp f ^ m * e3

/-- The real number by which a symmetric kernel of odd length scales a frequency. -/
noncomputable def symmetricGain (ir : List ℝ) (f : ℝ) : ℝ :=
  ir.getD ((ir.length - 1) / 2) 0 +
    2 * ∑ j ∈ Finset.range ((ir.length - 1) / 2), ir.getD ((ir.length - 1) / 2 - 1 - j) 0 * Real.cos (2 * Real.pi * f * (j + 1))

theorem linear_phase {ir : List ℝ} (hodd : Odd ir.length) (hs : Symmetric ir) (f : ℝ) :
    response ir f = delayResponse ((ir.length - 1) / 2) f * (symmetricGain ir f : ℂ) := by
  obtain ⟨m, hm⟩ := hodd
  have e := eq_tab ir 0
  rw [hm] at e
  have hsym : ∀ i, i < 2 * m + 1 → ir.getD i 0 = ir.getD (2 * m + 1 - 1 - i) 0 := by
    intro i hi
    have := hs i (by omega)
    rw [List.getD, List.getD, this, hm]
  have := response_symmetric (g := fun i => ir.getD i 0) hsym f
  rw [← e] at this
  rw [this, symmetricGain, hm, show (2 * m + 1 - 1) / 2 = m by omega]

/-- **C135, delay.** All four kinds of kernels delay all frequencies by the same time, half of the length: the response is that of a delay times a
real number. -/
theorem C135_linear_phase {junk cl ch tl th : ℝ} {isReject isHighPass : Bool} {ir : List ℝ} {k : Nat}
    (h : lpHpIr junk cl tl isHighPass = .ok ir ∨
      (0 < cl ∧ ch < 1 / 2 ∧ 4 / tl ≤ 1073741824 ∧ 4 / th ≤ 1073741824 ∧ bpBrIr junk cl ch tl th isReject = .ok (ir, k))) (f : ℝ) :
    ∃ gain : ℝ, response ir f = delayResponse ((ir.length - 1) / 2) f * (gain : ℂ) := by
  refine ⟨symmetricGain ir f, linear_phase ?_ ?_ f⟩
  all_goals
    rcases h with h | ⟨h0, h1, h2, h3, h⟩
    · cases isHighPass
      · have := C08_low_pass h; first | exact this.1 | exact this.2.2.1
      · have := C08_high_pass h; first | exact this.1 | exact this.2.2.1
    · cases isReject
      · have := C08_band_pass h0 h1 h2 h3 h; first | exact this.1 | exact this.2.1
      · have := C08_band_reject h0 h1 h; first | exact this.1 | exact this.2.2.2.1

/-- A kernel that exists, and the value in its middle before the scaling. -/
example : ∃ ir, lpHpIr (7 : ℝ) 0.1 0.5 false = .ok ir ∧ ir.length = 9 ∧ windowedSincValue 0.1 9 4 = 1 := by
  obtain ⟨ir, h⟩ := C08_defined 7 (cutoff := 0.1) (transition := 0.5) false (by norm_num) (by norm_num) (by norm_num)
    (by rw [abs_of_pos (by norm_num)]; norm_num)
  have hl := (C135_low_pass h).1
  refine ⟨ir, h, ?_, ?_⟩
  · have h1 := hl.2.2 9 (by decide) (by norm_num)
    have h2 : 8 ≤ ir.length := by
      have := hl.2.1
      norm_num at this
      exact_mod_cast this
    have h3 := Nat.odd_iff.1 hl.1
    omega
  · rw [windowedSincValue, blackmanOf, sincOf, if_pos (by norm_num)]
    have e1 : 2 * Real.pi * ((4 : ℕ) : ℝ) / ((9 : ℕ) - 1) = Real.pi := by push_cast; ring
    have e2 : 4 * Real.pi * ((4 : ℕ) : ℝ) / ((9 : ℕ) - 1) = 2 * Real.pi := by push_cast; ring
    rw [e1, e2, Real.cos_pi, Real.cos_two_pi]
    norm_num

end Sp
