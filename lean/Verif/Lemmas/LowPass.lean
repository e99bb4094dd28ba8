import Mathlib.Analysis.SpecialFunctions.Trigonometric.Deriv
import Mathlib.Analysis.Calculus.Deriv.MeanValue
import Mathlib.Analysis.Calculus.LocalExtr.Basic
import Mathlib.Analysis.Real.Pi.Bounds

/-!
# Trigonometric sums for the windowed sinc

The sums `∑ sin (d x) / d` are not negative (inequality of Fejér and Jackson), and the integral of the transform of the Blackman window is near
to `π` outside of the main lobe.
-/

set_option linter.unusedSectionVars false

noncomputable section

namespace Sp

/-- The sum of the first `N` cosines. -/
def cosSum (N : Nat) (x : ℝ) : ℝ := ∑ d ∈ Finset.range N, Real.cos ((d + 1) * x)

/-- The partial sums of the sawtooth. -/
def sinSum (N : Nat) (x : ℝ) : ℝ := ∑ d ∈ Finset.range N, Real.sin ((d + 1) * x) / (d + 1)

theorem cosSum_mul (N : Nat) (x : ℝ) : 2 * Real.sin (x / 2) * cosSum N x = Real.sin (N * x + x / 2) - Real.sin (x / 2) := by
  induction N with
  | zero => simp [cosSum]
  | succ N ih =>
    rw [cosSum, Finset.sum_range_succ, mul_add, ← cosSum, ih]
    push_cast
    have e1 : ((N : ℝ) + 1) * x + x / 2 = (N + 1) * x + x / 2 := rfl
    have e2 : (N : ℝ) * x + x / 2 = (N + 1) * x - x / 2 := by ring
    rw [e2, Real.sin_sub, Real.sin_add]
    ring

theorem hasDerivAt_sinSum (N : Nat) (x : ℝ) : HasDerivAt (sinSum N) (cosSum N x) x := by
  unfold sinSum cosSum
  apply HasDerivAt.fun_sum
  intro d _
  have h0 : ((d : ℝ) + 1) ≠ 0 := by positivity
  have h1 : HasDerivAt (fun y => ((d : ℝ) + 1) * y) ((d : ℝ) + 1) x := by
    simpa using (hasDerivAt_id x).const_mul ((d : ℝ) + 1)
  have h2 := (h1.sin).div_const ((d : ℝ) + 1)
  rwa [mul_div_assoc, div_self h0, mul_one] at h2

/-- The inequality of Fejér and Jackson. -/
theorem sinSum_nonneg (N : Nat) {x : ℝ} (h0 : 0 ≤ x) (h1 : x ≤ Real.pi) : 0 ≤ sinSum N x := by
  induction N generalizing x with
  | zero => simp [sinSum]
  | succ N ih =>
    have hcont : ContinuousOn (sinSum (N + 1)) (Set.Icc 0 Real.pi) := fun y _ => (hasDerivAt_sinSum (N + 1) y).continuousAt.continuousWithinAt
    obtain ⟨m, ⟨hm0, hm1⟩, hmin⟩ := isCompact_Icc.exists_isMinOn (Set.nonempty_Icc.2 Real.pi_pos.le) hcont
    refine le_trans ?_ (hmin (show x ∈ Set.Icc 0 Real.pi from ⟨h0, h1⟩))
    rcases eq_or_lt_of_le hm0 with e | hm0'
    · rw [← e]; simp [sinSum]
    rcases eq_or_lt_of_le hm1 with e | hm1'
    · rw [e]
      refine le_of_eq (Eq.symm (Finset.sum_eq_zero fun d _ => ?_))
      have : Real.sin (((d : ℝ) + 1) * Real.pi) = 0 := by exact_mod_cast Real.sin_nat_mul_pi (d + 1)
      rw [this, zero_div]
    · have hloc : IsLocalMin (sinSum (N + 1)) m := hmin.isLocalMin (Icc_mem_nhds hm0' hm1')
      have hz := hloc.hasDerivAt_eq_zero (hasDerivAt_sinSum (N + 1) m)
      have hc := cosSum_mul (N + 1) m
      rw [hz, mul_zero] at hc
      have hs2 : 0 < Real.sin (m / 2) := Real.sin_pos_of_pos_of_lt_pi (by linarith) (by linarith)
      have hc2 : 0 ≤ Real.cos (m / 2) := Real.cos_nonneg_of_neg_pi_div_two_le_of_le (by linarith) (by linarith)
      -- the last term is not negative
      have hlast : 0 ≤ Real.sin (((N : ℝ) + 1) * m) := by
        push_cast at hc
        have e1 : Real.sin (((N : ℝ) + 1) * m) =
            Real.sin (((N : ℝ) + 1) * m + m / 2) * Real.cos (m / 2) - Real.cos (((N : ℝ) + 1) * m + m / 2) * Real.sin (m / 2) := by
          rw [← Real.sin_sub]; congr 1; ring
        have e2 : Real.sin (((N : ℝ) + 1) * m + m / 2) = Real.sin (m / 2) := by linarith
        have e3 : Real.cos (((N : ℝ) + 1) * m + m / 2) ≤ Real.cos (m / 2) := by
          refine le_trans (le_abs_self _) ?_
          have q1 := Real.sin_sq_add_cos_sq (((N : ℝ) + 1) * m + m / 2)
          have q2 := Real.sin_sq_add_cos_sq (m / 2)
          rw [e2] at q1
          rw [← abs_of_nonneg hc2]
          exact sq_le_sq.1 (by linarith)
        rw [e1, e2]
        have := mul_le_mul_of_nonneg_right e3 hs2.le
        linarith
      rw [sinSum, Finset.sum_range_succ, ← sinSum]
      have := ih hm0 hm1
      have : 0 ≤ Real.sin (((N : ℝ) + 1) * m) / (N + 1) := by positivity
      linarith

/-- Sums with decreasing weights. -/
theorem weighted_sinSum_nonneg {w : Nat → ℝ} (M : Nat) (hw0 : ∀ d, d < M → 0 ≤ w (d + 1)) (hw : ∀ d, d + 1 < M → w (d + 2) ≤ w (d + 1)) {x : ℝ} (h0 : 0 ≤ x)
    (h1 : x ≤ Real.pi) : 0 ≤ ∑ d ∈ Finset.range M, w (d + 1) * (Real.sin ((d + 1) * x) / (d + 1)) := by
  have key : ∀ m, m < M → w (m + 1) * sinSum (m + 1) x ≤ ∑ d ∈ Finset.range (m + 1), w (d + 1) * (Real.sin ((d + 1) * x) / (d + 1)) := by
    intro m
    induction m with
    | zero => intro _; simp [sinSum]
    | succ m ih =>
      intro hm
      rw [Finset.sum_range_succ]
      have h2 := ih (by omega)
      have h3 := hw m hm
      have h4 := sinSum_nonneg (m + 1) h0 h1
      have e : sinSum (m + 1 + 1) x = sinSum (m + 1) x + Real.sin (((m + 1 : ℕ) + 1) * x) / ((m + 1 : ℕ) + 1) := by
        rw [sinSum, Finset.sum_range_succ, ← sinSum]
      rw [e, mul_add]
      have := mul_le_mul_of_nonneg_right h3 h4
      have e2 : w (m + 1 + 1) = w (m + 2) := rfl
      rw [e2]
      linarith
  cases M with
  | zero => simp
  | succ M => exact le_trans (mul_nonneg (hw0 M (by omega)) (sinSum_nonneg _ h0 h1)) (key M (by omega))

/-! ### The Blackman window around its center -/

/-- The window at a distance from its center. -/
def centered (M d : Nat) : ℝ := 0.42 + 0.5 * Real.cos (Real.pi * d / M) + 0.08 * Real.cos (2 * Real.pi * d / M)

theorem centered_eq (M d : Nat) :
    centered M d = 0.34 + 0.5 * Real.cos (Real.pi * d / M) + 0.16 * Real.cos (Real.pi * d / M) ^ 2 := by
  rw [centered, show 2 * Real.pi * d / M = 2 * (Real.pi * d / M) by ring, Real.cos_two_mul]
  ring

theorem centered_nonneg (M d : Nat) : 0 ≤ centered M d := by
  rw [centered_eq]
  have := Real.neg_one_le_cos (Real.pi * d / M)
  nlinarith

theorem centered_antitone {M d : Nat} (hd : d + 1 ≤ M) : centered M (d + 1) ≤ centered M d := by
  have hM : (0 : ℝ) < M := by
    have : 0 < M := by omega
    exact_mod_cast this
  have hd' : (d : ℝ) + 1 ≤ M := by exact_mod_cast hd
  have hc : Real.cos (Real.pi * (d + 1 : ℕ) / M) ≤ Real.cos (Real.pi * d / M) := by
    refine Real.cos_le_cos_of_nonneg_of_le_pi (by positivity) ?_ ?_
    · rw [div_le_iff₀ hM]
      push_cast
      exact mul_le_mul_of_nonneg_left hd' Real.pi_pos.le
    · refine div_le_div_of_nonneg_right ?_ hM.le
      refine mul_le_mul_of_nonneg_left ?_ Real.pi_pos.le
      push_cast
      linarith
  rw [centered_eq, centered_eq]
  have h1 := Real.neg_one_le_cos (Real.pi * (d + 1 : ℕ) / M)
  generalize Real.cos (Real.pi * (d + 1 : ℕ) / M) = a at *
  generalize Real.cos (Real.pi * d / M) = b at *
  nlinarith

/-- The integral of the transform of the window. -/
def stepP (M : Nat) (x : ℝ) : ℝ := x + 2 * ∑ d ∈ Finset.range M, centered M (d + 1) * (Real.sin ((d + 1) * x) / (d + 1))

/-- The transform of the window. -/
def windowW (M : Nat) (x : ℝ) : ℝ := 1 + 2 * ∑ d ∈ Finset.range M, centered M (d + 1) * Real.cos ((d + 1) * x)

theorem le_stepP {M : Nat} {x : ℝ} (h0 : 0 ≤ x) (h1 : x ≤ Real.pi) : x ≤ stepP M x := by
  have := weighted_sinSum_nonneg (w := centered M) M (fun d _ => centered_nonneg M (d + 1)) (fun d hd => centered_antitone (by omega)) h0 h1
  rw [stepP]
  linarith

theorem hasDerivAt_stepP (M : Nat) (x : ℝ) : HasDerivAt (stepP M) (windowW M x) x := by
  unfold stepP windowW
  refine (hasDerivAt_id x).add (HasDerivAt.const_mul 2 ?_)
  apply HasDerivAt.fun_sum
  intro d _
  refine HasDerivAt.const_mul _ ?_
  have h0 : ((d : ℝ) + 1) ≠ 0 := by positivity
  have h1 : HasDerivAt (fun y => ((d : ℝ) + 1) * y) ((d : ℝ) + 1) x := by
    simpa using (hasDerivAt_id x).const_mul ((d : ℝ) + 1)
  have h2 := (h1.sin).div_const ((d : ℝ) + 1)
  convert h2 using 1
  field_simp

/-- The sum of cosines with half weight at the ends. -/
def halfKernel (M : Nat) (x : ℝ) : ℝ := 1 + 2 * cosSum M x - Real.cos (M * x)

theorem halfKernel_mul (M : Nat) (x : ℝ) : halfKernel M x * Real.sin (x / 2) = Real.sin (M * x) * Real.cos (x / 2) := by
  have h := cosSum_mul M x
  rw [Real.sin_add] at h
  rw [halfKernel]
  linarith

theorem halfKernel_zero (M : Nat) (x : ℝ) : halfKernel M x * (1 - Real.cos x) = Real.sin (M * x) * Real.sin x := by
  have h := halfKernel_mul M x
  have e1 : 1 - Real.cos x = 2 * Real.sin (x / 2) ^ 2 := by
    have := Real.cos_two_mul (x / 2)
    have h2 := Real.sin_sq_add_cos_sq (x / 2)
    rw [show 2 * (x / 2) = x by ring] at this
    linarith
  have e2 : Real.sin x = 2 * Real.sin (x / 2) * Real.cos (x / 2) := by
    rw [← Real.sin_two_mul]; congr 1; ring
  rw [e1, e2]
  linear_combination 2 * Real.sin (x / 2) * h

/-- Two kernels moved by `h` where `M h` is a multiple of `π`. -/
theorem halfKernel_pair {M : Nat} {h : ℝ} (hs : Real.sin (M * h) = 0) (x : ℝ) :
    (halfKernel M (x - h) + halfKernel M (x + h)) * (Real.cos h - Real.cos x) = 2 * Real.cos (M * h) * Real.sin (M * x) * Real.sin x := by
  have h1 := halfKernel_mul M (x - h)
  have h2 := halfKernel_mul M (x + h)
  have e1 : Real.sin (M * (x - h)) = Real.sin (M * x) * Real.cos (M * h) := by rw [mul_sub, Real.sin_sub, hs]; ring
  have e2 : Real.sin (M * (x + h)) = Real.sin (M * x) * Real.cos (M * h) := by rw [mul_add, Real.sin_add, hs]; ring
  rw [e1] at h1
  rw [e2] at h2
  have e3 : Real.cos h - Real.cos x = 2 * Real.sin ((x - h) / 2) * Real.sin ((x + h) / 2) := by
    have := Real.cos_sub_cos h x
    rw [this, show (h - x) / 2 = -((x - h) / 2) by ring, Real.sin_neg, show (h + x) / 2 = (x + h) / 2 by ring]
    ring
  have e4 : Real.sin x = Real.sin ((x + h) / 2) * Real.cos ((x - h) / 2) + Real.cos ((x + h) / 2) * Real.sin ((x - h) / 2) := by
    rw [← Real.sin_add]; congr 1; ring
  rw [e3, e4]
  linear_combination 2 * Real.sin ((x + h) / 2) * h1 + 2 * Real.sin ((x - h) / 2) * h2

theorem cosSum_pair (M : Nat) (x h : ℝ) :
    cosSum M (x - h) + cosSum M (x + h) = 2 * ∑ d ∈ Finset.range M, Real.cos ((d + 1) * h) * Real.cos ((d + 1) * x) := by
  rw [cosSum, cosSum, ← Finset.sum_add_distrib, Finset.mul_sum]
  refine Finset.sum_congr rfl fun d _ => ?_
  rw [mul_sub, mul_add, Real.cos_sub, Real.cos_add]
  ring

theorem windowW_eq {M : Nat} (hM : 0 < M) (x : ℝ) :
    windowW M x = 0.42 * halfKernel M x + 0.25 * (halfKernel M (x - Real.pi / M) + halfKernel M (x + Real.pi / M)) +
      0.04 * (halfKernel M (x - 2 * (Real.pi / M)) + halfKernel M (x + 2 * (Real.pi / M))) := by
  have hM0 : (M : ℝ) ≠ 0 := by positivity
  have c1 : Real.cos (M * (x - Real.pi / M)) = -Real.cos (M * x) := by
    rw [show (M : ℝ) * (x - Real.pi / M) = M * x - Real.pi by field_simp, Real.cos_sub_pi]
  have c2 : Real.cos (M * (x + Real.pi / M)) = -Real.cos (M * x) := by
    rw [show (M : ℝ) * (x + Real.pi / M) = M * x + Real.pi by field_simp, Real.cos_add_pi]
  have c3 : Real.cos (M * (x - 2 * (Real.pi / M))) = Real.cos (M * x) := by
    rw [show (M : ℝ) * (x - 2 * (Real.pi / M)) = M * x - 2 * Real.pi by field_simp, Real.cos_sub_two_pi]
  have c4 : Real.cos (M * (x + 2 * (Real.pi / M))) = Real.cos (M * x) := by
    rw [show (M : ℝ) * (x + 2 * (Real.pi / M)) = M * x + 2 * Real.pi by field_simp, Real.cos_add_two_pi]
  have p1 := cosSum_pair M x (Real.pi / M)
  have p2 := cosSum_pair M x (2 * (Real.pi / M))
  have e : ∑ d ∈ Finset.range M, centered M (d + 1) * Real.cos ((d + 1) * x) = 0.42 * cosSum M x +
      0.5 * ∑ d ∈ Finset.range M, Real.cos ((d + 1) * (Real.pi / M)) * Real.cos ((d + 1) * x) +
      0.08 * ∑ d ∈ Finset.range M, Real.cos ((d + 1) * (2 * (Real.pi / M))) * Real.cos ((d + 1) * x) := by
    rw [cosSum, Finset.mul_sum, Finset.mul_sum, Finset.mul_sum, ← Finset.sum_add_distrib, ← Finset.sum_add_distrib]
    refine Finset.sum_congr rfl fun d _ => ?_
    rw [centered]
    push_cast
    rw [show Real.pi * ((d : ℝ) + 1) / M = (d + 1) * (Real.pi / M) by ring, show 2 * Real.pi * ((d : ℝ) + 1) / M = (d + 1) * (2 * (Real.pi / M)) by ring]
    ring
  rw [windowW, e]
  simp only [halfKernel]
  rw [c1, c2, c3, c4]
  linarith

/-- The transform of the window as a product. -/
theorem windowW_mul {M : Nat} (hM : 0 < M) (x : ℝ) :
    windowW M x * ((1 - Real.cos x) * (Real.cos (Real.pi / M) - Real.cos x) * (Real.cos (2 * (Real.pi / M)) - Real.cos x)) =
      Real.sin (M * x) * Real.sin x * ((1 - Real.cos (Real.pi / M)) *
        (0.42 * (1 - Real.cos (2 * (Real.pi / M))) - (0.34 - 0.16 * Real.cos (Real.pi / M)) * (1 - Real.cos x))) := by
  have hM0 : (M : ℝ) ≠ 0 := by positivity
  have m1 : (M : ℝ) * (Real.pi / M) = Real.pi := by field_simp
  have m2 : (M : ℝ) * (2 * (Real.pi / M)) = 2 * Real.pi := by field_simp
  have k0 := halfKernel_zero M x
  have k1 := halfKernel_pair (M := M) (h := Real.pi / M) (by rw [m1, Real.sin_pi]) x
  have k2 := halfKernel_pair (M := M) (h := 2 * (Real.pi / M)) (by rw [m2, Real.sin_two_pi]) x
  rw [m1, Real.cos_pi] at k1
  rw [m2, Real.cos_two_pi] at k2
  have q : Real.cos (2 * (Real.pi / M)) = 2 * Real.cos (Real.pi / M) ^ 2 - 1 := Real.cos_two_mul _
  rw [windowW_eq hM]
  generalize halfKernel M (x - Real.pi / M) + halfKernel M (x + Real.pi / M) = A at *
  generalize halfKernel M (x - 2 * (Real.pi / M)) + halfKernel M (x + 2 * (Real.pi / M)) = B at *
  rw [q] at k2 ⊢
  generalize Real.cos (Real.pi / M) = k at *
  generalize Real.cos x = c at *
  linear_combination 0.42 * (k - c) * (2 * k ^ 2 - 1 - c) * k0 + 0.25 * (1 - c) * (2 * k ^ 2 - 1 - c) * k1 + 0.04 * (1 - c) * (k - c) * k2

/-! ### Outside of the main lobe -/

private theorem ratio_bound {k y : ℝ} (hk0 : 0.7 ≤ k) (hk1 : k < 1) (hy : (1 - k) * (1 + 2 * k) ^ 2 ≤ y) :
    |0.42 * (2 * (1 - k) * (1 + k)) - (0.34 - 0.16 * k) * y| * y ≤ (0.34 - 0.16 * k) * ((y - (1 - k)) * (y - 2 * (1 - k) * (1 + k))) := by
  obtain ⟨z, hz0, rfl⟩ : ∃ z, 0 ≤ z ∧ y = (1 - k) * ((1 + 2 * k) ^ 2 + z) := by
    have hp : 0 < 1 - k := by linarith
    refine ⟨y / (1 - k) - (1 + 2 * k) ^ 2, ?_, by field_simp; ring⟩
    rw [sub_nonneg, le_div_iff₀ hp]
    linarith
  have hp : 0 < 1 - k := by linarith
  have hC : 0 < 0.34 - 0.16 * k := by linarith
  set r := (1 + 2 * k) ^ 2 + z with hr
  have hr0 : 5.76 ≤ r := by rw [hr]; nlinarith
  have e1 : 0.42 * (2 * (1 - k) * (1 + k)) - (0.34 - 0.16 * k) * ((1 - k) * r) = (1 - k) * (0.84 * (1 + k) - (0.34 - 0.16 * k) * r) := by ring
  rw [e1, abs_mul, abs_of_pos hp]
  have e2 : (0.34 - 0.16 * k) * (((1 - k) * r - (1 - k)) * ((1 - k) * r - 2 * (1 - k) * (1 + k))) =
      (1 - k) ^ 2 * ((0.34 - 0.16 * k) * ((r - 1) * (r - 2 * (1 + k)))) := by ring
  have e3 : (1 - k) * |0.84 * (1 + k) - (0.34 - 0.16 * k) * r| * ((1 - k) * r) = (1 - k) ^ 2 * (|0.84 * (1 + k) - (0.34 - 0.16 * k) * r| * r) := by ring
  rw [e2, e3]
  refine mul_le_mul_of_nonneg_left ?_ (by positivity)
  rw [← abs_of_nonneg (by linarith : 0 ≤ r), ← abs_mul, abs_of_nonneg (by linarith : 0 ≤ r), abs_le]
  constructor
  · have h1 : 0 ≤ 0.84 * (1 + k) - (0.34 - 0.16 * k) * (3 + 2 * k) := by nlinarith
    have h2 : 0 ≤ (0.84 * (1 + k) - (0.34 - 0.16 * k) * (3 + 2 * k)) * r := mul_nonneg h1 (by linarith)
    have h3 : 0 ≤ (0.34 - 0.16 * k) * (2 * (1 + k)) := by nlinarith
    nlinarith
  · have hz : 0 ≤ (0.34 - 0.16 * k) * z ^ 2 := by positivity
    have h1 : 0 ≤ 2 * (0.34 - 0.16 * k) * (1 + 2 * k) ^ 4 - ((0.34 - 0.16 * k) * (3 + 2 * k) + 0.84 * (1 + k)) * (1 + 2 * k) ^ 2 +
        (0.34 - 0.16 * k) * (2 * (1 + k)) := by
      have hq : 0 ≤ 2 * (0.34 - 0.16 * k) * (1 + 2 * k) ^ 2 - ((0.34 - 0.16 * k) * (3 + 2 * k) + 0.84 * (1 + k)) := by
        obtain ⟨a, ha, rfl⟩ : ∃ a, 0 ≤ a ∧ k = 1 - a := ⟨1 - k, by linarith, by ring⟩
        have ha3 : a ≤ 0.3 := by linarith
        have e : 2 * (0.34 - 0.16 * (1 - a)) * (1 + 2 * (1 - a)) ^ 2 - ((0.34 - 0.16 * (1 - a)) * (3 + 2 * (1 - a)) + 0.84 * (1 + (1 - a))) =
            0.66 - 1.04 * a - 2.08 * a ^ 2 + 1.28 * a ^ 3 := by ring
        rw [e]
        have : 0 ≤ a ^ 3 := by positivity
        nlinarith
      have h3 : 0 ≤ (2 * (0.34 - 0.16 * k) * (1 + 2 * k) ^ 2 - ((0.34 - 0.16 * k) * (3 + 2 * k) + 0.84 * (1 + k))) * (1 + 2 * k) ^ 2 :=
        mul_nonneg hq (by positivity)
      have h4 : 0 ≤ (0.34 - 0.16 * k) * (2 * (1 + k)) := by nlinarith
      have e : (1 + 2 * k) ^ 4 = (1 + 2 * k) ^ 2 * (1 + 2 * k) ^ 2 := by ring
      rw [e]
      linarith
    have h2 : 0 ≤ (4 * (0.34 - 0.16 * k) * (1 + 2 * k) ^ 2 - ((0.34 - 0.16 * k) * (3 + 2 * k) + 0.84 * (1 + k))) * z := by
      refine mul_nonneg ?_ hz0
      nlinarith
    rw [hr]
    nlinarith

theorem cos_three {M : Nat} : 1 - Real.cos (3 * (Real.pi / M)) = (1 - Real.cos (Real.pi / M)) * (1 + 2 * Real.cos (Real.pi / M)) ^ 2 := by
  rw [Real.cos_three_mul]
  ring

private theorem cos_bounds {M : Nat} (hM : 4 ≤ M) : 0.7 ≤ Real.cos (Real.pi / M) ∧ Real.cos (Real.pi / M) < 1 := by
  have hM4 : (4 : ℝ) ≤ M := by exact_mod_cast hM
  have hp := Real.pi_pos
  have h0 : 0 < Real.pi / M := by positivity
  have h1 : Real.pi / M ≤ Real.pi / 4 := div_le_div_of_nonneg_left hp.le (by norm_num) hM4
  constructor
  · have := Real.cos_le_cos_of_nonneg_of_le_pi h0.le (by linarith) h1
    rw [Real.cos_pi_div_four] at this
    have h2 : (1.4 : ℝ) ≤ √2 := Real.le_sqrt_of_sq_le (by norm_num)
    linarith
  · rw [← Real.cos_zero]
    exact Real.cos_lt_cos_of_nonneg_of_le_pi le_rfl (by linarith) h0

/-- The transform of the window outside of the main lobe. -/
theorem windowW_le {M : Nat} (hM : 4 ≤ M) {x : ℝ} (h0 : 3 * (Real.pi / M) ≤ x) (h1 : x ≤ Real.pi) :
    |windowW M x| ≤ (1 - Real.cos (Real.pi / M)) * (0.34 - 0.16 * Real.cos (Real.pi / M)) * (Real.sin x / (1 - Real.cos x) ^ 2) := by
  obtain ⟨k0, k1⟩ := cos_bounds hM
  have hM0 : (0 : ℝ) < M := by
    have : 0 < M := by omega
    exact_mod_cast this
  have hx0 : 0 ≤ 3 * (Real.pi / M) := by have := Real.pi_pos; positivity
  have hc := Real.cos_le_cos_of_nonneg_of_le_pi hx0 h1 h0
  have hy : (1 - Real.cos (Real.pi / M)) * (1 + 2 * Real.cos (Real.pi / M)) ^ 2 ≤ 1 - Real.cos x := by
    rw [← cos_three]
    linarith
  have hsin : 0 ≤ Real.sin x := Real.sin_nonneg_of_nonneg_of_le_pi (by linarith) h1
  have hmul := windowW_mul (M := M) (by omega) x
  have hsM : |Real.sin (M * x)| ≤ 1 := Real.abs_sin_le_one _
  have hr := ratio_bound k0 k1 hy
  rw [Real.cos_two_mul] at hmul
  generalize Real.cos (Real.pi / M) = k at *
  generalize Real.cos x = c at *
  generalize Real.sin (M * x) = sM at *
  generalize Real.sin x = s at *
  generalize windowW M x = W at *
  set y := 1 - c with hyd
  have hp : 0 < 1 - k := by linarith
  have hC : 0 < 0.34 - 0.16 * k := by linarith
  have hr5 : 5.76 * (1 - k) ≤ y := by
    have : 5.76 ≤ (1 + 2 * k) ^ 2 := by nlinarith
    have := mul_le_mul_of_nonneg_left this hp.le
    linarith
  have hy0 : 0 < y := by nlinarith
  have hyp : 0 < y - (1 - k) := by nlinarith
  have hyq : 0 < y - 2 * (1 - k) * (1 + k) := by nlinarith
  have e1 : k - c = y - (1 - k) := by rw [hyd]; ring
  have e2 : 2 * k ^ 2 - 1 - c = y - 2 * (1 - k) * (1 + k) := by rw [hyd]; ring
  have e3 : 1 - (2 * k ^ 2 - 1) = 2 * (1 - k) * (1 + k) := by ring
  rw [e1, e2, e3] at hmul
  have habs := congrArg abs hmul
  rw [abs_mul, abs_of_pos (by positivity : 0 < y * (y - (1 - k)) * (y - 2 * (1 - k) * (1 + k))), abs_mul, abs_mul, abs_of_nonneg hsin, abs_mul,
    abs_of_pos hp] at habs
  set D := |0.42 * (2 * (1 - k) * (1 + k)) - (0.34 - 0.16 * k) * y| with hD
  have hD0 : 0 ≤ D := abs_nonneg _
  set T := (y - (1 - k)) * (y - 2 * (1 - k) * (1 + k)) with hT
  have hT0 : 0 < T := mul_pos hyp hyq
  have h5 : |W| * (y * T) ≤ s * ((1 - k) * D) := by
    have : |sM| * s * ((1 - k) * D) ≤ 1 * s * ((1 - k) * D) := by
      refine mul_le_mul_of_nonneg_right (mul_le_mul_of_nonneg_right hsM hsin) (by positivity)
    rw [← mul_assoc y] at *
    linarith
  have h6 : |W| * (y * y) * T ≤ (1 - k) * (0.34 - 0.16 * k) * s * T := by
    calc |W| * (y * y) * T = |W| * (y * T) * y := by ring
      _ ≤ s * ((1 - k) * D) * y := mul_le_mul_of_nonneg_right h5 hy0.le
      _ = s * (1 - k) * (D * y) := by ring
      _ ≤ s * (1 - k) * ((0.34 - 0.16 * k) * T) := mul_le_mul_of_nonneg_left hr (by positivity)
      _ = _ := by ring
  have h7 := le_of_mul_le_mul_right h6 hT0
  rw [← mul_div_assoc, le_div_iff₀ (by positivity), sq]
  exact h7

theorem stepP_pi (M : Nat) : stepP M Real.pi = Real.pi := by
  rw [stepP, Finset.sum_eq_zero, mul_zero, add_zero]
  intro d _
  have : Real.sin (((d : ℝ) + 1) * Real.pi) = 0 := by exact_mod_cast Real.sin_nat_mul_pi (d + 1)
  rw [this, zero_div, mul_zero]

/-- The integral of the transform of the window outside of the main lobe, up to `π`. -/
theorem stepP_near {M : Nat} (hM : 4 ≤ M) {x : ℝ} (h0 : 3 * (Real.pi / M) ≤ x) (h1 : x ≤ Real.pi) : |stepP M x - Real.pi| ≤ 0.02 := by
  obtain ⟨k0, k1⟩ := cos_bounds hM
  have hM0 : (0 : ℝ) < M := by
    have : 0 < M := by omega
    exact_mod_cast this
  have hb : 0 < 3 * (Real.pi / M) := by have := Real.pi_pos; positivity
  set Q := (1 - Real.cos (Real.pi / M)) * (0.34 - 0.16 * Real.cos (Real.pi / M)) with hQ
  have hcos : ∀ t, 3 * (Real.pi / M) ≤ t → t ≤ Real.pi → 0 < 1 - Real.cos t := by
    intro t ht1 ht2
    have := Real.cos_lt_cos_of_nonneg_of_le_pi le_rfl ht2 (by linarith : 0 < t)
    rw [Real.cos_zero] at this
    linarith
  have hB : ∀ t, 3 * (Real.pi / M) ≤ t → t ≤ Real.pi → HasDerivAt (fun t => Q / (1 - Real.cos t)) (-(Q * (Real.sin t / (1 - Real.cos t) ^ 2))) t := by
    intro t ht1 ht2
    have hne := (hcos t ht1 ht2).ne'
    have h2 : HasDerivAt (fun t => 1 - Real.cos t) (Real.sin t) t := by
      simpa using (Real.hasDerivAt_cos t).const_sub 1
    refine ((hasDerivAt_const t Q).fun_div h2 hne).congr_deriv ?_
    ring
  have hsub : ∀ t ∈ Set.Icc x Real.pi, 3 * (Real.pi / M) ≤ t ∧ t ≤ Real.pi := fun t ht => ⟨h0.trans ht.1, ht.2⟩
  have mono1 : AntitoneOn (fun t => stepP M t + Q / (1 - Real.cos t)) (Set.Icc x Real.pi) := by
    refine antitoneOn_of_hasDerivWithinAt_nonpos (convex_Icc _ _) (f' := fun t => windowW M t + -(Q * (Real.sin t / (1 - Real.cos t) ^ 2))) ?_ ?_ ?_
    · intro t ht
      exact ((hasDerivAt_stepP M t).add (hB t (hsub t ht).1 (hsub t ht).2)).continuousAt.continuousWithinAt
    · intro t ht
      have ht' := interior_subset ht
      exact ((hasDerivAt_stepP M t).add (hB t (hsub t ht').1 (hsub t ht').2)).hasDerivWithinAt
    · intro t ht
      have ht' := interior_subset ht
      have := windowW_le hM (hsub t ht').1 (hsub t ht').2
      rw [← hQ] at this
      have := (abs_le.1 this).2
      linarith
  have mono2 : MonotoneOn (fun t => stepP M t - Q / (1 - Real.cos t)) (Set.Icc x Real.pi) := by
    refine monotoneOn_of_hasDerivWithinAt_nonneg (convex_Icc _ _) (f' := fun t => windowW M t - -(Q * (Real.sin t / (1 - Real.cos t) ^ 2))) ?_ ?_ ?_
    · intro t ht
      exact ((hasDerivAt_stepP M t).sub (hB t (hsub t ht).1 (hsub t ht).2)).continuousAt.continuousWithinAt
    · intro t ht
      have ht' := interior_subset ht
      exact ((hasDerivAt_stepP M t).sub (hB t (hsub t ht').1 (hsub t ht').2)).hasDerivWithinAt
    · intro t ht
      have ht' := interior_subset ht
      have := windowW_le hM (hsub t ht').1 (hsub t ht').2
      rw [← hQ] at this
      have := (abs_le.1 this).1
      linarith
  have hx : x ∈ Set.Icc x Real.pi := ⟨le_rfl, h1⟩
  have hpi : Real.pi ∈ Set.Icc x Real.pi := ⟨h1, le_rfl⟩
  have r1 := mono1 hx hpi h1
  have r2 := mono2 hx hpi h1
  beta_reduce at r1 r2
  rw [stepP_pi, Real.cos_pi] at r1 r2
  have hy : (1 - Real.cos (Real.pi / M)) * (1 + 2 * Real.cos (Real.pi / M)) ^ 2 ≤ 1 - Real.cos x := by
    have hc := Real.cos_le_cos_of_nonneg_of_le_pi hb.le h1 h0
    rw [← cos_three]
    linarith
  have hQ2 : Q / (1 - Real.cos x) ≤ 0.02 + Q / (1 - -1) := by
    rw [hQ]
    generalize Real.cos (Real.pi / M) = k at *
    generalize 1 - Real.cos x = y at *
    have hp : 0 < 1 - k := by linarith
    have hC : 0 < 0.34 - 0.16 * k := by linarith
    have hr : 0 < (1 + 2 * k) ^ 2 := by positivity
    have e1 : (1 - k) * (0.34 - 0.16 * k) / y ≤ (1 - k) * (0.34 - 0.16 * k) / ((1 - k) * (1 + 2 * k) ^ 2) :=
      div_le_div_of_nonneg_left (by positivity) (by positivity) hy
    have e2 : (1 - k) * (0.34 - 0.16 * k) / ((1 - k) * (1 + 2 * k) ^ 2) = (0.34 - 0.16 * k) / (1 + 2 * k) ^ 2 := by
      rw [mul_div_mul_left _ _ hp.ne']
    rw [e2] at e1
    refine e1.trans ?_
    rw [div_le_iff₀ hr]
    obtain ⟨a, ha, rfl⟩ : ∃ a, 0 ≤ a ∧ k = 1 - a := ⟨1 - k, by linarith, by ring⟩
    have ha3 : a ≤ 0.3 := by linarith
    have e : (0.02 + (1 - (1 - a)) * (0.34 - 0.16 * (1 - a)) / (1 - -1)) * (1 + 2 * (1 - a)) ^ 2 - (0.34 - 0.16 * (1 - a)) =
        a * (0.41 - 0.28 * a - 0.6 * a ^ 2 + 0.32 * a ^ 3) := by ring
    have : 0 ≤ a * (0.41 - 0.28 * a - 0.6 * a ^ 2 + 0.32 * a ^ 3) := by
      refine mul_nonneg ha ?_
      have : 0 ≤ a ^ 3 := by positivity
      nlinarith
    linarith
  rw [abs_le]
  constructor <;> linarith

theorem stepP_reflect (M : Nat) (x : ℝ) : stepP M (2 * Real.pi - x) = 2 * Real.pi - stepP M x := by
  have e : ∀ d : Nat, Real.sin (((d : ℝ) + 1) * (2 * Real.pi - x)) = -Real.sin ((d + 1) * x) := by
    intro d
    have := Real.sin_nat_mul_two_pi_sub (((d : ℝ) + 1) * x) (d + 1)
    rw [← this]
    congr 1
    push_cast
    ring
  rw [stepP, stepP]
  simp only [e, neg_div, mul_neg, Finset.sum_neg_distrib]
  ring

theorem stepP_neg (M : Nat) (x : ℝ) : stepP M (-x) = -stepP M x := by
  rw [stepP, stepP]
  simp only [mul_neg, Real.sin_neg, neg_div, Finset.sum_neg_distrib]
  ring

/-- The integral of the transform of the window is near to `π` outside of the main lobes. -/
theorem stepP_near' {M : Nat} (hM : 4 ≤ M) {x : ℝ} (h0 : 3 * (Real.pi / M) ≤ x) (h1 : x ≤ 2 * Real.pi - 3 * (Real.pi / M)) :
    |stepP M x - Real.pi| ≤ 0.02 := by
  rcases le_total x Real.pi with h | h
  · exact stepP_near hM h0 h
  · have := stepP_near hM (x := 2 * Real.pi - x) (by linarith) (by linarith)
    rw [stepP_reflect, abs_sub_comm] at this
    rw [show stepP M x - Real.pi = Real.pi - (2 * Real.pi - stepP M x) by ring]
    exact this

end Sp
