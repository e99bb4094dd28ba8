import Verif.Lemmas.Float
import Mathlib.Algebra.Order.BigOperators.Group.List

/-! # Sums of products in floating point arithmetic -/

set_option linter.unusedSectionVars false

namespace Sp
variable {rnd : ℚ → ℚ}

/-- The exact sum of products. -/
def exactDot (ts : List (Fl rnd × Fl rnd)) : ℚ := (ts.map fun p => p.1.val * p.2.val).sum

/-- The exact sum of the absolute values of products. -/
def absDot (ts : List (Fl rnd × Fl rnd)) : ℚ := (ts.map fun p => |p.1.val * p.2.val|).sum

theorem absDot_nonneg (ts : List (Fl rnd × Fl rnd)) : 0 ≤ absDot ts := by
  refine List.sum_nonneg ?_
  intro a ha
  obtain ⟨b, _, rfl⟩ := List.mem_map.1 ha
  exact abs_nonneg _

/-- One step of a sum of products: `n` terms before it, with exact value `s` and sum of absolute values `T`. -/
theorem dot_step (h : RoundsToNearest rnd) {n u η a x s T : ℚ} (hu : u = 1 / 2 ^ 53) (hη : η = (2 : ℚ) ^ (-1075 : ℤ)) (hn : 0 ≤ n)
    (hnu : 4 * (n + 1) * u ≤ 1) (ha : IsDouble a) (hs : |s| ≤ T)
    (hD : |a - s| ≤ (n + 1) * u * (1 + (n + 1) * u) * T + 2 * n * η) (hmax : 2 * (T + |x|) + 1 ≤ doubleMax) :
    IsDouble (rnd (a + rnd x)) ∧
    |rnd (a + rnd x) - (s + x)| ≤ (n + 2) * u * (1 + (n + 2) * u) * (T + |x|) + 2 * (n + 1) * η := by
  have hu0 : 0 < u := by rw [hu]; norm_num
  have hη0 : 0 < η := by rw [hη]; exact two_zpow_pos _
  have hη1 : η ≤ u := by
    rw [hη, hu, show (1 : ℚ) / 2 ^ 53 = (2 : ℚ) ^ (-53 : ℤ) by rw [zpow_neg, one_div]; rfl]
    exact two_zpow_le (by norm_num)
  have hT : 0 ≤ T := (abs_nonneg s).trans hs
  have hx0 := abs_nonneg x
  have hxm : |x| ≤ doubleMax := by linarith
  have hp := h.error_gen hxm
  rw [← hη, div_eq_mul_one_div, ← hu] at hp
  have hpd := h.double x hxm
  have e1 : a + rnd x - (s + x) = (a - s) - (x - rnd x) := by ring
  have h1 : |a + rnd x - (s + x)| ≤ |a - s| + |x - rnd x| := by rw [e1]; exact abs_sub _ _
  have h2 : |a + rnd x| ≤ |a + rnd x - (s + x)| + (T + |x|) := by
    have e2 : a + rnd x = (a + rnd x - (s + x)) + (s + x) := by ring
    have h3 := abs_add_le (a + rnd x - (s + x)) (s + x)
    have h4 := abs_add_le s x
    rw [← e2] at h3
    linarith
  set w := (n + 1) * u with hw
  have hw0 : 0 ≤ w := by positivity
  have hw1 : w ≤ 1 / 4 := by linarith
  have hwu : u ≤ w := by nlinarith only [hw, hn, hu0]
  have hnη : n * η ≤ 1 / 4 := by
    have := mul_le_mul_of_nonneg_left hη1 hn
    nlinarith only [this, hw, hw1, hu0]
  have hww : w * (1 + w) ≤ 1 / 2 := by nlinarith only [hw0, hw1]
  have hD2 : |a - s| ≤ 1 / 2 * T + 1 / 2 := by
    have := mul_le_mul_of_nonneg_right hww hT
    linarith only [this, hD, hnη]
  have hu8 : u ≤ 1 / 8 := by rw [hu]; norm_num
  have hp2 : |x - rnd x| ≤ 1 / 8 * |x| + 1 / 8 := by
    have := mul_le_mul_of_nonneg_left hu8 hx0
    linarith only [this, hp, hη1, hu8]
  have hqm : |a + rnd x| ≤ doubleMax := by linarith
  have hr := h.error_add ha hpd hqm
  rw [div_eq_mul_one_div, ← hu] at hr
  refine ⟨h.double _ hqm, ?_⟩
  have e3 : rnd (a + rnd x) - (s + x) = (a + rnd x - (s + x)) - (a + rnd x - rnd (a + rnd x)) := by ring
  have h5 : |rnd (a + rnd x) - (s + x)| ≤ |a + rnd x - (s + x)| + |a + rnd x - rnd (a + rnd x)| := by rw [e3]; exact abs_sub _ _
  have h6 : |a + rnd x| * u ≤ (|a - s| + |x - rnd x| + (T + |x|)) * u := mul_le_mul_of_nonneg_right (by linarith) hu0.le
  have h7 : |rnd (a + rnd x) - (s + x)| ≤ (1 + u) * (|a - s| + |x - rnd x|) + u * (T + |x|) := by linarith
  have h8 : (1 + u) * (|a - s| + |x - rnd x|) ≤ (1 + u) * (w * (1 + w) * T + 2 * n * η + (|x| * u + η)) :=
    mul_le_mul_of_nonneg_left (by linarith) (by linarith)
  have hv : (n + 2) * u = w + u := by rw [hw]; ring
  rw [hv]
  have c1 : (1 + u) * (w * (1 + w)) + u ≤ (w + u) * (1 + (w + u)) := by
    have e : (w + u) * (1 + (w + u)) - ((1 + u) * (w * (1 + w)) + u) = u * (w * (1 - w) + u) := by ring
    have : 0 ≤ u * (w * (1 - w) + u) := mul_nonneg hu0.le (add_nonneg (mul_nonneg hw0 (by linarith only [hw1])) hu0.le)
    linarith only [e, this]
  have c2 : (1 + u) * u + u ≤ (w + u) * (1 + (w + u)) := by
    have e : (w + u) * (1 + (w + u)) - ((1 + u) * u + u) = (w - u) + w * w + 2 * (w * u) := by ring
    have h1 := mul_nonneg hw0 hw0
    have h2 := mul_nonneg hw0 hu0.le
    linarith only [e, h1, h2, hwu]
  have c3 : (1 + u) * (2 * n + 1) ≤ 2 * (n + 1) := by
    have e : (1 + u) * (2 * n + 1) = 2 * n + 1 + 2 * w - u := by rw [hw]; ring
    linarith only [e, hw1, hu0]
  have d1 := mul_le_mul_of_nonneg_right c1 hT
  have d2 := mul_le_mul_of_nonneg_right c2 hx0
  have d3 := mul_le_mul_of_nonneg_right c3 hη0.le
  have e9 : (1 + u) * (w * (1 + w) * T + 2 * n * η + (|x| * u + η)) + u * (T + |x|) =
      ((1 + u) * (w * (1 + w)) + u) * T + ((1 + u) * u + u) * |x| + (1 + u) * (2 * n + 1) * η := by ring
  have e10 : (w + u) * (1 + (w + u)) * (T + |x|) = (w + u) * (1 + (w + u)) * T + (w + u) * (1 + (w + u)) * |x| := by ring
  linarith only [h7, h8, d1, d2, d3, e9, e10]

/-- The error of a sum of products. -/
theorem dot_error (h : RoundsToNearest rnd) (ts : List (Fl rnd × Fl rnd)) (hn : ts.length ≤ 2 ^ 50)
    (hmax : 2 * absDot ts + 1 ≤ doubleMax) :
    |(ts.foldl (fun acc p => acc + p.1 * p.2) (0 : Fl rnd)).val - exactDot ts| ≤
      (ts.length + 1) * (1 / 2 ^ 53) * (1 + (ts.length + 1) * (1 / 2 ^ 53)) * absDot ts + 2 * ts.length * (2 : ℚ) ^ (-1075 : ℤ) := by
  have key : IsDouble (ts.foldl (fun acc p => acc + p.1 * p.2) (0 : Fl rnd)).val ∧ |exactDot ts| ≤ absDot ts ∧
      |(ts.foldl (fun acc p => acc + p.1 * p.2) (0 : Fl rnd)).val - exactDot ts| ≤
      (ts.length + 1) * (1 / 2 ^ 53) * (1 + (ts.length + 1) * (1 / 2 ^ 53)) * absDot ts + 2 * ts.length * (2 : ℚ) ^ (-1075 : ℤ) := by
    induction ts using List.reverseRecOn with
    | nil => exact ⟨.zero, by simp [exactDot, absDot], by simp [exactDot, absDot]⟩
    | append_singleton ts p ih =>
      have hA : absDot (ts ++ [p]) = absDot ts + |p.1.val * p.2.val| := by simp [absDot]
      have hS : exactDot (ts ++ [p]) = exactDot ts + p.1.val * p.2.val := by simp [exactDot]
      have hl : (ts ++ [p]).length = ts.length + 1 := by simp
      rw [hA] at hmax
      rw [hl] at hn
      have hx0 := abs_nonneg (p.1.val * p.2.val)
      obtain ⟨i1, i2, i3⟩ := ih (by omega) (by linarith)
      have hnq : (ts.length : ℚ) + 1 ≤ 1125899906842624 := by exact_mod_cast hn
      obtain ⟨r1, r2⟩ := dot_step h rfl rfl (Nat.cast_nonneg ts.length) (by norm_num; linarith) i1 i2 i3 hmax
      rw [List.foldl_append, hA, hS, hl]
      push_cast
      refine ⟨r1, (abs_add_le _ _).trans (by linarith), ?_⟩
      have e : (ts.length : ℚ) + 1 + 1 = ts.length + 2 := by ring
      rw [e]
      exact r2
  exact key.2.2

end Sp
