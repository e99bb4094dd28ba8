import Verif.Model.Nearly
import Verif.Lemmas.Float

/-! # C171: approximate comparison in double precision -/

set_option linter.unusedSectionVars false

namespace Sp
variable {rnd : ℚ → ℚ}

private theorem nearly_iff (a b margin : Fl rnd) : nearlyEqual a b margin = true ↔ |rnd (a.val - b.val)| < margin.val := by
  unfold nearlyEqual
  rw [decide_eq_true_iff]
  have hlt : ∀ x y : Fl rnd, x < y ↔ x.val < y.val := fun _ _ => Iff.rfl
  have hs : (a - b).val = rnd (a.val - b.val) := rfl
  simp only [hlt]
  split
  · next h =>
    have h' : rnd (a.val - b.val) < 0 := h
    rw [abs_of_neg h']
    rfl
  · next h =>
    have h' : 0 ≤ rnd (a.val - b.val) := not_lt.1 h
    rw [abs_of_nonneg h', ← hs]

/-- **C171, nothing too far apart**: numbers that are reported as nearly equal differ by less than the margin, exactly. -/
theorem C171_nearly_equal_sound (h : RoundsToNearest rnd) {a b margin : Fl rnd} (hd : |a.val - b.val| ≤ doubleMax) (hm : IsDouble margin.val)
    (he : nearlyEqual a b margin = true) : |a.val - b.val| < margin.val := by
  rw [nearly_iff] at he
  by_contra hc
  exact absurd he (not_lt.2 (h.le_abs hd hm (not_lt.1 hc)))

/-- **C171, nothing missed**: numbers whose difference is less than the margin by more than one part in 2^53 are reported as nearly equal. -/
theorem C171_nearly_equal_complete_partial (h : RoundsToNearest rnd) {a b margin : Fl rnd} (hd : |a.val - b.val| ≤ doubleMax) (ha : IsDouble a.val) (hb : IsDouble b.val)
    (he : |a.val - b.val| * (1 + 1 / 2 ^ 53) < margin.val) : nearlyEqual a b margin = true := by
  rw [nearly_iff]
  have h1 := h.error_add ha hb.neg (by rw [← sub_eq_add_neg]; exact hd)
  rw [← sub_eq_add_neg] at h1
  have h2 : |rnd (a.val - b.val)| ≤ |a.val - b.val| + |a.val - b.val - rnd (a.val - b.val)| := by
    have := abs_sub_abs_le_abs_sub (rnd (a.val - b.val)) (a.val - b.val)
    rw [abs_sub_comm (rnd _)] at this
    linarith
  calc _ ≤ |a.val - b.val| + |a.val - b.val| / 2 ^ 53 := by linarith
    _ = |a.val - b.val| * (1 + 1 / 2 ^ 53) := by ring
    _ < _ := he

/-- **C171 is false at the margin**: 1 and 2^-60 differ by less than 1, and are reported as not nearly equal with margin 1. -/
theorem C171_margin_false (h : RoundsToNearest rnd) :
    IsDouble (1 / 2 ^ 60) ∧ |(1 : ℚ) - 1 / 2 ^ 60| < 1 ∧ nearlyEqual (⟨1⟩ : Fl rnd) ⟨1 / 2 ^ 60⟩ ⟨1⟩ = false := by
  refine ⟨⟨1, -60, by norm_num, by norm_num, by norm_num, by norm_num⟩, by norm_num [abs_lt], ?_⟩
  rw [← Bool.not_eq_true, nearly_iff]
  simp only
  have hd : |(1 : ℚ) - 1 / 2 ^ 60| ≤ doubleMax := by
    have := le_doubleMax (e := 0) (by norm_num)
    rw [zpow_zero] at this
    refine le_trans ?_ this
    norm_num [abs_le]
  have h1 : IsDouble (1 : ℚ) := ⟨1, 0, by norm_num, by norm_num, by norm_num, by norm_num⟩
  have hn := h.nearest _ 1 hd h1
  have hhalf : IsDouble (1 / 2 : ℚ) := ⟨1, -1, by norm_num, by norm_num, by norm_num, by norm_num⟩
  have h2 : (1 / 2 : ℚ) ≤ |rnd (1 - 1 / 2 ^ 60)| := h.le_abs hd hhalf (by norm_num [abs_of_pos])
  obtain ⟨m, hm⟩ := (h.double _ hd).grid_of_le (k := -1) (by norm_num at h2 ⊢; exact h2)
  rw [show ((1 : ℚ) - 1 / 2 ^ 60 - 1) = -(1 / 2 ^ 60) by ring, abs_neg, abs_of_pos (show (0 : ℚ) < 1 / 2 ^ 60 by positivity)] at hn
  rw [hm] at hn ⊢
  have e : (2 : ℚ) ^ (-1 - 52 : ℤ) = 1 / 2 ^ 53 := by norm_num
  rw [e] at hn ⊢
  rw [abs_le] at hn
  have hm1 : (2 ^ 53 - 1 : ℤ) < m := by
    have : ((2 ^ 53 - 1 : ℤ) : ℚ) < m := by
      push_cast
      have := hn.2
      norm_num at this ⊢
      linarith
    exact_mod_cast this
  have hm2 : (2 ^ 53 : ℚ) ≤ m := by
    have : (2 ^ 53 : ℤ) ≤ m := by omega
    exact_mod_cast this
  rw [not_lt]
  refine le_trans ?_ (le_abs_self _)
  rw [mul_one_div, le_div_iff₀ (by positivity), one_mul]
  exact hm2

/-- **C171, the margin is not a factor** as its documentation has it: numbers that differ by one part in 2^50 are not nearly equal with margin 1/100, as soon as
they are large. -/
theorem C171_factor_false (h : RoundsToNearest rnd) :
    IsDouble (2 ^ 50 + 1) ∧ nearlyEqual (⟨2 ^ 50 + 1⟩ : Fl rnd) ⟨2 ^ 50⟩ ⟨1 / 128⟩ = false := by
  refine ⟨⟨2 ^ 50 + 1, 0, by norm_num, by norm_num, by norm_num, by norm_num⟩, ?_⟩
  rw [← Bool.not_eq_true, nearly_iff]
  have h1 : IsDouble (1 : ℚ) := ⟨1, 0, by norm_num, by norm_num, by norm_num, by norm_num⟩
  rw [show ((2 : ℚ) ^ 50 + 1 - 2 ^ 50) = 1 by ring, h.exact h1]
  norm_num

/-- **C171, arrays**: the result is that the lengths are equal and all elements with the same index are nearly equal, and nothing outside of the arrays is read. -/
theorem C171_arrays (a b : Buf (Fl rnd)) (margin : Fl rnd) {aLen bLen : Nat} (ha : aLen ≤ a.length) (hb : bLen ≤ b.length) :
    ∃ r, arrayNearlyEqual a aLen b bLen margin = .ok r ∧
      (r = true ↔ aLen = bLen ∧ ∀ i, i < aLen → nearlyEqual (a.getD i 0) (b.getD i 0) margin = true) := by
  have loop : ∀ n i, i + n ≤ a.length → i + n ≤ b.length → ∃ r, nearlyEqualLoop a b margin n i = .ok r ∧
      (r = true ↔ ∀ k, i ≤ k → k < i + n → nearlyEqual (a.getD k 0) (b.getD k 0) margin = true) := by
    intro n
    induction n with
    | zero => exact fun i _ _ => ⟨true, rfl, by simp; omega⟩
    | succ n ih =>
      intro i h1 h2
      have ea : rd a i = .ok (a.getD i 0) := by rw [rd_eq_ok (show i < _ by omega), List.getD_eq_getElem?_getD, List.getElem?_eq_getElem (show i < _ by omega)]; rfl
      have eb : rd b i = .ok (b.getD i 0) := by rw [rd_eq_ok (show i < _ by omega), List.getD_eq_getElem?_getD, List.getElem?_eq_getElem (show i < _ by omega)]; rfl
      unfold nearlyEqualLoop
      rw [ea, eb]
      simp only [ok_bind']
      by_cases hc : nearlyEqual (a.getD i 0) (b.getD i 0) margin = true
      · rw [if_neg (fun h => h hc)]
        obtain ⟨r, r1, r2⟩ := ih (1 + i) (by omega) (by omega)
        refine ⟨r, r1, r2.trans ⟨fun h k h3 h4 => ?_, fun h k h3 h4 => h k (by omega) (by omega)⟩⟩
        rcases Nat.eq_or_lt_of_le h3 with rfl | h5
        · exact hc
        · exact h k (by omega) (by omega)
      · rw [if_pos hc]
        exact ⟨false, rfl, ⟨fun h => (by cases h), fun h => absurd (h i (Nat.le_refl i) (by omega)) hc⟩⟩
  unfold arrayNearlyEqual
  by_cases hl : aLen = bLen
  · rw [if_neg (fun h => h hl)]
    obtain ⟨r, r1, r2⟩ := loop aLen 0 (by omega) (by omega)
    refine ⟨r, r1, r2.trans ⟨fun h => ⟨hl, fun i hi => h i (by omega) (by omega)⟩, fun h k _ hk => h.2 k (by omega)⟩⟩
  · rw [if_pos hl]
    exact ⟨false, rfl, ⟨fun h => (by cases h), fun h => absurd h.1 hl⟩⟩

/-- Two arrays of which the last elements differ by a quarter, with two margins, and one of which only the beginning is compared. -/
example : (arrayNearlyEqual [⟨1⟩, ⟨2⟩, ⟨3⟩] 3 [⟨1⟩, ⟨2⟩, ⟨13 / 4⟩] 3 (⟨1 / 2⟩ : Fl id) = .ok true) ∧
    (arrayNearlyEqual [⟨1⟩, ⟨2⟩, ⟨3⟩] 3 [⟨1⟩, ⟨2⟩, ⟨13 / 4⟩] 3 (⟨1 / 4⟩ : Fl id) = .ok false) ∧
    (arrayNearlyEqual [⟨1⟩, ⟨2⟩, ⟨3⟩] 2 [⟨1⟩, ⟨2⟩, ⟨13 / 4⟩] 2 (⟨1 / 4⟩ : Fl id) = .ok true) := by
  refine ⟨?_, ?_, ?_⟩ <;> decide +kernel

/-- Numbers that meet the hypotheses. -/
example : nearlyEqual (⟨1⟩ : Fl nearestDouble) ⟨5 / 4⟩ ⟨1 / 2⟩ = true :=
  C171_nearly_equal_complete_partial nearestDouble_rounds
    (by
      have := le_doubleMax (e := 0) (by norm_num)
      rw [zpow_zero] at this
      refine le_trans ?_ this
      norm_num [abs_le])
    ⟨1, 0, by norm_num, by norm_num, by norm_num, by norm_num⟩ ⟨5, -2, by norm_num, by norm_num, by norm_num, by norm_num⟩
    (by norm_num [abs_of_neg])

end Sp
