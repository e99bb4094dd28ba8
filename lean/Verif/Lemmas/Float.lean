import Verif.Spec.Float
import Mathlib.Tactic.Positivity
import Mathlib.Tactic.Linarith
import Mathlib.Tactic.FieldSimp
import Mathlib.Tactic.NormNum
import Mathlib.Tactic.Ring
import Mathlib.Algebra.Order.Round

/-! # Lemmas about floating point numbers -/

set_option linter.unusedSectionVars false

namespace Sp

/-- `q` is a multiple of `2^e`. -/
def OnGrid (e : ℤ) (q : ℚ) : Prop := ∃ M : ℤ, q = M * (2 : ℚ) ^ e

theorem two_zpow_pos (e : ℤ) : (0 : ℚ) < (2 : ℚ) ^ e := by positivity

theorem two_zpow_le {a b : ℤ} (h : a ≤ b) : (2 : ℚ) ^ a ≤ (2 : ℚ) ^ b := zpow_le_zpow_right₀ (by norm_num) h

theorem two_zpow_lt {a b : ℤ} : (2 : ℚ) ^ a < (2 : ℚ) ^ b ↔ a < b := zpow_lt_zpow_iff_right₀ (by norm_num)

theorem two_zpow_add (a b : ℤ) : (2 : ℚ) ^ (a + b) = (2 : ℚ) ^ a * (2 : ℚ) ^ b := zpow_add₀ (by norm_num) a b

theorem two_zpow_53 (e : ℤ) : (2 : ℚ) ^ (53 + e) = 2 ^ 53 * (2 : ℚ) ^ e := by
  rw [two_zpow_add]
  rfl

theorem two_zpow_nat {e f : ℤ} (h : e ≤ f) : ∃ j : ℕ, (2 : ℚ) ^ f = 2 ^ j * (2 : ℚ) ^ e := by
  refine ⟨(f - e).toNat, ?_⟩
  have : f = ((f - e).toNat : ℤ) + e := by omega
  conv_lhs => rw [this]
  rw [two_zpow_add, zpow_natCast]

theorem OnGrid.add {e : ℤ} {p q : ℚ} (hp : OnGrid e p) (hq : OnGrid e q) : OnGrid e (p + q) := by
  obtain ⟨M, rfl⟩ := hp
  obtain ⟨N, rfl⟩ := hq
  exact ⟨M + N, by push_cast; ring⟩

theorem OnGrid.neg {e : ℤ} {q : ℚ} (hq : OnGrid e q) : OnGrid e (-q) := by
  obtain ⟨N, rfl⟩ := hq
  exact ⟨-N, by push_cast; ring⟩

theorem OnGrid.sub {e : ℤ} {p q : ℚ} (hp : OnGrid e p) (hq : OnGrid e q) : OnGrid e (p - q) := by
  rw [sub_eq_add_neg]
  exact hp.add hq.neg

theorem OnGrid.mono {e f : ℤ} {q : ℚ} (h : e ≤ f) (hq : OnGrid f q) : OnGrid e q := by
  obtain ⟨M, rfl⟩ := hq
  obtain ⟨j, hj⟩ := two_zpow_nat h
  exact ⟨M * 2 ^ j, by rw [hj]; push_cast; ring⟩

theorem doubleMax_pos : 0 < doubleMax := by
  rw [doubleMax]
  have := two_zpow_pos 971
  have h2 : (0 : ℚ) < 2 ^ 53 - 1 := by norm_num
  exact mul_pos h2 this

theorem doubleMax_lt : doubleMax < (2 : ℚ) ^ (1024 : ℤ) := by
  rw [doubleMax, show (1024 : ℤ) = 53 + 971 by norm_num, two_zpow_53]
  exact mul_lt_mul_of_pos_right (by norm_num) (two_zpow_pos 971)

theorem le_doubleMax {e : ℤ} (h : e ≤ 1023) : (2 : ℚ) ^ e ≤ doubleMax := by
  refine (two_zpow_le h).trans ?_
  rw [doubleMax, show (1023 : ℤ) = 52 + 971 by norm_num, two_zpow_add]
  refine mul_le_mul_of_nonneg_right ?_ (two_zpow_pos 971).le
  norm_num

theorem IsDouble.zero : IsDouble 0 := ⟨0, 0, by norm_num, by norm_num, by norm_num, by norm_num⟩

theorem IsDouble.neg {q : ℚ} (h : IsDouble q) : IsDouble (-q) := by
  obtain ⟨m, e, hm, h1, h2, rfl⟩ := h
  exact ⟨-m, e, by rwa [abs_neg], h1, h2, by push_cast; ring⟩

theorem IsDouble.abs {q : ℚ} (h : IsDouble q) : IsDouble |q| := by
  rcases abs_choice q with h' | h' <;> rw [h']
  · exact h
  · exact h.neg

theorem isDouble_neg {q : ℚ} : IsDouble (-q) ↔ IsDouble q := ⟨fun h => by simpa using h.neg, fun h => h.neg⟩

theorem IsDouble.le_max {q : ℚ} (h : IsDouble q) : |q| ≤ doubleMax := by
  obtain ⟨m, e, hm, h1, h2, rfl⟩ := h
  rw [abs_mul, abs_of_pos (two_zpow_pos e), doubleMax]
  have hm' : |(m : ℚ)| ≤ 2 ^ 53 - 1 := by
    have : |m| ≤ 2 ^ 53 - 1 := by omega
    exact_mod_cast this
  exact mul_le_mul hm' (two_zpow_le h2) (two_zpow_pos e).le (by norm_num)

theorem IsDouble.onGrid {q : ℚ} (h : IsDouble q) : OnGrid (-1074) q := by
  obtain ⟨m, e, hm, h1, h2, rfl⟩ := h
  exact OnGrid.mono h1 ⟨m, rfl⟩

/-- A number of the grid of its size. -/
theorem OnGrid.isDouble {e : ℤ} {q : ℚ} (h : OnGrid e q) (he : -1074 ≤ e) (hq : |q| ≤ 2 ^ 53 * (2 : ℚ) ^ e) (hmax : |q| ≤ doubleMax) :
    IsDouble q := by
  obtain ⟨M, rfl⟩ := h
  have hp := two_zpow_pos e
  rw [abs_mul, abs_of_pos hp] at hq hmax
  have hM : |(M : ℚ)| ≤ 2 ^ 53 := le_of_mul_le_mul_right hq hp
  have hM' : |M| ≤ 2 ^ 53 := by exact_mod_cast hM
  rcases le_or_gt 971 e with h971 | h971
  · obtain ⟨j, hj⟩ := two_zpow_nat h971
    refine ⟨M * 2 ^ j, 971, ?_, by norm_num, le_refl _, by rw [hj]; push_cast; ring⟩
    rw [hj, ← mul_assoc, doubleMax] at hmax
    have h1 := le_of_mul_le_mul_right hmax (two_zpow_pos 971)
    have h2 : |(M : ℚ)| * 2 ^ j = ((|M * 2 ^ j| : ℤ) : ℚ) := by
      push_cast
      rw [abs_mul, abs_of_pos (show (0 : ℚ) < 2 ^ j by positivity)]
    rw [h2] at h1
    have h3 : |M * 2 ^ j| ≤ 2 ^ 53 - 1 := by exact_mod_cast h1
    omega
  · rcases hM'.lt_or_eq with hlt | heq
    · exact ⟨M, e, hlt, he, h971.le, rfl⟩
    · rcases (abs_eq (by norm_num)).1 heq with h | h
      · refine ⟨2 ^ 52, e + 1, by norm_num, by omega, by omega, ?_⟩
        rw [h, two_zpow_add]
        push_cast
        ring
      · refine ⟨-2 ^ 52, e + 1, by norm_num, by omega, by omega, ?_⟩
        rw [h, two_zpow_add]
        push_cast
        ring

/-- A number that is not smaller than `2^(53+e)` is a multiple of `2^(e+1)`, and one that is not smaller than `2^(52+e)` is a multiple of `2^e`. -/
theorem IsDouble.grid_of_le {q : ℚ} (h : IsDouble q) {k : ℤ} (hk : (2 : ℚ) ^ k ≤ |q|) : OnGrid (k - 52) q := by
  obtain ⟨m, e, hm, h1, h2, rfl⟩ := h
  rw [abs_mul, abs_of_pos (two_zpow_pos e)] at hk
  have hm' : |(m : ℚ)| < 2 ^ 53 := by exact_mod_cast hm
  have h3 : (2 : ℚ) ^ k < (2 : ℚ) ^ (53 + e) := by
    rw [two_zpow_53]
    exact lt_of_le_of_lt hk (mul_lt_mul_of_pos_right hm' (two_zpow_pos e))
  have h4 := two_zpow_lt.1 h3
  exact OnGrid.mono (show k - 52 ≤ e by omega) ⟨m, rfl⟩

theorem log_bounds {q : ℚ} (hq : q ≠ 0) : (2 : ℚ) ^ (Int.log 2 |q|) ≤ |q| ∧ |q| < (2 : ℚ) ^ (Int.log 2 |q| + 1) := by
  have h := abs_pos.2 hq
  constructor
  · have := Int.zpow_log_le_self (b := 2) (r := |q|) (by norm_num) h
    simpa using this
  · have := Int.lt_zpow_succ_log_self (b := 2) (by norm_num) |q|
    simpa using this

/-- The exponent of the last digit of the numbers near `q`. -/
def ulpExp (q : ℚ) : ℤ := max (Int.log 2 |q| - 52) (-1074)

theorem ulpExp_ge (q : ℚ) : -1074 ≤ ulpExp q := le_max_right _ _

theorem le_ulp (q : ℚ) : |q| ≤ 2 ^ 53 * (2 : ℚ) ^ ulpExp q := by
  by_cases hq : q = 0
  · rw [hq, abs_zero]
    have := two_zpow_pos (ulpExp 0)
    positivity
  · rw [← two_zpow_53]
    refine (log_bounds hq).2.le.trans (two_zpow_le ?_)
    have := le_max_left (Int.log 2 |q| - 52) (-1074)
    rw [ulpExp]
    omega

/-- A number that is not smaller than another, is on its grid. -/
theorem IsDouble.grid {a q : ℚ} (ha : IsDouble a) (hq : q ≠ 0) (h : |q| ≤ |a|) : OnGrid (ulpExp q) a := by
  rcases max_choice (Int.log 2 |q| - 52) (-1074) with h' | h'
  · rw [ulpExp, h']
    exact ha.grid_of_le ((log_bounds hq).1.trans h)
  · rw [ulpExp, h']
    exact ha.onGrid

/-- A difference of two numbers that are near to each other is exact. -/
theorem IsDouble.sterbenz {a b : ℚ} (ha : IsDouble a) (hb : IsDouble b) (h0 : 0 ≤ b) (h1 : b ≤ a) (h2 : a ≤ 2 * b) :
    IsDouble (a - b) := by
  rcases h0.lt_or_eq with h0 | rfl
  · have hab : |b| ≤ |a| := by rw [abs_of_pos h0, abs_of_nonneg (by linarith)]; exact h1
    have hg := (ha.grid h0.ne' hab).sub (hb.grid h0.ne' (le_refl _))
    have hsz : |a - b| ≤ |b| := by rw [abs_of_nonneg (by linarith), abs_of_pos h0]; linarith
    exact hg.isDouble (ulpExp_ge b) (hsz.trans (le_ulp b)) (hsz.trans hb.le_max)
  · rwa [sub_zero]

theorem IsDouble.two_mul {a : ℚ} (ha : IsDouble a) (hmax : |2 * a| ≤ doubleMax) : IsDouble (2 * a) := by
  by_cases h0 : a = 0
  · rw [h0, mul_zero]
    exact .zero
  obtain ⟨M, hM⟩ := ha.grid h0 (le_refl _)
  have h1 := ulpExp_ge a
  have h2 : (2 : ℚ) ^ (ulpExp a + 1) = 2 * (2 : ℚ) ^ ulpExp a := by rw [add_comm, two_zpow_add, zpow_one]
  refine OnGrid.isDouble (e := ulpExp a + 1) ⟨M, ?_⟩ (by omega) ?_ hmax
  · rw [h2]
    linarith
  · rw [h2, abs_mul, abs_of_pos (show (0 : ℚ) < 2 by norm_num)]
    have := le_ulp a
    linarith

theorem IsDouble.half {a : ℚ} (ha : IsDouble a) (hs : 2 ^ 53 * (2 : ℚ) ^ (-1074 : ℤ) ≤ |a|) : IsDouble (a / 2) := by
  have h0 : a ≠ 0 := by
    rintro rfl
    rw [abs_zero] at hs
    have := two_zpow_pos (-1074)
    linarith
  obtain ⟨M, hM⟩ := ha.grid h0 (le_refl _)
  have h1 : (2 : ℚ) ^ (53 + (-1074) : ℤ) < (2 : ℚ) ^ (Int.log 2 |a| + 1) := by
    rw [two_zpow_53]
    exact lt_of_le_of_lt hs (log_bounds h0).2
  have h2 := two_zpow_lt.1 h1
  have h3 : -1073 ≤ ulpExp a := le_trans (by omega) (le_max_left _ _)
  have h4 : (2 : ℚ) ^ ulpExp a = 2 * (2 : ℚ) ^ (ulpExp a - 1) := by
    rw [show ulpExp a = 1 + (ulpExp a - 1) by ring, two_zpow_add, zpow_one]
    congr 2
    ring
  have h5 : |a / 2| = |a| / 2 := by rw [abs_div, abs_of_pos (show (0 : ℚ) < 2 by norm_num)]
  refine OnGrid.isDouble (e := ulpExp a - 1) ⟨M, ?_⟩ (by omega) ?_ ?_
  · rw [h4] at hM
    linarith
  · have := le_ulp a
    rw [h4] at this
    rw [h5]
    linarith
  · have := ha.le_max
    have := abs_nonneg a
    rw [h5]
    linarith

/-! Non-vacuity: there is such a rounding. -/

/-- The nearest multiple of the last digit, ties upwards. -/
def gridNearest (q : ℚ) : ℚ := round (q / (2 : ℚ) ^ ulpExp q) * (2 : ℚ) ^ ulpExp q

/-- Rounding to nearest, ties upwards. -/
def nearestDouble (q : ℚ) : ℚ := max (-doubleMax) (min doubleMax (gridNearest q))

theorem gridNearest_le (q : ℚ) {d : ℚ} (hd : OnGrid (ulpExp q) d) : |q - gridNearest q| ≤ |q - d| := by
  obtain ⟨z, rfl⟩ := hd
  have he := two_zpow_pos (ulpExp q)
  have key : ∀ w : ℤ, |q - w * (2 : ℚ) ^ ulpExp q| = |q / (2 : ℚ) ^ ulpExp q - w| * (2 : ℚ) ^ ulpExp q := by
    intro w
    have : |q / (2 : ℚ) ^ ulpExp q - w| * (2 : ℚ) ^ ulpExp q = |(q / (2 : ℚ) ^ ulpExp q - w) * (2 : ℚ) ^ ulpExp q| := by
      rw [abs_mul, abs_of_pos he]
    rw [this, sub_mul, div_mul_cancel₀ _ he.ne']
  rw [gridNearest, key, key]
  exact mul_le_mul_of_nonneg_right (round_le _ _) he.le

theorem gridNearest_nearest (q : ℚ) {d : ℚ} (hd : IsDouble d) : |q - gridNearest q| ≤ |q - d| := by
  by_cases hg : OnGrid (ulpExp q) d
  · exact gridNearest_le q hg
  by_cases hq : q = 0
  · have : gridNearest q = 0 := by rw [hq, gridNearest]; simp
    rw [this, hq]
    simp
  have hu : ulpExp q = Int.log 2 |q| - 52 := by
    rcases max_choice (Int.log 2 |q| - 52) (-1074) with h' | h'
    · exact h'
    · exact absurd (by rw [ulpExp, h']; exact hd.onGrid) hg
  have hlt : |d| < (2 : ℚ) ^ Int.log 2 |q| := by
    by_contra hc
    rw [not_lt] at hc
    exact hg (hu ▸ hd.grid_of_le hc)
  have hlo := (log_bounds hq).1
  have hp : (2 : ℚ) ^ Int.log 2 |q| = 2 ^ 52 * (2 : ℚ) ^ ulpExp q := by
    rw [hu]
    conv_lhs => rw [show Int.log 2 |q| = 52 + (Int.log 2 |q| - 52) by ring]
    rw [two_zpow_add]
    rfl
  have hdq : |q| - |d| ≤ |q - d| := abs_sub_abs_le_abs_sub q d
  rcases lt_or_gt_of_ne hq with hn | hn
  · refine (gridNearest_le q (d := -(2 : ℚ) ^ Int.log 2 |q|) ⟨-2 ^ 52, by rw [hp]; push_cast; ring⟩).trans ?_
    rw [sub_neg_eq_add, abs_of_nonpos]
    · rw [abs_of_neg hn] at hdq hlo hlt ⊢
      linarith
    · rw [abs_of_neg hn] at hlo ⊢
      linarith
  · refine (gridNearest_le q (d := (2 : ℚ) ^ Int.log 2 |q|) ⟨2 ^ 52, by rw [hp]; push_cast; ring⟩).trans ?_
    rw [abs_of_nonneg]
    · rw [abs_of_pos hn] at hdq hlo hlt ⊢
      linarith
    · rw [abs_of_pos hn] at hlo ⊢
      linarith

theorem isDouble_max : IsDouble doubleMax :=
  ⟨2 ^ 53 - 1, 971, by norm_num, by norm_num, by norm_num, by rw [doubleMax]; push_cast; ring⟩

theorem nearestDouble_rounds : RoundsToNearest nearestDouble := by
  have hdm := isDouble_max
  have h0 := doubleMax_pos
  constructor
  · intro q hq
    rw [nearestDouble]
    rcases le_total (gridNearest q) doubleMax with h1 | h1
    · rw [min_eq_right h1]
      rcases le_total (-doubleMax) (gridNearest q) with h2 | h2
      · rw [max_eq_right h2]
        have hp := two_zpow_pos (ulpExp q)
        have h3 := abs_sub_round (q / (2 : ℚ) ^ ulpExp q)
        refine OnGrid.isDouble (e := ulpExp q) ⟨_, rfl⟩ (ulpExp_ge q) ?_ (abs_le.2 ⟨h2, h1⟩)
        rw [gridNearest, abs_mul, abs_of_pos hp]
        refine mul_le_mul_of_nonneg_right ?_ hp.le
        have h4 : |q / (2 : ℚ) ^ ulpExp q| ≤ 2 ^ 53 := by
          rw [abs_div, abs_of_pos hp, div_le_iff₀ hp]
          exact le_ulp q
        have h5 : |((round (q / (2 : ℚ) ^ ulpExp q) : ℤ) : ℚ)| < 2 ^ 53 + 1 := by
          have h6 := abs_le.1 h3
          have h7 := abs_le.1 h4
          rw [abs_lt]
          constructor <;> linarith
        have h6 : |round (q / (2 : ℚ) ^ ulpExp q)| < 2 ^ 53 + 1 := by exact_mod_cast h5
        have h7 : |round (q / (2 : ℚ) ^ ulpExp q)| ≤ 2 ^ 53 := by omega
        exact_mod_cast h7
      · rw [max_eq_left h2]
        exact hdm.neg
    · rw [min_eq_left h1, max_eq_right (by linarith)]
      exact hdm
  · intro q d hq hd
    refine le_trans ?_ (gridNearest_nearest q hd)
    rw [nearestDouble]
    have hq' := abs_le.1 hq
    rcases le_total (gridNearest q) doubleMax with h1 | h1
    · rw [min_eq_right h1]
      rcases le_total (-doubleMax) (gridNearest q) with h2 | h2
      · rw [max_eq_right h2]
      · rw [max_eq_left h2, abs_of_nonneg (by linarith), abs_of_nonneg (by linarith)]
        linarith
    · rw [min_eq_left h1, max_eq_right (by linarith), abs_of_nonpos (by linarith), abs_of_nonpos (by linarith)]
      linarith

namespace RoundsToNearest
variable {rnd : ℚ → ℚ} (h : RoundsToNearest rnd)
include h

theorem exact {d : ℚ} (hd : IsDouble d) : rnd d = d := by
  have := h.nearest d d hd.le_max hd
  rw [sub_self, abs_zero] at this
  have := abs_nonpos_iff.1 this
  linarith

theorem zero : rnd 0 = 0 := h.exact .zero

theorem le_rnd {d q : ℚ} (hd : IsDouble d) (hq : |q| ≤ doubleMax) (hle : d ≤ q) : d ≤ rnd q := by
  by_contra hlt
  have h1 := h.nearest q d hq hd
  rw [abs_of_nonneg (by linarith), abs_of_nonneg (by linarith)] at h1
  linarith

theorem rnd_le {d q : ℚ} (hd : IsDouble d) (hq : |q| ≤ doubleMax) (hle : q ≤ d) : rnd q ≤ d := by
  by_contra hlt
  have h1 := h.nearest q d hq hd
  rw [abs_of_nonpos (by linarith), abs_of_nonpos (by linarith)] at h1
  linarith

theorem nonneg {q : ℚ} (hq : |q| ≤ doubleMax) (h0 : 0 ≤ q) : 0 ≤ rnd q := h.le_rnd .zero hq h0

theorem mono {p q : ℚ} (hp : |p| ≤ doubleMax) (hq : |q| ≤ doubleMax) (hle : p ≤ q) : rnd p ≤ rnd q := by
  by_contra hlt
  have h1 := h.nearest p (rnd q) hp (h.double q hq)
  have h2 := h.nearest q (rnd p) hq (h.double p hp)
  rcases hle.lt_or_eq with hlt' | rfl
  · rcases le_total p (rnd p) with c1 | c1 <;> rcases le_total p (rnd q) with c2 | c2 <;> rcases le_total q (rnd q) with c3 | c3 <;>
      rcases le_total q (rnd p) with c4 | c4 <;>
      simp only [abs_of_nonneg, abs_of_nonpos, sub_nonneg, sub_nonpos, c1, c2, c3, c4] at h1 h2 <;> linarith
  · exact hlt (le_refl _)

theorem abs_le {q d : ℚ} (hq : |q| ≤ doubleMax) (hd : IsDouble d) (hle : |q| ≤ d) : |rnd q| ≤ d := by
  have h' := _root_.abs_le.1 hle
  rw [_root_.abs_le]
  exact ⟨h.le_rnd hd.neg hq h'.1, h.rnd_le hd hq h'.2⟩

theorem le_max {q : ℚ} (hq : |q| ≤ doubleMax) : |rnd q| ≤ doubleMax := (h.double q hq).le_max

theorem le_abs {q d : ℚ} (hq : |q| ≤ doubleMax) (hd : IsDouble d) (hle : d ≤ |q|) : d ≤ |rnd q| := by
  rcases le_total 0 q with h0 | h0
  · rw [abs_of_nonneg h0] at hle
    exact (h.le_rnd hd hq hle).trans (le_abs_self _)
  · rw [abs_of_nonpos h0] at hle
    have := h.rnd_le hd.neg hq (by linarith)
    have h2 := neg_abs_le (rnd q)
    linarith

/-- Rounding stays on a grid. -/
theorem grid {e : ℤ} {q : ℚ} (hg : OnGrid e q) (he : -1074 ≤ e) (hq : |q| ≤ doubleMax) : OnGrid e (rnd q) := by
  by_cases hs : |q| ≤ 2 ^ 53 * (2 : ℚ) ^ e
  · rwa [h.exact (hg.isDouble he hs hq)]
  · rw [not_le] at hs
    have hd : IsDouble (2 ^ 53 * (2 : ℚ) ^ e) := by
      refine OnGrid.isDouble ⟨2 ^ 53, by push_cast; ring⟩ he ?_ ?_
      · rw [abs_of_pos (by have := two_zpow_pos e; positivity)]
      · rw [abs_of_pos (by have := two_zpow_pos e; positivity)]
        linarith
    have := (h.double q hq).grid_of_le (k := 53 + e) (by rw [two_zpow_53]; exact h.le_abs hq hd hs.le)
    exact this.mono (by omega)

/-- The error of rounding. -/
theorem error_le {q : ℚ} (hq : |q| ≤ doubleMax) : |q - rnd q| ≤ 1 / 2 * (2 : ℚ) ^ ulpExp q := by
  have hp := two_zpow_pos (ulpExp q)
  set m : ℤ := round (q / (2 : ℚ) ^ ulpExp q) with hm
  have h1 := abs_sub_round (q / (2 : ℚ) ^ ulpExp q)
  rw [← hm] at h1
  have key : |q - m * (2 : ℚ) ^ ulpExp q| ≤ 1 / 2 * (2 : ℚ) ^ ulpExp q := by
    have : q - m * (2 : ℚ) ^ ulpExp q = (q / (2 : ℚ) ^ ulpExp q - m) * (2 : ℚ) ^ ulpExp q := by
      rw [sub_mul, div_mul_cancel₀ _ hp.ne']
    rw [this, abs_mul, abs_of_pos hp]
    exact mul_le_mul_of_nonneg_right h1 hp.le
  have hb : |(m : ℚ)| ≤ 2 ^ 53 := by
    have h2 : |q / (2 : ℚ) ^ ulpExp q| ≤ 2 ^ 53 := by
      rw [abs_div, abs_of_pos hp, div_le_iff₀ hp]
      exact le_ulp q
    have h3 : |(m : ℚ)| < 2 ^ 53 + 1 := by
      have h4 := _root_.abs_le.1 h1
      have h5 := _root_.abs_le.1 h2
      rw [abs_lt]
      constructor <;> linarith
    have h4 : |m| < 2 ^ 53 + 1 := by exact_mod_cast h3
    have h5 : |m| ≤ 2 ^ 53 := by omega
    exact_mod_cast h5
  by_cases hmax : |(m : ℚ) * (2 : ℚ) ^ ulpExp q| ≤ doubleMax
  · refine (h.nearest q _ hq (OnGrid.isDouble ⟨m, rfl⟩ (ulpExp_ge q) ?_ hmax)).trans key
    rw [abs_mul, abs_of_pos hp]
    exact mul_le_mul_of_nonneg_right hb hp.le
  · rw [not_le] at hmax
    have hdm := isDouble_max
    have h0 := doubleMax_pos
    rcases le_total 0 q with hq0 | hq0
    · refine (h.nearest q _ hq hdm).trans (le_trans ?_ key)
      rw [abs_of_nonneg hq0] at hq
      have hm0 : 0 ≤ (m : ℚ) * (2 : ℚ) ^ ulpExp q := by
        refine mul_nonneg ?_ hp.le
        have : 0 ≤ q / (2 : ℚ) ^ ulpExp q := by positivity
        have h4 := _root_.abs_le.1 h1
        have h6 : (-1 : ℚ) < m := by linarith
        have h7 : -1 < m := by exact_mod_cast h6
        have : 0 ≤ m := by omega
        exact_mod_cast this
      rw [abs_of_nonneg hm0] at hmax
      rw [abs_of_nonpos (by linarith), abs_of_nonpos (by linarith)]
      linarith
    · refine (h.nearest q _ hq hdm.neg).trans (le_trans ?_ key)
      rw [abs_of_nonpos hq0] at hq
      have hm0 : (m : ℚ) * (2 : ℚ) ^ ulpExp q ≤ 0 := by
        refine mul_nonpos_of_nonpos_of_nonneg ?_ hp.le
        have : q / (2 : ℚ) ^ ulpExp q ≤ 0 := div_nonpos_of_nonpos_of_nonneg hq0 hp.le
        have h4 := _root_.abs_le.1 h1
        have h6 : (m : ℚ) < 1 := by linarith
        have h7 : m < 1 := by exact_mod_cast h6
        have : m ≤ 0 := by omega
        exact_mod_cast this
      rw [abs_of_nonpos hm0] at hmax
      rw [abs_of_nonneg (by linarith), abs_of_nonneg (by linarith)]
      linarith

/-- The relative error of rounding, for numbers that are not too small, and the absolute error for those that are. -/
theorem error_gen {q : ℚ} (hq : |q| ≤ doubleMax) : |q - rnd q| ≤ |q| / 2 ^ 53 + (2 : ℚ) ^ (-1075 : ℤ) := by
  by_cases hq0 : q = 0
  · rw [hq0, h.zero]
    have := two_zpow_pos (-1075)
    simp
  refine (h.error_le hq).trans ?_
  have hh : (1 : ℚ) / 2 * (2 : ℚ) ^ (-1074 : ℤ) = (2 : ℚ) ^ (-1075 : ℤ) := by
    rw [show (-1074 : ℤ) = 1 + -1075 by norm_num, two_zpow_add, zpow_one]
    ring
  have hpos := two_zpow_pos (-1075)
  rcases max_choice (Int.log 2 |q| - 52) (-1074) with h' | h'
  · rw [ulpExp, h']
    have := (log_bounds hq0).1
    have e : Int.log 2 |q| = 52 + (Int.log 2 |q| - 52) := by ring
    rw [e, two_zpow_add] at this
    have h2 : (2 : ℚ) ^ (52 : ℤ) = 2 ^ 52 := rfl
    rw [h2] at this
    have h3 : 1 / 2 * (2 : ℚ) ^ (Int.log 2 |q| - 52) ≤ |q| / 2 ^ 53 := by
      rw [le_div_iff₀ (by norm_num)]
      linarith
    linarith
  · rw [ulpExp, h', hh]
    have : 0 ≤ |q| / 2 ^ 53 := by positivity
    linarith

/-- The relative error of rounding normal numbers. -/
theorem error_normal {q : ℚ} (hlo : (2 : ℚ) ^ (-1022 : ℤ) ≤ |q|) (hq : |q| ≤ doubleMax) : |q - rnd q| ≤ |q| / 2 ^ 53 := by
  have hq0 : q ≠ 0 := by
    rintro rfl
    rw [abs_zero] at hlo
    exact absurd (two_zpow_pos (-1022)) (not_lt.2 hlo)
  have hb := log_bounds hq0
  have h2 := two_zpow_lt.1 (lt_of_le_of_lt hlo hb.2)
  refine (h.error_le hq).trans ?_
  rw [ulpExp, max_eq_left (by omega)]
  have := hb.1
  have e : Int.log 2 |q| = 52 + (Int.log 2 |q| - 52) := by ring
  rw [e, two_zpow_add] at this
  have h2 : (2 : ℚ) ^ (52 : ℤ) = 2 ^ 52 := rfl
  rw [h2] at this
  rw [le_div_iff₀ (by norm_num)]
  linarith only [this]

/-- The relative error of rounding numbers of moderate size. -/
theorem error_mid {q : ℚ} (hlo : 1 / 2 ^ 100 ≤ |q|) (hq : |q| ≤ 2 ^ 100) : |q - rnd q| ≤ |q| / 2 ^ 53 := by
  refine h.error_normal (le_trans ?_ hlo) (hq.trans (le_doubleMax (e := 100) (by norm_num)))
  have : (1 : ℚ) / 2 ^ 100 = (2 : ℚ) ^ (-100 : ℤ) := by
    rw [zpow_neg, one_div]
    rfl
  rw [this]
  exact two_zpow_le (by norm_num)

/-- The relative error of rounding numbers on the smallest grid, for example sums. -/
theorem error_grid {q : ℚ} (hq : |q| ≤ doubleMax) (hg : OnGrid (-1074) q) : |q - rnd q| ≤ |q| / 2 ^ 53 := by
  by_cases hs : |q| ≤ 2 ^ 53 * (2 : ℚ) ^ (-1074 : ℤ)
  · rw [h.exact (hg.isDouble (le_refl _) hs hq), sub_self, abs_zero]
    positivity
  · rw [not_le] at hs
    have hq0 : q ≠ 0 := by
      rintro rfl
      rw [abs_zero] at hs
      have := two_zpow_pos (-1074)
      linarith
    have hb := log_bounds hq0
    have h1 : (2 : ℚ) ^ (53 + (-1074) : ℤ) < (2 : ℚ) ^ (Int.log 2 |q| + 1) := by
      rw [two_zpow_53]
      linarith
    have h2 := two_zpow_lt.1 h1
    refine (h.error_le hq).trans ?_
    rw [ulpExp, max_eq_left (by omega)]
    have := hb.1
    have e : Int.log 2 |q| = 52 + (Int.log 2 |q| - 52) := by ring
    rw [e, two_zpow_add] at this
    have h2 : (2 : ℚ) ^ (52 : ℤ) = 2 ^ 52 := rfl
    rw [h2] at this
    rw [le_div_iff₀ (by norm_num)]
    linarith

/-- The error of an addition. -/
theorem error_add {a b : ℚ} (ha : IsDouble a) (hb : IsDouble b) (hq : |a + b| ≤ doubleMax) :
    |a + b - rnd (a + b)| ≤ |a + b| / 2 ^ 53 := h.error_grid hq (ha.onGrid.add hb.onGrid)

/-- The error of an addition is a floating point number. -/
theorem sum_error {a b : ℚ} (ha : IsDouble a) (hb : IsDouble b) (hab : |b| ≤ |a|) (hq : |a + b| ≤ doubleMax) :
    IsDouble (a + b - rnd (a + b)) := by
  by_cases hb0 : b = 0
  · rw [hb0, add_zero, h.exact ha, sub_self]
    exact .zero
  · have hg := (ha.grid hb0 hab).add (hb.grid hb0 (le_refl _))
    have hg2 := hg.sub (h.grid hg (ulpExp_ge b) hq)
    have hsz : |a + b - rnd (a + b)| ≤ |b| := by
      have := h.nearest (a + b) a hq ha
      rwa [add_sub_cancel_left] at this
    exact hg2.isDouble (ulpExp_ge b) (hsz.trans (le_ulp b)) (hsz.trans hb.le_max)

/-- The difference between an addend and the rounded sum is a floating point number. -/
theorem sum_diff {a b : ℚ} (ha : IsDouble a) (hb : IsDouble b) (ha0 : 0 ≤ a) (hab : |b| ≤ a) (hq : |a + b| ≤ doubleMax) :
    IsDouble (a - rnd (a + b)) := by
  have hd := h.double (a + b) hq
  have hab' := _root_.abs_le.1 hab
  rcases le_total 0 b with hb0 | hb0
  · have h1 : a ≤ rnd (a + b) := h.le_rnd ha hq (by linarith)
    have h2 : rnd (a + b) ≤ 2 * a := by
      by_contra hc
      rw [not_le] at hc
      have h3 := h.le_max hq
      have h4 := le_abs_self (rnd (a + b))
      have h5 : IsDouble (2 * a) := ha.two_mul (by rw [abs_of_nonneg (by linarith)]; linarith)
      exact absurd (h.rnd_le h5 hq (by linarith)) (by linarith)
    rw [← isDouble_neg, neg_sub]
    exact hd.sterbenz ha ha0 h1 h2
  · have h1 : rnd (a + b) ≤ a := h.rnd_le ha hq (by linarith)
    have h0 : 0 ≤ rnd (a + b) := h.nonneg hq (by linarith)
    by_cases h2 : a ≤ 2 * rnd (a + b)
    · exact ha.sterbenz hd h0 h1 h2
    · have h3 : IsDouble (a + b) := by
        by_cases hs : |a + b| ≤ 2 ^ 53 * (2 : ℚ) ^ (-1074 : ℤ)
        · exact (ha.onGrid.add hb.onGrid).isDouble (le_refl _) hs hq
        · rw [not_le, abs_of_nonneg (by linarith)] at hs
          rw [← sub_neg_eq_add]
          refine ha.sterbenz hb.neg (by linarith) (by linarith) ?_
          by_contra hc
          rw [not_le] at hc
          have h5 := h.le_rnd (ha.half (by rw [abs_of_nonneg ha0]; linarith)) hq (by linarith)
          linarith
      rw [h.exact h3]
      rw [show a - (a + b) = -b by ring]
      exact hb.neg

/-- The value of a rounding: the only number of the grid near `q`. -/
theorem eq_of {q : ℚ} {k M : ℤ} (hk : -1022 ≤ k) (hk2 : k ≤ 900) (hM : |M| ≤ 2 ^ 53)
    (h1 : |q - M * (2 : ℚ) ^ (k - 52)| < (2 : ℚ) ^ (k - 53)) (h2 : (2 : ℚ) ^ k + |q - M * (2 : ℚ) ^ (k - 52)| ≤ |q|)
    (h3 : |q| ≤ (2 : ℚ) ^ 100) :
    rnd q = M * (2 : ℚ) ^ (k - 52) := by
  have hq : |q| ≤ doubleMax := h3.trans (le_doubleMax (e := 100) (by norm_num))
  have hsz : |(M : ℚ) * (2 : ℚ) ^ (k - 52)| ≤ 2 ^ 53 * (2 : ℚ) ^ (k - 52) := by
    rw [abs_mul, abs_of_pos (two_zpow_pos _)]
    refine mul_le_mul_of_nonneg_right ?_ (two_zpow_pos _).le
    exact_mod_cast hM
  have hd : IsDouble ((M : ℚ) * (2 : ℚ) ^ (k - 52)) := by
    refine OnGrid.isDouble ⟨M, rfl⟩ (by omega) hsz (hsz.trans ?_)
    rw [← two_zpow_53]
    exact le_doubleMax (by omega)
  have h4 := h.nearest q _ hq hd
  have h5 : (2 : ℚ) ^ k ≤ |rnd q| := by
    have : |q| - |rnd q| ≤ |q - rnd q| := abs_sub_abs_le_abs_sub _ _
    linarith only [this, h4, h2]
  obtain ⟨N, hN⟩ := (h.double q hq).grid_of_le h5
  have hp : (2 : ℚ) ^ (k - 52) = 2 ^ (k - 53) * 2 := by
    have e : k - 52 = (k - 53) + 1 := by omega
    rw [e, two_zpow_add, zpow_one]
  have h0 := two_zpow_pos (k - 53)
  rw [hN, hp] at h4
  rw [hp] at h1
  have h6 := abs_lt.1 (lt_of_le_of_lt h4 h1)
  have h7 := abs_lt.1 h1
  have h8 : |(N : ℚ) - M| * (2 : ℚ) ^ (k - 53) < 1 * (2 : ℚ) ^ (k - 53) := by
    rw [← abs_of_pos h0, ← abs_mul, abs_of_pos h0, one_mul, abs_lt]
    constructor <;> linarith only [h6.1, h6.2, h7.1, h7.2]
  have h9 := lt_of_mul_lt_mul_right h8 h0.le
  have h10 : |N - M| < 1 := by exact_mod_cast h9
  have h11 := Int.abs_lt_one_iff.1 h10
  rw [hN, show N = M by omega]

end RoundsToNearest

end Sp
