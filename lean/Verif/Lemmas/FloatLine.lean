import Verif.Lemmas.PathRounded

/-! # Linear interpolation in floating point arithmetic -/

set_option linter.unusedSectionVars false

namespace Sp
variable {rnd : ℚ → ℚ}

/-- Rounding, mirrored at zero. -/
def mirror (rnd : ℚ → ℚ) (q : ℚ) : ℚ := -rnd (-q)

theorem RoundsToNearest.mirror (h : RoundsToNearest rnd) : RoundsToNearest (mirror rnd) := by
  constructor
  · intro q hq
    exact (h.double (-q) (by rwa [abs_neg])).neg
  · intro q d hq hd
    have := h.nearest (-q) (-d) (by rwa [abs_neg]) hd.neg
    rw [Sp.mirror, show q - -rnd (-q) = -(-q - rnd (-q)) by ring, show q - d = -(-q - -d) by ring, abs_neg, abs_neg]
    exact this

theorem lerp_mirror (a b t : ℚ) : linearlyInterpolateR (mirror rnd) (-a) (-b) t = -linearlyInterpolateR rnd a b t := by
  simp only [linearlyInterpolateR, mirror]
  rw [show -(-b - -a) = b - a by ring, show -(t * -rnd (b - a)) = t * rnd (b - a) by ring,
    show -(-a + -rnd (t * rnd (b - a))) = a + rnd (t * rnd (b - a)) by ring]

theorem lerp_zero (h : RoundsToNearest rnd) {a b : ℚ} (ha : IsDouble a) : linearlyInterpolateR rnd a b 0 = a := by
  rw [linearlyInterpolateR, zero_mul, h.zero, add_zero, h.exact ha]

/-- The steps of the computation, for increasing values. -/
theorem lerp_steps (h : RoundsToNearest rnd) {a b t : ℚ} (ha : IsDouble a) (hb : IsDouble b) (ha4 : 4 * |a| ≤ doubleMax) (hb4 : 4 * |b| ≤ doubleMax)
    (hab : a ≤ b) (h0 : 0 ≤ t) (h1 : t ≤ 1 - 1 / 2 ^ 32) :
    |t * rnd (b - a)| ≤ doubleMax ∧ 0 ≤ rnd (b - a) ∧ 0 ≤ rnd (t * rnd (b - a)) ∧ rnd (t * rnd (b - a)) ≤ b - a ∧
    |a + rnd (t * rnd (b - a))| ≤ doubleMax ∧ |b - a - rnd (b - a)| ≤ (b - a) / 2 ^ 53 := by
  have hba0 : 0 ≤ b - a := by linarith only [hab]
  have habs : |b - a| ≤ |b| + |a| := abs_sub _ _
  have hM := doubleMax_pos
  have hdm : |b - a| ≤ doubleMax := by linarith only [habs, ha4, hb4, hM]
  have hd0 := h.nonneg hdm hba0
  have hderr := h.error_add hb ha.neg (by rwa [← sub_eq_add_neg])
  rw [← sub_eq_add_neg, abs_of_nonneg hba0] at hderr
  set d := rnd (b - a) with hd
  have hdd : IsDouble d := h.double _ hdm
  have hu : d ≤ (b - a) + (b - a) / 2 ^ 53 := by
    have := (abs_le.1 hderr).1
    linarith only [this]
  have ht1 : t ≤ 1 := by
    have : (0 : ℚ) < 1 / 2 ^ 32 := by norm_num
    linarith only [this, h1]
  have htd0 : 0 ≤ t * d := mul_nonneg h0 hd0
  have htd : t * d ≤ d := by
    have := mul_le_mul_of_nonneg_right ht1 hd0
    linarith only [this]
  have hdle := hdd.le_max
  rw [abs_of_nonneg hd0] at hdle
  have htdm : |t * d| ≤ doubleMax := by
    rw [abs_of_nonneg htd0]
    exact htd.trans hdle
  have hp0 := h.nonneg htdm htd0
  have hp : rnd (t * d) ≤ b - a := by
    by_cases hsm : |b - a| ≤ 2 ^ 53 * (2 : ℚ) ^ (-1074 : ℤ)
    · have hbd : IsDouble (b - a) := (hb.onGrid.sub ha.onGrid).isDouble (le_refl _) hsm hdm
      have : d = b - a := h.exact hbd
      exact h.rnd_le hbd htdm (htd.trans this.le)
    · rw [not_le, abs_of_nonneg hba0] at hsm
      have he := h.error_gen htdm
      rw [abs_of_nonneg htd0] at he
      have hη : (2 : ℚ) ^ (-1075 : ℤ) ≤ (b - a) / 2 ^ 53 := by
        have e1 : (2 : ℚ) ^ (-1075 : ℤ) ≤ (2 : ℚ) ^ (-1074 : ℤ) := two_zpow_le (by norm_num)
        have e2 : (2 : ℚ) ^ (-1074 : ℤ) ≤ (b - a) / 2 ^ 53 := by
          rw [le_div_iff₀ (by norm_num)]
          linarith only [hsm]
        exact e1.trans e2
      have he1 := (abs_le.1 he).1
      have hb1 : t * d ≤ (1 - 1 / 2 ^ 32) * ((b - a) + (b - a) / 2 ^ 53) := mul_le_mul h1 hu hd0 (by norm_num)
      have hb2 : t * d ≤ (b - a) + (b - a) / 2 ^ 53 := htd.trans hu
      norm_num at hb1 hb2 he1 hη ⊢
      linarith only [hb1, hb2, he1, hη, hba0]
  refine ⟨htdm, hd0, hp0, hp, ?_, hderr⟩
  have e1 := abs_le.1 (le_refl |a|)
  have e2 := abs_le.1 (le_refl |b|)
  rw [abs_le]
  constructor <;> linarith only [e1.1, e1.2, e2.1, e2.2, hp0, hp, ha4, hb4, hM]

theorem lerp_between_up (h : RoundsToNearest rnd) {a b t : ℚ} (ha : IsDouble a) (hb : IsDouble b) (ha4 : 4 * |a| ≤ doubleMax)
    (hb4 : 4 * |b| ≤ doubleMax) (hab : a ≤ b) (h0 : 0 ≤ t) (h1 : t ≤ 1 - 1 / 2 ^ 32) :
    a ≤ linearlyInterpolateR rnd a b t ∧ linearlyInterpolateR rnd a b t ≤ b := by
  obtain ⟨e1, e2, e3, e4, e5, _⟩ := lerp_steps h ha hb ha4 hb4 hab h0 h1
  exact ⟨h.le_rnd ha e5 (by linarith only [e3]), h.rnd_le hb e5 (by linarith only [e4])⟩

theorem lerp_mono_up (h : RoundsToNearest rnd) {a b t s : ℚ} (ha : IsDouble a) (hb : IsDouble b) (ha4 : 4 * |a| ≤ doubleMax)
    (hb4 : 4 * |b| ≤ doubleMax) (hab : a ≤ b) (h0 : 0 ≤ t) (hts : t ≤ s) (h1 : s ≤ 1 - 1 / 2 ^ 32) :
    linearlyInterpolateR rnd a b t ≤ linearlyInterpolateR rnd a b s := by
  obtain ⟨e1, e2, e3, e4, e5, _⟩ := lerp_steps h ha hb ha4 hb4 hab h0 (hts.trans h1)
  obtain ⟨f1, f2, f3, f4, f5, _⟩ := lerp_steps h ha hb ha4 hb4 hab (h0.trans hts) h1
  exact h.mono e5 f5 (by linarith only [h.mono e1 f1 (mul_le_mul_of_nonneg_right hts e2)])

/-- The error, for increasing values and `t` close to `x`. -/
theorem lerp_error_up (h : RoundsToNearest rnd) {a b t x M : ℚ} (ha : IsDouble a) (hb : IsDouble b) (ha4 : 4 * |a| ≤ doubleMax)
    (hb4 : 4 * |b| ≤ doubleMax) (hab : a ≤ b) (h0 : 0 ≤ t) (h1 : t ≤ 1 - 1 / 2 ^ 32) (hx0 : 0 ≤ x) (hx1 : x ≤ 1) (htx : |t - x| ≤ 1 / 2 ^ 53)
    (haM : |a| ≤ M) (hbM : |b| ≤ M) :
    |linearlyInterpolateR rnd a b t - (a + (b - a) * x)| ≤ 8 * M / 2 ^ 53 + (2 : ℚ) ^ (-1074 : ℤ) := by
  obtain ⟨e1, e2, e3, e4, e5, e6⟩ := lerp_steps h ha hb ha4 hb4 hab h0 h1
  have hba0 : 0 ≤ b - a := by linarith only [hab]
  have hba : b - a ≤ 2 * M := by
    have := abs_le.1 haM
    have := abs_le.1 hbM
    linarith
  have hpd := h.double _ e1
  have hperr := h.error_gen e1
  have hverr := h.error_add ha hpd e5
  rw [linearlyInterpolateR]
  set d := rnd (b - a) with hd
  set p := rnd (t * d) with hp
  have ht1 : t ≤ 1 := by
    have : (0 : ℚ) < 1 / 2 ^ 32 := by norm_num
    linarith only [this, h1]
  -- the product
  have k1 : |t * d - (b - a) * x| ≤ (b - a) / 2 ^ 53 + (b - a) * (1 / 2 ^ 53) := by
    have e : t * d - (b - a) * x = (b - a) * (t - x) - t * (b - a - d) := by ring
    rw [e]
    refine (abs_sub _ _).trans ?_
    rw [abs_mul, abs_mul, abs_of_nonneg hba0, abs_of_nonneg h0]
    have f1 := mul_le_mul_of_nonneg_left htx hba0
    have f2 : t * |b - a - d| ≤ |b - a - d| := mul_le_of_le_one_left (abs_nonneg _) ht1
    linarith only [f1, f2, e6]
  have k2 : |t * d| ≤ (b - a) + (b - a) / 2 ^ 53 := by
    rw [abs_of_nonneg (mul_nonneg h0 e2)]
    have f1 := mul_le_of_le_one_left e2 ht1
    have f2 := (abs_le.1 e6).1
    linarith only [f1, f2]
  have k3 : |a + p| ≤ M := by
    have f1 := abs_le.1 haM
    have f2 := abs_le.1 hbM
    rw [abs_le]
    constructor <;> linarith only [f1.1, f1.2, f2.1, f2.2, e3, e4]
  have e : rnd (a + p) - (a + (b - a) * x) = -(a + p - rnd (a + p)) - (t * d - p) + (t * d - (b - a) * x) := by ring
  rw [e]
  have t1 := abs_add_le (-(a + p - rnd (a + p)) - (t * d - p)) (t * d - (b - a) * x)
  have t2 := abs_sub (-(a + p - rnd (a + p))) (t * d - p)
  rw [abs_neg] at t2
  have hη : (2 : ℚ) ^ (-1074 : ℤ) = 2 * (2 : ℚ) ^ (-1075 : ℤ) := by
    rw [show (-1074 : ℤ) = 1 + -1075 by norm_num, two_zpow_add]
    norm_num
  have hη0 := two_zpow_pos (-1075)
  rw [hη]
  have hM0 : 0 ≤ M := (abs_nonneg a).trans haM
  linarith only [k1, k2, k3, hperr, hverr, t1, t2, hba, hba0, hM0, hη0]

theorem lerp_between (h : RoundsToNearest rnd) {a b t : ℚ} (ha : IsDouble a) (hb : IsDouble b) (ha4 : 4 * |a| ≤ doubleMax)
    (hb4 : 4 * |b| ≤ doubleMax) (h0 : 0 ≤ t) (h1 : t ≤ 1 - 1 / 2 ^ 32) :
    min a b ≤ linearlyInterpolateR rnd a b t ∧ linearlyInterpolateR rnd a b t ≤ max a b := by
  rcases le_total a b with hab | hab
  · rw [min_eq_left hab, max_eq_right hab]
    exact lerp_between_up h ha hb ha4 hb4 hab h0 h1
  · rw [min_eq_right hab, max_eq_left hab]
    have := lerp_between_up h.mirror ha.neg hb.neg (by rwa [abs_neg]) (by rwa [abs_neg]) (neg_le_neg hab) h0 h1
    rw [lerp_mirror] at this
    exact ⟨by linarith only [this.2], by linarith only [this.1]⟩

theorem lerp_mono_down (h : RoundsToNearest rnd) {a b t s : ℚ} (ha : IsDouble a) (hb : IsDouble b) (ha4 : 4 * |a| ≤ doubleMax)
    (hb4 : 4 * |b| ≤ doubleMax) (hab : b ≤ a) (h0 : 0 ≤ t) (hts : t ≤ s) (h1 : s ≤ 1 - 1 / 2 ^ 32) :
    linearlyInterpolateR rnd a b s ≤ linearlyInterpolateR rnd a b t := by
  have := lerp_mono_up h.mirror ha.neg hb.neg (by rwa [abs_neg]) (by rwa [abs_neg]) (neg_le_neg hab) h0 hts h1
  rw [lerp_mirror, lerp_mirror] at this
  linarith only [this]

theorem lerp_error (h : RoundsToNearest rnd) {a b t x M : ℚ} (ha : IsDouble a) (hb : IsDouble b) (ha4 : 4 * |a| ≤ doubleMax)
    (hb4 : 4 * |b| ≤ doubleMax) (h0 : 0 ≤ t) (h1 : t ≤ 1 - 1 / 2 ^ 32) (hx0 : 0 ≤ x) (hx1 : x ≤ 1) (htx : |t - x| ≤ 1 / 2 ^ 53)
    (haM : |a| ≤ M) (hbM : |b| ≤ M) :
    |linearlyInterpolateR rnd a b t - (a + (b - a) * x)| ≤ 8 * M / 2 ^ 53 + (2 : ℚ) ^ (-1074 : ℤ) := by
  rcases le_total a b with hab | hab
  · exact lerp_error_up h ha hb ha4 hb4 hab h0 h1 hx0 hx1 htx haM hbM
  · have := lerp_error_up h.mirror ha.neg hb.neg (by rwa [abs_neg]) (by rwa [abs_neg]) (neg_le_neg hab) h0 h1 hx0 hx1 htx (M := M)
      (by rwa [abs_neg]) (by rwa [abs_neg])
    rw [lerp_mirror, show -linearlyInterpolateR rnd a b t - (-a + (-b - -a) * x) = -(linearlyInterpolateR rnd a b t - (a + (b - a) * x)) by ring,
      abs_neg] at this
    exact this

/-- The rounded fraction. -/
theorem fraction_bounds (h : RoundsToNearest rnd) {k n : Nat} (hk : k < n) (hn : n ≤ 4294967296) :
    0 ≤ rnd ((k : ℚ) / n) ∧ rnd ((k : ℚ) / n) ≤ 1 - 1 / 2 ^ 32 ∧ |rnd ((k : ℚ) / n) - (k : ℚ) / n| ≤ 1 / 2 ^ 53 := by
  have hn0 : (0 : ℚ) < n := by exact_mod_cast (by omega : 0 < n)
  have hk0 : (0 : ℚ) ≤ k := Nat.cast_nonneg k
  have hkn : (k : ℚ) + 1 ≤ n := by exact_mod_cast hk
  have hnq : (n : ℚ) ≤ 4294967296 := by exact_mod_cast hn
  have hx0 : 0 ≤ (k : ℚ) / n := div_nonneg hk0 hn0.le
  have hx1 : (k : ℚ) / n ≤ 1 - 1 / 2 ^ 32 := by
    rw [div_le_iff₀ hn0]
    norm_num
    linarith
  have hm : |(k : ℚ) / n| ≤ doubleMax := by
    rw [abs_of_nonneg hx0]
    refine le_trans ?_ (le_doubleMax (e := 0) (by norm_num))
    norm_num at hx1 ⊢
    linarith
  have hd : IsDouble (1 - 1 / 2 ^ 32) := by
    refine ⟨4294967295, -32, by norm_num, by norm_num, by norm_num, ?_⟩
    rw [zpow_neg]
    norm_num
  refine ⟨h.nonneg hm hx0, h.rnd_le hd hm hx1, ?_⟩
  by_cases hkz : k = 0
  · subst hkz
    simp [h.zero]
  · have hk1 : (1 : ℚ) ≤ k := by exact_mod_cast Nat.one_le_iff_ne_zero.2 hkz
    have hlo : 1 / 2 ^ 100 ≤ |(k : ℚ) / n| := by
      rw [abs_of_nonneg hx0, le_div_iff₀ hn0]
      norm_num
      linarith
    have := h.error_mid hlo (by rw [abs_of_nonneg hx0]; norm_num at hx1 ⊢; linarith)
    rw [abs_sub_comm]
    refine this.trans ?_
    rw [abs_of_nonneg hx0]
    norm_num at hx1 ⊢
    linarith

end Sp
