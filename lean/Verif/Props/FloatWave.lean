import Verif.Props.FloatBlend
import Verif.Props.Extra
import Verif.Props.Wave

/-!
# C124: triangle and pan in floating point arithmetic

The result of each floating point operation is rounded to a nearest double (Spec/Float.lean).
-/

set_option linter.unusedSectionVars false

namespace Sp
variable {rnd : ℚ → ℚ}

/-- A number divided by itself through its rounded inverse is not above 1. -/
theorem mul_inverse_le_one (h : RoundsToNearest rnd) {b : Nat} (h0 : 0 < b) (h32 : b < 4294967296) : rnd (b * rnd (1 / (b : ℚ))) ≤ 1 := by
  have d1 : IsDouble 1 := by simpa using isDouble_nat (n := 1) (by norm_num)
  have hb0 : (0 : ℚ) < b := by exact_mod_cast h0
  have hb32 : (b : ℚ) ≤ 4294967296 := by exact_mod_cast h32.le
  have hb1 : (1 : ℚ) ≤ b := by exact_mod_cast h0
  set q : ℚ := 1 / b with hq
  have hq0 : 0 < q := by positivity
  have hq1 : q ≤ 1 := by
    rw [hq, div_le_one hb0]
    exact hb1
  have hbq : b * q = 1 := by
    rw [hq]
    field_simp
  have hqm : |q| ≤ doubleMax := by
    refine le_doubleMax_of ?_
    rw [abs_of_pos hq0]
    exact hq1.trans (by norm_num)
  have d0 := h.nonneg hqm hq0.le
  have dle := h.rnd_le d1 hqm hq1
  have hpm : |b * rnd q| ≤ doubleMax := by
    refine le_doubleMax_of ?_
    rw [abs_of_nonneg (mul_nonneg hb0.le d0)]
    have := mul_le_mul hb32 dle d0 (by norm_num)
    exact this.trans (by norm_num)
  obtain ⟨l1, l2⟩ := log_bounds hq0.ne'
  have he := h.error_le hqm
  have hlog : -32 ≤ Int.log 2 |q| := by
    have : (2 : ℚ) ^ (-32 : ℤ) < (2 : ℚ) ^ (Int.log 2 |q| + 1) := by
      refine lt_of_le_of_lt ?_ l2
      rw [abs_of_pos hq0, hq, le_div_iff₀ hb0]
      have e : (2 : ℚ) ^ (-32 : ℤ) = 1 / 4294967296 := by norm_num
      rw [e]
      linarith only [hb32]
    rw [two_zpow_lt] at this
    omega
  have hu : ulpExp q = Int.log 2 |q| - 52 := max_eq_left (by omega)
  rw [hu] at he
  set k := Int.log 2 |q| with hk
  rw [abs_of_pos hq0] at l1 l2
  have hk52 : (2 : ℚ) ^ (k - 52) = (2 : ℚ) ^ k / 2 ^ 52 := by
    rw [sub_eq_add_neg, two_zpow_add, div_eq_mul_inv]
    norm_num
  rcases eq_or_lt_of_le l1 with heq | hlt
  · have hd : IsDouble q := by
      have hk0 : k ≤ 0 := by
        have : (2 : ℚ) ^ k ≤ (2 : ℚ) ^ (0 : ℤ) := by
          rw [heq, zpow_zero]
          exact hq1
        by_contra hc
        have := two_zpow_lt.2 (show (0 : ℤ) < k by omega)
        linarith
      exact ⟨1, k, by norm_num, by omega, by omega, by rw [← heq]; norm_num⟩
    rw [h.exact hd, hbq, h.exact d1]
  · have hprod : b * rnd q < 1 + 1 / 2 ^ 53 := by
      have e1 := (abs_le.1 he).1
      rw [hk52] at e1
      have e2 : rnd q < q + q / 2 ^ 53 := by linarith only [e1, hlt]
      have e3 := mul_lt_mul_of_pos_left e2 hb0
      have e4 : b * (q + q / 2 ^ 53) = 1 + 1 / 2 ^ 53 := by
        have e5 : b * (q + q / 2 ^ 53) = b * q + b * q / 2 ^ 53 := by ring
        rw [e5, hbq]
      linarith only [e3, e4]
    rcases le_or_gt (b * rnd q) 1 with hle | hgt
    · exact h.rnd_le d1 hpm hle
    · have hn := h.nearest _ 1 hpm d1
      rw [abs_of_pos (show 0 < b * rnd q - 1 by linarith only [hgt])] at hn
      have r1 := (abs_le.1 hn).1
      have r2 : rnd (b * rnd q) < 1 + 1 / 2 ^ 52 := by linarith only [r1, hprod]
      have r0 := h.le_rnd d1 hpm hgt.le
      obtain ⟨m, hm⟩ := (h.double _ hpm).grid_of_le (k := 0) (by
        rw [zpow_zero, abs_of_nonneg (by linarith only [r0])]
        exact r0)
      have e : (2 : ℚ) ^ ((0 : ℤ) - 52) = 1 / 2 ^ 52 := by norm_num
      rw [e] at hm
      rw [hm] at r2 ⊢
      have m1 : (m : ℚ) < 2 ^ 52 + 1 := by linarith only [r2]
      have m2 : m < 2 ^ 52 + 1 := by exact_mod_cast m1
      have m3 : m ≤ 2 ^ 52 := by omega
      have m4 : (m : ℚ) ≤ 2 ^ 52 := by exact_mod_cast m3
      linarith only [m4]

/-- Values of a triangle: multiples of the rounded inverse. -/
theorem mul_inverse (h : RoundsToNearest rnd) {n b : Nat} (h0 : 0 < b) (hn : n ≤ b) (h32 : b < 4294967296) :
    IsDouble (rnd (n * rnd (1 / (b : ℚ)))) ∧ 0 ≤ rnd (n * rnd (1 / (b : ℚ))) ∧ rnd (n * rnd (1 / (b : ℚ))) ≤ 1 ∧
      |rnd (n * rnd (1 / (b : ℚ))) - n / b| ≤ 3 / 2 ^ 53 ∧
      ∀ m : Nat, m ≤ n → rnd (m * rnd (1 / (b : ℚ))) ≤ rnd (n * rnd (1 / (b : ℚ))) := by
  have d1 : IsDouble 1 := by simpa using isDouble_nat (n := 1) (by norm_num)
  have hb0 : (0 : ℚ) < b := by exact_mod_cast h0
  have hb32 : (b : ℚ) ≤ 4294967296 := by exact_mod_cast h32.le
  have hb1 : (1 : ℚ) ≤ b := by exact_mod_cast h0
  have hone := mul_inverse_le_one h h0 h32
  set q : ℚ := 1 / b with hq
  have hq0 : 0 < q := by positivity
  have hq1 : q ≤ 1 := by
    rw [hq, div_le_one hb0]
    exact hb1
  have hbq : b * q = 1 := by
    rw [hq]
    field_simp
  have hqlo : 1 / 4294967296 ≤ q := by
    rw [hq]
    exact one_div_le_one_div_of_le hb0 hb32
  have hqm : |q| ≤ doubleMax := by
    refine le_doubleMax_of ?_
    rw [abs_of_pos hq0]
    exact hq1.trans (by norm_num)
  have d0 := h.nonneg hqm hq0.le
  have dle := h.rnd_le d1 hqm hq1
  have hpm : ∀ m : Nat, m ≤ b → |m * rnd q| ≤ doubleMax := by
    intro m hm
    have hmb : (m : ℚ) ≤ 4294967296 := by exact_mod_cast (by omega : m ≤ 4294967296)
    refine le_doubleMax_of ?_
    rw [abs_of_nonneg (mul_nonneg (Nat.cast_nonneg m) d0)]
    have := mul_le_mul hmb dle d0 (by norm_num)
    exact this.trans (by norm_num)
  have hmono : ∀ m m' : Nat, m ≤ m' → m' ≤ b → rnd (m * rnd q) ≤ rnd (m' * rnd q) := by
    intro m m' hm hm'
    refine h.mono (hpm m (by omega)) (hpm m' hm') (mul_le_mul_of_nonneg_right ?_ d0)
    exact_mod_cast hm
  refine ⟨h.double _ (hpm n hn), h.nonneg (hpm n hn) (mul_nonneg (Nat.cast_nonneg n) d0), (hmono n b hn (le_refl _)).trans hone, ?_,
    fun m hm => hmono m n hm hn⟩
  have hqe : |q - rnd q| ≤ q / 2 ^ 53 := by
    have := h.error_mid (q := q) (by
      rw [abs_of_pos hq0]
      refine le_trans ?_ hqlo
      norm_num) (by
      rw [abs_of_pos hq0]
      exact hq1.trans (by norm_num))
    rwa [abs_of_pos hq0] at this
  have hnb : (n : ℚ) ≤ b := by exact_mod_cast hn
  have hn0 : (0 : ℚ) ≤ n := Nat.cast_nonneg n
  have hnq : n * q ≤ 1 := by
    rw [← hbq]
    exact mul_le_mul_of_nonneg_right hnb hq0.le
  have hxq : (n : ℚ) / b = n * q := by rw [hq]; ring
  have e1 : |n * q - n * rnd q| ≤ 1 / 2 ^ 53 := by
    rw [← mul_sub, abs_mul, abs_of_nonneg hn0]
    have := mul_le_mul_of_nonneg_left hqe hn0
    have e : n * (q / 2 ^ 53) = n * q / 2 ^ 53 := by ring
    linarith only [this, e, hnq]
  have e2 := h.error_gen (hpm n hn)
  rw [abs_of_nonneg (mul_nonneg hn0 d0)] at e2
  have hη : (2 : ℚ) ^ (-1075 : ℤ) ≤ 1 / 2 ^ 60 := by
    have : (2 : ℚ) ^ (-1075 : ℤ) ≤ (2 : ℚ) ^ (-60 : ℤ) := two_zpow_le (by norm_num)
    refine this.trans (le_of_eq ?_)
    norm_num
  rw [hxq]
  rw [abs_le] at e1 e2 ⊢
  constructor <;> linarith only [e1.1, e1.2, e2.1, e2.2, hη, hnq]

/-- **C124, triangle, partial**: in every period of `a + b` samples the values are doubles from 0 to 1 within 3 / 2^53 of the exact triangle, begin with 0,
rise for `a` samples and fall for `b` samples without going back. Missing: the peak is 1 (`C124_triangle_false`). -/
theorem C124_triangle_partial (h : RoundsToNearest rnd) {a b : Nat} (h0 : 0 < a + b) (h1 : a + b < 4294967296) :
    ∃ f : Nat → ℚ, (∀ t, triangleR rnd t a b = .ok (f t)) ∧
      (∀ t v, triangle t a b = .ok v → |f t - v| ≤ 3 / 2 ^ 53) ∧
      (∀ t, IsDouble (f t) ∧ 0 ≤ f t ∧ f t ≤ 1 ∧ f (t + (a + b)) = f t) ∧ (0 < a → f 0 = 0) ∧
      (∀ s t, s ≤ t → t < a → f s ≤ f t) ∧ ∀ s t, a ≤ s → s ≤ t → t < a + b → f t ≤ f s := by
  have e1 : u32 (a + b) = a + b := u32_of_lt h1
  refine ⟨fun t => if t % (a + b) < a then rnd ((t % (a + b) : Nat) * rnd (1 / (a : ℚ))) else
    rnd ((a + b - t % (a + b) : Nat) * rnd (1 / (b : ℚ))), ?_, ?_, ?_, ?_, ?_, ?_⟩
  · intro t
    have hr := Nat.mod_lt t h0
    unfold triangleR
    simp only [e1, show ¬ a + b = 0 by omega, if_false]
    generalize t % (a + b) = r at hr
    by_cases hra : r < a
    · rw [if_pos hra, if_pos hra]
    · rw [if_neg hra, if_neg hra]
      have x1 : (r : ℚ) - a = (r - a : Nat) := by rw [Nat.cast_sub (by omega)]
      rw [x1, h.exact (isDouble_nat (by omega))]
      have x2 : (b : ℚ) - (r - a : Nat) = (a + b - r : Nat) := by
        rw [← Nat.cast_sub (by omega)]
        congr 1
        omega
      rw [x2, h.exact (isDouble_nat (by omega))]
  · intro t v hv
    have hr := Nat.mod_lt t h0
    obtain ⟨v', v1, -, -, v2, v3, -⟩ := C15_triangle (t := t) h0 h1
    rw [hv, Except.ok.injEq] at v1
    subst v1
    simp only
    generalize t % (a + b) = r at hr v2 v3
    by_cases hra : r < a
    · rw [if_pos hra, v2 hra]
      exact (mul_inverse h (by omega) (by omega) (by omega)).2.2.2.1
    · rw [if_neg hra, v3 (by omega)]
      have := (mul_inverse h (n := a + b - r) (b := b) (by omega) (by omega) (by omega)).2.2.2.1
      rw [← Nat.cast_sub (by omega)]
      exact this
  · intro t
    have hr := Nat.mod_lt t h0
    simp only [Nat.add_mod_right]
    generalize t % (a + b) = r at hr
    by_cases hra : r < a
    · rw [if_pos hra]
      have := mul_inverse h (n := r) (b := a) (by omega) (by omega) (by omega)
      exact ⟨this.1, this.2.1, this.2.2.1, trivial⟩
    · rw [if_neg hra]
      have := mul_inverse h (n := a + b - r) (b := b) (by omega) (by omega) (by omega)
      exact ⟨this.1, this.2.1, this.2.2.1, trivial⟩
  · intro ha
    simp only [Nat.zero_mod, if_pos ha, Nat.cast_zero, zero_mul, h.zero]
  · intro s t hst ht
    simp only [Nat.mod_eq_of_lt (show s < a + b by omega), Nat.mod_eq_of_lt (show t < a + b by omega), if_pos ht, if_pos (show s < a by omega)]
    exact (mul_inverse h (by omega) (by omega) (by omega)).2.2.2.2 s hst
  · intro s t hs hst ht
    simp only [Nat.mod_eq_of_lt (show s < a + b by omega), Nat.mod_eq_of_lt ht, if_neg (show ¬ t < a by omega), if_neg (show ¬ s < a by omega)]
    exact (mul_inverse h (n := a + b - s) (b := b) (by omega) (by omega) (by omega)).2.2.2.2 _ (by omega)

/-- The hypotheses are met. -/
example (h : RoundsToNearest rnd) : ∃ v, triangleR rnd 1002 4 3 = .ok v ∧ |v - 1 / 4| ≤ 3 / 2 ^ 53 := by
  obtain ⟨f, f1, f2, f3, f4, f5, f6⟩ := C124_triangle_partial h (a := 4) (b := 3) (by norm_num) (by norm_num)
  exact ⟨f 1002, f1 1002, f2 1002 (1 / 4) (by decide +kernel)⟩

/-- **C124 is false** for the peak: with 49 falling samples the value at the peak is 1 - 2^-53, for every rounding to nearest. -/
theorem C124_triangle_false (h : RoundsToNearest rnd) : triangleR rnd 1 1 49 = .ok (1 - 1 / 2 ^ 53) ∧ triangle 1 1 49 = .ok 1 := by
  have r1 : rnd (1 / 49) = 5882252574524729 / 288230376151711744 := by
    have := h.eq_of (q := 1 / 49) (k := -6) (M := 5882252574524729) (by norm_num) (by norm_num) (by norm_num)
      (by norm_num [abs_of_pos, abs_of_neg]) (by norm_num [abs_of_pos, abs_of_neg]) (by norm_num [abs_of_pos, abs_of_neg])
    rw [this]
    norm_num
  have r2 : rnd (49 * (5882252574524729 / 288230376151711744)) = 1 - 1 / 2 ^ 53 := by
    have := h.eq_of (q := 49 * (5882252574524729 / 288230376151711744)) (k := -1) (M := 9007199254740991) (by norm_num) (by norm_num) (by norm_num)
      (by norm_num [abs_of_pos, abs_of_neg]) (by norm_num [abs_of_pos, abs_of_neg]) (by norm_num [abs_of_pos, abs_of_neg])
    rw [this]
    norm_num
  have d49 : IsDouble 49 := by simpa using isDouble_nat (n := 49) (by norm_num)
  refine ⟨?_, by decide +kernel⟩
  have e1 : u32 (1 + 49) = 50 := rfl
  unfold triangleR
  simp only [e1]
  rw [if_neg (by norm_num), if_neg (by norm_num)]
  norm_num only [Nat.cast_one, Nat.cast_ofNat]
  rw [h.zero, sub_zero, h.exact d49]
  norm_num only at r1
  rw [r1, r2]
  norm_num

/-- **C124, pan**: the factors are computed without rounding errors for every double and every channel: they are those of exact arithmetic (C79). -/
theorem C124_pan (h : RoundsToNearest rnd) {v : ℚ} (hv : IsDouble v) {channel : Nat} (hc : channel < 256) :
    panToAmpR rnd v channel = panToAmp v channel := by
  have hcq : (channel : ℚ) ≤ 255 := by exact_mod_cast (by omega : channel ≤ 255)
  have hc0 : (0 : ℚ) ≤ channel := Nat.cast_nonneg _
  have hint : ∀ n : ℤ, |n| < 2 ^ 52 → IsDouble (n / 2 : ℚ) := by
    intro n hn
    have := isDouble_quarters (m := 2 * n) (by rw [abs_mul]; norm_num at hn ⊢; omega)
    have e : (((2 * n : ℤ)) : ℚ) / 4 = n / 2 := by
      push_cast
      ring
    rwa [e] at this
  have hlim : ∀ lo hi : ℚ, IsDouble lo → IsDouble hi → lo ≤ hi →
      IsDouble (inlineLimit v lo hi) ∧ lo ≤ inlineLimit v lo hi ∧ inlineLimit v lo hi ≤ hi := by
    intro lo hi h1 h2 h3
    rw [inlineLimit_eq]
    refine ⟨?_, le_max_left _ _, max_le h3 (min_le_left _ _)⟩
    rcases max_choice lo (min hi v) with e | e <;> rw [e]
    · exact h1
    · rcases min_choice hi v with e | e <;> rw [e]
      · exact h2
      · exact hv
  have htwo : ∀ x : ℚ, IsDouble x → |x| ≤ 1000 → IsDouble (2 * x) := by
    intro x hx hx2
    refine hx.two_mul (le_doubleMax_of ?_)
    rw [abs_mul, abs_of_pos (by norm_num : (0 : ℚ) < 2)]
    exact le_trans (by linarith only [hx2] : 2 * |x| ≤ 2000) (by norm_num)
  have hdiv : ∀ x : ℚ, x / (1 / 2) = 2 * x := by
    intro x
    ring
  unfold panToAmpR panToAmp
  by_cases hodd : channel &&& 1 = 1
  · rw [if_pos hodd, if_pos hodd]
    have hc1 : 1 ≤ channel := by
      rcases Nat.eq_zero_or_pos channel with e | e
      · rw [e] at hodd
        simp at hodd
      · exact e
    have hc1q : (1 : ℚ) ≤ channel := by exact_mod_cast hc1
    have a1 := hint (2 * channel - 2) (by rw [abs_lt]; constructor <;> omega)
    have a2 := hint (2 * channel - 1) (by rw [abs_lt]; constructor <;> omega)
    have e1 : (((2 * channel - 2 : ℤ)) : ℚ) / 2 = channel - 1 := by push_cast; ring
    have e2 : (((2 * channel - 1 : ℤ)) : ℚ) / 2 = channel - 1 / 2 := by push_cast; ring
    rw [e1] at a1
    rw [e2] at a2
    obtain ⟨l1, l2, l3⟩ := hlim _ _ a1 a2 (by linarith only)
    rw [hdiv, h.exact (htwo _ l1 (by rw [abs_le]; constructor <;> linarith only [l2, l3, hcq, hc1q]))]
  · rw [if_neg hodd, if_neg hodd]
    have a1 := hint (2 * channel + 1) (by rw [abs_lt]; constructor <;> omega)
    have a2 := hint (2 * channel + 2) (by rw [abs_lt]; constructor <;> omega)
    have e1 : (((2 * channel + 1 : ℤ)) : ℚ) / 2 = channel + 1 / 2 := by push_cast; ring
    have e2 : (((2 * channel + 2 : ℤ)) : ℚ) / 2 = channel + 1 := by push_cast; ring
    rw [e1] at a1
    rw [e2] at a2
    obtain ⟨l1, l2, l3⟩ := hlim _ _ a1 a2 (by linarith only)
    set L := inlineLimit v (channel + 1 / 2) (channel + 1) with hL
    have hL0 : 0 < L := by linarith only [l2, hc0]
    have hg := l1.grid hL0.ne' (le_refl _)
    have hu : ulpExp L ≤ -1 := by
      rw [ulpExp, max_le_iff]
      refine ⟨?_, by norm_num⟩
      obtain ⟨b1, -⟩ := log_bounds hL0.ne'
      rw [abs_of_pos hL0] at b1 ⊢
      have : (2 : ℚ) ^ (Int.log 2 L) < (2 : ℚ) ^ (9 : ℤ) := lt_of_le_of_lt (b1.trans (show L ≤ 256 by linarith only [l3, hcq])) (by norm_num)
      rw [two_zpow_lt] at this
      omega
    have hul := le_ulp L
    rw [abs_of_pos hL0] at hul
    have hLm := l1.le_max
    rw [abs_of_pos hL0] at hLm
    have ghalf : OnGrid (ulpExp L) (1 / 2) := OnGrid.mono (f := -1) hu ⟨1, by norm_num⟩
    have gone : OnGrid (ulpExp L) 1 := OnGrid.mono (f := 0) (by omega) ⟨1, by norm_num⟩
    have dh : IsDouble (L - 1 / 2) := by
      have : |L - 1 / 2| ≤ L := by rw [abs_le]; constructor <;> linarith only [l2, hc0]
      exact (hg.sub ghalf).isDouble (ulpExp_ge L) (this.trans hul) (this.trans hLm)
    have d1 : IsDouble (1 - L) := by
      have : |1 - L| ≤ L := by rw [abs_le]; constructor <;> linarith only [l2, hc0]
      exact (gone.sub hg).isDouble (ulpExp_ge L) (this.trans hul) (this.trans hLm)
    rw [h.exact dh, hdiv, h.exact (htwo _ dh (by rw [abs_le]; constructor <;> linarith only [l2, l3, hcq, hc0]))]
    have e : 1 - 2 * (L - 1 / 2) = 2 * (1 - L) := by ring
    rw [e, h.exact (htwo _ d1 (by rw [abs_le]; constructor <;> linarith only [l2, l3, hcq, hc0]))]

/-- The hypothesis is met: a third, rounded. -/
example (h : RoundsToNearest rnd) : panToAmpR rnd (rnd (1 / 3)) 1 = 2 * rnd (1 / 3) := by
  have hm : |(1 / 3 : ℚ)| ≤ doubleMax := le_doubleMax_of (by norm_num [abs_of_pos])
  have r0 := h.nonneg hm (by norm_num)
  have r1 : rnd (1 / 3) ≤ 1 / 2 := h.rnd_le ⟨1, -1, by norm_num, by norm_num, by norm_num, by norm_num⟩ hm (by norm_num)
  rw [C124_pan h (h.double _ hm) (by norm_num), panToAmp, if_pos (by decide), inlineLimit_eq]
  norm_num
  rw [min_eq_right (by linarith only [r1]), max_eq_right (by linarith only [r0])]
  ring

end Sp
