import Verif.Lemmas.FftGeneric
import Verif.Lemmas.FftRadix2
import Verif.Lemmas.Float
import Verif.Spec.FloatFft
import Mathlib.Analysis.Real.Pi.Bounds
import Mathlib.Analysis.SpecialFunctions.Trigonometric.Bounds

/-! # Rounding errors of the radix 2 transform -/

set_option linter.unusedSectionVars false

noncomputable section

namespace Sp
variable {rnd : ℚ → ℚ}

/-- Half a unit in the last place of one. -/
def fu : ℝ := 1 / 2 ^ 53

/-- The smallest rounding error. -/
def feta : ℝ := (2 : ℝ) ^ (-1075 : ℤ)

/-- The largest double. -/
def fmax : ℝ := (doubleMax : ℚ)

theorem feta_pos : 0 < feta := by unfold feta; positivity

theorem feta_le : feta ≤ 1 / 2 ^ 200 := by
  unfold feta
  rw [one_div, ← zpow_natCast, ← zpow_neg]
  exact zpow_le_zpow_right₀ (by norm_num) (by norm_num)

theorem rnd_real (h : RoundsToNearest rnd) {q : ℚ} (hq : |(q : ℝ)| ≤ fmax) : |((rnd q : ℚ) : ℝ) - q| ≤ fu * |(q : ℝ)| + feta := by
  have h1 : |q| ≤ doubleMax := by
    rw [fmax] at hq
    exact_mod_cast hq
  have h2 := h.error_gen h1
  have h3 : ((|q - rnd q| : ℚ) : ℝ) ≤ ((|q| / 2 ^ 53 + (2 : ℚ) ^ (-1075 : ℤ) : ℚ) : ℝ) := Rat.cast_le.2 h2
  rw [Rat.cast_abs, Rat.cast_sub, Rat.cast_add, Rat.cast_div, Rat.cast_zpow, Rat.cast_abs, Rat.cast_pow, Rat.cast_ofNat] at h3
  rw [abs_sub_comm, fu, feta]
  linarith

/-- The complex number that a pair stands for. -/
def cval (v : Fl rnd × Fl rnd) : ℂ := ⟨(v.1.val : ℝ), (v.2.val : ℝ)⟩

theorem cval_re (v : Fl rnd × Fl rnd) : (cval v).re = v.1.val := rfl
theorem cval_im (v : Fl rnd × Fl rnd) : (cval v).im = v.2.val := rfl

theorem norm_le_abs_add (z : ℂ) : ‖z‖ ≤ |z.re| + |z.im| := Complex.norm_le_abs_re_add_abs_im z

/-- Two products and their sum. -/
theorem dot2_error {q1 q2 c d a b t m C D τ : ℝ} (hτ : τ ≤ 1 / 2 ^ 48) (hq1 : |q1| ≤ m) (hq2 : |q2| ≤ m) (hc : |c - C| ≤ τ)
    (hd : |d - D| ≤ τ) (hC : |C| ≤ 1) (hD : |D| ≤ 1) (ha : |a - q1 * c| ≤ fu * |q1 * c| + feta)
    (hb : |b - q2 * d| ≤ fu * |q2 * d| + feta) (ht : |t - (a + b)| ≤ fu * |a + b| + feta) :
    |t - (q1 * C + q2 * D)| ≤ (2 * τ + 5 / 2 ^ 53) * m + 4 * feta := by
  have hm : 0 ≤ m := (abs_nonneg q1).trans hq1
  have he := feta_pos
  have hτ0 : 0 ≤ τ := (abs_nonneg _).trans hc
  have hτm : τ * m ≤ 1 / 2 ^ 48 * m := mul_le_mul_of_nonneg_right hτ hm
  have key : ∀ {q c C : ℝ}, |q| ≤ m → |c - C| ≤ τ → |C| ≤ 1 → |q * c| ≤ (1 + τ) * m ∧ |q * c - q * C| ≤ τ * m := by
    intro q c C hq hc hC
    have h1 : |c| ≤ 1 + τ := by
      have : |c| ≤ |c - C| + |C| := by
        have := abs_add_le (c - C) C
        rwa [sub_add_cancel] at this
      linarith
    refine ⟨?_, ?_⟩
    · rw [abs_mul, mul_comm]
      exact mul_le_mul h1 hq (abs_nonneg _) (by positivity)
    · rw [← mul_sub, abs_mul, mul_comm]
      exact mul_le_mul hc hq (abs_nonneg _) (by positivity)
  obtain ⟨k1, k2⟩ := key hq1 hc hC
  obtain ⟨k3, k4⟩ := key hq2 hd hD
  rw [fu] at ha hb ht
  rw [abs_le] at ha hb ht k2 k4
  have k5 : |a + b| ≤ (1 + 1 / 2 ^ 53) * (2 * ((1 + τ) * m)) + 2 * feta := by
    rw [abs_le] at k1 k3
    rw [abs_le]
    have f1 : |q1 * c| ≤ (1 + τ) * m := abs_le.2 k1
    have f2 : |q2 * d| ≤ (1 + τ) * m := abs_le.2 k3
    constructor <;> linarith
  rw [abs_le]
  constructor <;> linarith

theorem sum_error {p t o T P Q : ℝ} (hp : |p| ≤ P) (hT : |T| ≤ Q) (ht : |t - T| ≤ 5 / 2 ^ 50 * Q + 4 * feta)
    (ho : |o - (p + t)| ≤ fu * |p + t| + feta) : |o - (p + T)| ≤ 1 / 2 ^ 47 * (P + Q) + 6 * feta := by
  have hP : 0 ≤ P := (abs_nonneg p).trans hp
  have hQ : 0 ≤ Q := (abs_nonneg T).trans hT
  have he := feta_pos
  have k : |p + t| ≤ P + Q + (5 / 2 ^ 50 * Q + 4 * feta) := by
    rw [abs_le] at *
    constructor <;> linarith
  rw [fu] at ho
  rw [abs_le] at ht ho ⊢
  constructor <;> linarith

theorem abs_lt_of_error {x y B : ℝ} (h : |x - y| ≤ fu * |y| + feta) (hy : |y| ≤ B) : |x| ≤ 2 * B + 1 := by
  have he : feta ≤ 1 := feta_le.trans (by norm_num)
  have h2 : |x| ≤ |x - y| + |y| := by
    have := abs_add_le (x - y) y
    rwa [sub_add_cancel] at this
  rw [fu] at h
  have := (abs_nonneg y).trans hy
  linarith

/-- The error of the rounded product with a table element. -/
theorem gmul_error_gen {τ : ℝ} (hτ : τ ≤ 1 / 2 ^ 48) (h : RoundsToNearest rnd) [Trig (Fl rnd)] {q w : Fl rnd × Fl rnd} {W : ℂ} (hW : ‖W‖ = 1)
    (hc : |(w.1.val : ℝ) - W.re| ≤ τ) (hd : |(w.2.val : ℝ) + W.im| ≤ τ) (hmax : 16 * ‖cval q‖ + 16 ≤ fmax) :
    |(cval (gmul q w)).re - (W * cval q).re| ≤ (2 * τ + 5 / 2 ^ 53) * ‖cval q‖ + 4 * feta ∧
      |(cval (gmul q w)).im - (W * cval q).im| ≤ (2 * τ + 5 / 2 ^ 53) * ‖cval q‖ + 4 * feta := by
  have hW1 : |W.re| ≤ 1 := hW ▸ Complex.abs_re_le_norm W
  have hW2 : |W.im| ≤ 1 := hW ▸ Complex.abs_im_le_norm W
  have hq1 : |(q.1.val : ℝ)| ≤ ‖cval q‖ := Complex.abs_re_le_norm (cval q)
  have hq2 : |(q.2.val : ℝ)| ≤ ‖cval q‖ := Complex.abs_im_le_norm (cval q)
  have hd' : |(w.2.val : ℝ) - -W.im| ≤ τ := by rwa [sub_neg_eq_add]
  have hm := norm_nonneg (cval q)
  have prod : ∀ (x y : ℚ) (Y : ℝ), |(x : ℝ)| ≤ ‖cval q‖ → |(y : ℝ) - Y| ≤ τ → |Y| ≤ 1 →
      |((rnd (x * y) : ℚ) : ℝ) - x * y| ≤ fu * |(x : ℝ) * y| + feta ∧ |((rnd (x * y) : ℚ) : ℝ)| ≤ 4 * ‖cval q‖ + 1 := by
    intro x y Y hx hy hY
    have h1 : |(y : ℝ)| ≤ 2 := by
      have := abs_add_le ((y : ℝ) - Y) Y
      rw [sub_add_cancel] at this
      have e : (1 : ℝ) / 2 ^ 48 ≤ 1 := by norm_num
      linarith
    have h2 : |(x : ℝ) * y| ≤ 2 * ‖cval q‖ := by
      rw [abs_mul, mul_comm]
      exact mul_le_mul h1 hx (abs_nonneg _) (by norm_num)
    have h3 := rnd_real h (q := x * y) (by push_cast; linarith)
    push_cast at h3
    refine ⟨h3, ?_⟩
    have := abs_lt_of_error h3 h2
    linarith
  have summ : ∀ (x y : ℚ), |(x : ℝ)| ≤ 4 * ‖cval q‖ + 1 → |(y : ℝ)| ≤ 4 * ‖cval q‖ + 1 →
      |((rnd (x + y) : ℚ) : ℝ) - (x + y)| ≤ fu * |(x : ℝ) + y| + feta := by
    intro x y hx hy
    have h3 := rnd_real h (q := x + y) (by
      push_cast
      have := abs_add_le (x : ℝ) y
      linarith)
    push_cast at h3
    exact h3
  obtain ⟨a1, a2⟩ := prod q.1.val w.1.val W.re hq1 hc hW1
  obtain ⟨b1, b2⟩ := prod q.2.val w.2.val (-W.im) hq2 hd' (by rwa [abs_neg])
  obtain ⟨c1, c2⟩ := prod (-q.1.val) w.2.val (-W.im) (by push_cast; rwa [abs_neg]) hd' (by rwa [abs_neg])
  obtain ⟨d1, d2⟩ := prod q.2.val w.1.val W.re hq2 hc hW1
  have e1 := dot2_error hτ hq1 hq2 hc hd' hW1 (by rwa [abs_neg]) a1 b1 (summ _ _ a2 b2)
  have e2 := dot2_error hτ (q1 := ((-q.1.val : ℚ) : ℝ)) (by push_cast; rwa [abs_neg]) hq2 hd' hc (by rwa [abs_neg]) hW1 c1 d1 (summ _ _ c2 d2)
  refine ⟨?_, ?_⟩
  · simp only [Complex.mul_re, cval_re, cval_im]
    have : W.re * (q.1.val : ℝ) - W.im * (q.2.val : ℝ) = q.1.val * W.re + q.2.val * -W.im := by ring
    rw [this]
    exact e1
  · simp only [Complex.mul_im, cval_re, cval_im]
    have : W.re * (q.2.val : ℝ) + W.im * (q.1.val : ℝ) = ((-q.1.val : ℚ) : ℝ) * -W.im + q.2.val * W.re := by push_cast; ring
    rw [this]
    exact e2

/-- The error of the rounded product with a table element. -/
theorem gmul_error (h : RoundsToNearest rnd) [Trig (Fl rnd)] {q w : Fl rnd × Fl rnd} {W : ℂ} (hW : ‖W‖ = 1)
    (hc : |(w.1.val : ℝ) - W.re| ≤ 1 / 2 ^ 49) (hd : |(w.2.val : ℝ) + W.im| ≤ 1 / 2 ^ 49) (hmax : 16 * ‖cval q‖ + 16 ≤ fmax) :
    |(cval (gmul q w)).re - (W * cval q).re| ≤ 5 / 2 ^ 50 * ‖cval q‖ + 4 * feta ∧
      |(cval (gmul q w)).im - (W * cval q).im| ≤ 5 / 2 ^ 50 * ‖cval q‖ + 4 * feta := by
  have e := gmul_error_gen (by norm_num) h hW hc hd hmax
  have hq := norm_nonneg (cval q)
  exact ⟨e.1.trans (by linarith), e.2.trans (by linarith)⟩

/-- The error of one butterfly. -/
theorem butterfly_error (h : RoundsToNearest rnd) [Trig (Fl rnd)] {p q w : Fl rnd × Fl rnd} {W : ℂ} (hW : ‖W‖ = 1)
    (hc : |(w.1.val : ℝ) - W.re| ≤ 1 / 2 ^ 49) (hd : |(w.2.val : ℝ) + W.im| ≤ 1 / 2 ^ 49)
    (hmax : 16 * (‖cval p‖ + ‖cval q‖) + 16 ≤ fmax) :
    ‖cval (gplus p (gmul q w)) - (cval p + W * cval q)‖ ≤ 1 / 2 ^ 46 * (‖cval p‖ + ‖cval q‖) + 12 * feta ∧
      ‖cval (gminus p (gmul q w)) - (cval p - W * cval q)‖ ≤ 1 / 2 ^ 46 * (‖cval p‖ + ‖cval q‖) + 12 * feta := by
  have hp := norm_nonneg (cval p)
  have hq := norm_nonneg (cval q)
  obtain ⟨g1, g2⟩ := gmul_error h hW hc hd (by linarith)
  have hWq : ‖W * cval q‖ = ‖cval q‖ := by rw [norm_mul, hW, one_mul]
  have r1 : |(W * cval q).re| ≤ ‖cval q‖ := hWq ▸ Complex.abs_re_le_norm _
  have r2 : |(W * cval q).im| ≤ ‖cval q‖ := hWq ▸ Complex.abs_im_le_norm _
  have p1 : |(p.1.val : ℝ)| ≤ ‖cval p‖ := Complex.abs_re_le_norm (cval p)
  have p2 : |(p.2.val : ℝ)| ≤ ‖cval p‖ := Complex.abs_im_le_norm (cval p)
  have he : feta ≤ 1 := feta_le.trans (by norm_num)
  rw [cval_re] at g1
  rw [cval_im] at g2
  have big : ∀ {x : ℚ} {t : ℚ} {T : ℝ}, |(x : ℝ)| ≤ ‖cval p‖ → |(t : ℝ) - T| ≤ 5 / 2 ^ 50 * ‖cval q‖ + 4 * feta → |T| ≤ ‖cval q‖ →
      |(x : ℝ) + t| ≤ fmax := by
    intro x t T hx ht hT
    rw [abs_le] at hx ht hT ⊢
    constructor <;> linarith
  have one : ∀ {x : ℚ} {t : ℚ} {T : ℝ}, |(x : ℝ)| ≤ ‖cval p‖ → |(t : ℝ) - T| ≤ 5 / 2 ^ 50 * ‖cval q‖ + 4 * feta → |T| ≤ ‖cval q‖ →
      |((rnd (x + t) : ℚ) : ℝ) - (x + T)| ≤ 1 / 2 ^ 47 * (‖cval p‖ + ‖cval q‖) + 6 * feta := by
    intro x t T hx ht hT
    have h3 := rnd_real h (q := x + t) (by push_cast; exact big hx ht hT)
    push_cast at h3
    exact sum_error hx hT ht h3
  have neg : ∀ {t : ℚ} {T : ℝ}, |(t : ℝ) - T| ≤ 5 / 2 ^ 50 * ‖cval q‖ + 4 * feta →
      |((-t : ℚ) : ℝ) - -T| ≤ 5 / 2 ^ 50 * ‖cval q‖ + 4 * feta := by
    intro t T ht
    push_cast
    rw [← abs_neg]
    convert ht using 2
    ring
  constructor
  · refine (norm_le_abs_add _).trans ?_
    have s1 := one p1 g1 r1
    have s2 := one p2 g2 r2
    rw [Complex.sub_re, Complex.sub_im, Complex.add_re, Complex.add_im]
    refine (add_le_add s1 s2).trans (le_of_eq ?_)
    ring
  · refine (norm_le_abs_add _).trans ?_
    have s1 := one p1 (neg g1) (by rwa [abs_neg])
    have s2 := one p2 (neg g2) (by rwa [abs_neg])
    rw [← sub_eq_add_neg, ← sub_eq_add_neg] at s1 s2
    rw [Complex.sub_re, Complex.sub_im, Complex.sub_re, Complex.sub_im]
    refine (add_le_add s1 s2).trans (le_of_eq ?_)
    ring

/-! ## The tables -/

theorem fmax_ge {e : ℤ} (h : e ≤ 1023) : (2 : ℝ) ^ e ≤ fmax := by
  have := le_doubleMax h
  rw [fmax]
  have h2 : (((2 : ℚ) ^ e : ℚ) : ℝ) ≤ ((doubleMax : ℚ) : ℝ) := Rat.cast_le.2 this
  rwa [Rat.cast_zpow, Rat.cast_ofNat] at h2

theorem angle_error (h : RoundsToNearest rnd) [Trig (Fl rnd)] (ht : TrigAccurate rnd) {n i : Nat} (hn : 0 < n) (hn62 : n ≤ 2 ^ 62) (hi : 2 * i ≤ n) :
    |(((2 * Trig.pi * i / n : Fl rnd)).val : ℝ) - 2 * Real.pi * i / n| ≤ 1 / 2 ^ 49 - 1 / 2 ^ 52 ∧
      |((2 * Trig.pi * i / n : Fl rnd)).val| ≤ 7 := by
  have hpi1 := Real.pi_gt_d20
  have hpi2 := Real.pi_lt_d20
  have he := feta_pos
  have he2 := feta_le
  have hmax : (2 : ℝ) ^ (100 : ℤ) ≤ fmax := fmax_ge (by norm_num)
  have hmax' : (2 : ℝ) ^ 100 ≤ fmax := by exact_mod_cast hmax
  have hn0 : (0 : ℝ) < n := by exact_mod_cast hn
  have hnr : (n : ℝ) ≤ 2 ^ 62 := by exact_mod_cast hn62
  have hir : 2 * (i : ℝ) ≤ n := by exact_mod_cast hi
  have hi0 : (0 : ℝ) ≤ i := by positivity
  have hn1 : (1 : ℝ) ≤ n := by exact_mod_cast hn
  have e0 : ((2 : Fl rnd) * Trig.pi).val = rnd (2 * (884279719003555 / 281474976710656)) := by
    show rnd (2 * (Trig.pi : Fl rnd).val) = _
    rw [ht.pi]
  set x0 : ℚ := rnd (2 * (884279719003555 / 281474976710656)) with hx0
  set x1 : ℚ := rnd (x0 * i) with hx1
  have e2 : ((2 * Trig.pi * i / n : Fl rnd)).val = rnd (x1 / n) := by
    show rnd (rnd (((2 : Fl rnd) * Trig.pi).val * i) / n) = _
    rw [e0]
  rw [e2]
  have b0 := rnd_real h (q := 2 * (884279719003555 / 281474976710656)) (by
    push_cast
    rw [abs_of_nonneg (by norm_num)]
    refine le_trans ?_ hmax'
    norm_num)
  rw [← hx0, fu] at b0
  push_cast at b0
  rw [abs_of_nonneg (by norm_num : (0 : ℝ) ≤ 2 * (884279719003555 / 281474976710656))] at b0
  have c0 : |(x0 : ℝ) - 2 * Real.pi| ≤ 104 / 10 / 2 ^ 53 := by
    rw [abs_le] at b0 ⊢
    constructor <;> linarith
  have c0' : |(x0 : ℝ)| ≤ 64 / 10 := by
    rw [abs_le] at c0 ⊢
    constructor <;> linarith
  have m1 : |(x0 : ℝ) * i| ≤ 64 / 10 * i := by
    rw [abs_mul, abs_of_nonneg hi0]
    exact mul_le_mul_of_nonneg_right c0' hi0
  have b1 := rnd_real h (q := x0 * i) (by
    push_cast
    refine m1.trans (le_trans ?_ hmax')
    linarith)
  rw [← hx1, fu] at b1
  push_cast at b1
  -- division by n
  have hf0 : (0 : ℝ) ≤ i / n := by positivity
  have hf1 : (i : ℝ) / n ≤ 1 / 2 := by
    rw [div_le_iff₀ hn0]; linarith
  have c1 : |(x1 : ℝ) / n - x0 * (i / n)| ≤ 32 / 10 / 2 ^ 53 + feta := by
    have : (x1 : ℝ) / n - x0 * (i / n) = (x1 - x0 * i) / n := by field_simp
    rw [this, abs_div, abs_of_pos hn0, div_le_iff₀ hn0]
    refine b1.trans ?_
    have : feta ≤ feta * n := le_mul_of_one_le_right he.le hn1
    rw [add_mul]
    linarith
  have c2 : |(x0 : ℝ) * (i / n) - 2 * Real.pi * i / n| ≤ 52 / 10 / 2 ^ 53 := by
    have : (x0 : ℝ) * (i / n) - 2 * Real.pi * i / n = (x0 - 2 * Real.pi) * (i / n) := by ring
    rw [this, abs_mul, abs_of_nonneg hf0]
    have := mul_le_mul c0 hf1 hf0 (by norm_num)
    linarith
  have c3 : |(x0 : ℝ) * (i / n)| ≤ 32 / 10 := by
    rw [abs_mul, abs_of_nonneg hf0]
    have := mul_le_mul c0' hf1 hf0 (by norm_num)
    linarith
  have c4 : |(x1 : ℝ) / n| ≤ 33 / 10 := by
    rw [abs_le] at c1 c3 ⊢
    constructor <;> linarith
  have b2 := rnd_real h (q := x1 / n) (by
    push_cast
    refine c4.trans (le_trans ?_ hmax')
    norm_num)
  rw [fu] at b2
  push_cast at b2
  have d1 : |((rnd (x1 / n) : ℚ) : ℝ) - 2 * Real.pi * i / n| ≤ 1 / 2 ^ 49 - 1 / 2 ^ 52 := by
    rw [abs_le] at b2 c1 c2 ⊢
    constructor <;> linarith
  refine ⟨d1, ?_⟩
  have d2 : |((rnd (x1 / n) : ℚ) : ℝ)| ≤ 7 := by
    have c5 := abs_le.1 c4
    rw [abs_le] at b2 ⊢
    constructor <;> linarith
  exact_mod_cast d2

theorem table_error (h : RoundsToNearest rnd) [Trig (Fl rnd)] (ht : TrigAccurate rnd) {n i : Nat} (hn : 0 < n) (hn62 : n ≤ 2 ^ 62) (hi : 2 * i ≤ n) :
    |(((gTable n i : Fl rnd × Fl rnd).1.val : ℚ) : ℝ) - (fexp ((i : ℝ) / n)).re| ≤ 1 / 2 ^ 49 ∧
      |(((gTable n i : Fl rnd × Fl rnd).2.val : ℚ) : ℝ) + (fexp ((i : ℝ) / n)).im| ≤ 1 / 2 ^ 49 := by
  obtain ⟨h1, h2⟩ := angle_error h ht hn hn62 hi
  have h3 := ht.cos _ h2
  have h4 := ht.sin _ h2
  rw [fexp_re, fexp_im, ← sub_eq_add_neg, ← mul_div_assoc]
  have h5 := Real.abs_cos_sub_cos_le (((2 * Trig.pi * i / n : Fl rnd)).val : ℝ) (2 * Real.pi * i / n)
  have h6 := Real.abs_sin_sub_sin_le (((2 * Trig.pi * i / n : Fl rnd)).val : ℝ) (2 * Real.pi * i / n)
  unfold gTable
  dsimp only
  generalize (2 * Trig.pi * (i : Fl rnd) / (n : Fl rnd)) = y at *
  exact ⟨(abs_sub_le _ (Real.cos y.val) _).trans (by linarith), (abs_sub_le _ (Real.sin y.val) _).trans (by linarith)⟩

/-! ## The stages -/

/-- The sum of the absolute values of the elements that an element depends on after `s` stages. -/
def nsum (x : Nat → ℂ) (M s q : Nat) : ℝ := ∑ t ∈ Finset.range (2 ^ s), ‖x (rev M q + 2 ^ M * t)‖

theorem nsum_nonneg (x : Nat → ℂ) (M s q : Nat) : 0 ≤ nsum x M s q := Finset.sum_nonneg fun _ _ => norm_nonneg _

theorem nsum_succ (x : Nat → ℂ) (M s q : Nat) : nsum x M (s + 1) q = nsum x (M + 1) s (2 * q) + nsum x (M + 1) s (2 * q + 1) := by
  have key : ∀ (H : Nat) (f : Nat → ℝ),
      ∑ t ∈ Finset.range (2 * H), f t = ∑ u ∈ Finset.range H, f (2 * u) + ∑ u ∈ Finset.range H, f (2 * u + 1) := by
    intro H f
    induction H with
    | zero => simp
    | succ H ih =>
      rw [show 2 * (H + 1) = 2 * H + 1 + 1 by ring, Finset.sum_range_succ, Finset.sum_range_succ, ih, Finset.sum_range_succ,
        Finset.sum_range_succ]
      ring
  rw [nsum, show 2 ^ (s + 1) = 2 * 2 ^ s by ring, key, nsum, nsum, rev_even, rev_odd]
  congr 1
  · exact Finset.sum_congr rfl fun u _ => by congr 2; ring
  · exact Finset.sum_congr rfl fun u _ => by congr 2; ring

theorem nsum_le_total (x : Nat → ℂ) (M s q : Nat) (hq : q < 2 ^ M) : nsum x M s q ≤ ∑ i ∈ Finset.range (2 ^ (M + s)), ‖x i‖ := by
  induction M generalizing s q with
  | zero =>
    rw [nsum, Nat.zero_add]
    refine le_of_eq (Finset.sum_congr rfl fun t _ => ?_)
    rw [rev]
    simp
  | succ M ih =>
    have h1 := ih (s + 1) (q / 2) (by rw [Nat.pow_succ] at hq; omega)
    rw [show M + 1 + s = M + (s + 1) by ring]
    refine le_trans ?_ h1
    rw [nsum_succ]
    rcases Nat.even_or_odd' q with ⟨r, rfl | rfl⟩
    · rw [show 2 * r / 2 = r by omega]
      linarith [nsum_nonneg x (M + 1) s (2 * r + 1)]
    · rw [show (2 * r + 1) / 2 = r by omega]
      linarith [nsum_nonneg x (M + 1) s (2 * r)]

theorem norm_fexp (r : ℝ) : ‖fexp r‖ = 1 := by
  rw [fexp]
  have : (-2 * (Real.pi : ℂ) * Complex.I * (r : ℂ)) = ((-(2 * Real.pi * r) : ℝ) : ℂ) * Complex.I := by push_cast; ring
  rw [this, Complex.norm_exp_ofReal_mul_I]

theorem norm_stageZ_le (M s : Nat) (x : Nat → ℂ) (a : Nat) : ‖stageZ M s x a‖ ≤ nsum x M s (a / 2 ^ s) := by
  rw [stageZ, nsum]
  refine (norm_sum_le _ _).trans (Finset.sum_le_sum fun t _ => ?_)
  rw [norm_mul, norm_fexp, mul_one]

/-- The growth of the error in one stage. -/
theorem stage_error {P Q W p q o : ℂ} {Bp Bq g K e η : ℝ} (hP : ‖P‖ ≤ Bp) (hQ : ‖Q‖ ≤ Bq) (hW : ‖W‖ = 1)
    (hp : ‖p - P‖ ≤ (g - 1) * Bp + K) (hq : ‖q - Q‖ ≤ (g - 1) * Bq + K) (he0 : 0 ≤ e) (he : e ≤ 1 / 2) (hK : 0 ≤ K)
    (ho : ‖o - (p + W * q)‖ ≤ e * (‖p‖ + ‖q‖) + η) :
    ‖o - (P + W * Q)‖ ≤ (g * (1 + e) - 1) * (Bp + Bq) + (3 * K + η) := by
  have h1 : ‖p‖ ≤ g * Bp + K := by
    have := norm_add_le (p - P) P
    rw [sub_add_cancel] at this
    linarith
  have h2 : ‖q‖ ≤ g * Bq + K := by
    have := norm_add_le (q - Q) Q
    rw [sub_add_cancel] at this
    linarith
  have h3 : o - (P + W * Q) = (o - (p + W * q)) + ((p - P) + W * (q - Q)) := by ring
  rw [h3]
  refine (norm_add_le _ _).trans ?_
  have h4 : ‖(p - P) + W * (q - Q)‖ ≤ (g - 1) * Bp + K + ((g - 1) * Bq + K) := by
    refine (norm_add_le _ _).trans (add_le_add hp ?_)
    rw [norm_mul, hW, one_mul]
    exact hq
  have h5 : e * (‖p‖ + ‖q‖) ≤ e * (g * Bp + K + (g * Bq + K)) := mul_le_mul_of_nonneg_left (by linarith) he0
  have h6 : e * (K + K) ≤ K := by
    have := mul_le_mul_of_nonneg_right he (by linarith : 0 ≤ K + K)
    linarith
  nlinarith [ho, h4, h5, h6]

/-- The relative error of one stage. -/
def feps : ℝ := 1 / 2 ^ 46

theorem growth_le (s : Nat) (hs : s ≤ 62) : (1 + feps) ^ s ≤ 1 + s * (1 / 2 ^ 45) := by
  induction s with
  | zero => simp
  | succ s ih =>
    have h1 := ih (by omega)
    have hs' : (s : ℝ) ≤ 62 := by exact_mod_cast (by omega : s ≤ 62)
    have h0 : (0 : ℝ) ≤ s := by positivity
    rw [pow_succ]
    have h2 : (1 + feps) ^ s * (1 + feps) ≤ (1 + s * (1 / 2 ^ 45)) * (1 + feps) :=
      mul_le_mul_of_nonneg_right h1 (by unfold feps; norm_num)
    refine h2.trans ?_
    unfold feps
    push_cast
    linarith

/-- What holds before stage `s`. -/
def StageInv (L : Nat) (X : Nat → ℂ) (x : Nat → Fl rnd × Fl rnd) (s : Nat) (z : Nat → Fl rnd × Fl rnd) : Prop :=
  (∀ a, a < 2 ^ L → ‖cval (z a) - stageZ (L - s) s X a‖ ≤ ((1 + feps) ^ s - 1) * nsum X (L - s) s (a / 2 ^ s) + 6 * (3 ^ s - 1) * feta) ∧
    ∀ a, 2 ^ L ≤ a → z a = x a

theorem StageInv.zero (L : Nat) (x : Nat → Fl rnd × Fl rnd) :
    StageInv L (fun i => cval (x i)) x 0 fun a => if a < 2 ^ L then x (rev L a) else x a := by
  refine ⟨fun a ha => ?_, fun a ha => if_neg (by omega)⟩
  dsimp only
  rw [Nat.sub_zero, stageZ_zero, if_pos ha]
  simp

theorem StageInv.succ (h : RoundsToNearest rnd) [Trig (Fl rnd)] (ht : TrigAccurate rnd) {L : Nat} (hL : L ≤ 61) (x : Nat → Fl rnd × Fl rnd)
    (hmax : 64 * ∑ i ∈ Finset.range (2 ^ L), ‖cval (x i)‖ + 64 ≤ fmax) (M s : Nat) (z : Nat → Fl rnd × Fl rnd) (hM : M + 1 + s = L)
    (hz : StageInv L (fun i => cval (x i)) x s z) :
    StageInv L (fun i => cval (x i)) x (s + 1) fun a => if a < 2 ^ L then gbfly (2 ^ s) (2 ^ M) (gTable (2 ^ L)) z a else z a := by
  set X : Nat → ℂ := fun i => cval (x i) with hX
  refine ⟨fun a ha => ?_, fun a ha => by dsimp only; rw [if_neg (by omega)]; exact hz.2 a ha⟩
  have hz1 := hz.1
  rw [show L - s = M + 1 by omega] at hz1
  dsimp only
  rw [show L - (s + 1) = M by omega, if_pos ha, stageZ_succ]
  have h2 : 2 ^ (s + 1) = 2 * 2 ^ s := by ring
  have hn : 2 ^ L = 2 * 2 ^ s * 2 ^ M := by rw [← hM, Nat.pow_add, Nat.pow_succ]; ring
  have hs0 := Nat.two_pow_pos s
  have hMp := Nat.two_pow_pos M
  have hLp := Nat.two_pow_pos L
  have hq : a / (2 * 2 ^ s) < 2 ^ M := by
    rw [Nat.div_lt_iff_lt_mul (by omega), Nat.mul_comm, ← hn]
    exact ha
  have hda := Nat.div_add_mod a (2 * 2 ^ s)
  have hmod := Nat.mod_lt a (by omega : 0 < 2 * 2 ^ s)
  have hub : 2 * 2 ^ s * (a / (2 * 2 ^ s)) + 2 * 2 ^ s ≤ 2 ^ L := by
    calc 2 * 2 ^ s * (a / (2 * 2 ^ s)) + 2 * 2 ^ s = 2 * 2 ^ s * (a / (2 * 2 ^ s) + 1) := by ring
      _ ≤ 2 * 2 ^ s * 2 ^ M := Nat.mul_le_mul_left _ hq
      _ = _ := hn.symm
  rw [gbfly, bfly, h2, nsum_succ]
  set Q := a / (2 * 2 ^ s) with hQ
  have hsum := nsum_le_total X (M) (s + 1) Q hq
  rw [nsum_succ, show M + (s + 1) = L by omega] at hsum
  -- the two elements `b` and `b + 2 ^ s`
  have main : ∀ r, r < 2 ^ s → ∀ b, b = 2 * 2 ^ s * Q + r →
      ‖cval (gplus (z b) (gmul (z (b + 2 ^ s)) (gTable (2 ^ L) (r * 2 ^ M)))) -
        (stageZ (M + 1) s X b + fexp ((r : ℕ) / ((2 * 2 ^ s : ℕ) : ℝ)) * stageZ (M + 1) s X (b + 2 ^ s))‖ ≤
          ((1 + feps) ^ (s + 1) - 1) * (nsum X (M + 1) s (2 * Q) + nsum X (M + 1) s (2 * Q + 1)) + 6 * (3 ^ (s + 1) - 1) * feta ∧
      ‖cval (gminus (z b) (gmul (z (b + 2 ^ s)) (gTable (2 ^ L) (r * 2 ^ M)))) -
        (stageZ (M + 1) s X b - fexp ((r : ℕ) / ((2 * 2 ^ s : ℕ) : ℝ)) * stageZ (M + 1) s X (b + 2 ^ s))‖ ≤
          ((1 + feps) ^ (s + 1) - 1) * (nsum X (M + 1) s (2 * Q) + nsum X (M + 1) s (2 * Q + 1)) + 6 * (3 ^ (s + 1) - 1) * feta := by
    intro r hr b hb
    have eb : b / 2 ^ s = 2 * Q := by
      rw [hb, show 2 * 2 ^ s * Q + r = 2 ^ s * (2 * Q) + r by ring, Nat.mul_add_div hs0, Nat.div_eq_of_lt hr, Nat.add_zero]
    have eb' : (b + 2 ^ s) / 2 ^ s = 2 * Q + 1 := by
      rw [Nat.add_div_right _ hs0, eb]
    have i1 := hz1 b (by omega)
    have i2 := hz1 (b + 2 ^ s) (by omega)
    have n1 := norm_stageZ_le (M + 1) s X b
    have n2 := norm_stageZ_le (M + 1) s X (b + 2 ^ s)
    rw [eb] at i1 n1
    rw [eb'] at i2 n2
    have p1 := nsum_nonneg X (M + 1) s (2 * Q)
    have p2 := nsum_nonneg X (M + 1) s (2 * Q + 1)
    generalize nsum X (M + 1) s (2 * Q) = Bp at *
    generalize nsum X (M + 1) s (2 * Q + 1) = Bq at *
    generalize stageZ (M + 1) s X b = Zp at *
    generalize stageZ (M + 1) s X (b + 2 ^ s) = Zq at *
    have hfe : (((r * 2 ^ M : ℕ) : ℝ) / ((2 ^ L : ℕ) : ℝ)) = (r : ℝ) / ((2 * 2 ^ s : ℕ) : ℝ) := by
      rw [hn]
      push_cast
      field_simp
    obtain ⟨t1, t2⟩ := table_error h ht (n := 2 ^ L) (i := r * 2 ^ M) hLp (Nat.pow_le_pow_right (by omega) (by omega)) (by
      rw [hn]
      calc 2 * (r * 2 ^ M) = 2 * r * 2 ^ M := by ring
        _ ≤ 2 * 2 ^ s * 2 ^ M := Nat.mul_le_mul_right _ (by omega))
    rw [hfe] at t1 t2
    -- the size of the values
    have hg := growth_le s (by omega)
    have hs' : (s : ℝ) ≤ 62 := by exact_mod_cast (by omega : s ≤ 62)
    have hg2 : (1 + feps) ^ s ≤ 2 := by
      have : (s : ℝ) * (1 / 2 ^ 45) ≤ 62 * (1 / 2 ^ 45) := mul_le_mul_of_nonneg_right hs' (by norm_num)
      have e : (62 : ℝ) * (1 / 2 ^ 45) ≤ 1 := by norm_num
      linarith
    have hg1 : 1 ≤ (1 + feps) ^ s := one_le_pow₀ (by unfold feps; norm_num)
    have h3 : (3 : ℝ) ^ s ≤ 3 ^ 62 := pow_le_pow_right₀ (by norm_num) (by omega)
    have h31 : (1 : ℝ) ≤ 3 ^ s := one_le_pow₀ (by norm_num)
    have he := feta_pos
    have hK0 : 0 ≤ 6 * (3 ^ s - 1) * feta := by
      have : (0 : ℝ) ≤ 3 ^ s - 1 := by linarith
      positivity
    have hK1 : 6 * (3 ^ s - 1) * feta ≤ 1 := by
      have e1 : 6 * ((3 : ℝ) ^ s - 1) ≤ 6 * 3 ^ 62 := by linarith
      have e2 := mul_le_mul e1 feta_le he.le (by positivity)
      refine e2.trans ?_
      norm_num
    have hstep : 6 * ((3 : ℝ) ^ (s + 1) - 1) * feta = 3 * (6 * (3 ^ s - 1) * feta) + 12 * feta := by
      rw [pow_succ]; ring
    generalize 6 * ((3 : ℝ) ^ s - 1) * feta = K at *
    have hgr : (1 + feps) ^ (s + 1) = (1 + feps) ^ s * (1 + feps) := pow_succ _ _
    rw [hgr, hstep]
    generalize (1 + feps) ^ s = g at *
    have v1 : ‖cval (z b)‖ ≤ g * Bp + K := by
      have := norm_add_le (cval (z b) - Zp) Zp
      rw [sub_add_cancel] at this
      linarith
    have v2 : ‖cval (z (b + 2 ^ s))‖ ≤ g * Bq + K := by
      have := norm_add_le (cval (z (b + 2 ^ s)) - Zq) Zq
      rw [sub_add_cancel] at this
      linarith
    have v3 : g * Bp ≤ 2 * Bp := mul_le_mul_of_nonneg_right hg2 p1
    have v4 : g * Bq ≤ 2 * Bq := mul_le_mul_of_nonneg_right hg2 p2
    obtain ⟨o1, o2⟩ := butterfly_error h (p := z b) (q := z (b + 2 ^ s)) (w := gTable (2 ^ L) (r * 2 ^ M)) (norm_fexp _) t1 t2 (by linarith)
    have f0 : (0 : ℝ) ≤ feps := by unfold feps; norm_num
    have f1 : feps ≤ 1 / 2 := by unfold feps; norm_num
    refine ⟨stage_error n1 n2 (norm_fexp _) i1 i2 f0 f1 hK0 o1, ?_⟩
    have := stage_error (W := -fexp ((r : ℕ) / ((2 * 2 ^ s : ℕ) : ℝ))) (o := cval (gminus (z b) (gmul (z (b + 2 ^ s)) (gTable (2 ^ L) (r * 2 ^ M)))))
      (η := 12 * feta) n1 n2 (by rw [norm_neg]; exact norm_fexp _) i1 i2 f0 f1 hK0 (by
        rw [neg_mul, ← sub_eq_add_neg]; exact o2)
    rwa [neg_mul, ← sub_eq_add_neg] at this
  by_cases hr : a % (2 * 2 ^ s) < 2 ^ s
  · rw [if_pos hr, if_pos hr]
    exact (main _ hr a hda.symm).1
  · rw [if_neg hr, if_neg hr]
    have := (main (a % (2 * 2 ^ s) - 2 ^ s) (by omega) (a - 2 ^ s) (by omega)).2
    rw [show a - 2 ^ s + 2 ^ s = a by omega] at this
    exact this

end Sp
