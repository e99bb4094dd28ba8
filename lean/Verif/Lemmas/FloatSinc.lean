import Verif.Spec.FloatSinc
import Verif.Lemmas.FftError
import Verif.Lemmas.Filter
import Verif.Lemmas.PathRounded
import Verif.Props.FilterFormula
import Verif.Props.FloatKernel

/-! # Rounding errors of the windowed sinc -/

set_option linter.unusedSectionVars false

noncomputable section

namespace Sp
variable {rnd : ℚ → ℚ}

theorem pi_double_error : |(((884279719003555 / 281474976710656 : ℚ)) : ℝ) - Real.pi| ≤ 11035 / 10000 / 2 ^ 53 := by
  have hpi1 := Real.pi_gt_d20
  have hpi2 := Real.pi_lt_d20
  push_cast
  rw [abs_le]
  constructor <;> linarith

/-- The angles of the window, for the factors 2 and 4. -/
theorem window_angle_error (h : RoundsToNearest rnd) {k : ℚ} (hk0 : 0 ≤ k) (hk4 : k ≤ 4) {n i : Nat} (hn : 0 < n) (hn62 : n ≤ 2 ^ 62) (hi : i ≤ n) :
    |((rnd (rnd (rnd (k * (884279719003555 / 281474976710656)) * i) / n) : ℚ) : ℝ) - k * Real.pi * i / n| ≤ 11 * k / 2 ^ 53 + 4 * feta ∧
      |((rnd (rnd (rnd (k * (884279719003555 / 281474976710656)) * i) / n) : ℚ) : ℝ)| ≤ 13 := by
  have hpi1 := Real.pi_gt_d20
  have hpi2 := Real.pi_lt_d20
  have he := feta_pos
  have he2 := feta_le
  have hmax' : (2 : ℝ) ^ 100 ≤ fmax := by exact_mod_cast fmax_ge (e := 100) (by norm_num)
  have hn0 : (0 : ℝ) < n := by exact_mod_cast hn
  have hnr : (n : ℝ) ≤ 2 ^ 62 := by exact_mod_cast hn62
  have hir : (i : ℝ) ≤ n := by exact_mod_cast hi
  have hi0 : (0 : ℝ) ≤ i := by positivity
  have hn1 : (1 : ℝ) ≤ n := by exact_mod_cast hn
  have hK0 : (0 : ℝ) ≤ k := by exact_mod_cast hk0
  have hK4 : (k : ℝ) ≤ 4 := by exact_mod_cast hk4
  have hp := pi_double_error
  set x0 : ℚ := rnd (k * (884279719003555 / 281474976710656)) with hx0
  set x1 : ℚ := rnd (x0 * i) with hx1
  have b0 := rnd_real h (q := k * (884279719003555 / 281474976710656)) (by
    push_cast
    rw [abs_of_nonneg (by positivity)]
    refine le_trans ?_ hmax'
    linarith)
  rw [← hx0, fu] at b0
  push_cast at b0 hp
  rw [abs_of_nonneg (by positivity : (0 : ℝ) ≤ k * (884279719003555 / 281474976710656))] at b0
  have c00 : |(k : ℝ) * (884279719003555 / 281474976710656) - k * Real.pi| ≤ k * (11035 / 10000 / 2 ^ 53) := by
    rw [← mul_sub, abs_mul, abs_of_nonneg hK0]
    exact mul_le_mul_of_nonneg_left hp hK0
  have c0 : |(x0 : ℝ) - k * Real.pi| ≤ 425 / 100 * k / 2 ^ 53 + feta := by
    rw [abs_le] at b0 c00 ⊢
    constructor <;> linarith
  have kpi : (k : ℝ) * Real.pi ≤ 31416 / 10000 * k := by
    rw [mul_comm]
    exact mul_le_mul_of_nonneg_right (by linarith) hK0
  have kpi0 : (0 : ℝ) ≤ k * Real.pi := by positivity
  have c0' : |(x0 : ℝ)| ≤ 31417 / 10000 * k + feta := by
    rw [abs_le] at c0 ⊢
    constructor <;> linarith
  have m1 : |(x0 : ℝ) * i| ≤ (31417 / 10000 * k + feta) * i := by
    rw [abs_mul, abs_of_nonneg hi0]
    exact mul_le_mul_of_nonneg_right c0' hi0
  have m2 : (31417 / 10000 * (k : ℝ) + feta) * i ≤ 13 * i := mul_le_mul_of_nonneg_right (by linarith) hi0
  have b1 := rnd_real h (q := x0 * i) (by
    push_cast
    refine m1.trans (m2.trans (le_trans ?_ hmax'))
    linarith)
  rw [← hx1, fu] at b1
  push_cast at b1
  have hf0 : (0 : ℝ) ≤ i / n := by positivity
  have hf1 : (i : ℝ) / n ≤ 1 := by
    rw [div_le_iff₀ hn0]; linarith
  have c1 : |(x1 : ℝ) / n - x0 * (i / n)| ≤ (31417 / 10000 * k + feta) / 2 ^ 53 + feta := by
    have : (x1 : ℝ) / n - x0 * (i / n) = (x1 - x0 * i) / n := by field_simp
    rw [this, abs_div, abs_of_pos hn0, div_le_iff₀ hn0]
    refine b1.trans ?_
    have h1 : feta ≤ feta * n := le_mul_of_one_le_right he.le hn1
    have h2 : (31417 / 10000 * (k : ℝ) + feta) * i ≤ (31417 / 10000 * k + feta) * n := mul_le_mul_of_nonneg_left hir (by positivity)
    rw [add_mul]
    linarith
  have c2 : |(x0 : ℝ) * (i / n) - k * Real.pi * i / n| ≤ 425 / 100 * k / 2 ^ 53 + feta := by
    have : (x0 : ℝ) * (i / n) - k * Real.pi * i / n = (x0 - k * Real.pi) * (i / n) := by ring
    rw [this, abs_mul, abs_of_nonneg hf0]
    have := mul_le_mul c0 hf1 hf0 (by positivity)
    linarith
  have c3 : |(x0 : ℝ) * (i / n)| ≤ 31417 / 10000 * k + feta := by
    rw [abs_mul, abs_of_nonneg hf0]
    have := mul_le_mul c0' hf1 hf0 (by positivity)
    linarith
  have c4 : |(x1 : ℝ) / n| ≤ 31418 / 10000 * k + 3 * feta := by
    rw [abs_le] at c1 c3 ⊢
    constructor <;> linarith
  have b2 := rnd_real h (q := x1 / n) (by
    push_cast
    refine c4.trans (le_trans ?_ hmax')
    linarith)
  rw [fu] at b2
  push_cast at b2
  refine ⟨?_, ?_⟩
  · rw [abs_le] at b2 c1 c2 ⊢
    constructor <;> linarith
  · have c5 := abs_le.1 c4
    rw [abs_le] at b2 ⊢
    constructor <;> linarith

/-- A rounded result near an exact one. -/
theorem rnd_near (h : RoundsToNearest rnd) {q : ℚ} {v e b : ℝ} (hv : |v| ≤ b) (hb : b ≤ 2 ^ 60) (he : e ≤ 1) (hq : |(q : ℝ) - v| ≤ e) :
    |((rnd q : ℚ) : ℝ) - v| ≤ e + (b + e) / 2 ^ 53 + feta := by
  have hmax' : (2 : ℝ) ^ 100 ≤ fmax := by exact_mod_cast fmax_ge (e := 100) (by norm_num)
  have h1 : |(q : ℝ)| ≤ b + e := by
    have := abs_add_le ((q : ℝ) - v) v
    rw [sub_add_cancel] at this
    linarith
  have h2 := rnd_real h (q := q) (h1.trans (le_trans (by linarith) hmax'))
  rw [fu] at h2
  have h3 := abs_sub_le ((rnd q : ℚ) : ℝ) q v
  linarith

theorem mul_near {x y a b ex ey A B : ℝ} (hx : |x - a| ≤ ex) (hy : |y - b| ≤ ey) (ha : |a| ≤ A) (hb : |b| ≤ B) :
    |x * y - a * b| ≤ ex * B + A * ey + ex * ey := by
  have e : x * y - a * b = (x - a) * b + a * (y - b) + (x - a) * (y - b) := by ring
  have hex := (abs_nonneg _).trans hx
  have hA := (abs_nonneg _).trans ha
  rw [e]
  refine (abs_add_le _ _).trans (add_le_add ((abs_add_le _ _).trans (add_le_add ?_ ?_)) ?_)
  all_goals
    rw [abs_mul]
    exact mul_le_mul (by assumption) (by assumption) (abs_nonneg _) (by assumption)

/-- The window in double precision. -/
theorem blackman_error (h : RoundsToNearest rnd) [Trig (Fl rnd)] (ht : LibmAccurate rnd) {n i : Nat} (h2 : 2 ≤ n) (hn : n < 4294967296) (hi : i < n) :
    ∃ w : Fl rnd, windowBlackman (i : Fl rnd) n = .ok w ∧ |(w.val : ℝ) - blackmanOf n i| ≤ 21 / 2 ^ 53 := by
  have hs : sub32 n 1 = n - 1 := sub32_of_le (by omega) (by omega)
  have hne : ((n - 1 : Nat) : Fl rnd) ≠ 0 := by
    intro e
    have := congrArg Fl.val e
    rw [Fl.natCast_val, Fl.zero_val] at this
    have : n - 1 = 0 := by exact_mod_cast this
    omega
  rw [windowBlackman, hs, divOf, divOf, if_neg hne, if_neg hne]
  refine ⟨_, rfl, ?_⟩
  obtain ⟨a1, a2⟩ := window_angle_error h (k := 2) (by norm_num) (by norm_num) (n := n - 1) (i := i) (by omega) (by omega) (by omega)
  obtain ⟨b1, b2⟩ := window_angle_error h (k := 4) (by norm_num) (by norm_num) (n := n - 1) (i := i) (by omega) (by omega) (by omega)
  have ea : (2 * Trig.pi * (i : Fl rnd) / ((n - 1 : Nat) : Fl rnd)).val = rnd (rnd (rnd (2 * (884279719003555 / 281474976710656)) * i) / (n - 1 : Nat)) := by
    show rnd (rnd (rnd (2 * (Trig.pi : Fl rnd).val) * i) / (n - 1 : Nat)) = _
    rw [ht.pi]
  have eb : (4 * Trig.pi * (i : Fl rnd) / ((n - 1 : Nat) : Fl rnd)).val = rnd (rnd (rnd (4 * (884279719003555 / 281474976710656)) * i) / (n - 1 : Nat)) := by
    show rnd (rnd (rnd (4 * (Trig.pi : Fl rnd).val) * i) / (n - 1 : Nat)) = _
    rw [ht.pi]
  rw [← ea] at a1 a2
  rw [← eb] at b1 b2
  have en : (((n - 1 : Nat) : ℕ) : ℝ) = (n : ℝ) - 1 := by rw [Nat.cast_sub (by omega)]; simp
  rw [en] at a1 b1
  generalize (2 * Trig.pi * (i : Fl rnd) / ((n - 1 : Nat) : Fl rnd)) = x at *
  generalize (4 * Trig.pi * (i : Fl rnd) / ((n - 1 : Nat) : Fl rnd)) = y at *
  have a3 := ht.cos x (by exact_mod_cast a2)
  have b3 := ht.cos y (by exact_mod_cast b2)
  rw [blackmanOf]
  push_cast at a1 b1
  have a4 := Real.abs_cos_sub_cos_le (x.val : ℝ) (2 * Real.pi * i / (n - 1))
  have b4 := Real.abs_cos_sub_cos_le (y.val : ℝ) (4 * Real.pi * i / (n - 1))
  have a5 := Real.abs_cos_le_one (2 * Real.pi * i / (n - 1))
  have b5 := Real.abs_cos_le_one (4 * Real.pi * i / (n - 1))
  generalize Real.cos (2 * Real.pi * i / (n - 1)) = C at *
  generalize Real.cos (4 * Real.pi * i / (n - 1)) = D at *
  have a6 : |((Trig.cos x : Fl rnd).val : ℝ) - C| ≤ 25 / 2 ^ 53 := by
    have := abs_sub_le ((Trig.cos x : Fl rnd).val : ℝ) (Real.cos x.val) C
    have := feta_le
    linarith
  have b6 : |((Trig.cos y : Fl rnd).val : ℝ) - D| ≤ 47 / 2 ^ 53 := by
    have := abs_sub_le ((Trig.cos y : Fl rnd).val : ℝ) (Real.cos y.val) D
    have := feta_le
    linarith
  generalize (Trig.cos x : Fl rnd) = cx at *
  generalize (Trig.cos y : Fl rnd) = cy at *
  show |((rnd (rnd (rnd (OfScientific.ofScientific 42 true 2) - rnd (rnd (OfScientific.ofScientific 5 true 1) * cx.val)) +
    rnd (rnd (OfScientific.ofScientific 8 true 2) * cy.val)) : ℚ) : ℝ) - _| ≤ _
  have he := feta_pos
  have he2 := feta_le
  have l1 := rnd_near h (q := (OfScientific.ofScientific 42 true 2 : ℚ)) (v := 0.42) (b := 0.42) (e := 0) (by rw [abs_of_pos] <;> norm_num) (by norm_num) (by norm_num)
    (by norm_num)
  have l2 := rnd_near h (q := (OfScientific.ofScientific 5 true 1 : ℚ)) (v := 0.5) (b := 0.5) (e := 0) (by rw [abs_of_pos] <;> norm_num) (by norm_num) (by norm_num)
    (by norm_num)
  have l3 := rnd_near h (q := (OfScientific.ofScientific 8 true 2 : ℚ)) (v := 0.08) (b := 0.08) (e := 0) (by rw [abs_of_pos] <;> norm_num) (by norm_num) (by norm_num)
    (by norm_num)
  generalize rnd (OfScientific.ofScientific 42 true 2) = r1 at *
  generalize rnd (OfScientific.ofScientific 5 true 1) = r2 at *
  generalize rnd (OfScientific.ofScientific 8 true 2) = r3 at *
  have m1 := mul_near l2 a6 (A := 0.5) (B := 1) (by rw [abs_of_pos] <;> norm_num) a5
  have m2 := mul_near l3 b6 (A := 0.08) (B := 1) (by rw [abs_of_pos] <;> norm_num) b5
  have hC : |0.5 * C| ≤ 0.5 := by rw [abs_mul, abs_of_pos (by norm_num)]; linarith
  have hD : |0.08 * D| ≤ 0.08 := by rw [abs_mul, abs_of_pos (by norm_num)]; linarith
  have p1 := rnd_near h (q := r2 * cx.val) (v := 0.5 * C) (e := 131 / 10 / 2 ^ 53) hC (by norm_num) (by norm_num) (by
    push_cast
    refine m1.trans ?_
    linarith)
  have p2 := rnd_near h (q := r3 * cy.val) (v := 0.08 * D) (e := 39 / 10 / 2 ^ 53) hD (by norm_num) (by norm_num) (by
    push_cast
    refine m2.trans ?_
    linarith)
  generalize rnd (r2 * cx.val) = s1 at *
  generalize rnd (r3 * cy.val) = s2 at *
  have q1 := rnd_near h (q := r1 - s1) (v := 0.42 - 0.5 * C) (e := 142 / 10 / 2 ^ 53) (b := 0.92) (by
      rw [abs_le] at hC ⊢
      constructor <;> linarith) (by norm_num) (by norm_num) (by
    push_cast
    rw [abs_le] at l1 p1 ⊢
    constructor <;> linarith)
  generalize rnd (r1 - s1) = s3 at *
  have q2 := rnd_near h (q := s3 + s2) (v := 0.42 - 0.5 * C + 0.08 * D) (e := 195 / 10 / 2 ^ 53) (b := 1) (by
      rw [abs_le] at hC hD ⊢
      constructor <;> linarith) (by norm_num) (by norm_num) (by
    push_cast
    rw [abs_le] at q1 p2 ⊢
    constructor <;> linarith)
  refine q2.trans ?_
  linarith

theorem abs_blackmanOf_le (n i : Nat) : |blackmanOf n i| ≤ 1 := by
  have a5 := Real.abs_cos_le_one (2 * Real.pi * i / (n - 1))
  have b5 := Real.abs_cos_le_one (4 * Real.pi * i / (n - 1))
  rw [blackmanOf]
  rw [abs_le] at *
  constructor <;> linarith

theorem abs_sincOf_le (x : ℝ) : |sincOf x| ≤ 1 := by
  rw [sincOf]
  split_ifs with h0
  · simp
  · rw [abs_div]
    have hp : 0 < |Real.pi * x| := abs_pos.2 (mul_ne_zero Real.pi_ne_zero h0)
    rw [div_le_one hp]
    exact Real.abs_sin_le_abs

theorem mid_real (h : RoundsToNearest rnd) {q : ℚ} (hlo : 1 / 2 ^ 100 ≤ |(q : ℝ)|) (hq : |(q : ℝ)| ≤ 2 ^ 100) :
    |((rnd q : ℚ) : ℝ) - q| ≤ |(q : ℝ)| / 2 ^ 53 := by
  have h1 : 1 / 2 ^ 100 ≤ |q| := (Rat.cast_le (K := ℝ)).1 (by push_cast; exact hlo)
  have h2 : |q| ≤ 2 ^ 100 := by exact_mod_cast hq
  have h3 := h.error_mid h1 h2
  rw [abs_sub_comm]
  exact_mod_cast h3

/-- The sinc function depends on its argument with a relative error at most twice that of the argument. -/
theorem sinc_relative {y Y ε : ℝ} (hY : Y ≠ 0) (hε : ε ≤ 1 / 2) (h : |y - Y| ≤ ε * |Y|) :
    |Real.sin y / y - Real.sin Y / Y| ≤ 2 * ε / (1 - ε) := by
  have hY0 : 0 < |Y| := abs_pos.2 hY
  have hε0 : 0 ≤ ε := by
    by_contra hc
    have := mul_neg_of_neg_of_pos (not_le.1 hc) hY0
    linarith [abs_nonneg (y - Y)]
  have hy : (1 - ε) * |Y| ≤ |y| := by
    have : |Y| ≤ |y| + |y - Y| := by
      have := abs_sub_le Y y 0
      rw [sub_zero, sub_zero, abs_sub_comm] at this
      linarith
    linarith
  have hy0 : 0 < |y| := lt_of_lt_of_le (by apply mul_pos <;> linarith) hy
  have hyne : y ≠ 0 := abs_pos.1 hy0
  have e : Real.sin y / y - Real.sin Y / Y = ((Real.sin y - Real.sin Y) + Real.sin Y / Y * (Y - y)) / y := by
    field_simp
    ring
  have s1 := Real.abs_sin_sub_sin_le y Y
  have s2 : |Real.sin Y / Y| ≤ 1 := by
    rw [abs_div, div_le_one hY0]
    exact Real.abs_sin_le_abs
  rw [e, abs_div, div_le_div_iff₀ hy0 (by linarith)]
  have s3 : |Real.sin y - Real.sin Y + Real.sin Y / Y * (Y - y)| ≤ 2 * (ε * |Y|) := by
    refine (abs_add_le _ _).trans ?_
    rw [abs_mul, abs_sub_comm Y y]
    have := mul_le_mul s2 h (abs_nonneg _) (by norm_num)
    linarith
  have s4 : 0 ≤ 1 - ε := by linarith
  calc _ ≤ 2 * (ε * |Y|) * (1 - ε) := mul_le_mul_of_nonneg_right s3 s4
    _ = 2 * ε * ((1 - ε) * |Y|) := by ring
    _ ≤ 2 * ε * |y| := mul_le_mul_of_nonneg_left hy (by positivity)

/-- The sinc function in double precision. -/
theorem spSinc_error (h : RoundsToNearest rnd) [Trig (Fl rnd)] (ht : LibmAccurate rnd) {p : Fl rnd} {Q : ℝ} (hlo : 1 / 2 ^ 98 ≤ |Q|) (hhi : |Q| ≤ 2 ^ 31)
    (hp : |(p.val : ℝ) - Q| ≤ |Q| / 2 ^ 53) : |((spSinc p).val : ℝ) - sincOf Q| ≤ 9 / 2 ^ 53 := by
  have hpi1 := Real.pi_gt_d20
  have hpi2 := Real.pi_lt_d20
  have hpd := pi_double_error
  have hQ0 : 0 < |Q| := lt_of_lt_of_le (by norm_num) hlo
  have hQne : Q ≠ 0 := abs_pos.1 hQ0
  have hpa : |(p.val : ℝ)| ≤ (1 + 1 / 2 ^ 53) * |Q| := by
    have := abs_add_le ((p.val : ℝ) - Q) Q
    rw [sub_add_cancel] at this
    linarith
  have hpa' : (1 - 1 / 2 ^ 53) * |Q| ≤ |(p.val : ℝ)| := by
    have := abs_sub_le Q (p.val : ℝ) 0
    rw [sub_zero, sub_zero, abs_sub_comm] at this
    linarith
  have hp0 : (p.val : ℝ) ≠ 0 := by
    intro e
    rw [e, abs_zero] at hpa'
    linarith
  have hpne : p ≠ 0 := by
    intro e
    apply hp0
    rw [e, Fl.zero_val, Rat.cast_zero]
  rw [spSinc, if_neg (fun e => hpne e.symm), sincOf, if_neg hQne]
  have ev : (Trig.pi * p : Fl rnd).val = rnd ((884279719003555 / 281474976710656) * p.val) := by
    show rnd ((Trig.pi : Fl rnd).val * p.val) = _
    rw [ht.pi]
  set P : ℚ := 884279719003555 / 281474976710656 with hP
  have hPr : (P : ℝ) = 884279719003555 / 281474976710656 := by rw [hP]; push_cast; rfl
  have hPp : |((P * p.val : ℚ) : ℝ)| = (884279719003555 / 281474976710656) * |(p.val : ℝ)| := by
    rw [Rat.cast_mul, hPr, abs_mul, abs_of_pos (by norm_num)]
  have r1 := mid_real h (q := P * p.val) (by rw [hPp]; linarith) (by rw [hPp]; linarith)
  rw [hPp, ← ev] at r1
  have d1 : |((P * p.val : ℚ) : ℝ) - Real.pi * Q| ≤ (425 / 100 / 2 ^ 53) * |Q| := by
    have e : ((P * p.val : ℚ) : ℝ) - Real.pi * Q = P * (p.val - Q) + (P - Real.pi) * Q := by push_cast; ring
    rw [e]
    refine (abs_add_le _ _).trans ?_
    rw [abs_mul, abs_mul, hPr, abs_of_pos (by norm_num : (0 : ℝ) < 884279719003555 / 281474976710656)]
    rw [hPr] at hpd
    have := mul_le_mul_of_nonneg_right hpd (abs_nonneg Q)
    linarith
  generalize (Trig.pi * p : Fl rnd) = y at *
  have hYa : |Real.pi * Q| = Real.pi * |Q| := by rw [abs_mul, abs_of_pos Real.pi_pos]
  have hYQ : 314159 / 100000 * |Q| ≤ |Real.pi * Q| := by
    rw [hYa]
    exact mul_le_mul_of_nonneg_right (by linarith) hQ0.le
  have hYQ2 : |Real.pi * Q| ≤ 4 * |Q| := by
    rw [hYa]
    exact mul_le_mul_of_nonneg_right (by linarith) hQ0.le
  have d2 : |(y.val : ℝ) - Real.pi * Q| ≤ (24 / 10 / 2 ^ 53) * |Real.pi * Q| := by
    have := abs_sub_le (y.val : ℝ) ((P * p.val : ℚ) : ℝ) (Real.pi * Q)
    linarith
  have hYne : Real.pi * Q ≠ 0 := mul_ne_zero Real.pi_ne_zero hQne
  have s := sinc_relative hYne (by norm_num) d2
  have hyhi : |(y.val : ℝ)| ≤ 2 ^ 34 := by
    have := abs_add_le ((y.val : ℝ) - Real.pi * Q) (Real.pi * Q)
    rw [sub_add_cancel] at this
    linarith
  have hylo : 1 / 2 ^ 98 ≤ |(y.val : ℝ)| := by
    have := abs_sub_le (Real.pi * Q) (y.val : ℝ) 0
    rw [sub_zero, sub_zero, abs_sub_comm] at this
    linarith
  have hy0 : 0 < |(y.val : ℝ)| := lt_of_lt_of_le (by norm_num) hylo
  have sa := ht.sin y (by exact_mod_cast hyhi)
  have sy : |Real.sin y.val / y.val| ≤ 1 := by
    rw [abs_div, div_le_one hy0]
    exact Real.abs_sin_le_abs
  have st : |((Trig.sin y : Fl rnd).val : ℝ) / y.val - Real.sin y.val / y.val| ≤ 2 / 2 ^ 53 + 1 / 2 ^ 900 := by
    rw [← sub_div, abs_div, div_le_iff₀ hy0]
    refine sa.trans ?_
    have e1 : |Real.sin y.val| ≤ |(y.val : ℝ)| := Real.abs_sin_le_abs
    have e2 : (2 : ℝ) ^ (-1074 : ℤ) ≤ 1 / 2 ^ 900 * (1 / 2 ^ 98) := by
      rw [one_div, one_div, ← zpow_natCast, ← zpow_natCast, ← zpow_neg, ← zpow_neg, ← zpow_add₀ (by norm_num)]
      exact zpow_le_zpow_right₀ (by norm_num) (by norm_num)
    have e3 : (1 : ℝ) / 2 ^ 900 * (1 / 2 ^ 98) ≤ 1 / 2 ^ 900 * |(y.val : ℝ)| := mul_le_mul_of_nonneg_left hylo (by positivity)
    rw [add_mul]
    have e4 : |Real.sin y.val| / 2 ^ 52 ≤ 2 / 2 ^ 53 * |(y.val : ℝ)| := by linarith
    linarith
  have sQ := abs_sincOf_le Q
  rw [sincOf, if_neg hQne] at sQ
  have e900 : (1 : ℝ) / 2 ^ 900 ≤ 1 / 2 ^ 200 := one_div_le_one_div_of_le (by norm_num) (pow_le_pow_right₀ (by norm_num) (by norm_num))
  have fin := rnd_near h (q := (Trig.sin y : Fl rnd).val / y.val) (v := Real.sin (Real.pi * Q) / (Real.pi * Q)) (b := 1) (e := 69 / 10 / 2 ^ 53) sQ
    (by norm_num) (by norm_num) (by
      push_cast
      have := abs_sub_le (((Trig.sin y : Fl rnd).val : ℝ) / y.val) (Real.sin y.val / y.val) (Real.sin (Real.pi * Q) / (Real.pi * Q))
      have e5 : 2 * (24 / 10 / 2 ^ 53) / (1 - 24 / 10 / 2 ^ 53) ≤ (481 / 100 / 2 ^ 53 : ℝ) := by norm_num
      generalize (1 : ℝ) / 2 ^ 900 = z at *
      linarith)
  have he2 := feta_le
  show |((rnd ((Trig.sin y : Fl rnd).val / y.val) : ℚ) : ℝ) - _| ≤ _
  refine fin.trans ?_
  linarith

theorem isDouble_int {z : ℤ} (h : |z| ≤ 9007199254740992) : IsDouble z := by
  obtain ⟨n, rfl | rfl⟩ := Int.eq_nat_or_neg z
  · have : n ≤ 9007199254740992 := by rw [Nat.abs_cast] at h; exact_mod_cast h
    exact_mod_cast isDouble_nat this
  · have : n ≤ 9007199254740992 := by rw [abs_neg, Nat.abs_cast] at h; exact_mod_cast h
    have := (isDouble_nat this).neg
    push_cast
    exact this

/-- One value of the windowed sinc in double precision. -/
theorem windowed_sinc_error (h : RoundsToNearest rnd) [Trig (Fl rnd)] (ht : LibmAccurate rnd) {c : Fl rnd} (hc : IsDouble c.val)
    (hc0 : 1 / 2 ^ 99 ≤ c.val) (hc1 : c.val ≤ 1 / 2) {m i : Nat} (hm : 0 < m) (hn : 2 * m + 1 < 4294967296) (hi : i < 2 * m + 1) :
    ∃ v : Fl rnd, (do let w ← windowBlackman (i : Fl rnd) (2 * m + 1)
                      pure (w * spSinc (2 * c * ((i : Fl rnd) - (((2 * m + 1 : Nat) : Fl rnd) - 1) / 2))) : C (Fl rnd)) = .ok v ∧ IsDouble v.val ∧
      |(v.val : ℝ) - windowedSincValue c.val (2 * m + 1) i| ≤ 32 / 2 ^ 53 := by
  obtain ⟨w, hw, hwe⟩ := blackman_error h ht (n := 2 * m + 1) (i := i) (by omega) hn hi
  rw [hw]
  refine ⟨_, rfl, ?_⟩
  have hce : ((((2 * m + 1 : Nat) : Fl rnd) - 1) / 2).val = m := by
    show rnd (rnd (((2 * m + 1 : ℕ) : ℚ) - 1) / 2) = m
    rw [show ((2 * m + 1 : ℕ) : ℚ) - 1 = ((2 * m : ℕ) : ℚ) by push_cast; ring, h.exact (isDouble_nat (by omega)),
      show ((2 * m : ℕ) : ℚ) / 2 = (m : ℕ) by push_cast; ring, h.exact (isDouble_nat (by omega))]
  have hde : ((i : Fl rnd) - (((2 * m + 1 : Nat) : Fl rnd) - 1) / 2).val = ((i : ℤ) - m : ℤ) := by
    show rnd ((i : ℚ) - ((((2 * m + 1 : Nat) : Fl rnd) - 1) / 2).val) = _
    rw [hce, show (i : ℚ) - m = ((i : ℤ) - m : ℤ) by push_cast; ring]
    exact h.exact (isDouble_int (by rw [abs_le]; omega))
  have h2c : (2 * c).val = 2 * c.val := by
    show rnd (2 * c.val) = _
    refine h.exact (hc.two_mul ?_)
    rw [abs_of_nonneg (by linarith [(by norm_num : (0 : ℚ) ≤ 1 / 2 ^ 99)])]
    have := le_doubleMax (e := 1) (by norm_num)
    linarith [(by norm_num : (1 : ℚ) ≤ (2 : ℚ) ^ (1 : ℤ))]
  have hsinc : |((spSinc (2 * c * ((i : Fl rnd) - (((2 * m + 1 : Nat) : Fl rnd) - 1) / 2))).val : ℝ) -
      sincOf (2 * c.val * (i - (((2 * m + 1 : ℕ) : ℝ) - 1) / 2))| ≤ 9 / 2 ^ 53 := by
    have hQ : 2 * (c.val : ℝ) * (i - (((2 * m + 1 : ℕ) : ℝ) - 1) / 2) = ((2 * c.val * ((i : ℤ) - m : ℤ) : ℚ) : ℝ) := by
      push_cast; ring
    have hpv : (2 * c * ((i : Fl rnd) - (((2 * m + 1 : Nat) : Fl rnd) - 1) / 2)).val = rnd (2 * c.val * ((i : ℤ) - m : ℤ)) := by
      show rnd ((2 * c).val * _) = _
      rw [h2c, hde]
    rw [hQ]
    generalize hpp : (2 * c * ((i : Fl rnd) - (((2 * m + 1 : Nat) : Fl rnd) - 1) / 2)) = p at *
    by_cases hz : (i : ℤ) - m = 0
    · rw [hz] at hpv ⊢
      rw [Int.cast_zero, mul_zero, h.zero] at hpv
      have hp0 : p = 0 := Fl.ext hpv
      rw [hp0, spSinc, if_pos rfl, Int.cast_zero, mul_zero, Rat.cast_zero, sincOf, if_pos rfl, Fl.one_val]
      norm_num
    · have hcr0 : (1 : ℝ) / 2 ^ 99 ≤ c.val := by
        have := (Rat.cast_le (K := ℝ)).2 hc0
        push_cast at this
        exact this
      have hcr1 : (c.val : ℝ) ≤ 1 / 2 := by
        have := (Rat.cast_le (K := ℝ)).2 hc1
        push_cast at this
        exact this
      have hz1 : (1 : ℝ) ≤ |(((i : ℤ) - m : ℤ) : ℝ)| := by
        have : 1 ≤ |(i : ℤ) - m| := Int.one_le_abs hz
        exact_mod_cast this
      have hz2 : |(((i : ℤ) - m : ℤ) : ℝ)| ≤ 2 ^ 31 := by
        have : |(i : ℤ) - m| ≤ 2 ^ 31 := by rw [abs_le]; omega
        exact_mod_cast this
      have hqa : |((2 * c.val * ((i : ℤ) - m : ℤ) : ℚ) : ℝ)| = 2 * c.val * |(((i : ℤ) - m : ℤ) : ℝ)| := by
        have : (0 : ℝ) ≤ 2 * c.val := by linarith [(by norm_num : (0 : ℝ) ≤ 1 / 2 ^ 99)]
        rw [show ((2 * c.val * ((i : ℤ) - m : ℤ) : ℚ) : ℝ) = 2 * c.val * (((i : ℤ) - m : ℤ) : ℝ) by push_cast; ring, abs_mul, abs_of_nonneg this]
      have hlo : 1 / 2 ^ 98 ≤ |((2 * c.val * ((i : ℤ) - m : ℤ) : ℚ) : ℝ)| := by
        rw [hqa]
        have := mul_le_mul (by linarith : (1 : ℝ) / 2 ^ 98 ≤ 2 * c.val) hz1 (by norm_num) (by linarith [(by norm_num : (0 : ℝ) ≤ 1 / 2 ^ 99)])
        linarith
      have hhi : |((2 * c.val * ((i : ℤ) - m : ℤ) : ℚ) : ℝ)| ≤ 2 ^ 31 := by
        rw [hqa]
        have := mul_le_mul (by linarith : 2 * (c.val : ℝ) ≤ 1) hz2 (by positivity) (by norm_num)
        linarith
      refine spSinc_error h ht hlo hhi ?_
      rw [hpv]
      exact mid_real h (le_trans (by norm_num) hlo) (hhi.trans (by norm_num))
  generalize spSinc (2 * c * ((i : Fl rnd) - (((2 * m + 1 : Nat) : Fl rnd) - 1) / 2)) = s at *
  have he2 := feta_le
  have hb1 := abs_blackmanOf_le (2 * m + 1) i
  have hs1 := abs_sincOf_le (2 * c.val * (i - (((2 * m + 1 : ℕ) : ℝ) - 1) / 2))
  have hmul := mul_near hwe hsinc hb1 hs1
  have hv1 : |windowedSincValue c.val (2 * m + 1) i| ≤ 1 := by
    rw [windowedSincValue, abs_mul]
    exact mul_le_one₀ hb1 (abs_nonneg _) hs1
  have fin := rnd_near h (q := w.val * s.val) (v := windowedSincValue c.val (2 * m + 1) i) (b := 1) (e := 305 / 10 / 2 ^ 53) hv1
    (by norm_num) (by norm_num) (by
      push_cast
      rw [windowedSincValue]
      refine hmul.trans ?_
      linarith)
  refine ⟨?_, ?_⟩
  · refine h.double _ ?_
    have h1 : |((w.val * s.val : ℚ) : ℝ)| ≤ 2 := by
      have := abs_add_le ((w.val : ℝ) * s.val - windowedSincValue c.val (2 * m + 1) i) (windowedSincValue c.val (2 * m + 1) i)
      rw [sub_add_cancel] at this
      rw [Rat.cast_mul]
      have h3 : |(w.val : ℝ) * s.val - windowedSincValue c.val (2 * m + 1) i| ≤ _ := hmul
      linarith
    have h2 : |w.val * s.val| ≤ 2 := by exact_mod_cast h1
    have := le_doubleMax (e := 1) (by norm_num)
    linarith [(by norm_num : (2 : ℚ) = (2 : ℚ) ^ (1 : ℤ))]
  · show |((rnd (w.val * s.val) : ℚ) : ℝ) - _| ≤ _
    refine fin.trans ?_
    linarith

end Sp
