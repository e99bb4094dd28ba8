import Verif.Lemmas.PathSamples
import Mathlib.Tactic.Linarith
import Mathlib.Tactic.LinearCombination

/-! # Lemmas about curved segments that are drawn as a whole -/

set_option linter.unusedSectionVars false

namespace Sp

/-- The curve at step `i` of `m`. -/
def curveAt (m : Nat) (a b c : ℚ) (i : Nat) : ℚ := bezier1Interpolate ((i : ℚ) / m) (1 - (i : ℚ) / m) a b c

theorem bezier1_bounds {t a b c lo hi : ℚ} (t0 : 0 ≤ t) (t1 : t ≤ 1) (ha : lo ≤ a ∧ a ≤ hi) (hb : lo ≤ b ∧ b ≤ hi)
    (hc : lo ≤ c ∧ c ≤ hi) : lo ≤ bezier1Interpolate t (1 - t) a b c ∧ bezier1Interpolate t (1 - t) a b c ≤ hi := by
  have e : ∀ d, bezier1Interpolate t (1 - t) a b c - d = (1 - t) * (1 - t) * (a - d) + 2 * ((1 - t) * t) * (b - d) + t * t * (c - d) := by
    intro d; unfold bezier1Interpolate; ring
  have s0 : 0 ≤ 1 - t := by linarith
  have w1 := mul_nonneg s0 s0
  have w2 := mul_nonneg s0 t0
  have w3 := mul_nonneg t0 t0
  constructor
  · have := e lo
    have h1 := mul_nonneg w1 (sub_nonneg.2 ha.1)
    have h2 := mul_nonneg (by linarith : 0 ≤ 2 * ((1 - t) * t)) (sub_nonneg.2 hb.1)
    have h3 := mul_nonneg w3 (sub_nonneg.2 hc.1)
    linarith
  · have := e hi
    have h1 := mul_nonneg w1 (sub_nonneg.2 ha.2)
    have h2 := mul_nonneg (by linarith : 0 ≤ 2 * ((1 - t) * t)) (sub_nonneg.2 hb.2)
    have h3 := mul_nonneg w3 (sub_nonneg.2 hc.2)
    linarith

theorem step_range {m i : Nat} (hm : 0 < m) (hi : i ≤ m) : 0 ≤ (i : ℚ) / m ∧ (i : ℚ) / m ≤ 1 := by
  have : (0 : ℚ) < m := by exact_mod_cast hm
  constructor
  · positivity
  · rw [div_le_one this]; exact_mod_cast hi

/-- The x of the curve grows by at most one from step to step. -/
theorem curveAt_step {n i : Nat} {a b c : ℚ} (hn : 0 < n) (hi : i + 1 ≤ 2 * n) (hac : c - a = n) (hab : a ≤ b) (hbc : b ≤ c) :
    curveAt (2 * n) a b c i ≤ curveAt (2 * n) a b c (i + 1) ∧ curveAt (2 * n) a b c (i + 1) ≤ curveAt (2 * n) a b c i + 1 := by
  have hnq : (0 : ℚ) < n := by exact_mod_cast hn
  have hd : (((i + 1 : Nat) : ℚ)) / ((2 * n : Nat) : ℚ) = (i : ℚ) / ((2 * n : Nat) : ℚ) + 1 / (2 * n) := by
    push_cast; field_simp
  have hd0 : (0 : ℚ) < 1 / (2 * n) := by positivity
  have hdn : 2 * (1 / (2 * (n : ℚ))) * n = 1 := by field_simp
  have ht0 := (step_range (m := 2 * n) (i := i) (by omega) (by omega)).1
  have ht1 := (step_range (m := 2 * n) (i := i + 1) (by omega) hi).2
  unfold curveAt
  rw [hd] at ht1 ⊢
  generalize (1 : ℚ) / (2 * n) = d at *
  generalize (i : ℚ) / ((2 * n : Nat) : ℚ) = t at *
  have e : bezier1Interpolate (t + d) (1 - (t + d)) a b c - bezier1Interpolate t (1 - t) a b c =
      2 * d * ((b - a) * (1 - t - d / 2) + (c - b) * (t + d / 2)) := by unfold bezier1Interpolate; ring
  have h1 : 0 ≤ (b - a) * (1 - t - d / 2) := mul_nonneg (by linarith) (by linarith)
  have h2 : 0 ≤ (c - b) * (t + d / 2) := mul_nonneg (by linarith) (by linarith)
  have h3 : (b - a) * (1 - t - d / 2) + (c - b) * (t + d / 2) ≤ n := by
    have u1 : 0 ≤ (b - a) * (t + d / 2) := mul_nonneg (by linarith) (by linarith)
    have u2 : 0 ≤ (c - b) * (1 - t - d / 2) := mul_nonneg (by linarith) (by linarith)
    nlinarith
  constructor
  · have := mul_nonneg (by linarith : 0 ≤ 2 * d) (add_nonneg h1 h2)
    linarith
  · have := mul_le_mul_of_nonneg_left h3 (by linarith : 0 ≤ 2 * d)
    linarith

/-- The rounded x at step `i`. -/
def roundedX (m : Nat) (a b c : ℚ) (i : Nat) : Nat := trunc (curveAt m a b c i + 1 / 2)

theorem trunc_add_one {v : ℚ} (h : 0 ≤ v) : trunc (v + 1) = trunc v + 1 := by
  rw [trunc, trunc, Int.floor_add_one, Int.toNat_add (Int.floor_nonneg.2 h) (by norm_num)]
  rfl

theorem roundedX_step {n i : Nat} {a b c : ℚ} (hn : 0 < n) (hi : i + 1 ≤ 2 * n) (hac : c - a = n) (ha : 0 ≤ a) (hab : a ≤ b) (hbc : b ≤ c) :
    roundedX (2 * n) a b c i ≤ roundedX (2 * n) a b c (i + 1) ∧ roundedX (2 * n) a b c (i + 1) ≤ roundedX (2 * n) a b c i + 1 := by
  obtain ⟨h1, h2⟩ := curveAt_step hn hi hac hab hbc
  obtain ⟨t0, t1⟩ := step_range (m := 2 * n) (i := i) (by omega) (by omega)
  have h3 : a ≤ curveAt (2 * n) a b c i :=
    (bezier1_bounds t0 t1 ⟨le_refl _, by linarith⟩ ⟨hab, hbc⟩ ⟨by linarith, le_refl _⟩).1
  constructor
  · exact trunc_mono (by linarith)
  · unfold roundedX
    rw [← trunc_add_one (by linarith)]
    exact trunc_mono (by linarith)

theorem trunc_half (n : Nat) : trunc ((n : ℚ) + 1 / 2) = n := by
  have h0 : (0 : ℚ) ≤ n := Nat.cast_nonneg _
  have h1 : ((trunc ((n : ℚ) + 1 / 2) : Nat) : ℚ) ≤ (n : ℚ) + 1 / 2 := trunc_le (by linarith)
  have h2 : (n : ℚ) + 1 / 2 < (trunc ((n : ℚ) + 1 / 2) : Nat) + 1 := lt_trunc (by linarith)
  have h3 : ((trunc ((n : ℚ) + 1 / 2) : Nat) : ℚ) < (n + 1 : Nat) := by push_cast; linarith
  have h4 : ((n : Nat) : ℚ) < (trunc ((n : ℚ) + 1 / 2) + 1 : Nat) := by push_cast; linarith
  have h5 := Nat.cast_lt.1 h3
  have h6 := Nat.cast_lt.1 h4
  omega

theorem roundedX_zero {m A : Nat} {b c : ℚ} : roundedX m A b c 0 = A := by
  rw [roundedX, curveAt]
  simp only [Nat.cast_zero, zero_div, bezier1Interpolate]
  rw [show ((A : ℚ) * (1 - 0) * (1 - 0) + b * 2 * (1 - 0) * 0 + c * 0 * 0 + 1 / 2) = (A : ℚ) + 1 / 2 by ring, trunc_half]

theorem roundedX_last {m E : Nat} (hm : 0 < m) {a b : ℚ} : roundedX m a b E m = E := by
  have : (m : ℚ) ≠ 0 := by exact_mod_cast hm.ne'
  rw [roundedX, curveAt, div_self this]
  simp only [bezier1Interpolate]
  rw [show (a * (1 - 1) * (1 - 1) + b * 2 * (1 - 1) * 1 + (E : ℚ) * 1 * 1 + 1 / 2) = (E : ℚ) + 1 / 2 by ring, trunc_half]

theorem roundedX_near {m : Nat} {a b c : ℚ} {i : Nat} (h : 0 ≤ curveAt m a b c i) :
    |curveAt m a b c i - (roundedX m a b c i : Nat)| ≤ 1 / 2 := by
  have h1 : ((roundedX m a b c i : Nat) : ℚ) ≤ curveAt m a b c i + 1 / 2 := trunc_le (by linarith)
  have h2 : curveAt m a b c i + 1 / 2 < (roundedX m a b c i : Nat) + 1 := lt_trunc (by linarith)
  rw [abs_le]
  constructor <;> linarith

/-- The points of a curved segment. -/
structure CurveOk (points : Buf Point) (A E : Nat) (p0 p1 p2 : Point) : Prop where
  pts : ∃ r, points = p0 :: p1 :: p2 :: r
  x0 : p0.x = A
  x2 : p2.x = E
  lt : A < E
  lim : E < 9223372036854775808
  le1 : p0.x ≤ p1.x
  le2 : p1.x ≤ p2.x

theorem bezierX_eq {points : Buf Point} {A E : Nat} {p0 p1 p2 : Point} (h : CurveOk points A E p0 p1 p2) {i : Nat}
    (hi : i ≤ 2 * (E - A)) :
    bezierX bezier1Points points (2 * (p2.x - p0.x)) i = .ok (roundedX (2 * (E - A)) p0.x p1.x p2.x i) := by
  obtain ⟨r, hr⟩ := h.pts
  have hlt := h.lt
  have hn : (2 * (p2.x - p0.x)) = ((2 * (E - A) : Nat) : ℚ) := by
    rw [h.x0, h.x2]; push_cast [hlt.le]; ring
  have hne : ((2 * (E - A) : Nat) : ℚ) ≠ 0 := by
    have : 2 * (E - A) ≠ 0 := by omega
    exact_mod_cast this
  have hA : (0 : ℚ) ≤ p0.x := by rw [h.x0]; exact Nat.cast_nonneg _
  have hE : p2.x < 9223372036854775808 := by rw [h.x2]; exact_mod_cast h.lim
  obtain ⟨t0, t1⟩ := step_range (m := 2 * (E - A)) (i := i) (by omega) hi
  obtain ⟨b1, b2⟩ := bezier1_bounds t0 t1 (lo := p0.x) (hi := p2.x) ⟨le_refl _, le_trans h.le1 h.le2⟩ ⟨h.le1, h.le2⟩ ⟨le_trans h.le1 h.le2, le_refl _⟩
  rw [bezierX, hn, divValue, if_neg hne]
  simp only [ok_bind', bezier1Points, hr]
  rw [show rd (p0 :: p1 :: p2 :: r) 0 = .ok p0 from rfl, show rd (p0 :: p1 :: p2 :: r) 1 = .ok p1 from rfl,
    show rd (p0 :: p1 :: p2 :: r) 2 = .ok p2 from rfl]
  simp only [ok_bind', pure_eq_ok]
  rw [roundValue, if_pos (le_trans hA b1), roundedX, curveAt]
  generalize bezier1Interpolate ((i : ℚ) / ((2 * (E - A) : Nat) : ℚ)) (1 - (i : ℚ) / ((2 * (E - A) : Nat) : ℚ)) p0.x p1.x p2.x = v at *
  have hv : 0 ≤ v := le_trans hA b1
  have hf : (0 : ℤ) ≤ ⌊v + 1 / 2⌋ := Int.floor_nonneg.2 (by linarith)
  have hfl : ((⌊v + 1 / 2⌋ : ℤ) : ℚ) ≤ v + 1 / 2 := Int.floor_le _
  have hf' : (0 : ℚ) ≤ ((⌊v + 1 / 2⌋ : ℤ) : ℚ) := by exact_mod_cast hf
  rw [sizeOfValue_eq (by linarith) (by linarith)]
  simp [trunc]

theorem bezierY_eq {points : Buf Point} {A E : Nat} {p0 p1 p2 : Point} (h : CurveOk points A E p0 p1 p2) (i : Nat) :
    bezierY bezier1Points points (2 * (p2.x - p0.x)) i = .ok (curveAt (2 * (E - A)) p0.y p1.y p2.y i) := by
  obtain ⟨r, hr⟩ := h.pts
  have hlt := h.lt
  have hn : (2 * (p2.x - p0.x)) = ((2 * (E - A) : Nat) : ℚ) := by
    rw [h.x0, h.x2]; push_cast [hlt.le]; ring
  have hne : ((2 * (E - A) : Nat) : ℚ) ≠ 0 := by
    have : 2 * (E - A) ≠ 0 := by omega
    exact_mod_cast this
  rw [bezierY, hn, divValue, if_neg hne]
  simp only [ok_bind', bezier1Points, hr]
  rfl

/-- What has been drawn after the steps up to `i`. -/
structure Drawn (A E o : Nat) (p0 p1 p2 : Point) (out0 out : Buf ℚ) (i : Nat) : Prop where
  len : out.length = out0.length
  outside : ∀ k, k < o ∨ o + (E - A) ≤ k → out[k]? = out0[k]?
  inside : ∀ j, j < E - A → A + j ≤ roundedX (2 * (E - A)) p0.x p1.x p2.x i →
    ∃ m, m ≤ 2 * (E - A) ∧ roundedX (2 * (E - A)) p0.x p1.x p2.x m = A + j ∧
      out[o + j]? = some (curveAt (2 * (E - A)) p0.y p1.y p2.y m)

theorem roundedX_le {A E : Nat} {points : Buf Point} {p0 p1 p2 : Point} (h : CurveOk points A E p0 p1 p2) {i : Nat}
    (hi : i ≤ 2 * (E - A)) : A ≤ roundedX (2 * (E - A)) p0.x p1.x p2.x i ∧ roundedX (2 * (E - A)) p0.x p1.x p2.x i ≤ E := by
  have hlt := h.lt
  have hA : (0 : ℚ) ≤ p0.x := by rw [h.x0]; exact Nat.cast_nonneg _
  obtain ⟨t0, t1⟩ := step_range (m := 2 * (E - A)) (i := i) (by omega) hi
  obtain ⟨b1, b2⟩ := bezier1_bounds t0 t1 (lo := p0.x) (hi := p2.x) ⟨le_refl _, le_trans h.le1 h.le2⟩ ⟨h.le1, h.le2⟩ ⟨le_trans h.le1 h.le2, le_refl _⟩
  constructor
  · have : trunc (p0.x + 1 / 2) = A := by rw [h.x0]; exact trunc_half A
    rw [roundedX, curveAt]
    refine le_trans (le_of_eq this.symm) (trunc_mono (by linarith))
  · have : trunc (p2.x + 1 / 2) = E := by rw [h.x2]; exact trunc_half E
    rw [roundedX, curveAt]
    refine le_trans (trunc_mono (by linarith)) (le_of_eq this)

/-- One step of the loop: the x of the step before is `xp`. -/
theorem bezierBody_drawn {A E o : Nat} {points : Buf Point} {p0 p1 p2 : Point} (h : CurveOk points A E p0 p1 p2) {out0 out : Buf ℚ}
    (ho : o + (E - A) ≤ out0.length) {i xp : Nat} (hi : i ≤ 2 * (E - A))
    (hxp : xp ≤ roundedX (2 * (E - A)) p0.x p1.x p2.x i ∧ roundedX (2 * (E - A)) p0.x p1.x p2.x i ≤ xp + 1)
    (hlen : out.length = out0.length) (hout : ∀ k, k < o ∨ o + (E - A) ≤ k → out[k]? = out0[k]?)
    (hin : ∀ j, j < E - A → A + j < roundedX (2 * (E - A)) p0.x p1.x p2.x i →
      ∃ m, m ≤ 2 * (E - A) ∧ roundedX (2 * (E - A)) p0.x p1.x p2.x m = A + j ∧
        out[o + j]? = some (curveAt (2 * (E - A)) p0.y p1.y p2.y m)) :
    ∃ out', bezierBody bezier1Points points (2 * (p2.x - p0.x)) p0 A E o i xp out =
      .ok (roundedX (2 * (E - A)) p0.x p1.x p2.x i, out') ∧ Drawn A E o p0 p1 p2 out0 out' i := by
  have hlt := h.lt
  have hlim := h.lim
  obtain ⟨hr1, hr2⟩ := roundedX_le h hi
  rw [bezierBody, bezierX_eq h hi, bezierY_eq h]
  simp only [ok_bind']
  generalize hR : roundedX (2 * (E - A)) p0.x p1.x p2.x i = R at *
  have hsub : 2 > sub64 R xp := by rw [sub64_of_le hxp.1 (by omega)]; omega
  have hsa : sub64 R A = R - A := sub64_of_le hr1 (by omega)
  by_cases hRE : R < E
  · rw [bezierPut, if_pos hRE, hsa, wr_eq_ok _ (by omega)]
    simp only [ok_bind', if_pos hsub]
    refine ⟨_, rfl, by simpa using hlen, ?_, ?_⟩
    · intro k hk
      rw [List.getElem?_set_ne (by omega)]
      exact hout k hk
    · intro j hj hle
      rw [hR] at hle
      by_cases hjR : A + j = R
      · refine ⟨i, hi, by rw [hR, hjR], ?_⟩
        rw [show o + (R - A) = o + j by omega, List.getElem?_set_self (by omega)]
      · obtain ⟨m, m1, m2, m3⟩ := hin j hj (by omega)
        refine ⟨m, m1, m2, ?_⟩
        rw [List.getElem?_set_ne (by omega)]
        exact m3
  · rw [bezierPut, if_neg hRE]
    simp only [ok_bind', if_pos hsub]
    refine ⟨out, rfl, hlen, hout, ?_⟩
    intro j hj _
    exact hin j hj (by omega)

theorem bezierLoop_drawn {A E o : Nat} {points : Buf Point} {p0 p1 p2 : Point} (h : CurveOk points A E p0 p1 p2) {out0 out : Buf ℚ}
    (ho : o + (E - A) ≤ out0.length) {i fuel : Nat} (hi : i ≤ 2 * (E - A)) (hfuel : 2 * (E - A) < i + fuel)
    (hd : Drawn A E o p0 p1 p2 out0 out i) :
    ∃ out', bezierLoop bezier1Points points (2 * (p2.x - p0.x)) p0 A E o (2 * (E - A)) fuel (i + 1)
      (some (roundedX (2 * (E - A)) p0.x p1.x p2.x i)) (roundedX (2 * (E - A)) p0.x p1.x p2.x i) out = .ok out' ∧
      ∃ m, m ≤ 2 * (E - A) ∧ roundedX (2 * (E - A)) p0.x p1.x p2.x m = E ∧ Drawn A E o p0 p1 p2 out0 out' m := by
  have hlt := h.lt
  have hA : (0 : ℚ) ≤ p0.x := by rw [h.x0]; exact Nat.cast_nonneg _
  have hac : p2.x - p0.x = (E - A : Nat) := by rw [h.x0, h.x2]; push_cast [hlt.le]; ring
  have hlast : roundedX (2 * (E - A)) p0.x p1.x p2.x (2 * (E - A)) = E := by rw [h.x2]; exact roundedX_last (by omega)
  induction fuel generalizing i out with
  | zero => omega
  | succ fuel ih =>
    have hbody : i + 1 ≤ 2 * (E - A) → ∃ out', (do
        let r ← bezierBody bezier1Points points (2 * (p2.x - p0.x)) p0 A E o (i + 1) (roundedX (2 * (E - A)) p0.x p1.x p2.x i) out
        bezierLoop bezier1Points points (2 * (p2.x - p0.x)) p0 A E o (2 * (E - A)) fuel (i + 1 + 1) (some r.1) r.1 r.2) = .ok out' ∧
        ∃ m, m ≤ 2 * (E - A) ∧ roundedX (2 * (E - A)) p0.x p1.x p2.x m = E ∧ Drawn A E o p0 p1 p2 out0 out' m := by
      intro hi1
      have hstep := roundedX_step (i := i) (by omega) hi1 hac hA h.le1 h.le2
      obtain ⟨out1, e1, d1⟩ := bezierBody_drawn h ho hi1 hstep hd.len hd.outside
        (fun j hj hjl => hd.inside j hj (by omega))
      rw [e1]
      simp only [ok_bind']
      exact ih hi1 (by omega) d1
    rw [bezierLoop]
    by_cases hlt1 : i + 1 < 2 * (E - A)
    · rw [if_pos hlt1]
      exact hbody (by omega)
    · rw [if_neg hlt1]
      by_cases hE : roundedX (2 * (E - A)) p0.x p1.x p2.x i < E
      · rw [if_pos hE]
        have : i ≠ 2 * (E - A) := by
          rintro rfl
          omega
        exact hbody (by omega)
      · rw [if_neg hE]
        have := (roundedX_le h hi).2
        exact ⟨out, rfl, i, hi, by omega, hd⟩

/-- A curved segment drawn as a whole: every sample is the y of a point of the curve whose x is at most a half away. -/
theorem bezierGenerate_whole {fuel A E o : Nat} {s : Segment} {p0 p1 p2 : Point} (h : CurveOk s.points A E p0 p1 p2)
    (hc : s.pointsCount = 3) (hfuel : 2 * (E - A) + 1 < fuel) {out0 : Buf ℚ} (ho : o + (E - A) ≤ out0.length) :
    ∃ out, bezierGenerate bezier1Points fuel A E s o out0 = .ok out ∧ out.length = out0.length ∧
      (∀ k, k < o ∨ o + (E - A) ≤ k → out[k]? = out0[k]?) ∧
      ∀ j, j < E - A → ∃ t : ℚ, 0 ≤ t ∧ t ≤ 1 ∧ |bezier1Interpolate t (1 - t) p0.x p1.x p2.x - (A + j : Nat)| ≤ 1 / 2 ∧
        out[o + j]? = some (bezier1Interpolate t (1 - t) p0.y p1.y p2.y) := by
  have hlt := h.lt
  have hlim := h.lim
  have hA : (0 : ℚ) ≤ p0.x := by rw [h.x0]; exact Nat.cast_nonneg _
  obtain ⟨r, hr⟩ := h.pts
  have hz : roundedX (2 * (E - A)) p0.x p1.x p2.x 0 = A := by rw [h.x0]; exact roundedX_zero
  rw [bezierGenerate, hc]
  rw [show rd s.points 0 = .ok p0 by rw [hr]; rfl, show rd s.points (3 - 1) = .ok p2 by rw [hr]; rfl]
  simp only [ok_bind']
  rw [h.x0, sizeOfValue_eq (by norm_num) (by norm_num), trunc_sub_natCast (le_refl A), sub64_of_le hlt.le (by omega),
    Nat.sub_self, ← h.x0]
  simp only [ok_bind']
  rw [Nat.mod_eq_of_lt (by omega)]
  obtain ⟨fuel, rfl⟩ : ∃ f, fuel = f + 1 := ⟨fuel - 1, by omega⟩
  rw [bezierLoop, if_pos (by omega)]
  obtain ⟨out1, e1, d1⟩ := bezierBody_drawn h ho (i := 0) (xp := A) (Nat.zero_le _) (by rw [hz]; omega) rfl (fun k _ => rfl)
    (fun j hj hjl => by rw [hz] at hjl; omega)
  rw [e1]
  simp only [ok_bind']
  obtain ⟨out2, e2, m, m1, m2, d2⟩ := bezierLoop_drawn h ho (Nat.zero_le _) (fuel := fuel) (by omega) d1
  refine ⟨out2, e2, d2.len, d2.outside, ?_⟩
  intro j hj
  obtain ⟨k, k1, k2, k3⟩ := d2.inside j hj (by omega)
  obtain ⟨t0, t1⟩ := step_range (m := 2 * (E - A)) (i := k) (by omega) k1
  have hnn := (bezier1_bounds t0 t1 (lo := p0.x) (hi := p2.x) ⟨le_refl _, le_trans h.le1 h.le2⟩ ⟨h.le1, h.le2⟩ ⟨le_trans h.le1 h.le2, le_refl _⟩).1
  refine ⟨_, t0, t1, ?_, k3⟩
  have := roundedX_near (m := 2 * (E - A)) (a := p0.x) (b := p1.x) (c := p2.x) (i := k) (le_trans hA hnn)
  rw [k2] at this
  exact this

end Sp
