import Verif.Lemmas.Bezier
import Verif.Spec.Path

/-! # Lemmas about curved segments with two control points that are drawn as a whole

The x of such a curve can grow by one and a half per step, so that there can be gaps of one sample, which are filled. -/

set_option linter.unusedSectionVars false

namespace Sp

/-- What the steps of a curve give: rounded x and y. -/
structure CurveSteps (f : Interpolator) (points : Buf Point) (size : ℚ) (p : Point) (A E : Nat) (X : Nat → Nat) (Y : Nat → ℚ) : Prop where
  x : ∀ i, i ≤ 2 * (E - A) → bezierX f points size i = .ok (X i)
  y : ∀ i, i ≤ 2 * (E - A) → bezierY f points size i = .ok (Y i)
  first : X 0 = A
  last : X (2 * (E - A)) = E
  up : ∀ i, i + 1 ≤ 2 * (E - A) → X i ≤ X (i + 1) ∧ X (i + 1) ≤ X i + 2
  px : p.x = A
  py : p.y = Y 0
  lt : A < E
  lim : E < 9223372036854775808

/-- A value for `j`: the y of a step there, or the middle of the y of steps at the positions before and after. -/
def StepValue (X : Nat → Nat) (Y : Nat → ℚ) (N j : Nat) (v : ℚ) : Prop :=
  (∃ m, m ≤ N ∧ X m = j ∧ v = Y m) ∨ ∃ m n, m ≤ N ∧ n ≤ N ∧ X m + 1 = j ∧ X n = j + 1 ∧ v = (Y m + Y n) / 2

/-- What has been drawn after the steps up to `i`. -/
structure Progress (A E o : Nat) (X : Nat → Nat) (Y : Nat → ℚ) (out0 out : Buf ℚ) (i : Nat) : Prop where
  len : out.length = out0.length
  outside : ∀ k, k < o ∨ o + (E - A) ≤ k → out[k]? = out0[k]?
  now : X i < E → out[o + (X i - A)]? = some (Y i)
  inside : ∀ j, j < E - A → A + j ≤ X i → ∃ v, out[o + j]? = some v ∧ StepValue X Y (2 * (E - A)) (A + j) v

section
variable {f : Interpolator} {points : Buf Point} {size : ℚ} {p : Point} {A E o : Nat} {X : Nat → Nat} {Y : Nat → ℚ}

theorem CurveSteps.mono (h : CurveSteps f points size p A E X Y) {i j : Nat} (hij : i ≤ j) (hj : j ≤ 2 * (E - A)) : X i ≤ X j := by
  induction j, hij using Nat.le_induction with
  | base => exact le_refl _
  | succ j hij ih => exact le_trans (ih (by omega)) (h.up j hj).1

theorem CurveSteps.range (h : CurveSteps f points size p A E X Y) {i : Nat} (hi : i ≤ 2 * (E - A)) : A ≤ X i ∧ X i ≤ E := by
  have h1 := h.mono (Nat.zero_le i) hi
  have h2 := h.mono hi (le_refl _)
  rw [h.first] at h1
  rw [h.last] at h2
  exact ⟨h1, h2⟩

/-- The value before a gap. -/
theorem CurveSteps.previous (h : CurveSteps f points size p A E X Y) {out : Buf ℚ} {i : Nat} (hi : i + 1 ≤ 2 * (E - A)) (hgap : X (i + 1) = X i + 2)
    (hnow : out[o + (X i - A)]? = some (Y i)) :
    ∃ m, m ≤ 2 * (E - A) ∧ X m = X i ∧
      bezierPrevious f points size p A o (i + 1) (X (i + 1)) (X i) out = .ok (X i, Y m) := by
  have hlim := h.lim
  obtain ⟨r1, r2⟩ := h.range (i := i) (by omega)
  rw [bezierPrevious]
  by_cases hA : A < X i
  · rw [if_pos hA, sub64_of_le r1 (by omega)]
    have : rd out (o + (X i - A)) = .ok (Y i) := rd_ok_iff.2 hnow
    rw [this]
    exact ⟨i, by omega, rfl, rfl⟩
  · have hXA : X i = A := by omega
    rw [if_neg hA]
    have hs : bezierSearch f points size (X (i + 1)) (i + 1) (X i) = .ok (i, if i = 0 then X (i + 1) else X i) := by
      rw [bezierSearch, h.x _ hi]
      simp only [ok_bind', lt_irrefl, if_false]
      cases i with
      | zero => rfl
      | succ i =>
        rw [bezierSearch, h.x _ (by omega)]
        simp only [ok_bind']
        rw [if_pos (by omega), if_neg (by omega)]
    rw [hs]
    simp only [ok_bind']
    refine ⟨0, Nat.zero_le _, by rw [h.first, hXA], ?_⟩
    by_cases h0 : i = 0
    · rw [if_neg (by simpa using h0), h.px, sizeOfValue_eq (by have : (0 : ℚ) ≤ A := Nat.cast_nonneg _
                                                               linarith)
        (by have : (A : ℚ) < 9223372036854775808 := by
              have := h.lt
              exact_mod_cast (by omega : A < 9223372036854775808)
            linarith)]
      simp only [ok_bind', pure_eq_ok]
      rw [show trunc (A : ℚ) = A by simp [trunc], h.py, hXA]
    · rw [if_pos h0, if_neg h0, h.py]
      rfl

theorem CurveSteps.gap {out : Buf ℚ} {x : Nat} {u v : ℚ} (hx : A ≤ x) (hlim : x + 2 < 18446744073709551616)
    (hlen : o + (x + 1 - A) < out.length) :
    forRange 1 (sub64 (x + 2) x) (bezierGapBody A o (x + 2) x u v) out = .ok (out.set (o + (x + 1 - A)) ((u + v) / 2)) := by
  have e : sub64 (x + 2) x = 2 := by rw [sub64_of_le (by omega) hlim]; omega
  have e2 : sub64 (x + 1) A = x + 1 - A := sub64_of_le (by omega) (by omega)
  have hb : bezierGapBody A o (x + 2) x u v 1 out = .ok (out.set (o + (x + 1 - A)) ((u + v) / 2)) := by
    have hd : divValue ((1 : Nat) : ℚ) ((2 : Nat) : ℚ) = .ok (1 / 2) := by
      rw [divValue, if_neg (by norm_num)]
      norm_num
    have hl : linearlyInterpolate u v (1 / 2) = (u + v) / 2 := by unfold linearlyInterpolate; ring
    unfold bezierGapBody
    rw [e, e2, hd]
    simp only [ok_bind']
    rw [hl]
    exact wr_eq_ok _ hlen
  generalize bezierGapBody A o (x + 2) x u v = body at *
  rw [e, forRange_head (by omega), hb]
  simp only [Except.bind]
  rw [forRange_of_le (by omega)]

theorem bezierBody_small {start stop i x xp : Nat} {y : ℚ} {out out1 : Buf ℚ} (hx : bezierX f points size i = .ok x)
    (hy : bezierY f points size i = .ok y) (hp : bezierPut start stop o x y out = .ok out1) (hs : 2 > sub64 x xp) :
    bezierBody f points size p start stop o i xp out = .ok (x, out1) := by
  rw [bezierBody, hx, hy]
  simp only [ok_bind', if_pos hs]
  rw [hp]
  rfl

theorem bind_ok_of {α β : Type} {m : C α} {a : α} {g : α → C β} (h : m = .ok a) : (m >>= g) = g a := by
  rw [h]; rfl

theorem bezierBody_gap {start stop i x xp xq : Nat} {y yq : ℚ} {out out1 out2 : Buf ℚ} (hx : bezierX f points size i = .ok x)
    (hy : bezierY f points size i = .ok y) (hp : bezierPut start stop o x y out = .ok out1) (hs : ¬ 2 > sub64 x xp)
    (hq : bezierPrevious f points size p start o i x xp out1 = .ok (xq, yq))
    (hf : forRange 1 (sub64 x xq) (bezierGapBody start o x xq yq y) out1 = .ok out2) :
    bezierBody f points size p start stop o i xp out = .ok (x, out2) := by
  unfold bezierBody
  rw [bind_ok_of hx, bind_ok_of hy, bind_ok_of hp, if_neg hs, bind_ok_of hq, bind_ok_of hf]
  exact pure_eq_ok _

/-- One more step of the loop. -/
theorem CurveSteps.body (h : CurveSteps f points size p A E X Y) {out0 out : Buf ℚ} (ho : o + (E - A) ≤ out0.length) {i : Nat}
    (hi : i + 1 ≤ 2 * (E - A)) (hd : Progress A E o X Y out0 out i) :
    ∃ out', bezierBody f points size p A E o (i + 1) (X i) out = .ok (X (i + 1), out') ∧ Progress A E o X Y out0 out' (i + 1) := by
  have hlt := h.lt
  have hlim := h.lim
  obtain ⟨r1, r2⟩ := h.range hi
  obtain ⟨q1, q2⟩ := h.range (i := i) (by omega)
  obtain ⟨u1, u2⟩ := h.up i hi
  have hlen := hd.len
  have hsa : sub64 (X (i + 1)) A = X (i + 1) - A := sub64_of_le r1 (by omega)
  -- the sample of the step itself
  obtain ⟨out1, e1, l1, f1, n1, k1⟩ : ∃ out1, bezierPut A E o (X (i + 1)) (Y (i + 1)) out = .ok out1 ∧ out1.length = out0.length ∧
      (∀ k, k < o ∨ o + (E - A) ≤ k → out1[k]? = out0[k]?) ∧ (X (i + 1) < E → out1[o + (X (i + 1) - A)]? = some (Y (i + 1))) ∧
      ∀ k, k ≠ o + (X (i + 1) - A) → out1[k]? = out[k]? := by
    by_cases hE : X (i + 1) < E
    · rw [bezierPut, if_pos hE, hsa, wr_eq_ok _ (by omega)]
      refine ⟨_, rfl, by simpa using hlen, ?_, ?_, ?_⟩
      · intro k hk
        rw [List.getElem?_set_ne (by omega)]
        exact hd.outside k hk
      · intro _
        rw [List.getElem?_set_self (by omega)]
      · intro k hk
        rw [List.getElem?_set_ne (by omega)]
    · rw [bezierPut, if_neg hE]
      exact ⟨out, rfl, hlen, hd.outside, fun h => absurd h hE, fun _ _ => rfl⟩
  by_cases hg : X (i + 1) = X i + 2
  · have hsub : ¬ 2 > sub64 (X (i + 1)) (X i) := by rw [sub64_of_le u1 (by omega)]; omega
    obtain ⟨m, m1, m2, m3⟩ := h.previous (o := o) (out := out1) hi hg (by
      rw [k1 _ (by omega)]
      exact hd.now (by omega))
    have hfill : forRange 1 (sub64 (X (i + 1)) (X i)) (bezierGapBody A o (X (i + 1)) (X i) (Y m) (Y (i + 1))) out1 =
        .ok (out1.set (o + (X i + 1 - A)) ((Y m + Y (i + 1)) / 2)) := by
      rw [hg]
      exact CurveSteps.gap q1 (by omega) (by omega)
    refine ⟨_, bezierBody_gap (h.x _ hi) (h.y _ hi) e1 hsub m3 hfill, by simpa using l1, ?_, ?_, ?_⟩
    · intro k hk
      rw [List.getElem?_set_ne (by omega)]
      exact f1 k hk
    · intro hE
      rw [List.getElem?_set_ne (by omega)]
      exact n1 hE
    · intro j hj hle
      by_cases ja : A + j = X (i + 1)
      · refine ⟨_, ?_, Or.inl ⟨i + 1, hi, ja.symm, rfl⟩⟩
        rw [List.getElem?_set_ne (by omega), show o + j = o + (X (i + 1) - A) by omega]
        exact n1 (by omega)
      · by_cases jb : A + j = X i + 1
        · refine ⟨_, ?_, Or.inr ⟨m, i + 1, m1, hi, by omega, by omega, rfl⟩⟩
          rw [show o + j = o + (X i + 1 - A) by omega, List.getElem?_set_self (by omega)]
        · obtain ⟨v, v1, v2⟩ := hd.inside j hj (by omega)
          refine ⟨v, ?_, v2⟩
          rw [List.getElem?_set_ne (by omega), k1 _ (by omega)]
          exact v1
  · have hsub : 2 > sub64 (X (i + 1)) (X i) := by rw [sub64_of_le u1 (by omega)]; omega
    refine ⟨out1, bezierBody_small (h.x _ hi) (h.y _ hi) e1 hsub, l1, f1, n1, ?_⟩
    intro j hj hle
    by_cases ja : A + j = X (i + 1)
    · refine ⟨_, ?_, Or.inl ⟨i + 1, hi, ja.symm, rfl⟩⟩
      rw [show o + j = o + (X (i + 1) - A) by omega]
      exact n1 (by omega)
    · obtain ⟨v, v1, v2⟩ := hd.inside j hj (by omega)
      refine ⟨v, ?_, v2⟩
      rw [k1 _ (by omega)]
      exact v1

theorem CurveSteps.loop (h : CurveSteps f points size p A E X Y) {out0 out : Buf ℚ} (ho : o + (E - A) ≤ out0.length) {i fuel : Nat}
    (hi : i ≤ 2 * (E - A)) (hfuel : 2 * (E - A) < i + fuel) (hd : Progress A E o X Y out0 out i) :
    ∃ out', bezierLoop f points size p A E o (2 * (E - A)) fuel (i + 1) (some (X i)) (X i) out = .ok out' ∧
      ∃ m, m ≤ 2 * (E - A) ∧ X m = E ∧ Progress A E o X Y out0 out' m := by
  have hlt := h.lt
  induction fuel generalizing i out with
  | zero => omega
  | succ fuel ih =>
    have hbody : i + 1 ≤ 2 * (E - A) → ∃ out', (do
        let r ← bezierBody f points size p A E o (i + 1) (X i) out
        bezierLoop f points size p A E o (2 * (E - A)) fuel (i + 1 + 1) (some r.1) r.1 r.2) = .ok out' ∧
        ∃ m, m ≤ 2 * (E - A) ∧ X m = E ∧ Progress A E o X Y out0 out' m := by
      intro hi1
      obtain ⟨out1, e1, d1⟩ := h.body ho hi1 hd
      rw [e1]
      simp only [ok_bind']
      exact ih hi1 (by omega) d1
    rw [bezierLoop]
    by_cases hlt1 : i + 1 < 2 * (E - A)
    · rw [if_pos hlt1]
      exact hbody (by omega)
    · rw [if_neg hlt1]
      by_cases hE : X i < E
      · simp only [if_pos hE]
        have : i ≠ 2 * (E - A) := by
          rintro rfl
          have := h.last
          omega
        exact hbody (by omega)
      · simp only [if_neg hE]
        have := (h.range hi).2
        exact ⟨out, rfl, i, hi, by omega, hd⟩

theorem CurveSteps.generate {fuel : Nat} {s : Segment} {q : Point} (h : CurveSteps f s.points (2 * (q.x - p.x)) p A E X Y)
    (hp : rd s.points 0 = .ok p) (hq : rd s.points (s.pointsCount - 1) = .ok q) (hfuel : 2 * (E - A) + 1 < fuel)
    {out0 : Buf ℚ} (ho : o + (E - A) ≤ out0.length) :
    ∃ out, bezierGenerate f fuel A E s o out0 = .ok out ∧ out.length = out0.length ∧
      (∀ k, k < o ∨ o + (E - A) ≤ k → out[k]? = out0[k]?) ∧
      ∀ j, j < E - A → ∃ v, out[o + j]? = some v ∧ StepValue X Y (2 * (E - A)) (A + j) v := by
  have hlt := h.lt
  have hlim := h.lim
  have hf := h.first
  rw [bezierGenerate, hp, hq]
  simp only [ok_bind']
  have hz : sizeOfValue ((A : ℚ) - p.x) = .ok 0 := by
    rw [h.px, sizeOfValue_eq (by norm_num) (by norm_num), trunc_sub_natCast (le_refl A), Nat.sub_self]
  rw [hz, sub64_of_le hlt.le (by omega)]
  simp only [ok_bind']
  rw [Nat.mod_eq_of_lt (by omega)]
  obtain ⟨fuel, rfl⟩ : ∃ g, fuel = g + 1 := ⟨fuel - 1, by omega⟩
  rw [bezierLoop, if_pos (by omega), bezierBody, h.x 0 (Nat.zero_le _), h.y 0 (Nat.zero_le _), hf]
  simp only [ok_bind']
  rw [bezierPut, if_pos hlt, sub64_of_le (le_refl A) (by omega), Nat.sub_self, wr_eq_ok _ (by omega)]
  simp only [ok_bind', pure_eq_ok, if_pos (show 2 > 0 by omega)]
  have hpr : Progress A E o X Y out0 (out0.set (o + 0) (Y 0)) 0 := by
    refine ⟨by simp, ?_, ?_, ?_⟩
    · intro k hk
      rw [List.getElem?_set_ne (by omega)]
    · intro _
      rw [hf, Nat.sub_self, List.getElem?_set_self (by omega)]
    · intro j hj hle
      rw [hf] at hle
      have : j = 0 := by omega
      subst this
      exact ⟨Y 0, by rw [List.getElem?_set_self (by omega)], Or.inl ⟨0, Nat.zero_le _, hf, rfl⟩⟩
  have := h.loop ho (Nat.zero_le _) (fuel := fuel) (by omega) hpr
  rw [hf] at this
  obtain ⟨out2, e2, m, m1, m2, d2⟩ := this
  exact ⟨out2, e2, d2.len, d2.outside, fun j hj => d2.inside j hj (by omega)⟩

end

/-! ### The curve with two control points -/

/-- The curve at step `i` of `m`. -/
def cubicAt (m : Nat) (a b c d : ℚ) (i : Nat) : ℚ := bezier2Interpolate ((i : ℚ) / m) (1 - (i : ℚ) / m) a b c d

theorem bezier2_bounds {t a b c d lo hi : ℚ} (t0 : 0 ≤ t) (t1 : t ≤ 1) (ha : lo ≤ a ∧ a ≤ hi) (hb : lo ≤ b ∧ b ≤ hi)
    (hc : lo ≤ c ∧ c ≤ hi) (hd : lo ≤ d ∧ d ≤ hi) :
    lo ≤ bezier2Interpolate t (1 - t) a b c d ∧ bezier2Interpolate t (1 - t) a b c d ≤ hi := by
  have e : ∀ z, bezier2Interpolate t (1 - t) a b c d - z = (1 - t) * (bezier1Interpolate t (1 - t) a b c - z) +
      t * (bezier1Interpolate t (1 - t) b c d - z) := by
    intro z; unfold bezier2Interpolate bezier1Interpolate; ring
  have s0 : 0 ≤ 1 - t := by linarith
  have b1 := bezier1_bounds t0 t1 ha hb hc
  have b2 := bezier1_bounds t0 t1 hb hc hd
  constructor
  · have := e lo
    have h1 := mul_nonneg s0 (sub_nonneg.2 b1.1)
    have h2 := mul_nonneg t0 (sub_nonneg.2 b2.1)
    linarith
  · have := e hi
    have h1 := mul_nonneg s0 (sub_nonneg.2 b1.2)
    have h2 := mul_nonneg t0 (sub_nonneg.2 b2.2)
    linarith

/-- The x of the curve grows by at most one and a half from step to step. -/
theorem cubicAt_step {n i : Nat} {a b c d : ℚ} (hn : 0 < n) (hi : i + 1 ≤ 2 * n) (had : d - a = n) (hab : a ≤ b) (hbc : b ≤ c) (hcd : c ≤ d) :
    cubicAt (2 * n) a b c d i ≤ cubicAt (2 * n) a b c d (i + 1) ∧ cubicAt (2 * n) a b c d (i + 1) ≤ cubicAt (2 * n) a b c d i + 3 / 2 := by
  have hnq : (0 : ℚ) < n := by exact_mod_cast hn
  have hd : (((i + 1 : Nat) : ℚ)) / ((2 * n : Nat) : ℚ) = (i : ℚ) / ((2 * n : Nat) : ℚ) + 1 / (2 * n) := by
    push_cast; field_simp
  have hd0 : (0 : ℚ) < 1 / (2 * n) := by positivity
  have hdn : 2 * (1 / (2 * (n : ℚ))) * n = 1 := by field_simp
  have ht0 := (step_range (m := 2 * n) (i := i) (by omega) (by omega)).1
  have ht1 := (step_range (m := 2 * n) (i := i + 1) (by omega) hi).2
  unfold cubicAt
  rw [hd] at ht1 ⊢
  generalize (1 : ℚ) / (2 * n) = e at *
  generalize (i : ℚ) / ((2 * n : Nat) : ℚ) = t at *
  -- weights of the differences, with sum one
  have s0 : 0 ≤ 1 - (t + e) := by linarith
  have s1 : 0 ≤ 1 - t := by linarith
  have w : ∀ u v : ℚ, 0 ≤ u → 0 ≤ v → 0 ≤ u * v := fun u v hu hv => mul_nonneg hu hv
  have te : 0 ≤ t + e := by linarith
  have a1 := w _ _ s1 s1
  have a2 := w _ _ s1 s0
  have a3 := w _ _ s0 s0
  have c1 := w _ _ ht0 ht0
  have c2 := w _ _ ht0 te
  have c3 := w _ _ te te
  have m1 := w _ _ ht0 s1
  have m2 := w _ _ te s0
  have m3 := w _ _ ht0 s0
  have m4 := w _ _ te s1
  have key : bezier2Interpolate (t + e) (1 - (t + e)) a b c d - bezier2Interpolate t (1 - t) a b c d =
      e * ((b - a) * ((1 - t) * (1 - t) + (1 - t) * (1 - (t + e)) + (1 - (t + e)) * (1 - (t + e)))
        + (c - b) * (3 - ((1 - t) * (1 - t) + (1 - t) * (1 - (t + e)) + (1 - (t + e)) * (1 - (t + e)))
            - (t * t + t * (t + e) + (t + e) * (t + e)))
        + (d - c) * (t * t + t * (t + e) + (t + e) * (t + e))) := by unfold bezier2Interpolate; ring
  have w1 : 0 ≤ (1 - t) * (1 - t) + (1 - t) * (1 - (t + e)) + (1 - (t + e)) * (1 - (t + e)) := by linarith
  have w3 : 0 ≤ t * t + t * (t + e) + (t + e) * (t + e) := by linarith
  have w2 : 0 ≤ 3 - ((1 - t) * (1 - t) + (1 - t) * (1 - (t + e)) + (1 - (t + e)) * (1 - (t + e)))
      - (t * t + t * (t + e) + (t + e) * (t + e)) := by
    have : 3 - ((1 - t) * (1 - t) + (1 - t) * (1 - (t + e)) + (1 - (t + e)) * (1 - (t + e)))
      - (t * t + t * (t + e) + (t + e) * (t + e)) = 2 * (t * (1 - t)) + 2 * ((t + e) * (1 - (t + e))) +
        (t * (1 - (t + e)) + (t + e) * (1 - t)) := by ring
    rw [this]; linarith
  generalize (1 - t) * (1 - t) + (1 - t) * (1 - (t + e)) + (1 - (t + e)) * (1 - (t + e)) = W1 at *
  generalize t * t + t * (t + e) + (t + e) * (t + e) = W3 at *
  have h1 : 0 ≤ (b - a) * W1 := mul_nonneg (by linarith) w1
  have h2 : 0 ≤ (c - b) * (3 - W1 - W3) := mul_nonneg (by linarith) w2
  have h3 : 0 ≤ (d - c) * W3 := mul_nonneg (by linarith) w3
  have h4 : (b - a) * W1 + (c - b) * (3 - W1 - W3) + (d - c) * W3 ≤ 3 * n := by
    have u1 : (b - a) * W1 ≤ (b - a) * 3 := mul_le_mul_of_nonneg_left (by linarith) (by linarith)
    have u2 : (c - b) * (3 - W1 - W3) ≤ (c - b) * 3 := mul_le_mul_of_nonneg_left (by linarith) (by linarith)
    have u3 : (d - c) * W3 ≤ (d - c) * 3 := mul_le_mul_of_nonneg_left (by linarith) (by linarith)
    linarith
  constructor
  · have := mul_nonneg hd0.le (by linarith : 0 ≤ (b - a) * W1 + (c - b) * (3 - W1 - W3) + (d - c) * W3)
    linarith
  · have := mul_le_mul_of_nonneg_left h4 hd0.le
    linarith

/-- The rounded x at step `i`. -/
def roundedCubic (m : Nat) (a b c d : ℚ) (i : Nat) : Nat := trunc (cubicAt m a b c d i + 1 / 2)

theorem cubic_steps {s : Segment} {A E : Nat} {p0 p1 p2 p3 : Point} {r : List Point} (hp : s.points = p0 :: p1 :: p2 :: p3 :: r)
    (h0 : p0.x = A) (h3 : p3.x = E) (hlt : A < E) (hlim : E < 9223372036854775808) (h01 : p0.x ≤ p1.x) (h12 : p1.x ≤ p2.x)
    (h23 : p2.x ≤ p3.x) :
    CurveSteps bezier2Points s.points (2 * (p3.x - p0.x)) p0 A E (roundedCubic (2 * (E - A)) p0.x p1.x p2.x p3.x)
      (cubicAt (2 * (E - A)) p0.y p1.y p2.y p3.y) := by
  have hn : (2 * (p3.x - p0.x)) = ((2 * (E - A) : Nat) : ℚ) := by
    rw [h0, h3]; push_cast [hlt.le]; ring
  have hne : ((2 * (E - A) : Nat) : ℚ) ≠ 0 := by
    have : 2 * (E - A) ≠ 0 := by omega
    exact_mod_cast this
  have hA : (0 : ℚ) ≤ p0.x := by rw [h0]; exact Nat.cast_nonneg _
  have hE : p3.x < 9223372036854775808 := by rw [h3]; exact_mod_cast hlim
  have hb : ∀ i, i ≤ 2 * (E - A) → p0.x ≤ cubicAt (2 * (E - A)) p0.x p1.x p2.x p3.x i ∧
      cubicAt (2 * (E - A)) p0.x p1.x p2.x p3.x i ≤ p3.x := by
    intro i hi
    obtain ⟨t0, t1⟩ := step_range (m := 2 * (E - A)) (i := i) (by omega) hi
    exact bezier2_bounds t0 t1 ⟨le_refl _, by linarith⟩ ⟨h01, by linarith⟩ ⟨by linarith, h23⟩ ⟨by linarith, le_refl _⟩
  have hac : p3.x - p0.x = (E - A : Nat) := by rw [h0, h3]; push_cast [hlt.le]; ring
  refine ⟨?_, ?_, ?_, ?_, ?_, h0, ?_, hlt, hlim⟩
  · intro i hi
    obtain ⟨b1, b2⟩ := hb i hi
    rw [bezierX, hn, divValue, if_neg hne]
    simp only [ok_bind', bezier2Points, hp]
    rw [show rd (p0 :: p1 :: p2 :: p3 :: r) 0 = .ok p0 from rfl, show rd (p0 :: p1 :: p2 :: p3 :: r) 1 = .ok p1 from rfl,
      show rd (p0 :: p1 :: p2 :: p3 :: r) 2 = .ok p2 from rfl, show rd (p0 :: p1 :: p2 :: p3 :: r) 3 = .ok p3 from rfl]
    simp only [ok_bind', pure_eq_ok]
    rw [cubicAt] at b1 b2
    rw [roundValue, if_pos (le_trans hA b1), roundedCubic, cubicAt]
    generalize bezier2Interpolate ((i : ℚ) / ((2 * (E - A) : Nat) : ℚ)) (1 - (i : ℚ) / ((2 * (E - A) : Nat) : ℚ)) p0.x p1.x p2.x p3.x = v at *
    have hv : 0 ≤ v := le_trans hA b1
    have hf : (0 : ℤ) ≤ ⌊v + 1 / 2⌋ := Int.floor_nonneg.2 (by linarith)
    have hfl : ((⌊v + 1 / 2⌋ : ℤ) : ℚ) ≤ v + 1 / 2 := Int.floor_le _
    have hf' : (0 : ℚ) ≤ ((⌊v + 1 / 2⌋ : ℤ) : ℚ) := by exact_mod_cast hf
    rw [sizeOfValue_eq (by linarith) (by linarith)]
    simp [trunc]
  · intro i hi
    rw [bezierY, hn, divValue, if_neg hne]
    simp only [ok_bind', bezier2Points, hp]
    rfl
  · rw [roundedCubic, cubicAt]
    simp only [Nat.cast_zero, zero_div, bezier2Interpolate]
    rw [show (p0.x * (1 - 0) * (1 - 0) * (1 - 0) + p1.x * 3 * (1 - 0) * (1 - 0) * 0 + p2.x * 3 * (1 - 0) * 0 * 0 + p3.x * 0 * 0 * 0 + 1 / 2)
      = (A : ℚ) + 1 / 2 by rw [h0]; ring, trunc_half]
  · rw [roundedCubic, cubicAt, div_self hne]
    simp only [bezier2Interpolate]
    rw [show (p0.x * (1 - 1) * (1 - 1) * (1 - 1) + p1.x * 3 * (1 - 1) * (1 - 1) * 1 + p2.x * 3 * (1 - 1) * 1 * 1 + p3.x * 1 * 1 * 1 + 1 / 2)
      = (E : ℚ) + 1 / 2 by rw [h3]; ring, trunc_half]
  · intro i hi
    obtain ⟨s1, s2⟩ := cubicAt_step (i := i) (n := E - A) (by omega) hi hac h01 h12 h23
    have b1 := (hb i (by omega)).1
    constructor
    · exact trunc_mono (by linarith)
    · unfold roundedCubic
      rw [show ∀ n : Nat, n + 2 = (n + 1) + 1 from fun _ => rfl, ← trunc_add_one (by linarith), ← trunc_add_one (by linarith)]
      exact trunc_mono (by linarith)
  · rw [cubicAt]
    simp only [Nat.cast_zero, zero_div, bezier2Interpolate]
    ring

theorem onCubic_of {p a b q : Point} {t : ℚ} {j : Nat} (t0 : 0 ≤ t) (t1 : t ≤ 1)
    (h : |bezier2Interpolate t (1 - t) p.x a.x b.x q.x - j| ≤ 1 / 2) :
    OnCubic p a b q j (bezier2Interpolate t (1 - t) p.y a.y b.y q.y) := by
  refine ⟨t, t0, t1, ?_, by unfold bezier2Interpolate; ring⟩
  have : (1 - t) ^ 3 * p.x + 3 * (1 - t) ^ 2 * t * a.x + 3 * (1 - t) * t ^ 2 * b.x + t ^ 3 * q.x =
      bezier2Interpolate t (1 - t) p.x a.x b.x q.x := by unfold bezier2Interpolate; ring
  rw [this]
  exact h

theorem onCubic_bounds {p a b q : Point} {j : Nat} {v lo hi : ℚ} (h : OnCubic p a b q j v) (hp : lo ≤ p.y ∧ p.y ≤ hi)
    (ha : lo ≤ a.y ∧ a.y ≤ hi) (hb : lo ≤ b.y ∧ b.y ≤ hi) (hq : lo ≤ q.y ∧ q.y ≤ hi) : lo ≤ v ∧ v ≤ hi := by
  obtain ⟨t, t0, t1, _, hv⟩ := h
  have : v = bezier2Interpolate t (1 - t) p.y a.y b.y q.y := by rw [hv]; unfold bezier2Interpolate; ring
  rw [this]
  exact bezier2_bounds t0 t1 hp ha hb hq

theorem nearCubic_bounds {p a b q : Point} {j : Nat} {v lo hi : ℚ} (h : NearCubic p a b q j v) (hp : lo ≤ p.y ∧ p.y ≤ hi)
    (ha : lo ≤ a.y ∧ a.y ≤ hi) (hb : lo ≤ b.y ∧ b.y ≤ hi) (hq : lo ≤ q.y ∧ q.y ≤ hi) : lo ≤ v ∧ v ≤ hi := by
  rcases h with h | ⟨i, u, w, _, hu, hw, rfl⟩
  · exact onCubic_bounds h hp ha hb hq
  · have h1 := onCubic_bounds hu hp ha hb hq
    have h2 := onCubic_bounds hw hp ha hb hq
    constructor <;> linarith [h1.1, h1.2, h2.1, h2.2]

/-- A curve with two control points drawn as a whole. -/
theorem cubicGenerate_whole {fuel A E o : Nat} {s : Segment} {p0 p1 p2 p3 : Point} {r : List Point} (hc : s.pointsCount = 4)
    (hp : s.points = p0 :: p1 :: p2 :: p3 :: r) (h0 : p0.x = A) (h3 : p3.x = E) (hlt : A < E) (hlim : E < 9223372036854775808)
    (h01 : p0.x ≤ p1.x) (h12 : p1.x ≤ p2.x) (h23 : p2.x ≤ p3.x) (hfuel : 2 * (E - A) + 1 < fuel)
    {out0 : Buf ℚ} (ho : o + (E - A) ≤ out0.length) :
    ∃ out, bezierGenerate bezier2Points fuel A E s o out0 = .ok out ∧ out.length = out0.length ∧
      (∀ k, k < o ∨ o + (E - A) ≤ k → out[k]? = out0[k]?) ∧
      ∀ j, j < E - A → ∃ v, out[o + j]? = some v ∧ NearCubic p0 p1 p2 p3 (A + j) v := by
  have hA : (0 : ℚ) ≤ p0.x := by rw [h0]; exact Nat.cast_nonneg _
  have hon : ∀ m, m ≤ 2 * (E - A) → OnCubic p0 p1 p2 p3 (roundedCubic (2 * (E - A)) p0.x p1.x p2.x p3.x m)
      (cubicAt (2 * (E - A)) p0.y p1.y p2.y p3.y m) := by
    intro m hm
    obtain ⟨t0, t1⟩ := step_range (m := 2 * (E - A)) (i := m) (by omega) hm
    refine onCubic_of t0 t1 ?_
    have hb := (bezier2_bounds t0 t1 (lo := p0.x) (hi := p3.x) ⟨le_refl _, by linarith⟩ ⟨h01, by linarith⟩ ⟨by linarith, h23⟩
      ⟨by linarith, le_refl p3.x⟩).1
    rw [roundedCubic, cubicAt]
    generalize bezier2Interpolate ((m : ℚ) / ((2 * (E - A) : Nat) : ℚ)) (1 - (m : ℚ) / ((2 * (E - A) : Nat) : ℚ)) p0.x p1.x p2.x p3.x = v at *
    have h1 : ((trunc (v + 1 / 2) : Nat) : ℚ) ≤ v + 1 / 2 := trunc_le (by linarith)
    have h2 : v + 1 / 2 < (trunc (v + 1 / 2) : Nat) + 1 := lt_trunc (by linarith)
    rw [abs_le]
    constructor <;> linarith
  obtain ⟨out, e1, e2, e3, e4⟩ := (cubic_steps (s := s) hp h0 h3 hlt hlim h01 h12 h23).generate (o := o)
    (by rw [hp]; rfl) (by rw [hp, hc]; rfl) hfuel ho
  refine ⟨out, e1, e2, e3, ?_⟩
  intro j hj
  obtain ⟨v, v1, v2⟩ := e4 j hj
  refine ⟨v, v1, ?_⟩
  rcases v2 with ⟨m, m1, m2, rfl⟩ | ⟨m, n, m1, n1, m2, n2, rfl⟩
  · left
    rw [← m2]
    exact hon m m1
  · right
    refine ⟨_, _, _, m2, hon m m1, ?_, rfl⟩
    rw [← n2]
    exact hon n n1

end Sp
