import Verif.Lemmas.Bezier
import Verif.Spec.Path

/-! # Lemmas about paths with curvature -/

set_option linter.unusedSectionVars false

namespace Sp

theorem bezier_onCurve {p m q : Point} {t : ℚ} {j : Nat} (t0 : 0 ≤ t) (t1 : t ≤ 1)
    (h : |bezier1Interpolate t (1 - t) p.x m.x q.x - j| ≤ 1 / 2) : OnCurve p m q j (bezier1Interpolate t (1 - t) p.y m.y q.y) := by
  refine ⟨t, t0, t1, ?_, by unfold bezier1Interpolate; ring⟩
  have : (1 - t) ^ 2 * p.x + 2 * (1 - t) * t * m.x + t ^ 2 * q.x = bezier1Interpolate t (1 - t) p.x m.x q.x := by
    unfold bezier1Interpolate; ring
  rw [this]
  exact h

theorem onCurve_bounds {p m q : Point} {j : Nat} {v lo hi : ℚ} (h : OnCurve p m q j v) (hp : lo ≤ p.y ∧ p.y ≤ hi)
    (hm : lo ≤ m.y ∧ m.y ≤ hi) (hq : lo ≤ q.y ∧ q.y ≤ hi) : lo ≤ v ∧ v ≤ hi := by
  obtain ⟨t, t0, t1, _, hv⟩ := h
  have : v = bezier1Interpolate t (1 - t) p.y m.y q.y := by rw [hv]; unfold bezier1Interpolate; ring
  rw [this]
  exact bezier1_bounds t0 t1 hp hm hq

/-- The control point that the code computes. -/
theorem perpendicularPoint_eq {p q : Point} {c : ℚ} (hx : p.x < q.x) (hy : p.y ≠ q.y) :
    perpendicularPoint p q c = .ok (arcControl p q c) := by
  rw [perpendicularPoint]
  obtain ⟨px, py⟩ := p
  obtain ⟨qx, qy⟩ := q
  simp only at hx hy ⊢
  obtain ⟨w, rfl⟩ : ∃ w, qx = px + w := ⟨qx - px, by ring⟩
  obtain ⟨h, rfl⟩ : ∃ h, qy = py + h := ⟨qy - py, by ring⟩
  have hw : 0 < w := by linarith
  have hh : h ≠ 0 := by rintro rfl; exact hy (by ring)
  have ew : px + w - px = w := by ring
  have eh : py + h - py = h := by ring
  by_cases hc : 0 = c
  · subst hc
    rw [if_pos rfl, arcControl]
    simp
  · rw [if_neg hc]
    simp only [perpendicularPoints, ew, eh]
    rw [if_neg (by intro h'; apply hh; linarith), if_neg (by linarith), perpendicularBorders]
    have ex : (px + (px + w)) / 2 = px + w / 2 := by ring
    have ey : (py + (py + h)) / 2 = py + h / 2 := by ring
    simp only [ex, ey]
    have hdx : (-1 * h) ≠ 0 := by simpa using hh
    rw [if_pos hw, if_pos hw]
    rw [divValue, if_neg hdx, divValue, if_neg hw.ne', divValue, if_neg hdx, divValue, if_neg hw.ne']
    simp only [ok_bind', pure_eq_ok]
    rw [if_neg (by rintro ⟨h1, _⟩; exact hdx h1)]
    congr 1
    rw [arcControl]
    simp only [ew, eh, ex, ey]
    rcases lt_or_gt_of_ne hh with hneg | hpos
    · -- descending
      rw [if_pos (show -1 * h > 0 by linarith), if_pos (show -1 * h > 0 by linarith)]
      have t1 : ¬ ((px + w - (px + w / 2)) / (-1 * h) ≤ (py + h - (py + h / 2)) / w) := by
        have a : 0 < (px + w - (px + w / 2)) / (-1 * h) := div_pos (by linarith) (by linarith)
        have b : (py + h - (py + h / 2)) / w < 0 := div_neg_of_neg_of_pos (by linarith) hw
        linarith
      have t2 : ¬ ((px - (px + w / 2)) / (-1 * h) ≥ (py - (py + h / 2)) / w) := by
        have a : (px - (px + w / 2)) / (-1 * h) < 0 := div_neg_of_neg_of_pos (by linarith) (by linarith)
        have b : 0 < (py - (py + h / 2)) / w := div_pos (by linarith) hw
        simp only [ge_iff_le, not_le]
        linarith
      rw [if_neg t1, if_neg t2, if_neg (by linarith)]
      simp only [Point.mk.injEq]
      constructor
      · field_simp
        ring
      · field_simp
        ring
    · rw [if_neg (show ¬ (-1 * h > 0) by linarith), if_neg (show ¬ (-1 * h > 0) by linarith)]
      have e1 : (px - (px + w / 2)) / (-1 * h) = w / (2 * h) := by field_simp; ring
      have e2 : (py + h - (py + h / 2)) / w = h / (2 * w) := by field_simp; ring
      have e3 : (px + w - (px + w / 2)) / (-1 * h) = -(w / (2 * h)) := by field_simp; ring
      have e4 : (py - (py + h / 2)) / w = -(h / (2 * w)) := by field_simp; ring
      rw [e1, e2, e3, e4]
      have hcmp : w / (2 * h) ≤ h / (2 * w) ↔ w * w ≤ h * h := by
        rw [div_le_div_iff₀ (by linarith) (by linarith)]
        constructor <;> intro h' <;> nlinarith
      by_cases hle : w * w ≤ h * h
      · rw [if_pos (hcmp.2 hle), if_pos (by have := hcmp.2 hle; simp only [ge_iff_le]; linarith)]
        by_cases hlt : w < h
        · rw [if_pos hlt]
          simp only [Point.mk.injEq]
          constructor
          · field_simp
            ring
          · field_simp
            ring
        · have : w = h := by nlinarith
          subst this
          rw [if_neg hlt]
          simp only [Point.mk.injEq]
          constructor
          · field_simp
            ring
          · field_simp
            ring
      · rw [if_neg (fun h' => hle (hcmp.1 h')), if_neg (fun h' => hle (hcmp.1 (by simp only [ge_iff_le] at h'; linarith))),
          if_neg (by intro h'; apply hle; nlinarith)]
        simp only [Point.mk.injEq]
        constructor
        · field_simp
          ring
        · field_simp
          ring

/-- The control point is inside of the rectangle, unless the line goes down by more than its width. -/
theorem arcControl_inside {p q : Point} {c : ℚ} (hx : p.x < q.x) (hs : p.y - q.y ≤ q.x - p.x) (h0 : -1 ≤ c) (h1 : c ≤ 1) :
    p.x ≤ (arcControl p q c).x ∧ (arcControl p q c).x ≤ q.x ∧
      min p.y q.y ≤ (arcControl p q c).y ∧ (arcControl p q c).y ≤ max p.y q.y := by
  obtain ⟨px, py⟩ := p
  obtain ⟨qx, qy⟩ := q
  simp only at hx hs ⊢
  obtain ⟨w, rfl⟩ : ∃ w, qx = px + w := ⟨qx - px, by ring⟩
  obtain ⟨h, rfl⟩ : ∃ h, qy = py + h := ⟨qy - py, by ring⟩
  have hw : 0 < w := by linarith
  have ew : px + w - px = w := by ring
  have eh : py + h - py = h := by ring
  have ex : (px + (px + w)) / 2 = px + w / 2 := by ring
  have ey : (py + (py + h)) / 2 = py + h / 2 := by ring
  have hhw : -h ≤ w := by linarith
  rw [arcControl]
  simp only [ew, eh, ex, ey]
  have small : ∀ r s : ℚ, 0 ≤ s → |r| ≤ s → -s ≤ c * r ∧ c * r ≤ s := by
    intro r s s0 hr
    have : |c * r| ≤ s := by
      rw [abs_mul]
      have : |c| ≤ 1 := abs_le.2 ⟨h0, h1⟩
      calc |c| * |r| ≤ 1 * |r| := by gcongr
        _ ≤ s := by linarith
    exact abs_le.1 this
  by_cases hlt : w < h
  · rw [if_pos hlt]
    have hh : 0 < h := by linarith
    rw [min_eq_left (by linarith), max_eq_right (by linarith)]
    have f1 := small w w hw.le (by rw [abs_of_pos hw])
    have f2 := small (w ^ 2 / h) h hh.le (by
      rw [abs_of_nonneg (by positivity), div_le_iff₀ hh]
      nlinarith)
    have e : c * w ^ 2 / (2 * h) = c * (w ^ 2 / h) / 2 := by field_simp
    simp only [e]
    refine ⟨?_, ?_, ?_, ?_⟩ <;> linarith [f1.1, f1.2, f2.1, f2.2]
  · rw [if_neg hlt]
    have hab : |h| ≤ w := abs_le.2 ⟨by linarith, by linarith⟩
    have f1 := small (h ^ 2 / w) w hw.le (by
      rw [abs_of_nonneg (by positivity), div_le_iff₀ hw]
      nlinarith [abs_nonneg h, sq_abs h])
    have f2 := small h |h| (abs_nonneg _) (le_refl _)
    have e : c * h ^ 2 / (2 * w) = c * (h ^ 2 / w) / 2 := by field_simp
    simp only [e]
    refine ⟨?_, ?_, ?_, ?_⟩
    · linarith [f1.1, f1.2]
    · linarith [f1.1, f1.2]
    · rcases le_total 0 h with hh | hh
      · rw [min_eq_left (by linarith)]; rw [abs_of_nonneg hh] at f2; linarith [f2.1, f2.2]
      · rw [min_eq_right (by linarith)]; rw [abs_of_nonpos hh] at f2; linarith [f2.1, f2.2]
    · rcases le_total 0 h with hh | hh
      · rw [max_eq_right (by linarith)]; rw [abs_of_nonneg hh] at f2; linarith [f2.1, f2.2]
      · rw [max_eq_left (by linarith)]; rw [abs_of_nonpos hh] at f2; linarith [f2.1, f2.2]

/-- A prepared segment from `A` to `E` that, drawn as a whole, gives values with the property `P`. -/
structure SegDraws (fuel : Nat) (s : Segment) (A E : Nat) (P : Nat → ℚ → Prop) : Prop where
  first : ∃ p, rd s.points 0 = .ok p ∧ p.x = A
  last : ∃ p, rd s.points (s.pointsCount - 1) = .ok p ∧ p.x = E
  draws : ∀ out : Buf ℚ, E ≤ out.length → ∃ out', s.generate fuel A E A out = .ok out' ∧ out'.length = out.length ∧
    (∀ k, k < A ∨ E ≤ k → out'[k]? = out[k]?) ∧ ∀ j, A ≤ j → j < E → ∃ v, out'[j]? = some v ∧ P j v

/-- Segments one after the other from `A` to `E`. -/
inductive SegChain (fuel : Nat) (P : Nat → ℚ → Prop) : Nat → List Segment → Nat → Prop
  | nil {E : Nat} : SegChain fuel P E [] E
  | cons {A B E : Nat} {s : Segment} {rest : List Segment} : A ≤ B → SegDraws fuel s A B P → SegChain fuel P B rest E →
      SegChain fuel P A (s :: rest) E

theorem SegChain.le {fuel : Nat} {P : Nat → ℚ → Prop} {A E : Nat} {segs : List Segment} (h : SegChain fuel P A segs E) : A ≤ E := by
  induction h with
  | nil => exact le_refl _
  | cons h1 _ _ ih => omega

theorem sizeOfValue_natCast {n : Nat} (h : n < 18446744073709551616) : sizeOfValue (n : ℚ) = .ok n := by
  have h0 : (0 : ℚ) ≤ n := Nat.cast_nonneg _
  rw [sizeOfValue_eq (by linarith) (by exact_mod_cast h), trunc_natCast]

theorem splineGetLoop_chain {fuel L : Nat} {P : Nat → ℚ → Prop} (hL : L < 4294967296) {A : Nat} {segs : List Segment}
    (h : SegChain fuel P A segs L) (i cur prev : Nat) {out : Buf ℚ} (hlen : out.length = L)
    (hdone : ∀ j, j < A → ∃ v, out[j]? = some v ∧ P j v) :
    ∃ r, splineGetLoop fuel 0 L segs i cur prev out = .ok r ∧ r.2.2.length = L ∧ ∀ j, j < L → ∃ v, r.2.2[j]? = some v ∧ P j v := by
  generalize hE : L = E at h
  induction h generalizing i cur prev out with
  | nil => subst hE; exact ⟨(cur, prev, out), rfl, hlen, hdone⟩
  | @cons A B E s rest hAB hs hrest ih =>
    have hle := hrest.le
    obtain ⟨p, hp, hpx⟩ := hs.first
    obtain ⟨q, hq, hqx⟩ := hs.last
    obtain ⟨out1, e1, e2, e3, e4⟩ := hs.draws out (by omega)
    rw [splineGetLoop, hp]
    simp only [ok_bind']
    rw [hpx, sizeOfValue_natCast (by omega), hq]
    simp only [ok_bind']
    rw [hqx, sizeOfValue_natCast (by omega)]
    simp only [ok_bind']
    rw [if_neg (by omega), if_neg (by omega), if_neg (by omega), if_neg (by omega)]
    have ho : (if A > 0 then A - 0 else 0) = A := by split <;> omega
    rw [ho, e1]
    simp only [ok_bind']
    refine ih (i + 1) i 0 (by omega) (fun j hj => ?_) hE
    by_cases hjA : j < A
    · rw [e3 j (.inl hjA)]
      exact hdone j hjA
    · exact e4 j (by omega) hj

theorem move_draws {fuel : Nat} {y : ℚ} {P : Nat → ℚ → Prop} :
    SegDraws fuel ⟨.move, 2, [⟨0, 0⟩, ⟨0, y⟩, point0, point0], .none⟩ 0 0 P := by
  refine ⟨⟨⟨0, 0⟩, rfl, by simp⟩, ⟨⟨0, y⟩, rfl, by simp⟩, ?_⟩
  intro out _
  refine ⟨out, ?_, rfl, fun k _ => rfl, fun j _ hj => absurd hj (by omega)⟩
  simp only [Segment.generate, moveGenerate]
  rw [sub64_of_le (le_refl 0) (by omega)]
  have := memzero_tab (n := out.length) (f := fun i => out.getD i 0) (d := 0) (c := 0) (by omega)
  rw [← eq_tab out 0] at this
  rw [Nat.sub_self, this]
  congr 1
  rw [tab_congr (g := fun i => out.getD i 0) (fun k _ => by rw [if_neg (by omega)])]
  exact (eq_tab out 0).symm

/-- What the values are on the segment from `p` to `q`. -/
def SegValue (p q : Point) (c : ℚ) (j : Nat) (v : ℚ) : Prop :=
  if c < 1 / 100000 then v = lineThrough p.x p.y q.x q.y j else OnCurve p (arcControl p q c) q j v

theorem line_draws {fuel : Nat} {p q : Point} {A E : Nat} (hA : p.x = A) (hE : q.x = E) (hAE : A < E) (hlim : E < 4294967296)
    {r : List Point} : SegDraws fuel ⟨.line, 2, p :: q :: r, .none⟩ A E fun j v => v = lineThrough p.x p.y q.x q.y j := by
  refine ⟨⟨p, rfl, hA⟩, ⟨q, rfl, hE⟩, ?_⟩
  intro out hout
  have hEq : (E : ℚ) < 4294967296 := by exact_mod_cast hlim
  have hAEq : (A : ℚ) < E := by exact_mod_cast hAE
  have key := generate_tab (fuel := fuel) (s := ⟨.line, 2, p :: q :: r, .none⟩) (p := ⟨.line, p, q⟩)
    ⟨rfl, .inr (.inl rfl), rfl, r, rfl⟩ (a := A) (b := E) (o := A) (n := out.length) (g := fun i => out.getD i 0)
    (by simp only; rw [hA]; exact Nat.cast_nonneg _) (by simp only; rw [hA, hE]; exact hAEq.le)
    (by simp only; rw [hA, trunc_natCast]) hAE.le (by simp only; rw [hE, trunc_natCast])
    (by simp only; rw [hE]; linarith) (by omega)
  rw [← eq_tab out 0] at key
  refine ⟨_, key, by simp, ?_, ?_⟩
  · intro k hk
    rw [tab_getElem?]
    by_cases hkl : k < out.length
    · rw [if_pos hkl, if_neg (by omega), List.getElem?_eq_getElem hkl, getD_of_lt hkl]
    · rw [if_neg hkl, List.getElem?_eq_none (by omega)]
  · intro j h1 h2
    refine ⟨_, by rw [tab_getElem?, if_pos (by omega), if_pos ⟨h1, by omega⟩], ?_⟩
    simp only [Piece.value]
    rw [linearlyInterpolate, lineThrough]
    have : (((A + (j - A) - A + trunc ((A : ℚ) - p.x) : Nat)) : ℚ) = (j : ℚ) - p.x := by
      rw [hA, trunc_sub_natCast (le_refl A)]
      rw [show A + (j - A) - A + (A - A) = j - A by omega, Nat.cast_sub h1]
    rw [this]
    ring

theorem arc_draws {fuel : Nat} {p m q : Point} {A E : Nat} (hA : p.x = A) (hE : q.x = E) (hAE : A < E) (hlim : E < 4294967296)
    (h1 : p.x ≤ m.x) (h2 : m.x ≤ q.x) (hfuel : 2 * E + 1 < fuel) {r : List Point} {pr : SegPrepare} :
    SegDraws fuel ⟨.bezier1, 3, p :: m :: q :: r, pr⟩ A E (OnCurve p m q) := by
  refine ⟨⟨p, rfl, hA⟩, ⟨q, rfl, hE⟩, ?_⟩
  intro out hout
  obtain ⟨out', e1, e2, e3, e4⟩ := bezierGenerate_whole (fuel := fuel) (A := A) (E := E) (o := A)
    (s := ⟨.bezier1, 3, p :: m :: q :: r, pr⟩) (p0 := p) (p1 := m) (p2 := q)
    ⟨⟨r, rfl⟩, hA, hE, hAE, by omega, h1, h2⟩ rfl (by omega) (out0 := out) (by omega)
  refine ⟨out', e1, e2, fun k hk => e3 k (by omega), ?_⟩
  intro j j1 j2
  obtain ⟨t, t0, t1, ht, hv⟩ := e4 (j - A) (by omega)
  have : A + (j - A) = j := by omega
  rw [this] at ht hv
  exact ⟨_, hv, bezier_onCurve t0 t1 ht⟩

theorem SegDraws.imp {fuel : Nat} {s : Segment} {A E : Nat} {P Q : Nat → ℚ → Prop} (h : SegDraws fuel s A E P)
    (hi : ∀ j v, A ≤ j → j < E → P j v → Q j v) : SegDraws fuel s A E Q := by
  refine ⟨h.first, h.last, ?_⟩
  intro out ho
  obtain ⟨out', e1, e2, e3, e4⟩ := h.draws out ho
  refine ⟨out', e1, e2, e3, ?_⟩
  intro j j1 j2
  obtain ⟨v, v1, v2⟩ := e4 j j1 j2
  exact ⟨v, v1, hi j v j1 j2 v2⟩

/-- When the segment from `p` to `q` can be drawn. -/
def Drawable (p q : Point) (c : ℚ) : Prop := c < 1 / 100000 ∨ (c ≤ 1 ∧ p.y ≠ q.y ∧ p.y - q.y ≤ q.x - p.x)

/-- The segment, prepared. -/
theorem prepareSegments_cons {fuel : Nat} {p q : Point} {c : ℚ} {A E : Nat} (hA : p.x = A) (hE : q.x = E) (hAE : A < E)
    (hlim : E < 4294967296) (hd : Drawable p q c) (hfuel : 2 * E + 1 < fuel) {rest : List Segment} {rest' : List Segment}
    (hrest : prepareSegments q rest = .ok rest') :
    ∃ s, prepareSegments p (pathSegment q.x q.y c :: rest) = .ok (s :: rest') ∧ SegDraws fuel s A E (SegValue p q c) := by
  have hpq : p.x < q.x := by rw [hA, hE]; exact_mod_cast hAE
  by_cases hc : c < 1 / 100000
  · refine ⟨⟨.line, 2, p :: q :: [point0, point0], .none⟩, ?_, ?_⟩
    · rw [prepareSegments, pathSegment, if_pos hc, splineLine]
      simp only
      rw [show wr [point0, (⟨q.x, q.y⟩ : Point), point0, point0] 0 p = .ok [p, q, point0, point0] from rfl]
      simp only [ok_bind', Segment.runPrepare]
      rw [show rd [p, q, point0, point0] (2 - 1) = .ok q from rfl]
      simp only [ok_bind', hrest]
      rfl
    · refine (line_draws hA hE hAE hlim).imp ?_
      intro j v _ _ h
      rw [SegValue, if_pos hc]
      exact h
  · obtain ⟨c1, hy, hsteep⟩ : c ≤ 1 ∧ p.y ≠ q.y ∧ p.y - q.y ≤ q.x - p.x := by
      rcases hd with h | h
      · exact absurd h hc
      · exact h
    obtain ⟨i1, i2, _, _⟩ := arcControl_inside (c := c) hpq hsteep (by linarith) c1
    refine ⟨⟨.bezier1, 3, p :: arcControl p q c :: q :: [point0], .arc⟩, ?_, ?_⟩
    · rw [prepareSegments, pathSegment, if_neg hc, splineBezierArc, if_neg (by intro h; apply hc; linarith), splineBezier1]
      simp only
      rw [show wr [point0, (⟨0, c⟩ : Point), ⟨q.x, q.y⟩, point0] 0 p = .ok [p, ⟨0, c⟩, q, point0] from rfl]
      simp only [ok_bind', Segment.runPrepare, arcPrepare]
      rw [show rd [p, (⟨0, c⟩ : Point), q, point0] 0 = .ok p from rfl, show rd [p, (⟨0, c⟩ : Point), q, point0] 1 = .ok ⟨0, c⟩ from rfl,
        show rd [p, (⟨0, c⟩ : Point), q, point0] 2 = .ok q from rfl]
      simp only [ok_bind']
      rw [perpendicularPoint_eq hpq hy]
      simp only [ok_bind']
      rw [show wr [p, (⟨0, c⟩ : Point), q, point0] 1 (arcControl p q c) = .ok [p, arcControl p q c, q, point0] from rfl]
      simp only [ok_bind']
      rw [show rd [p, arcControl p q c, q, point0] (3 - 1) = .ok q from rfl]
      simp only [ok_bind', hrest]
      rfl
    · refine (arc_draws hA hE hAE hlim i1 i2 hfuel).imp ?_
      intro j v _ _ h
      rw [SegValue, if_neg hc]
      exact h

/-- The segments to the points after the one at index `m`. -/
theorem prepareSegments_chain {fuel L : Nat} {p : Nat → Point} {c : Nat → ℚ} {X : Nat → Nat} (hX : ∀ k, (p k).x = X k)
    {P : Nat → ℚ → Prop} {N : Nat} (hlast : X N = L) (hL : L < 4294967296) (hfuel : 2 * L + 1 < fuel)
    (hinc : ∀ k, k < N → X k < X (k + 1)) (hd : ∀ k, k < N → Drawable (p k) (p (k + 1)) (c k))
    (hP : ∀ k j v, k < N → X k ≤ j → j < X (k + 1) → SegValue (p k) (p (k + 1)) (c k) j v → P j v) (n m : Nat) (hmn : m + n = N) :
    ∃ segs, prepareSegments (p m) ((List.range' m n).map fun k => pathSegment (p (k + 1)).x (p (k + 1)).y (c k)) = .ok segs ∧
      SegChain fuel P (X m) segs L := by
  induction n generalizing m with
  | zero =>
    refine ⟨[], rfl, ?_⟩
    rw [← hlast, show m = N by omega]
    exact .nil
  | succ n ih =>
    obtain ⟨segs, h1, h2⟩ := ih (m + 1) (by omega)
    have hle := h2.le
    rw [List.range'_succ, List.map_cons]
    obtain ⟨s, s1, s2⟩ := prepareSegments_cons (fuel := fuel) (hX m) (hX (m + 1)) (hinc m (by omega)) (by omega) (hd m (by omega))
      (by omega) h1
    exact ⟨s :: segs, s1, .cons (hinc m (by omega)).le (s2.imp fun j v j1 j2 h => hP m j v (by omega) j1 j2 h) h2⟩

/-- The curvature of the segment to the point at index `i`. -/
def curvatureAt (c : Buf ℚ) (i : Nat) : ℚ := c.getD (i - 1) 0

theorem pathCurvature_some {c : Buf ℚ} {i : Nat} (h1 : 1 ≤ i) (h2 : i ≤ c.length) : pathCurvature (some c) i = .ok (curvatureAt c i) := by
  rw [pathCurvature, if_neg (by omega), rd_eq_ok (by omega), curvatureAt, getD_of_lt (by omega)]

theorem segments_curved {fuel length pc : Nat} {x y c : Buf ℚ} (h2 : 2 ≤ pc) (h24 : pc ≤ 24)
    (hx : pc - 2 ≤ x.length) (hy : pc ≤ y.length) (hc : pc - 1 ≤ c.length) :
    pathSamples fuel length pc x y (some c) = (do
      let path ← splinePathSet (splineMove 0 (y.getD 0 0) :: (List.range' 0 (pc - 1)).map fun k =>
        pathSegment (pathPoint length pc x y (k + 1)).x (pathPoint length pc x y (k + 1)).y (curvatureAt c (k + 1)))
      let r ← splineGet fuel path 0 length (List.replicate length 0)
      pure r.2) := by
  rw [pathSamples]
  rw [rd_eq_ok (show pc - 1 < List.length y by omega), pathCurvature_some (by omega) (by omega),
    rd_eq_ok (show 0 < List.length y by omega)]
  simp only [ok_bind']
  rw [tab_replicate, wr_tab _ (by omega)]
  simp only [ok_bind']
  rw [wr_tab _ (by omega)]
  simp only [ok_bind']
  let G : Nat → Nat → Option Segment := fun i k =>
    if k = 0 then some (splineMove 0 (y.getD 0 0))
    else if k < i ∨ k + 1 = pc then
      some (pathSegment (pathPoint length pc x y k).x (pathPoint length pc x y k).y (curvatureAt c k)) else none
  have key := forRange_states (fun i => tab 24 (G i)) (lo := 1) (hi := pc - 1) (by omega) (body := pathSegmentBody x y (some c))
    (fun i h1 hi => by
      rw [pathSegmentBody, rd_eq_ok (show i - 1 < List.length x by omega), rd_eq_ok (show i < List.length y by omega),
        pathCurvature_some (by omega) (by omega)]
      simp only [ok_bind']
      rw [wr_tab _ (by omega)]
      refine congrArg _ (tab_congr fun k _ => ?_)
      simp only [G]
      by_cases hk : k = i
      · subst hk
        rw [if_pos rfl, if_neg (by omega), if_pos (by omega), pathPoint]
        simp only
        rw [if_neg (by omega), if_neg (by omega), getD_of_lt, getD_of_lt]
      · rw [if_neg hk]
        by_cases hk0 : k = 0
        · rw [if_pos hk0, if_pos hk0]
        · rw [if_neg hk0, if_neg hk0]
          by_cases hk2 : k < i ∨ k + 1 = pc
          · rw [if_pos hk2, if_pos (by omega)]
          · rw [if_neg hk2, if_neg (by omega)])
  have hstart : (tab 24 fun k => if k = pc - 1 then some (pathSegment (length : ℚ) y[pc - 1] (curvatureAt c (pc - 1)))
      else if k = 0 then some (splineMove 0 y[0]) else none) = tab 24 (G 1) := by
    refine tab_congr fun k _ => ?_
    simp only [G]
    by_cases hk : k = pc - 1
    · rw [if_pos hk, if_neg (by omega), if_pos (by omega), pathPoint]
      simp only
      rw [if_neg (by omega), if_pos (by omega), hk, getD_of_lt]
    · rw [if_neg hk]
      by_cases hk0 : k = 0
      · rw [if_pos hk0, if_pos hk0, getD_of_lt]
      · rw [if_neg hk0, if_neg hk0, if_neg (by omega)]
  rw [hstart, key]
  simp only [ok_bind']
  rw [take_tab _ h24]
  have hcol : tab pc (G (pc - 1)) = (splineMove 0 (y.getD 0 0) :: (List.range' 0 (pc - 1)).map fun k =>
        pathSegment (pathPoint length pc x y (k + 1)).x (pathPoint length pc x y (k + 1)).y (curvatureAt c (k + 1))).map some := by
    obtain ⟨m, rfl⟩ : ∃ m, pc = m + 1 := ⟨pc - 1, by omega⟩
    rw [tab_succ, List.map_cons]
    congr 1
    rw [range_map_tab, tab_map]
    refine tab_congr fun k hk => ?_
    simp only [G]
    rw [if_neg (by omega), if_pos (by omega)]
  rw [hcol, collectSegments_some]
  rfl

/-- A path with curvature, points at integer x. -/
theorem pathSamples_curved {fuel length pc : Nat} {x y c : Buf ℚ} {X : Nat → Nat} (h2 : 2 ≤ pc) (h24 : pc ≤ 24)
    (hx : pc - 2 ≤ x.length) (hy : pc ≤ y.length) (hc : pc - 1 ≤ c.length) (hlen : length < 4294967296)
    (hfuel : 2 * length + 1 < fuel) (hX : ∀ k, (pathPoint length pc x y k).x = X k) (hinc : ∀ k, k + 1 < pc → X k < X (k + 1))
    (hd : ∀ k, k + 1 < pc → Drawable (pathPoint length pc x y k) (pathPoint length pc x y (k + 1)) (c.getD k 0)) :
    ∃ out, pathSamples fuel length pc x y (some c) = .ok out ∧ out.length = length ∧
      ∀ j, j < length → ∃ k v, k + 1 < pc ∧ X k ≤ j ∧ j < X (k + 1) ∧ out[j]? = some v ∧
        SegValue (pathPoint length pc x y k) (pathPoint length pc x y (k + 1)) (c.getD k 0) j v := by
  have hlast : X (pc - 1) = length := by
    have h := hX (pc - 1)
    rw [pathPoint] at h
    simp only at h
    rw [if_neg (by omega), if_pos (by omega)] at h
    exact_mod_cast h.symm
  have hzero : X 0 = 0 := by
    have h := hX 0
    rw [pathPoint] at h
    simp only [if_true] at h
    exact_mod_cast h.symm
  rw [segments_curved h2 h24 hx hy hc, splinePathSet]
  obtain ⟨segs, h1, hch⟩ := prepareSegments_chain (fuel := fuel) (L := length) (p := pathPoint length pc x y)
    (c := fun k => curvatureAt c (k + 1)) (X := X) hX
    (P := fun j v => ∃ k, k + 1 < pc ∧ X k ≤ j ∧ j < X (k + 1) ∧
      SegValue (pathPoint length pc x y k) (pathPoint length pc x y (k + 1)) (c.getD k 0) j v) (N := pc - 1) hlast hlen hfuel
    (fun k hk => hinc k (by omega)) (fun k hk => hd k (by omega))
    (fun k j v hk j1 j2 hv => ⟨k, by omega, j1, j2, hv⟩) (pc - 1) 0 (by omega)
  have hp0 : (⟨0, y.getD 0 0⟩ : Point) = pathPoint length pc x y 0 := by simp [pathPoint]
  rw [prepareSegments, splineMove]
  simp only
  rw [show wr [point0, (⟨0, y.getD 0 0⟩ : Point), point0, point0] 0 ⟨0, 0⟩ = .ok [⟨0, 0⟩, ⟨0, y.getD 0 0⟩, point0, point0] from rfl]
  simp only [ok_bind', Segment.runPrepare]
  rw [show rd [(⟨0, 0⟩ : Point), ⟨0, y.getD 0 0⟩, point0, point0] (2 - 1) = .ok ⟨0, y.getD 0 0⟩ from rfl]
  simp only [ok_bind']
  rw [hp0, h1]
  simp only [ok_bind', pure_eq_ok, splineGet]
  rw [if_neg (by omega), List.drop_zero, ← hp0]
  rw [hzero] at hch
  obtain ⟨r, r1, r2, r3⟩ := splineGetLoop_chain hlen (SegChain.cons (le_refl 0) (move_draws (y := y.getD 0 0)) hch) 0 0 0
    (out := List.replicate length 0) (by simp) (fun j hj => absurd hj (by omega))
  rw [r1]
  refine ⟨r.2.2, rfl, r2, ?_⟩
  intro j hj
  obtain ⟨v, v1, k, k1, k2, k3, k4⟩ := r3 j hj
  exact ⟨k, v, k1, k2, k3, v1, k4⟩

end Sp
