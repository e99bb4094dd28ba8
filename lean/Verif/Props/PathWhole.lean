import Verif.Lemmas.PathCurve
import Verif.Lemmas.BezierCubic
import Mathlib.Tactic.IntervalCases

/-! # Properties of paths with curves that are read at once -/

set_option linter.unusedSectionVars false

namespace Sp

theorem cubic_draws {fuel : Nat} {p a b q : Point} {A E : Nat} (hA : p.x = A) (hE : q.x = E) (hAE : A < E) (hlim : E < 4294967296)
    (h1 : p.x ≤ a.x) (h2 : a.x ≤ b.x) (h3 : b.x ≤ q.x) (hfuel : 2 * E + 1 < fuel) {r : List Point} {pr : SegPrepare} :
    SegDraws fuel ⟨.bezier2, 4, p :: a :: b :: q :: r, pr⟩ A E (NearCubic p a b q) := by
  refine ⟨⟨p, rfl, hA⟩, ⟨q, rfl, hE⟩, ?_⟩
  intro out hout
  obtain ⟨out', e1, e2, e3, e4⟩ := cubicGenerate_whole (fuel := fuel) (A := A) (E := E) (o := A)
    (s := ⟨.bezier2, 4, p :: a :: b :: q :: r, pr⟩) (p0 := p) (p1 := a) (p2 := b) (p3 := q) (r := r) rfl rfl hA hE hAE (by omega)
    h1 h2 h3 (by omega) (out0 := out) (by omega)
  refine ⟨out', e1, e2, fun k hk => e3 k (by omega), ?_⟩
  intro j j1 j2
  obtain ⟨v, v1, v2⟩ := e4 (j - A) (by omega)
  have : A + (j - A) = j := by omega
  rw [this] at v1 v2
  exact ⟨v, v1, v2⟩

theorem gap_draws {fuel : Nat} {p q : Point} {A E : Nat} (hA : p.x = A) (hE : q.x = E) (hAE : A ≤ E) (hlim : E < 4294967296)
    {r : List Point} {pr : SegPrepare} : SegDraws fuel ⟨.move, 2, p :: q :: r, pr⟩ A E fun _ v => v = 0 := by
  refine ⟨⟨p, rfl, hA⟩, ⟨q, rfl, hE⟩, ?_⟩
  intro out hout
  have key := memzero_tab (n := out.length) (f := fun i => out.getD i 0) (d := A) (c := E - A) (by omega)
  rw [← eq_tab out 0] at key
  refine ⟨tab out.length fun k => if A ≤ k ∧ k < A + (E - A) then 0 else out.getD k 0, ?_, ?_, ?_, ?_⟩
  · simp only [Segment.generate, moveGenerate]
    rw [sub64_of_le hAE (by omega)]
    exact key
  · simp
  · intro k hk
    rw [tab_getElem?]
    by_cases hkl : k < out.length
    · rw [if_pos hkl, if_neg (by omega), List.getElem?_eq_getElem hkl, getD_of_lt hkl]
    · rw [if_neg hkl, List.getElem?_eq_none (by omega)]
  · intro j h1 h2
    exact ⟨0, by rw [tab_getElem?, if_pos (by omega), if_pos (by omega)], rfl⟩

theorem CurveStep.Forward.le {p : Point} {s : CurveStep} (h : s.Forward p) : p.x ≤ s.target.x := by
  cases s with
  | move q => exact h
  | line q => exact le_of_lt h
  | curve m q => exact h.1.le
  | cubic a b q => exact h.1.le

/-- A step, prepared. -/
theorem CurveStep.prepared {fuel : Nat} {p : Point} {s : CurveStep} {A E : Nat} (hA : p.x = A) (hE : s.target.x = E)
    (hlim : E < 4294967296) (hs : s.Forward p) (hfuel : 2 * E + 1 < fuel) {rest rest' : List Segment}
    (hrest : prepareSegments s.target rest = .ok rest') :
    ∃ g, prepareSegments p (s.segment :: rest) = .ok (g :: rest') ∧ SegDraws fuel g A E (s.Value p) := by
  have nat_le : ∀ {q : Point}, q.x = E → p.x ≤ q.x → A ≤ E := fun hq h => by
    rw [hA, hq] at h
    exact_mod_cast h
  have nat_lt : ∀ {q : Point}, q.x = E → p.x < q.x → A < E := fun hq h => by
    rw [hA, hq] at h
    exact_mod_cast h
  cases s with
  | move q =>
    have hAE := nat_le hE hs
    refine ⟨_, ?_, gap_draws (q := q) hA hE hAE hlim (r := [point0, point0]) (pr := .none)⟩
    rw [prepareSegments, CurveStep.segment, splineMove]
    simp only
    rw [show wr [point0, (⟨q.x, q.y⟩ : Point), point0, point0] 0 p = .ok [p, q, point0, point0] from rfl]
    simp only [ok_bind', Segment.runPrepare]
    rw [show rd [p, q, point0, point0] (2 - 1) = .ok q from rfl]
    simp only [ok_bind']
    rw [show prepareSegments q rest = .ok rest' from hrest]
    rfl
  | line q =>
    have hAE := nat_lt hE hs
    refine ⟨_, ?_, line_draws (q := q) hA hE hAE hlim (r := [point0, point0])⟩
    rw [prepareSegments, CurveStep.segment, splineLine]
    simp only
    rw [show wr [point0, (⟨q.x, q.y⟩ : Point), point0, point0] 0 p = .ok [p, q, point0, point0] from rfl]
    simp only [ok_bind', Segment.runPrepare]
    rw [show rd [p, q, point0, point0] (2 - 1) = .ok q from rfl]
    simp only [ok_bind']
    rw [show prepareSegments q rest = .ok rest' from hrest]
    rfl
  | curve m q =>
    have hAE := nat_lt hE hs.1
    refine ⟨_, ?_, arc_draws (m := m) (q := q) hA hE hAE hlim hs.2.1 hs.2.2 hfuel (r := [point0]) (pr := .none)⟩
    rw [prepareSegments, CurveStep.segment, splineBezier1]
    simp only
    rw [show wr [point0, (⟨m.x, m.y⟩ : Point), ⟨q.x, q.y⟩, point0] 0 p = .ok [p, m, q, point0] from rfl]
    simp only [ok_bind', Segment.runPrepare]
    rw [show rd [p, m, q, point0] (3 - 1) = .ok q from rfl]
    simp only [ok_bind']
    rw [show prepareSegments q rest = .ok rest' from hrest]
    rfl
  | cubic a b q =>
    have hAE := nat_lt hE hs.1
    refine ⟨_, ?_, cubic_draws (a := a) (b := b) (q := q) hA hE hAE hlim hs.2.1 hs.2.2.1 hs.2.2.2 hfuel (r := []) (pr := .none)⟩
    rw [prepareSegments, CurveStep.segment, splineBezier2]
    simp only
    rw [show wr [point0, (⟨a.x, a.y⟩ : Point), ⟨b.x, b.y⟩, ⟨q.x, q.y⟩] 0 p = .ok [p, a, b, q] from rfl]
    simp only [ok_bind', Segment.runPrepare]
    rw [show rd [p, a, b, q] (4 - 1) = .ok q from rfl]
    simp only [ok_bind']
    rw [show prepareSegments q rest = .ok rest' from hrest]
    rfl

theorem stepStart_succ {steps : List CurveStep} {k : Nat} {s : CurveStep} (h : steps[k]? = some s) : stepStart steps (k + 1) = s.target := by
  rw [stepStart, if_neg (by omega), Nat.add_sub_cancel, h]
  rfl

theorem steps_chain {fuel L : Nat} {steps : List CurveStep} {X : Nat → Nat} (hX : ∀ k, k ≤ steps.length → (stepStart steps k).x = X k)
    (hlast : X steps.length = L) (hL : L < 4294967296) (hfuel : 2 * L + 1 < fuel)
    (hf : ∀ (k : Nat) (s : CurveStep), steps[k]? = some s → s.Forward (stepStart steps k)) (n m : Nat) (hmn : m + n = steps.length) :
    ∃ segs, prepareSegments (stepStart steps m) ((steps.drop m).map CurveStep.segment) = .ok segs ∧
      SegChain fuel (fun j v => ∃ k s, steps[k]? = some s ∧ X k ≤ j ∧ j < X (k + 1) ∧ s.Value (stepStart steps k) j v) (X m) segs L := by
  induction n generalizing m with
  | zero =>
    refine ⟨[], ?_, ?_⟩
    · rw [List.drop_eq_nil_of_le (by omega)]
      rfl
    · rw [← hlast, show m = steps.length by omega]
      exact .nil
  | succ n ih =>
    obtain ⟨segs, h1, h2⟩ := ih (m + 1) (by omega)
    have hle := h2.le
    have hm : m < steps.length := by omega
    have hget : steps[m]? = some steps[m] := List.getElem?_eq_getElem hm
    rw [stepStart_succ hget] at h1
    have htx := hX (m + 1) (by omega)
    rw [stepStart_succ hget] at htx
    rw [List.drop_eq_getElem_cons hm, List.map_cons]
    have hmle : X m ≤ X (m + 1) := by
      have h : (stepStart steps m).x ≤ (steps[m]).target.x := (hf m _ hget).le
      rw [hX m (by omega), htx] at h
      exact_mod_cast h
    obtain ⟨g, g1, g2⟩ := CurveStep.prepared (fuel := fuel) (hX m (by omega)) htx (by omega) (hf m _ hget) (by omega) h1
    exact ⟨g :: segs, g1, .cons hmle (g2.imp fun j v j1 j2 h => ⟨m, _, hget, j1, j2, h⟩) h2⟩

/-! ## C114 Paths with curves, read at once -/

/-- A path of moves, lines and curves with one or two control points, with integer x of the points, where each step goes to the right and
the x of control points does not decrease: reading all of it has no undefined behaviour, writes all samples, and each sample is the value of the step that it
is in: zero for a move, the line, or a value of the curve. -/
theorem C114_curves_at_once {fuel L : Nat} {steps : List CurveStep} {X : Nat → Nat}
    (hX : ∀ k, k ≤ steps.length → (stepStart steps k).x = X k) (hlast : X steps.length = L) (hL : L < 4294967296)
    (hf : ∀ (k : Nat) (s : CurveStep), steps[k]? = some s → s.Forward (stepStart steps k))
    (hfuel : 2 * L + 1 < fuel) {out : Buf ℚ} (hout : out.length = L) :
    ∃ path path' out', splinePathSet (steps.map CurveStep.segment) = .ok path ∧ splineGet fuel path 0 L out = .ok (path', out') ∧
      out'.length = L ∧ ∀ j, j < L → ∃ k s v, steps[k]? = some s ∧ X k ≤ j ∧ j < X (k + 1) ∧ out'[j]? = some v ∧
        s.Value (stepStart steps k) j v := by
  obtain ⟨segs, h1, h2⟩ := steps_chain (fuel := fuel) hX hlast hL hfuel hf steps.length 0 (by omega)
  have hX0 : X 0 = 0 := by
    have h := hX 0 (Nat.zero_le _)
    simp only [stepStart, if_true] at h
    exact_mod_cast h.symm
  rw [hX0] at h2
  obtain ⟨r, r1, r2, r3⟩ := splineGetLoop_chain hL h2 0 0 0 hout (fun j hj => absurd hj (by omega))
  refine ⟨⟨segs, 0, 0⟩, ⟨segs, r.1, r.2.1⟩, r.2.2, ?_, ?_, r2, ?_⟩
  · rw [splinePathSet]
    rw [List.drop_zero] at h1
    rw [show prepareSegments ⟨0, 0⟩ (steps.map CurveStep.segment) = .ok segs from h1]
    rfl
  · rw [splineGet]
    simp only
    rw [if_neg (by omega), List.drop_zero, r1]
    rfl
  · intro j hj
    obtain ⟨v, v1, k, s, k1, k2, k3, k4⟩ := r3 j hj
    exact ⟨k, s, v, k1, k2, k3, v1, k4⟩

/-- A move to (2, 1), a line to (6, 3), a curve by (8, 5) to (10, 3) and a curve by (10, 0) and (20, 9) to (20, 3). -/
example : let steps : List CurveStep := [.move ⟨2, 1⟩, .line ⟨6, 3⟩, .curve ⟨8, 5⟩ ⟨10, 3⟩, .cubic ⟨10, 0⟩ ⟨20, 9⟩ ⟨20, 3⟩]
    ∃ path path' out', splinePathSet (steps.map CurveStep.segment) = .ok path ∧
      splineGet 100 path 0 20 (List.replicate 20 0) = .ok (path', out') ∧ out'.length = 20 := by
  intro steps
  obtain ⟨path, path', out', h1, h2, h3, _⟩ := C114_curves_at_once (fuel := 100) (L := 20) (steps := steps)
    (X := fun k => [0, 2, 6, 10, 20].getD k 0)
    (by intro k hk
        have : k ≤ 4 := hk
        interval_cases k <;> simp [steps, stepStart, CurveStep.target])
    rfl (by norm_num)
    (by intro k s hs
        have : k < 4 := (List.getElem?_eq_some_iff.1 hs).1
        interval_cases k <;> simp [steps] at hs <;> subst hs <;> simp [CurveStep.Forward, steps, stepStart, CurveStep.target] <;> norm_num)
    (by norm_num) (out := List.replicate 20 0) (by simp)
  exact ⟨path, path', out', h1, h2, h3⟩

end Sp
