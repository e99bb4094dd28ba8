import Verif.Lemmas.PathCustom

/-!
# C128 Segments with any functions
-/

set_option linter.unusedSectionVars false

namespace Sp

/-- **C128**: for segments with any functions that fulfil `CustomSegment.Draws`, `spline_path_set` succeeds, and any sequence of reads, each of which
begins at or after the end of the one before or before its beginning, gives for each x the value of the segment at x, and zero after the last
segment. As nothing is required of `generate` outside of its segment and without room in the output, this also says that it is never called in
such a way. -/
theorem C128_reads {segs : List CustomSegment} {fs : List (Nat × (Nat → ℚ))} (h : DrawsPath ⟨0, 0⟩ segs fs) :
    ∃ path, customPathSet segs = .ok (some path) ∧ ∀ ranges, RangesForward 0 0 ranges →
      readCustom path ranges = .ok (ranges.map fun r => (List.range (r.2 - r.1)).map fun k => valueOf fs (r.1 + k)) := by
  obtain ⟨ready, r1, r2⟩ := customPrepareSegments_draws h 0 (by simp)
  refine ⟨⟨ready, 0, 0⟩, ?_, fun ranges hr => ?_⟩
  · rw [customPathSet, r1]
    rfl
  · exact readCustom_inv ⟨r2, fun _ => rfl, fun k c hk => absurd hk (by simp), fun h => List.length_pos_iff.2 h⟩ ranges hr

/-- A parabola from the start point to (4, 16), with a function that faults outside of the segment and without room. -/
def parabola : CustomSegment where
  pointsCount := 2
  points := [⟨0, 0⟩, ⟨4, 16⟩]
  prepare := none
  generate := fun points a b o out => do
    let p ← rd points 0
    if (a : ℚ) < p.x ∨ b < a ∨ 4 < b ∨ out.length < o + (b - a) then .error .outOfBounds
    else .ok (tab out.length fun k => if o ≤ k ∧ k < o + (b - a) then ((a + (k - o) : Nat) : ℚ) ^ 2 else out.getD k 0)

/-- It fulfils the requirements after every point. -/
theorem parabola_draws (p : Point) : parabola.Draws p ⟨4, 16⟩ fun x => (x : ℚ) ^ 2 := by
  refine ⟨by simp [parabola], [p, ⟨4, 16⟩], rfl, rfl, rfl, fun a b o out ha hab hb ho =>
    ⟨tab out.length fun k => if o ≤ k ∧ k < o + (b - a) then ((a + (k - o) : Nat) : ℚ) ^ 2 else out.getD k 0, ?_, tab_length, fun k => ?_⟩⟩
  · have hb : (b : ℚ) ≤ (4 : Nat) := hb
    have hb : b ≤ 4 := by exact_mod_cast hb
    change (if (a : ℚ) < p.x ∨ b < a ∨ 4 < b ∨ out.length < o + (b - a) then _ else _) = _
    rw [if_neg]
    rintro (h | h | h | h)
    · linarith
    all_goals omega
  · rw [tab_getElem?]
    by_cases c : o ≤ k ∧ k < o + (b - a)
    · rw [if_pos c, if_pos c, if_pos (by omega)]
    · rw [if_neg c, if_neg c]
      by_cases ck : k < out.length
      · rw [if_pos ck, List.getD_eq_getElem?_getD, List.getElem?_eq_getElem ck]
        rfl
      · rw [if_neg ck, List.getElem?_eq_none (by omega)]

/-- Reads with a function that faults when it is called wrongly. -/
example : (do
    match ← customPathSet [Segment.custom 0 (splineLine 1 1), parabola, Segment.custom 0 (splineLine 6 18)] with
    | none => .error .nullDeref
    | some path => readCustom path [(0, 3), (3, 4), (4, 8), (2, 5)]) =
    .ok [[0, 1, 4], [9], [16, 17, 0, 0], [4, 9, 16]] := by decide +kernel

theorem customPrepareSegments_fails {p : Point} {before after : List CustomSegment} {s : CustomSegment} {fs : List (Nat × (Nat → ℚ))}
    (h : DrawsPath p before fs) (hs : s.points ≠ []) (hf : ∀ points, ∃ points', s.runPrepare points = .ok (true, points')) :
    customPrepareSegments p (before ++ s :: after) = .ok none := by
  induction h with
  | @nil p =>
    obtain ⟨points', h1⟩ := hf (s.points.set 0 p)
    rw [List.nil_append, customPrepareSegments, wr_eq_ok _ (List.length_pos_iff.2 hs)]
    simp only [ok_bind', h1, if_true]
  | @cons p q t rest stop f fs h1 h2 h3 h4 _ ih =>
    obtain ⟨points, p1, p2, p3, p4⟩ := h4.ready
    rw [List.cons_append, customPrepareSegments, wr_eq_ok _ h4.room]
    simp only [ok_bind']
    rw [p1]
    simp only [ok_bind', rd_of_getElem? p3, ih]
    rfl

/-- **C128, failing prepare functions**: if the prepare function of a segment fails, `spline_path_set` returns 1, without a path. The segments
before fulfil the requirements, nothing is required of those after it: their functions are not called. -/
theorem C128_prepare_fails {before after : List CustomSegment} {s : CustomSegment} {fs : List (Nat × (Nat → ℚ))}
    (h : DrawsPath ⟨0, 0⟩ before fs) (hs : s.points ≠ []) (hf : ∀ points, ∃ points', s.runPrepare points = .ok (true, points')) :
    customPathSet (before ++ s :: after) = .ok none := by
  rw [customPathSet, customPrepareSegments_fails h hs hf]
  rfl

example : customPathSet [parabola, { parabola with prepare := some fun points => .ok (true, points) }, { parabola with points := [] }] =
    .ok none :=
  C128_prepare_fails (before := [parabola]) (.cons (stop := 4) (f := fun x => (x : ℚ) ^ 2) (by norm_num) (by norm_num) (by norm_num)
    (parabola_draws _) .nil) (by simp [parabola]) fun points => ⟨points, rfl⟩

end Sp
