import Verif.Model.PathReuse

/-!
# C129 Segments can be used again
-/

set_option linter.unusedSectionVars false

namespace Sp

/-- Calls of `spline_path_segments_get` one after the other with the same array of segments. -/
def segmentsGets (fuel : Nat) : List Segment → List (Nat × Nat) → C (List (Buf ℚ))
  | _, [] => .ok []
  | segs, (a, b) :: rest => do
    let r ← segmentsGet fuel segs a b (List.replicate (b - a) 0)
    let bs ← segmentsGets fuel r.1 rest
    pure (r.2 :: bs)

/-- The same calls, each with new segments. -/
def segmentsGetsNew (fuel : Nat) (segs : List Segment) : List (Nat × Nat) → C (List (Buf ℚ))
  | [] => .ok []
  | (a, b) :: rest => do
    let r ← segmentsGet fuel segs a b (List.replicate (b - a) 0)
    let bs ← segmentsGetsNew fuel segs rest
    pure (r.2 :: bs)

theorem set_set_zero {α : Type} (l : List α) (a b : α) : (l.set 0 a).set 0 b = l.set 0 b := by
  cases l <;> rfl

theorem runPrepare_twice {s : Segment} (hs : s.prepare ≠ .arc) {start : Point} {b0 points : Buf Point} (h0 : wr s.points 0 start = .ok b0)
    (h : s.runPrepare b0 = .ok points) : wr points 0 start = .ok points ∧ s.runPrepare points = .ok points := by
  have hl : 0 < s.points.length := by
    by_contra c
    rw [wr, if_neg c] at h0
    cases h0
  rw [wr_eq_ok _ hl] at h0
  have h0 := Except.ok.inj h0
  cases hp : s.points with
  | nil => rw [hp] at hl; simp at hl
  | cons x l =>
    rw [hp, List.set_cons_zero] at h0
    subst h0
    cases c : s.prepare with
    | arc => exact absurd c hs
    | none =>
      simp only [Segment.runPrepare, c] at h ⊢
      have h := Except.ok.inj h
      subst h
      exact ⟨rfl, by trivial⟩
    | constant =>
      simp only [Segment.runPrepare, c, constantPrepare] at h ⊢
      cases l with
      | nil => cases h
      | cons y l =>
        have h := Except.ok.inj h
        subst h
        exact ⟨rfl, rfl⟩

theorem prepareSegments_twice {segs : List Segment} (hs : ∀ s ∈ segs, s.prepare ≠ .arc) {start : Point} {ready : List Segment}
    (h : prepareSegments start segs = .ok ready) : prepareSegments start ready = .ok ready := by
  induction segs generalizing start ready with
  | nil => rw [← Except.ok.inj h]; rfl
  | cons s rest ih =>
    rw [prepareSegments] at h
    cases h0 : wr s.points 0 start with
    | error e => rw [h0] at h; cases h
    | ok b0 =>
      rw [h0] at h
      simp only [ok_bind'] at h
      cases h1 : s.runPrepare b0 with
      | error e => rw [h1] at h; cases h
      | ok points =>
        rw [h1] at h
        simp only [ok_bind'] at h
        cases h2 : rd points (s.pointsCount - 1) with
        | error e => rw [h2] at h; cases h
        | ok next =>
          rw [h2] at h
          simp only [ok_bind'] at h
          cases h3 : prepareSegments next rest with
          | error e => rw [h3] at h; cases h
          | ok r =>
            rw [h3] at h
            have h := Except.ok.inj h
            subst h
            obtain ⟨a, b⟩ := runPrepare_twice (hs s (by simp)) h0 h1
            rw [prepareSegments]
            simp only
            rw [a]
            simp only [ok_bind']
            rw [show Segment.runPrepare { s with points := points } points = s.runPrepare points from rfl, b]
            simp only [ok_bind']
            rw [h2]
            simp only [ok_bind']
            rw [ih (fun t ht => hs t (by simp [ht])) h3]
            rfl

/-- **C129, partial**: for segments that are not arcs, `spline_path_set` with the same array of segments a second time gives the same path.
Missing: arcs (`C129_arc_false`). -/
theorem C129_set_again_partial {segs : List Segment} (hs : ∀ s ∈ segs, s.prepare ≠ .arc) {path : SplinePath} (h : splinePathSet segs = .ok path) :
    splinePathSet path.segments = .ok path := by
  rw [splinePathSet] at h ⊢
  cases h1 : prepareSegments ⟨0, 0⟩ segs with
  | error e => rw [h1] at h; cases h
  | ok r =>
    rw [h1] at h
    have h := Except.ok.inj h
    subst h
    simp only
    rw [prepareSegments_twice hs h1]
    rfl

/-- **C129, partial**: for segments that are not arcs, any number of calls of `spline_path_segments_get` with the same array of segments gives the
same as with new segments for each call. -/
theorem C129_segments_get_partial (fuel : Nat) {segs : List Segment} (hs : ∀ s ∈ segs, s.prepare ≠ .arc) (ranges : List (Nat × Nat)) :
    segmentsGets fuel segs ranges = segmentsGetsNew fuel segs ranges := by
  have key : ∀ (segs' : List Segment), (segs' = segs ∨ ∃ path, splinePathSet segs = .ok path ∧ segs' = path.segments) → ∀ ranges,
      segmentsGets fuel segs' ranges = segmentsGetsNew fuel segs ranges := by
    intro segs' h ranges
    induction ranges generalizing segs' with
    | nil => rfl
    | cons r rest ih =>
      obtain ⟨a, b⟩ := r
      have hset : splinePathSet segs' = splinePathSet segs := by
        rcases h with h | ⟨path, h1, h2⟩
        · rw [h]
        · rw [h2, C129_set_again_partial hs h1, h1]
      rw [segmentsGets, segmentsGetsNew, segmentsGet, segmentsGet, hset]
      cases h1 : splinePathSet segs with
      | error e => rfl
      | ok path =>
        simp only [ok_bind']
        cases splineGet fuel path a b (List.replicate (b - a) 0) with
        | error e => rfl
        | ok g =>
          simp only [ok_bind', pure_eq_ok]
          rw [ih path.segments (.inr ⟨path, h1, rfl⟩)]
  exact key segs (.inl rfl) ranges

/-- The hypothesis for segments of all other kinds, and the values of two reads. -/
example : (∀ s ∈ [splineMove 1 2, splineLine 3 4, splineBezier1 4 5 6 6, splineBezier2 7 7 8 8 9 9, splineConstant], s.prepare ≠ .arc) ∧
    segmentsGets 0 [splineMove 1 2, splineLine 3 4, splineConstant] [(0, 4), (2, 5)] = .ok [[0, 2, 3, 4], [3, 4, 4]] :=
  ⟨by decide, by decide +kernel⟩

/-- **C129 is false** for arcs: the functions replace the curvature in the array of segments with a point of the curve, whose y is the curvature the
next time. The second read of the same range gives other values. -/
theorem C129_arc_false : ∃ segs a b, segmentsGets 20 segs [(0, 4), (0, 4)] = .ok [a, b] ∧ a ≠ b := by
  refine ⟨[splineBezierArc 4 4 (1 / 2)], [0, 5 / 8, 33 / 32, 21 / 8], [0, 1 / 16, 9 / 16, 25 / 16], ?_, ?_⟩
  · decide +kernel
  · decide +kernel

/-- **C129 is false** for arcs in another way: the first call is right, the second one accesses memory outside of the output. -/
theorem C129_arc_memory_false : ∃ segs out, segmentsGets 40 segs [(0, 8)] = .ok [out] ∧
    segmentsGets 40 segs [(0, 8), (0, 8)] = .error .outOfBounds := by
  refine ⟨[splineBezierArc 8 8 (1 / 4)], [0, 25 / 32, 13 / 8, 81 / 32, 385 / 128, 145 / 32, 45 / 8, 217 / 32], ?_, ?_⟩
  · decide +kernel
  · decide +kernel

end Sp
