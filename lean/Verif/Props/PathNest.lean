import Verif.Lemmas.PathNest

/-! # Properties of paths inside of paths, and of the start, end and size of paths -/

set_option linter.unusedSectionVars false

namespace Sp

/-! ## C115 Paths inside of paths -/

/-- A segment that is a path has no length: whatever path it contains, the segment after it begins at the same point as the segment itself,
so that the points of the other segments are as if it was not there. -/
theorem C115_no_length_false {start : Point} {inner : NPath} {rest : List NSeg} {s : NSeg} {ns : List NSeg}
    (h : nPrepareSegments start (splinePath inner :: rest) = .ok (s :: ns)) :
    s.first = .ok start ∧ s.last = .ok start ∧ nPrepareSegments start rest = .ok ns := by
  rw [nPrepareSegments, splinePath, NSeg.prepared] at h
  obtain ⟨s', h1, h⟩ := bind_eq_ok.1 h
  obtain ⟨e, _, h1⟩ := bind_eq_ok.1 h1
  obtain rfl := Except.ok.inj h1
  obtain ⟨next, h2, h⟩ := bind_eq_ok.1 h
  obtain rfl : start = next := Except.ok.inj h2
  obtain ⟨ns', h3, h⟩ := bind_eq_ok.1 h
  obtain ⟨rfl, rfl⟩ := List.cons.inj (Except.ok.inj h)
  exact ⟨rfl, rfl, h3⟩

/-- The samples of a path that contains other paths (of moves, lines and constants, at any depth) are the samples of the path without them. -/
theorem C115_contained_paths_ignored_false {fuel start stop : Nat} {parts : List NSeg} {path : NPath} (hset : nPathSet parts = .ok path)
    (hfit : ∀ s ∈ path.segments, s.Fits) {out : Buf ℚ} (hlen : stop - start ≤ out.length) :
    ∃ without, splinePathSet (plainSegments parts) = .ok without ∧
      outputOf (nGet fuel path start stop out) = outputOf (splineGet fuel without start stop out) := by
  rw [nPathSet] at hset
  obtain ⟨ns, h1, hset⟩ := bind_eq_ok.1 hset
  obtain rfl := Except.ok.inj hset
  obtain ⟨ss, h2, h3⟩ := prepared_without h1 hfit
  refine ⟨⟨ss, 0, 0⟩, by rw [splinePathSet, h2]; rfl, ?_⟩
  have key := h3.loop (fuel := fuel) (start := start) (stop := stop) 0 0 0 0 0 0 hlen
  rw [nGet, splineGet]
  simp only
  rw [if_neg (Nat.not_lt_zero _), List.drop_zero]
  cases h4 : nGetLoop fuel start stop 0 0 ns 0 0 0 out with
  | error e =>
    rw [h4] at key
    cases h5 : splineGetLoop fuel start stop ss 0 0 0 out with
    | error e' =>
      rw [h5] at key
      rw [show e = e' from Except.error.inj key]
      rfl
    | ok r =>
      rw [h5] at key
      cases key
  | ok r =>
    rw [h4] at key
    cases h5 : splineGetLoop fuel start stop ss 0 0 0 out with
    | error e' =>
      rw [h5] at key
      cases key
    | ok r' =>
      rw [h5] at key
      have : r.2.2.2 = r'.2.2 := Except.ok.inj key
      simp only [outputOf, ok_bind', pure_eq_ok, Except.map]
      rw [this]

/-- A line to (4, 4), a path that is a line to (4, 8), and a line to (8, 0). The documentation says that the path is drawn where it begins,
which would be the values 0, 2, 4, 6 at 4 to 7. -/
def nestedExample : C NPath := do
  let inner ← nPathSet [.plain (splineLine 4 8)]
  nPathSet [.plain (splineLine 4 4), splinePath inner, .plain (splineLine 8 0)]

/-- The values of the contained path are not in the output. The contained path has the size 4, the whole path has the size 8 instead of
12. -/
theorem C115_contained_path_false :
    outputOf (do let path ← nestedExample
                 nGet 100 path 0 8 (List.replicate 8 0)) = .ok [0, 1, 2, 3, 4, 3, 2, 1] ∧
    (do let inner ← nPathSet [.plain (splineLine 4 8)]
        nSize inner.segments) = .ok 4 ∧
    (do let path ← nestedExample
        nSize path.segments) = .ok 8 := by
  refine ⟨?_, ?_, ?_⟩ <;> decide +kernel

example : ∃ path, nestedExample = .ok path ∧ ∀ s ∈ path.segments, s.Fits := by
  refine ⟨⟨[.plain ⟨.line, 2, [⟨0, 0⟩, ⟨4, 4⟩, point0, point0], .none⟩,
    .path ⟨4, 4⟩ ⟨4, 8⟩ [.plain ⟨.line, 2, [⟨0, 0⟩, ⟨4, 8⟩, point0, point0], .none⟩] 0 0,
    .plain ⟨.line, 2, [⟨4, 4⟩, ⟨8, 0⟩, point0, point0], .none⟩], 0, 0⟩, ?_, ?_⟩
  · have h : (⟨4, 8⟩ : Point).x ≠ splineSizeMax := by norm_num [splineSizeMax]
    simp only [nestedExample, nPathSet, nPrepareSegments, NSeg.prepared, splineLine, Segment.runPrepare, wr, rd, NSeg.last, splinePath, nEnd,
      NSeg.stopPoint]
    simp [h, point0]
  · intro s hs
    simp only [List.mem_cons, List.not_mem_nil, or_false] at hs
    rcases hs with rfl | rfl | rfl
    · exact ⟨⟨⟨0, 0⟩, ⟨4, 4⟩, rfl, rfl, by norm_num [InRange], by norm_num [InRange]⟩, fun _ _ _ _ _ h => by cases h⟩
    · refine ⟨⟨⟨4, 4⟩, ⟨4, 4⟩, rfl, rfl, by norm_num [InRange], by norm_num [InRange]⟩, ?_⟩
      intro _ _ inner _ _ h
      cases h
      rw [SimpleList, NSeg.Simple]
      refine ⟨⟨.inr (.inl rfl), rfl, ⟨0, 0⟩, ⟨4, 8⟩, _, rfl, by norm_num [InRange], by norm_num [InRange]⟩, ?_⟩
      rw [SimpleList]
      trivial
    · exact ⟨⟨⟨4, 4⟩, ⟨8, 0⟩, rfl, rfl, by norm_num [InRange], by norm_num [InRange]⟩, fun _ _ _ _ _ h => by cases h⟩

/-- A contained path that begins with a curve: a variable is used before it is set. -/
theorem C115_contained_curve_false :
    outputOf (do let inner ← nPathSet [.plain (splineBezier1 2 3 4 0)]
                 let path ← nPathSet [.plain (splineLine 4 4), splinePath inner, .plain (splineLine 8 0)]
                 nGet 100 path 0 8 (List.replicate 8 0)) = .error .uninitialized := by
  decide +kernel

/-! ## C116 Start, end and size of a path -/

/-- The segment of a step that begins at `p`, prepared. -/
def PathStep.ready (p : Point) : PathStep → Segment
  | .move x y => ⟨.move, 2, [p, ⟨x, y⟩, point0, point0], .none⟩
  | .line x y => ⟨.line, 2, [p, ⟨x, y⟩, point0, point0], .none⟩
  | .constant => ⟨.constant, 2, [p, ⟨splineSizeMax, p.y⟩, point0, point0], .constant⟩

theorem PathStep.prepared_eq (p : Point) (s : PathStep) : (NSeg.plain s.segment).prepared p = .ok (.plain (s.ready p)) := by
  cases s <;> rfl

theorem PathStep.ready_last (p : Point) (s : PathStep) : (NSeg.plain (s.ready p)).last = .ok (s.target p) := by
  cases s <;> rfl

theorem PathStep.ready_first (p : Point) (s : PathStep) : (NSeg.plain (s.ready p)).first = .ok p := by
  cases s <;> rfl

theorem nPrepare_steps (steps : List PathStep) (s : PathStep) (p : Point) :
    ∃ ns, nPrepareSegments p ((steps ++ [s]).map fun s => .plain s.segment) =
      .ok (ns ++ [.plain (s.ready (steps.foldl PathStep.target p))]) ∧
      ∃ g rest, ns ++ [.plain (s.ready (steps.foldl PathStep.target p))] = .plain g :: rest ∧ (NSeg.plain g).first = .ok p := by
  induction steps generalizing p with
  | nil =>
    refine ⟨[], ?_, s.ready p, [], rfl, s.ready_first p⟩
    rw [List.nil_append, List.map_cons, nPrepareSegments, PathStep.prepared_eq]
    simp only [ok_bind']
    rw [PathStep.ready_last]
    rfl
  | cons t steps ih =>
    obtain ⟨ns, h1, _⟩ := ih (t.target p)
    refine ⟨.plain (t.ready p) :: ns, ?_, t.ready p, _, rfl, t.ready_first p⟩
    rw [List.cons_append, List.map_cons, nPrepareSegments, PathStep.prepared_eq]
    simp only [ok_bind']
    rw [PathStep.ready_last]
    simp only [ok_bind']
    rw [h1]
    rfl

/-- The start of a path is the origin; its end is the end of the last step, or the beginning of the last step if that is a constant; its size is
the x of the end without fraction. -/
theorem C116_start_end_size (steps : List PathStep) {s : PathStep} (hs : s.Bounded) :
    ∃ path, nPathSet ((steps ++ [s]).map fun s => .plain s.segment) = .ok path ∧ nStart path.segments = .ok ⟨0, 0⟩ ∧
      nEnd path.segments = .ok (endAfter steps s) ∧
      (InRange (endAfter steps s).x → nSize path.segments = .ok ⌊(endAfter steps s).x⌋.toNat) := by
  obtain ⟨ns, h1, g, rest, h2, h3⟩ := nPrepare_steps steps s ⟨0, 0⟩
  have hend : nEnd (ns ++ [.plain (s.ready (stepsEnd steps))]) = .ok (endAfter steps s) := by
    rw [nEnd, List.getLast?_concat]
    simp only [NSeg.stopPoint]
    rw [PathStep.ready_last, PathStep.ready_first]
    simp only [ok_bind']
    cases s with
    | move x y => exact if_neg hs
    | line x y => exact if_neg hs
    | constant => exact if_pos rfl
  refine ⟨⟨ns ++ [.plain (s.ready (stepsEnd steps))], 0, 0⟩, ?_, ?_, hend, ?_⟩
  · rw [nPathSet, h1]
    rfl
  · simp only [stepsEnd]
    rw [h2, nStart]
    exact h3
  · intro hr
    rw [nSize]
    simp only
    rw [hend]
    simp only [ok_bind']
    exact hr.size

example : (PathStep.line 10 2).Bounded ∧ endAfter [.move 2 1, .line 10 2] .constant = ⟨10, 2⟩ ∧ InRange (10 : ℚ) := by
  refine ⟨?_, rfl, ?_, ?_⟩
  · norm_num [PathStep.Bounded, splineSizeMax]
  · norm_num
  · norm_num

/-- Without segments the end is undefined. -/
theorem C116_empty_undefined : nEnd [] = .error .outOfBounds ∧ nSize [] = .error .outOfBounds := ⟨rfl, rfl⟩

end Sp
