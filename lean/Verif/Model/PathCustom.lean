import Verif.Model.Path

/-!
# Model of spline-path.c: segments with any functions

The fields `generate` and `prepare` of a segment are pointers to functions, which users can set to their own functions. Here they are any
functions: `prepare` can change the points and fail, `generate` gets the points and writes into the output. What they find in `data` is part of
the function. Simplified: `generate` does not change the segment.

Line numbers without a file are for /repo/source/c/foreign/sph-sc-lib/sph-sp/spline-path.c.
-/

namespace Sp

/-- `spline_path_segment_t`. `prepare` returns true if the function returns a number other than zero. `generate` gets the points, `start`, `end`, and the
offset in the output that the pointer `out` stands for. spline-path.h:46-53 -/
structure CustomSegment where
  pointsCount : Nat
  points : Buf Point
  prepare : Option (Buf Point → C (Bool × Buf Point))
  generate : Buf Point → Nat → Nat → Nat → Buf ℚ → C (Buf ℚ)

/-- `spline_path_t`. spline-path.h:56-61 -/
structure CustomPath where
  segments : List CustomSegment
  cur : Nat
  prev : Nat

/-- `s->prepare && s->prepare(s)`. 77 -/
def CustomSegment.runPrepare (s : CustomSegment) (points : Buf Point) : C (Bool × Buf Point) :=
  match s.prepare with
  | none => .ok (false, points)
  | some f => f points

/-- `spline_path_prepare_segments`; the result is none if it returns 1. 69-83 -/
def customPrepareSegments (start : Point) : List CustomSegment → C (Option (List CustomSegment))
  | [] => .ok (some [])
  | s :: rest => do
    let points ← wr s.points 0 start
    let r ← s.runPrepare points
    if r.1 then .ok none
    else do
      let next ← rd r.2 (s.pointsCount - 1)
      let rest ← customPrepareSegments next rest
      pure (rest.map ({ s with points := r.2 } :: ·))

/-- `spline_path_set`; none if it returns 1, in which case it does not change the path. 86-95 -/
def customPathSet (segments : List CustomSegment) : C (Option CustomPath) := do
  let r ← customPrepareSegments ⟨0, 0⟩ segments
  pure (r.map fun segments => ⟨segments, 0, 0⟩)

/-- The loop of `spline_path_get`: `current_segment_index`, `previous_start` and the output. 24-43 -/
def customGetLoop (start stop : Nat) : List CustomSegment → Nat → Nat → Nat → Buf ℚ → C (Nat × Nat × Buf ℚ)
  | [], _, cur, prev, out => .ok (cur, prev, out)
  | s :: rest, i, cur, _, out => do
    let p0 ← rd s.points 0
    let sStart ← sizeOfValue p0.x
    let p1 ← rd s.points (s.pointsCount - 1)
    let sEnd ← sizeOfValue p1.x
    if sStart > stop then .ok (cur, start, out)
    else if sEnd < start then customGetLoop start stop rest (i + 1) i start out
    else do
      let out ← s.generate s.points (if sStart < start then start else sStart) (if sEnd > stop then stop else sEnd)
        (if sStart > start then sStart - start else 0) out
      customGetLoop start stop rest (i + 1) i start out

/-- `spline_path_get`. 19-44 -/
def customGet (path : CustomPath) (start stop : Nat) (out : Buf ℚ) : C (CustomPath × Buf ℚ) := do
  let i := if start < path.prev then 0 else path.cur
  let r ← customGetLoop start stop (path.segments.drop i) i path.cur path.prev out
  pure ({ path with cur := r.1, prev := r.2.1 }, r.2.2)

/-! ### The segments of Model/Path.lean are an instance -/

/-- A segment with one of the functions of the library. -/
def Segment.custom (fuel : Nat) (s : Segment) : CustomSegment where
  pointsCount := s.pointsCount
  points := s.points
  prepare := some fun points => do
    let points ← s.runPrepare points
    pure (false, points)
  generate points start stop o out := Segment.generate fuel { s with points := points } start stop o out

theorem customGetLoop_eq (fuel start stop : Nat) (segs : List Segment) (i cur prev : Nat) (out : Buf ℚ) :
    customGetLoop start stop (segs.map (Segment.custom fuel)) i cur prev out = splineGetLoop fuel start stop segs i cur prev out := by
  induction segs generalizing i cur prev out with
  | nil => rfl
  | cons s rest ih =>
    rw [List.map_cons, customGetLoop, splineGetLoop]
    simp only [ih]
    rfl

theorem customGet_eq (fuel : Nat) (path : SplinePath) (start stop : Nat) (out : Buf ℚ) :
    customGet ⟨path.segments.map (Segment.custom fuel), path.cur, path.prev⟩ start stop out =
      (splineGet fuel path start stop out).map fun r => (⟨r.1.segments.map (Segment.custom fuel), r.1.cur, r.1.prev⟩, r.2) := by
  rw [customGet, splineGet]
  simp only [← List.map_drop, customGetLoop_eq]
  cases splineGetLoop fuel start stop (path.segments.drop (if start < path.prev then 0 else path.cur))
    (if start < path.prev then 0 else path.cur) path.cur path.prev out <;> rfl

end Sp
