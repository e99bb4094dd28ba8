import Verif.Model.Path

/-!
# Model of spline-path.c: paths inside of paths, start, end and size

The segments of a path can be paths themselves (`spline_path_path`). Such a segment has `points_count` 1, the contained path as `data`,
and its own functions for generate and prepare. The contained path has been set with `spline_path_set` before; generating changes
its cursor, which is why generate returns the segment. The allocation of `data` is taken to succeed.

Line numbers without a file are for /repo/source/c/foreign/sph-sc-lib/sph-sp/spline-path.c.
-/

namespace Sp

/-- A segment: one of the segments of Model/Path.lean, or a path with `points[0]`, `points[1]`, the segments of the contained path, and its
`current_segment_index` and `previous_start`. 243-259 -/
inductive NSeg
  | plain (s : Segment)
  | path (p0 p1 : Point) (inner : List NSeg) (cur prev : Nat)

/-- `spline_path_t` with such segments. spline-path.h:56-61 -/
structure NPath where
  segments : List NSeg
  cur : Nat
  prev : Nat

/-- `s->points[0]`. -/
def NSeg.first : NSeg → C Point
  | .plain s => rd s.points 0
  | .path p0 _ _ _ _ => .ok p0

/-- `s->points[s->points_count - 1]`. The points count of a path is one. 256 -/
def NSeg.last : NSeg → C Point
  | .plain s => rd s.points (s.pointsCount - 1)
  | .path p0 _ _ _ _ => .ok p0

mutual
/-- `s->generate`; for a path `spline_path_path_generate`. 157 -/
def NSeg.generate (fuel : Nat) : NSeg → Nat → Nat → Nat → Buf ℚ → C (NSeg × Buf ℚ)
  | .plain s, start, stop, o, out => do
    let out ← s.generate fuel start stop o out
    pure (.plain s, out)
  | .path p0 p1 inner cur prev, start, stop, o, out => do
    let a ← sizeOfValue (start - p0.x)
    let b ← sizeOfValue (stop - p0.x)
    let r ← nGetLoop fuel a b o (if a < prev then 0 else cur) inner 0 cur prev out
    pure (.path p0 p1 r.1 r.2.1 r.2.2.1, r.2.2.2)

/-- The loop of `spline_path_get`: the segments, `current_segment_index`, `previous_start` and the output. The segments before index `skip`
are passed over. 24-43 -/
def nGetLoop (fuel start stop o skip : Nat) : List NSeg → Nat → Nat → Nat → Buf ℚ → C (List NSeg × Nat × Nat × Buf ℚ)
  | [], _, cur, prev, out => .ok ([], cur, prev, out)
  | s :: rest, i, cur, prev, out =>
    if i < skip then do
      let r ← nGetLoop fuel start stop o skip rest (i + 1) cur prev out
      pure (s :: r.1, r.2)
    else do
      let p0 ← s.first
      let sStart ← sizeOfValue p0.x
      let p1 ← s.last
      let sEnd ← sizeOfValue p1.x
      if sStart > stop then .ok (s :: rest, cur, start, out)
      else if sEnd < start then do
        let r ← nGetLoop fuel start stop o skip rest (i + 1) i start out
        pure (s :: r.1, r.2)
      else do
        let g ← s.generate fuel (if sStart < start then start else sStart) (if sEnd > stop then stop else sEnd)
          (o + if sStart > start then sStart - start else 0) out
        let r ← nGetLoop fuel start stop o skip rest (i + 1) i start g.2
        pure (g.1 :: r.1, r.2)
end

/-- `spline_path_get`. 19-44 -/
def nGet (fuel : Nat) (path : NPath) (start stop : Nat) (out : Buf ℚ) : C (NPath × Buf ℚ) := do
  let r ← nGetLoop fuel start stop 0 (if start < path.prev then 0 else path.cur) path.segments 0 path.cur path.prev out
  pure (⟨r.1, r.2.1, r.2.2.1⟩, r.2.2.2)

/-- The end of a path whose last segment is `s`. 50-51 -/
def NSeg.stopPoint (s : NSeg) : C Point := do
  let p ← s.last
  if p.x = splineSizeMax then s.first else pure p

/-- `spline_path_end`. With no segments it reads before the first one. 46-52 -/
def nEnd (segments : List NSeg) : C Point :=
  match segments.getLast? with
  | none => .error .outOfBounds
  | some s => s.stopPoint

/-- `spline_path_start`. 45 -/
def nStart (segments : List NSeg) : C Point :=
  match segments with
  | [] => .error .outOfBounds
  | s :: _ => s.first

/-- `spline_path_size`. 53-57 -/
def nSize (segments : List NSeg) : C Nat := do
  let p ← nEnd segments
  sizeOfValue p.x

/-- `spline_path_path` for a path. 246-259 -/
def splinePath (path : NPath) : NSeg := .path point0 point0 path.segments path.cur path.prev

/-- The start point and `s->prepare`; for a path `spline_path_path_prepare`. 58-61, 76-79 -/
def NSeg.prepared (start : Point) : NSeg → C NSeg
  | .plain s => do
    let points ← wr s.points 0 start
    let points ← s.runPrepare points
    pure (.plain { s with points := points })
  | .path _ _ inner cur prev => do
    let q ← nEnd inner
    pure (.path start q inner cur prev)

/-- `spline_path_prepare_segments`. 69-83 -/
def nPrepareSegments (start : Point) : List NSeg → C (List NSeg)
  | [] => .ok []
  | s :: rest => do
    let s ← s.prepared start
    let next ← s.last
    let rest ← nPrepareSegments next rest
    pure (s :: rest)

/-- `spline_path_set`. 86-95 -/
def nPathSet (segments : List NSeg) : C NPath := do
  let segments ← nPrepareSegments ⟨0, 0⟩ segments
  pure ⟨segments, 0, 0⟩

end Sp
