import Verif.C
import Mathlib.Data.Rat.Floor
import Mathlib.Algebra.Order.Floor.Ring

/-!
# Model of spline-path.c and path.c

Values are rational numbers, that is, floating point numbers without rounding. Conversions to `size_t` are
truncations, undefined behaviour when the result is out of range. A division by zero is a fault of the model.
The buffer `out` is the memory that the caller gave; functions that get a pointer into it get the offset `o`.

`spline_path_path` segments and `spline_path_free` (no other segment has a free function) are in Model/PathNest.lean and Model/PathMemory.lean, segments with
other functions in Model/PathCustom.lean.
Line numbers without a file are for /repo/source/c/foreign/sph-sc-lib/sph-sp/spline-path.c.
-/

namespace Sp

/-- `spline_path_point_t`. spline-path.h:41-44 -/
structure Point where
  x : ℚ
  y : ℚ
  deriving DecidableEq

/-- Which generate function a segment has. -/
inductive SegKind
  | move
  | line
  | constant
  | bezier1
  | bezier2
  deriving DecidableEq

/-- Which prepare function a segment has. -/
inductive SegPrepare
  | none
  | constant
  | arc
  deriving DecidableEq

/-- `spline_path_segment_t`; `points` has four elements. spline-path.h:46-53 -/
structure Segment where
  kind : SegKind
  pointsCount : Nat
  points : Buf Point
  prepare : SegPrepare
  deriving DecidableEq

/-- `spline_path_t`. spline-path.h:56-61 -/
structure SplinePath where
  segments : List Segment
  cur : Nat
  prev : Nat
  deriving DecidableEq

/-- `a - b` on `size_t`. -/
def sub64 (a b : Nat) : Nat := (a + 18446744073709551616 - b) % 18446744073709551616

/-- `(size_t)(v)` for a floating point number: truncation. -/
def sizeOfValue (v : ℚ) : C Nat :=
  if v ≤ -1 ∨ 18446744073709551616 ≤ v then .error .outOfBounds else .ok ⌊v⌋.toNat

/-- A division of floating point numbers. -/
def divValue (a b : ℚ) : C ℚ := if b = 0 then .error .divByZero else .ok (a / b)

/-- `linearly_interpolate`. 10 -/
def linearlyInterpolate (a b t : ℚ) : ℚ := a + t * (b - a)

/-- `spline_path_move_generate`. 132 -/
def moveGenerate (start stop : Nat) (o : Nat) (out : Buf ℚ) : C (Buf ℚ) := memzero out o (sub64 stop start)

/-- `spline_path_constant_generate`. 135-141 -/
def constantGenerate (start stop : Nat) (s : Segment) (o : Nat) (out : Buf ℚ) : C (Buf ℚ) := do
  let p ← rd s.points 0
  forRange 0 (sub64 stop start) (fun i out => wr out (o + i) p.y) out

/-- The loop body of `spline_path_line_generate`. 153-154 -/
def lineBody (pStart pEnd : Point) (sOffset o : Nat) (i : Nat) (out : Buf ℚ) : C (Buf ℚ) := do
  let t ← divValue (i + sOffset : Nat) (pEnd.x - pStart.x)
  wr out (o + i) (linearlyInterpolate pStart.y pEnd.y t)

/-- `spline_path_line_generate`. 142-156 -/
def lineGenerate (start stop : Nat) (s : Segment) (o : Nat) (out : Buf ℚ) : C (Buf ℚ) := do
  let pStart ← rd s.points 0
  let pEnd ← rd s.points 1
  let sOffset ← sizeOfValue (start - pStart.x)
  forRange 0 (sub64 stop start) (lineBody pStart pEnd sOffset o) out

/-- `spline_path_bezier1_interpolate`. 12 -/
def bezier1Interpolate (t mt a b c : ℚ) : ℚ := (a * mt * mt) + (b * 2 * mt * t) + (c * t * t)

/-- `spline_path_bezier2_interpolate`. 11 -/
def bezier2Interpolate (t mt a b c d : ℚ) : ℚ :=
  (a * mt * mt * mt) + (b * 3 * mt * mt * t) + (c * 3 * mt * t * t) + (d * t * t * t)

/-- `spline_path_bezier1_interpolate_points` for a field of the points. 214 -/
def bezier1Points (field : Point → ℚ) (points : Buf Point) (t mt : ℚ) : C ℚ := do
  let a ← rd points 0
  let b ← rd points 1
  let c ← rd points 2
  pure (bezier1Interpolate t mt (field a) (field b) (field c))

/-- `spline_path_bezier2_interpolate_points`. 215 -/
def bezier2Points (field : Point → ℚ) (points : Buf Point) (t mt : ℚ) : C ℚ := do
  let a ← rd points 0
  let b ← rd points 1
  let c ← rd points 2
  let d ← rd points 3
  pure (bezier2Interpolate t mt (field a) (field b) (field c) (field d))

/-- An interpolator: `bezier1Points` or `bezier2Points`. -/
abbrev Interpolator := (Point → ℚ) → Buf Point → ℚ → ℚ → C ℚ

/-- `round`: to the nearest integer, half away from zero. -/
def roundValue (v : ℚ) : ℤ := if 0 ≤ v then ⌊v + 1 / 2⌋ else -⌊-v + 1 / 2⌋

/-- The x of the curve at step `i`. 179-181, 194-196 -/
def bezierX (f : Interpolator) (points : Buf Point) (sSize : ℚ) (i : Nat) : C Nat := do
  let t ← divValue i sSize
  let v ← f Point.x points t (1 - t)
  sizeOfValue (roundValue v)

/-- The y of the curve at step `i`. 179-182 -/
def bezierY (f : Interpolator) (points : Buf Point) (sSize : ℚ) (i : Nat) : C ℚ := do
  let t ← divValue i sSize
  f Point.y points t (1 - t)

/-- The search for an x before the start: `j` and `x_previous`. 193-200 -/
def bezierSearch (f : Interpolator) (points : Buf Point) (sSize : ℚ) (x : Nat) : Nat → Nat → C (Nat × Nat)
  | 0, xPrev => .ok (0, xPrev)
  | j + 1, _ => do
    let xp ← bezierX f points sSize (j + 1)
    if xp < x then .ok (j + 1, xp)
    else bezierSearch f points sSize x j xp

/-- `x_previous` and `y_previous` for filling a gap. 189-207 -/
def bezierPrevious (f : Interpolator) (points : Buf Point) (sSize : ℚ) (pStart : Point) (start o i x xPrev : Nat)
    (out : Buf ℚ) : C (Nat × ℚ) :=
  if start < xPrev then do
    let y ← rd out (o + sub64 xPrev start)
    pure (xPrev, y)
  else do
    let r ← bezierSearch f points sSize x i xPrev
    if r.1 ≠ 0 then pure (r.2, pStart.y)
    else do
      let xp ← sizeOfValue pStart.x
      pure (xp, pStart.y)

/-- The loop body that fills a gap. 209-210 -/
def bezierGapBody (start o x xPrev : Nat) (yPrev y : ℚ) (j : Nat) (out : Buf ℚ) : C (Buf ℚ) := do
  let t ← divValue j (sub64 x xPrev : Nat)
  wr out (o + sub64 (xPrev + j) start) (linearlyInterpolate yPrev y t)

/-- `if (x < end) out[x - start] = y`. 183-185 -/
def bezierPut (start stop o x : Nat) (y : ℚ) (out : Buf ℚ) : C (Buf ℚ) :=
  if x < stop then wr out (o + sub64 x start) y else .ok out

/-- The loop body of `spline_path_beziern_generate`: the new x and the output. 179-211 -/
def bezierBody (f : Interpolator) (points : Buf Point) (sSize : ℚ) (pStart : Point) (start stop o : Nat)
    (i xPrev : Nat) (out : Buf ℚ) : C (Nat × Buf ℚ) := do
  let x ← bezierX f points sSize i
  let y ← bezierY f points sSize i
  let out ← bezierPut start stop o x y out
  if 2 > sub64 x xPrev then pure (x, out)
  else do
    let r ← bezierPrevious f points sSize pStart start o i x xPrev out
    let out ← forRange 1 (sub64 x r.1) (bezierGapBody start o x r.1 r.2 y) out
    pure (x, out)

/-- The loop of `spline_path_beziern_generate`. `x` is unset before the first iteration. 178 -/
def bezierLoop (f : Interpolator) (points : Buf Point) (sSize : ℚ) (pStart : Point) (start stop o bSize : Nat) :
    Nat → Nat → Option Nat → Nat → Buf ℚ → C (Buf ℚ)
  | 0, _, _, _, _ => .error .nonTermination
  | fuel + 1, i, x, xPrev, out =>
    if i < bSize then do
      let r ← bezierBody f points sSize pStart start stop o i xPrev out
      bezierLoop f points sSize pStart start stop o bSize fuel (i + 1) (some r.1) r.1 r.2
    else match x with
      | none => .error .uninitialized
      | some x =>
        if x < stop then do
          let r ← bezierBody f points sSize pStart start stop o i xPrev out
          bezierLoop f points sSize pStart start stop o bSize fuel (i + 1) (some r.1) r.1 r.2
        else .ok out

/-- `spline_path_beziern_generate`. 161-213 -/
def bezierGenerate (f : Interpolator) (fuel : Nat) (start stop : Nat) (s : Segment) (o : Nat) (out : Buf ℚ) : C (Buf ℚ) := do
  let pStart ← rd s.points 0
  let pEnd ← rd s.points (s.pointsCount - 1)
  let bSize := 2 * sub64 stop start % 18446744073709551616
  let i ← sizeOfValue (start - pStart.x)
  bezierLoop f s.points (2 * (pEnd.x - pStart.x)) pStart start stop o bSize fuel i none start out

/-- `s->generate`. -/
def Segment.generate (fuel : Nat) (s : Segment) (start stop : Nat) (o : Nat) (out : Buf ℚ) : C (Buf ℚ) :=
  match s.kind with
  | .move => moveGenerate start stop o out
  | .line => lineGenerate start stop s o out
  | .constant => constantGenerate start stop s o out
  | .bezier1 => bezierGenerate bezier1Points fuel start stop s o out
  | .bezier2 => bezierGenerate bezier2Points fuel start stop s o out

/-- The loop of `spline_path_get` over the segments from index `i`: the new `current_segment_index`, `previous_start` and the
output. 24-43 -/
def splineGetLoop (fuel start stop : Nat) : List Segment → Nat → Nat → Nat → Buf ℚ → C (Nat × Nat × Buf ℚ)
  | [], _, cur, prev, out => .ok (cur, prev, out)
  | s :: rest, i, cur, _, out => do
    let p0 ← rd s.points 0
    let sStart ← sizeOfValue p0.x
    let p1 ← rd s.points (s.pointsCount - 1)
    let sEnd ← sizeOfValue p1.x
    if sStart > stop then .ok (cur, start, out)
    else if sEnd < start then splineGetLoop fuel start stop rest (i + 1) i start out
    else do
      let out ← s.generate fuel (if sStart < start then start else sStart) (if sEnd > stop then stop else sEnd)
        (if sStart > start then sStart - start else 0) out
      splineGetLoop fuel start stop rest (i + 1) i start out

/-- `spline_path_get`. 19-44 -/
def splineGet (fuel : Nat) (path : SplinePath) (start stop : Nat) (out : Buf ℚ) : C (SplinePath × Buf ℚ) := do
  let i := if start < path.prev then 0 else path.cur
  let r ← splineGetLoop fuel start stop (path.segments.drop i) i path.cur path.prev out
  pure ({ path with cur := r.1, prev := r.2.1 }, r.2.2)

/-- The points of intersection in `spline_path_perpendicular_point`. 318-349 -/
def perpendicularBorders (p1 p2 c d : Point) : C (Point × Point) := do
  let b1x := if d.x > 0 then p2.x else p1.x
  let b2x := if d.x > 0 then p1.x else p2.x
  let b1y := if d.y > 0 then p2.y else p1.y
  let b2y := if d.y > 0 then p1.y else p2.y
  let t1x ← divValue (b1x - c.x) d.x
  let t1y ← divValue (b1y - c.y) d.y
  let t2x ← divValue (b2x - c.x) d.x
  let t2y ← divValue (b2y - c.y) d.y
  let i1 : Point := if t1x ≤ t1y then ⟨b1x, c.y + t1x * d.y⟩ else ⟨c.x + t1y * d.x, b1y⟩
  let i2 : Point := if t2x ≥ t2y then ⟨b2x, c.y + t2x * d.y⟩ else ⟨c.x + t2y * d.x, b2y⟩
  pure (i1, i2)

/-- The case distinction in `spline_path_perpendicular_point`. 306-350 -/
def perpendicularPoints (p1 p2 c d : Point) : C (Point × Point) :=
  if 0 = d.x then .ok (⟨c.x, 0⟩, ⟨c.x, p2.y⟩)
  else if 0 = d.y then .ok (⟨0, c.y⟩, ⟨p2.x, c.y⟩)
  else perpendicularBorders p1 p2 c d

/-- `spline_path_perpendicular_point`. 285-358. Simplified: the length `m` of the vector `d`, by which the direction is
first divided and then multiplied, is left out, except that it is a fault if it is zero. -/
def perpendicularPoint (p1 p2 : Point) (distance : ℚ) : C Point :=
  let c : Point := ⟨(p1.x + p2.x) / 2, (p1.y + p2.y) / 2⟩
  if 0 = distance then .ok c
  else do
    let d : Point := ⟨-1 * (p2.y - p1.y), p2.x - p1.x⟩
    let r ← perpendicularPoints p1 p2 c d
    if d.x = 0 ∧ d.y = 0 then .error .divByZero
    else pure ⟨c.x + 1 / 2 * distance * (r.2.x - r.1.x), c.y + 1 / 2 * distance * (r.2.y - r.1.y)⟩

/-- `spline_path_bezier_arc_prepare`. 359-362 -/
def arcPrepare (points : Buf Point) : C (Buf Point) := do
  let p0 ← rd points 0
  let p1 ← rd points 1
  let p2 ← rd points 2
  let p ← perpendicularPoint p0 p2 p1.y
  wr points 1 p

/-- `spline_path_size_max`. spline-path.h:36. As a double it is rounded to 2^63, which is not modelled. -/
def splineSizeMax : Nat := 9223372036854775807

/-- `spline_path_constant_prepare`. 62-66 -/
def constantPrepare (points : Buf Point) : C (Buf Point) := do
  let p0 ← rd points 0
  wr points 1 ⟨splineSizeMax, p0.y⟩

/-- `s->prepare`. 77 -/
def Segment.runPrepare (s : Segment) (points : Buf Point) : C (Buf Point) :=
  match s.prepare with
  | .none => .ok points
  | .constant => constantPrepare points
  | .arc => arcPrepare points

/-- `spline_path_prepare_segments`. 69-83 -/
def prepareSegments (start : Point) : List Segment → C (List Segment)
  | [] => .ok []
  | s :: rest => do
    let points ← wr s.points 0 start
    let points ← s.runPrepare points
    let next ← rd points (s.pointsCount - 1)
    let rest ← prepareSegments next rest
    pure ({ s with points := points } :: rest)

/-- `spline_path_set`. 86-95 -/
def splinePathSet (segments : List Segment) : C SplinePath := do
  let segments ← prepareSegments ⟨0, 0⟩ segments
  pure ⟨segments, 0, 0⟩

/-- A point that is zero. -/
def point0 : Point := ⟨0, 0⟩

/-- `spline_path_move`. 220-227 -/
def splineMove (x y : ℚ) : Segment := ⟨.move, 2, [point0, ⟨x, y⟩, point0, point0], .none⟩

/-- `spline_path_line`. 228-235 -/
def splineLine (x y : ℚ) : Segment := ⟨.line, 2, [point0, ⟨x, y⟩, point0, point0], .none⟩

/-- `spline_path_constant`. 236-242 -/
def splineConstant : Segment := ⟨.constant, 2, [point0, point0, point0, point0], .constant⟩

/-- `spline_path_bezier1`. 260-269 -/
def splineBezier1 (x1 y1 x2 y2 : ℚ) : Segment := ⟨.bezier1, 3, [point0, ⟨x1, y1⟩, ⟨x2, y2⟩, point0], .none⟩

/-- `spline_path_bezier2`. 270-281 -/
def splineBezier2 (x1 y1 x2 y2 x3 y3 : ℚ) : Segment := ⟨.bezier2, 4, [point0, ⟨x1, y1⟩, ⟨x2, y2⟩, ⟨x3, y3⟩], .none⟩

/-- `spline_path_bezier_arc`. 366-375 -/
def splineBezierArc (x y curvature : ℚ) : Segment :=
  if 0 = curvature then splineLine x y else { splineBezier1 0 curvature x y with prepare := .arc }

/-! ### path.c -/

/-- The segment to a point. /repo/source/c-precompiled/sph-sp/path.c:19, 24 -/
def pathSegment (x y c : ℚ) : Segment := if c < 1 / 100000 then splineLine x y else splineBezierArc x y c

/-- `(c ? c[i - 1] : 0)`. /repo/source/c-precompiled/sph-sp/path.c:17, 23 -/
def pathCurvature (c : Option (Buf ℚ)) (i : Nat) : C ℚ :=
  match c with
  | none => .ok 0
  | some c => if i = 0 then .error .outOfBounds else rd c (i - 1)

/-- The loop body that makes the segments to the points in between. /repo/source/c-precompiled/sph-sp/path.c:21-24 -/
def pathSegmentBody (x y : Buf ℚ) (c : Option (Buf ℚ)) (i : Nat) (segments : Buf (Option Segment)) :
    C (Buf (Option Segment)) := do
  let xn ← rd x (i - 1)
  let yn ← rd y i
  let cn ← pathCurvature c i
  wr segments i (some (pathSegment xn yn cn))

/-- The first elements of an array that have been set. -/
def collectSegments : List (Option Segment) → C (List Segment)
  | [] => .ok []
  | none :: _ => .error .uninitialized
  | some s :: rest => do
    let rest ← collectSegments rest
    pure (s :: rest)

/-- `sp_path_samples`. Allocation succeeds; the new array is zero. Simplified: `point_count` is greater than zero.
/repo/source/c-precompiled/sph-sp/path.c:10-31 -/
def pathSamples (fuel length pointCount : Nat) (x y : Buf ℚ) (c : Option (Buf ℚ)) : C (Buf ℚ) := do
  let last := pointCount - 1
  let yn ← rd y last
  let cn ← pathCurvature c last
  let y0 ← rd y 0
  let segments ← wr (List.replicate 24 none) 0 (some (splineMove 0 y0))
  let segments ← wr segments last (some (pathSegment length yn cn))
  let segments ← forRange 1 last (pathSegmentBody x y c) segments
  let segments ← collectSegments (segments.take pointCount)
  let path ← splinePathSet segments
  let r ← splineGet fuel path 0 length (List.replicate length 0)
  pure r.2

end Sp
