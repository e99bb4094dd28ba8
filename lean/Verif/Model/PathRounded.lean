import Verif.Model.Path

/-!
# Lines of paths with rounding

`spline_path_get` and `sp_path_samples` for paths of moves, lines and constants, with a rounding function `rnd` applied to the result of each
floating point operation. With `rnd` the identity these are the definitions of Model/Path.lean (`lineGenerateR_id`, `splineGetLoopBy_eq`).
Values are the rational numbers that doubles stand for.
Line numbers without a file are for /repo/source/c/foreign/sph-sc-lib/sph-sp/spline-path.c.
-/

namespace Sp
variable (rnd : ℚ → ℚ)

/-- `linearly_interpolate`. 10 -/
def linearlyInterpolateR (a b t : ℚ) : ℚ := rnd (a + rnd (t * rnd (b - a)))

/-- The loop body of `spline_path_line_generate`; the sum of the two indices is converted to a floating point number. 153-154 -/
def lineBodyR (pStart pEnd : Point) (sSize : ℚ) (sOffset o : Nat) (i : Nat) (out : Buf ℚ) : C (Buf ℚ) := do
  let t ← divValue (rnd (i + sOffset : Nat)) sSize
  wr out (o + i) (linearlyInterpolateR rnd pStart.y pEnd.y (rnd t))

/-- `spline_path_line_generate`. 142-156 -/
def lineGenerateR (start stop : Nat) (s : Segment) (o : Nat) (out : Buf ℚ) : C (Buf ℚ) := do
  let pStart ← rd s.points 0
  let pEnd ← rd s.points 1
  let sOffset ← sizeOfValue (rnd (rnd start - pStart.x))
  forRange 0 (sub64 stop start) (lineBodyR rnd pStart pEnd (rnd (pEnd.x - pStart.x)) sOffset o) out

/-- The generate functions of segments. -/
abbrev Generator := Segment → Nat → Nat → Nat → Buf ℚ → C (Buf ℚ)

/-- `s->generate`. Not modelled: rounding in curves; they are any function `curves`. -/
def generateR (curves : Generator) : Generator := fun s start stop o out =>
  match s.kind with
  | .move => moveGenerate start stop o out
  | .line => lineGenerateR rnd start stop s o out
  | .constant => constantGenerate start stop s o out
  | .bezier1 => curves s start stop o out
  | .bezier2 => curves s start stop o out

/-- The loop of `spline_path_get`, `splineGetLoop`, with the generate functions as a parameter. 24-43 -/
def splineGetLoopBy (gen : Generator) (start stop : Nat) : List Segment → Nat → Nat → Nat → Buf ℚ → C (Nat × Nat × Buf ℚ)
  | [], _, cur, prev, out => .ok (cur, prev, out)
  | s :: rest, i, cur, _, out => do
    let p0 ← rd s.points 0
    let sStart ← sizeOfValue p0.x
    let p1 ← rd s.points (s.pointsCount - 1)
    let sEnd ← sizeOfValue p1.x
    if sStart > stop then .ok (cur, start, out)
    else if sEnd < start then splineGetLoopBy gen start stop rest (i + 1) i start out
    else do
      let out ← gen s (if sStart < start then start else sStart) (if sEnd > stop then stop else sEnd)
        (if sStart > start then sStart - start else 0) out
      splineGetLoopBy gen start stop rest (i + 1) i start out

/-- `spline_path_get`. 19-44 -/
def splineGetBy (gen : Generator) (path : SplinePath) (start stop : Nat) (out : Buf ℚ) : C (SplinePath × Buf ℚ) := do
  let i := if start < path.prev then 0 else path.cur
  let r ← splineGetLoopBy gen start stop (path.segments.drop i) i path.cur path.prev out
  pure ({ path with cur := r.1, prev := r.2.1 }, r.2.2)

/-- `sp_path_samples`, `pathSamples`, with the generate functions as a parameter. /repo/source/c-precompiled/sph-sp/path.c:10-31 -/
def pathSamplesBy (gen : Generator) (length pointCount : Nat) (x y : Buf ℚ) (c : Option (Buf ℚ)) : C (Buf ℚ) := do
  let last := pointCount - 1
  let yn ← rd y last
  let cn ← pathCurvature c last
  let y0 ← rd y 0
  let segments ← wr (List.replicate 24 none) 0 (some (splineMove 0 y0))
  let segments ← wr segments last (some (pathSegment length yn cn))
  let segments ← forRange 1 last (pathSegmentBody x y c) segments
  let segments ← collectSegments (segments.take pointCount)
  let path ← splinePathSet segments
  let r ← splineGetBy gen path 0 length (List.replicate length 0)
  pure r.2

/-! ### The model without rounding is an instance -/

theorem lineGenerateR_id : lineGenerateR id = lineGenerate := rfl

theorem generateR_id (fuel : Nat) : generateR id (fun s a b o out => s.generate fuel a b o out) = fun s a b o out => s.generate fuel a b o out := by
  funext s a b o out
  rw [generateR, lineGenerateR_id]
  cases h : s.kind <;> simp [Segment.generate, h]

theorem splineGetLoopBy_eq (fuel start stop : Nat) (segs : List Segment) (i cur prev : Nat) (out : Buf ℚ) :
    splineGetLoopBy (fun s a b o out => s.generate fuel a b o out) start stop segs i cur prev out =
      splineGetLoop fuel start stop segs i cur prev out := by
  induction segs generalizing i cur prev out with
  | nil => rfl
  | cons s rest ih =>
    rw [splineGetLoopBy, splineGetLoop]
    simp only [ih]

theorem splineGetBy_eq (fuel : Nat) (path : SplinePath) (start stop : Nat) (out : Buf ℚ) :
    splineGetBy (fun s a b o out => s.generate fuel a b o out) path start stop out = splineGet fuel path start stop out := by
  rw [splineGetBy, splineGet]
  simp only [splineGetLoopBy_eq]

theorem pathSamplesBy_eq (fuel length pointCount : Nat) (x y : Buf ℚ) (c : Option (Buf ℚ)) :
    pathSamplesBy (fun s a b o out => s.generate fuel a b o out) length pointCount x y c = pathSamples fuel length pointCount x y c := by
  rw [pathSamplesBy, pathSamples]
  simp only [splineGetBy_eq]

end Sp
