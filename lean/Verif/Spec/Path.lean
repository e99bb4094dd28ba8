import Verif.Model.Path

/-! # What paths are -/

namespace Sp

/-- The steps that a path without curves is made of. -/
inductive PathStep
  | move (x y : ℚ)
  | line (x y : ℚ)
  | constant

/-- The segment for a step. -/
def PathStep.segment : PathStep → Segment
  | .move x y => splineMove x y
  | .line x y => splineLine x y
  | .constant => splineConstant

/-- Where a step that begins at `p` ends. -/
def PathStep.target (p : Point) : PathStep → Point
  | .move x y => ⟨x, y⟩
  | .line x y => ⟨x, y⟩
  | .constant => ⟨splineSizeMax, p.y⟩

/-- The x of the steps is an integer, does not decrease, and is in range. -/
def IntegerSteps : Nat → List PathStep → Prop
  | _, [] => True
  | lo, .move x _ :: rest => ∃ n : Nat, x = n ∧ lo ≤ n ∧ n ≤ splineSizeMax ∧ IntegerSteps n rest
  | lo, .line x _ :: rest => ∃ n : Nat, x = n ∧ lo ≤ n ∧ n ≤ splineSizeMax ∧ IntegerSteps n rest
  | lo, .constant :: rest => lo ≤ splineSizeMax ∧ IntegerSteps splineSizeMax rest

/-- Each range begins at or after the end of the previous one, or before its beginning. -/
def RangesForward : Nat → Nat → List (Nat × Nat) → Prop
  | _, _, [] => True
  | start, stop, (a, b) :: rest => a ≤ b ∧ (stop ≤ a ∨ a < start) ∧ RangesForward a b rest

/-- Calls of `spline_path_get` one after the other, each with its own zeroed memory. -/
def readBlocks (fuel : Nat) : SplinePath → List (Nat × Nat) → C (List (Buf ℚ))
  | _, [] => .ok []
  | path, (a, b) :: rest => do
    let r ← splineGet fuel path a b (List.replicate (b - a) 0)
    let bs ← readBlocks fuel r.1 rest
    pure (r.2 :: bs)

/-- The x of the points of `sp_path_samples`: 0, the given ones, and the length. -/
def pathX (length pointCount : Nat) (x : List Nat) (k : Nat) : Nat :=
  if k = 0 then 0 else if k + 1 = pointCount then length else x.getD (k - 1) 0

/-- The straight line from `(x0, y0)` to `(x1, y1)`. -/
def lineThrough (x0 y0 x1 y1 x : ℚ) : ℚ := y0 + (y1 - y0) * ((x - x0) / (x1 - x0))

/-- Samples that go along straight lines from point to point. The position inside a line is counted from the sample that
the point falls on. -/
def FollowsPoints (out : List ℚ) (points : List Point) : Prop :=
  ∀ k p q, points[k]? = some p → points[k + 1]? = some q → ∀ j : Nat, ⌊p.x⌋ ≤ j → j < ⌊q.x⌋ →
    out[j]? = some (p.y + (q.y - p.y) * (((j : ℚ) - (⌊p.x⌋ : ℚ)) / (q.x - p.x)))

/-- The control point for a curvature: on the line through the middle that is perpendicular to the line from `p` to `q`, at the fraction
`c` of the way to the side of the rectangle that has `p` and `q` as opposite corners. -/
def arcControl (p q : Point) (c : ℚ) : Point :=
  if q.x - p.x < q.y - p.y then ⟨(p.x + q.x) / 2 + c * (q.x - p.x) / 2, (p.y + q.y) / 2 - c * (q.x - p.x) ^ 2 / (2 * (q.y - p.y))⟩
  else ⟨(p.x + q.x) / 2 + c * (q.y - p.y) ^ 2 / (2 * (q.x - p.x)), (p.y + q.y) / 2 - c * (q.y - p.y) / 2⟩

/-- `v` is a value at `j` of the curve from `p` to `q` with the control point `m`: the y of a point of the curve whose x is
at most a half away from `j`. -/
def OnCurve (p m q : Point) (j : Nat) (v : ℚ) : Prop :=
  ∃ t : ℚ, 0 ≤ t ∧ t ≤ 1 ∧ |(1 - t) ^ 2 * p.x + 2 * (1 - t) * t * m.x + t ^ 2 * q.x - j| ≤ 1 / 2 ∧
    v = (1 - t) ^ 2 * p.y + 2 * (1 - t) * t * m.y + t ^ 2 * q.y

/-- `v` is a value at `j` of the curve from `p` to `q` with the control points `a` and `b`: the y of a point of the curve whose x is
at most a half away from `j`. -/
def OnCubic (p a b q : Point) (j : Nat) (v : ℚ) : Prop :=
  ∃ t : ℚ, 0 ≤ t ∧ t ≤ 1 ∧
    |(1 - t) ^ 3 * p.x + 3 * (1 - t) ^ 2 * t * a.x + 3 * (1 - t) * t ^ 2 * b.x + t ^ 3 * q.x - j| ≤ 1 / 2 ∧
    v = (1 - t) ^ 3 * p.y + 3 * (1 - t) ^ 2 * t * a.y + 3 * (1 - t) * t ^ 2 * b.y + t ^ 3 * q.y

/-- `v` is a value at `j` of the curve with two control points, or it is the middle of values at the neighbours of `j`. -/
def NearCubic (p a b q : Point) (j : Nat) (v : ℚ) : Prop :=
  OnCubic p a b q j v ∨ ∃ i u w, i + 1 = j ∧ OnCubic p a b q i u ∧ OnCubic p a b q (j + 1) w ∧ v = (u + w) / 2

/-- The steps that a path with curves is made of. -/
inductive CurveStep
  | move (q : Point)
  | line (q : Point)
  | curve (m q : Point)
  | cubic (a b q : Point)

/-- The segment for a step. -/
def CurveStep.segment : CurveStep → Segment
  | .move q => splineMove q.x q.y
  | .line q => splineLine q.x q.y
  | .curve m q => splineBezier1 m.x m.y q.x q.y
  | .cubic a b q => splineBezier2 a.x a.y b.x b.y q.x q.y

/-- Where a step ends. -/
def CurveStep.target : CurveStep → Point
  | .move q => q
  | .line q => q
  | .curve _ q => q
  | .cubic _ _ q => q

/-- The value of a step from `p` at `j`. -/
def CurveStep.Value (p : Point) (s : CurveStep) (j : Nat) (v : ℚ) : Prop :=
  match s with
  | .move _ => v = 0
  | .line q => v = lineThrough p.x p.y q.x q.y j
  | .curve m q => OnCurve p m q j v
  | .cubic a b q => NearCubic p a b q j v

/-- The step goes to the right, and the x of the control points does not decrease on the way from `p`. A move can go straight up. -/
def CurveStep.Forward (p : Point) (s : CurveStep) : Prop :=
  match s with
  | .move q => p.x ≤ q.x
  | .line q => p.x < q.x
  | .curve m q => p.x < q.x ∧ p.x ≤ m.x ∧ m.x ≤ q.x
  | .cubic a b q => p.x < q.x ∧ p.x ≤ a.x ∧ a.x ≤ b.x ∧ b.x ≤ q.x

/-- The point at which step `k` begins: the origin or the end of the step before. -/
def stepStart (steps : List CurveStep) (k : Nat) : Point :=
  if k = 0 then ⟨0, 0⟩ else (steps[k - 1]?.map CurveStep.target).getD ⟨0, 0⟩

/-- A number rounded to the nearest integer, half upwards. -/
def roundHalfUp (v : ℚ) : Nat := ⌊v + 1 / 2⌋.toNat

end Sp
