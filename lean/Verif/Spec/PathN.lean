import Verif.Spec.Path

/-! # What paths with curvature are -/

namespace Sp

/-- The points go from left to right, curvatures are at most 1, and a curved part is not horizontal and does not go down by more
than its width. A part with a curvature below 1 / 100000 is straight. -/
def Curvable (points : List Point) (curvatures : List ℚ) : Prop :=
  ∀ k p q c, points[k]? = some p → points[k + 1]? = some q → curvatures[k]? = some c →
    p.x < q.x ∧ (c < 1 / 100000 ∨ (c ≤ 1 ∧ p.y ≠ q.y ∧ p.y - q.y ≤ q.x - p.x))

/-- Samples that go from point to point, along straight lines, or along curves for curvatures of at least 1 / 100000, and never
leave the range between the values of the two points. -/
def FollowsCurves (out : List ℚ) (points : List Point) (curvatures : List ℚ) : Prop :=
  ∀ k p q c, points[k]? = some p → points[k + 1]? = some q → curvatures[k]? = some c → ∀ j : Nat, p.x ≤ (j : ℚ) → (j : ℚ) < q.x →
    ∃ v, out[j]? = some v ∧ (c < 1 / 100000 → v = lineThrough p.x p.y q.x q.y j) ∧
      (1 / 100000 ≤ c → OnCurve p (arcControl p q c) q j v) ∧ min p.y q.y ≤ v ∧ v ≤ max p.y q.y

end Sp
