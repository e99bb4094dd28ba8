import Verif.Model.PathCustom
import Verif.Spec.Path

/-! # Specification of segments with any functions -/

namespace Sp

/-- What the functions of a segment have to do, given that the preceding segment ends at `p`: prepare succeeds and leaves the start point, the
end point is `q`, and generate, called for a range inside of the segment with enough room in the output, writes the values `f` of the range
there and nothing else. Nothing is required of calls outside of the segment or without room: these can fail in any way. -/
structure CustomSegment.Draws (s : CustomSegment) (p q : Point) (f : Nat → ℚ) : Prop where
  room : 0 < s.points.length
  ready : ∃ points, s.runPrepare (s.points.set 0 p) = .ok (false, points) ∧ points[0]? = some p ∧ points[s.pointsCount - 1]? = some q ∧
    ∀ (a b o : Nat) (out : Buf ℚ), p.x ≤ a → a ≤ b → (b : ℚ) ≤ q.x → o + (b - a) ≤ out.length →
      ∃ out', s.generate points a b o out = .ok out' ∧ out'.length = out.length ∧
        ∀ k, out'[k]? = if o ≤ k ∧ k < o + (b - a) then some (f (a + (k - o))) else out[k]?

/-- Segments one after the other from the point `p` on, with ends at integer x that do not decrease. The list has the end and the values of each. -/
inductive DrawsPath : Point → List CustomSegment → List (Nat × (Nat → ℚ)) → Prop
  | nil {p : Point} : DrawsPath p [] []
  | cons {p q : Point} {s : CustomSegment} {rest : List CustomSegment} {stop : Nat} {f : Nat → ℚ} {fs : List (Nat × (Nat → ℚ))} :
      p.x ≤ q.x → q.x = stop → stop < 18446744073709551616 → s.Draws p q f → DrawsPath q rest fs → DrawsPath p (s :: rest) ((stop, f) :: fs)

/-- The value at `x`: that of the first segment that ends after `x`, and zero after all segments. -/
def valueOf : List (Nat × (Nat → ℚ)) → Nat → ℚ
  | [], _ => 0
  | (stop, f) :: rest, x => if x < stop then f x else valueOf rest x

/-- Calls of `spline_path_get` one after the other, each with its own zeroed memory. -/
def readCustom : CustomPath → List (Nat × Nat) → C (List (Buf ℚ))
  | _, [] => .ok []
  | path, (a, b) :: rest => do
    let r ← customGet path a b (List.replicate (b - a) 0)
    let bs ← readCustom r.1 rest
    pure (r.2 :: bs)

end Sp
