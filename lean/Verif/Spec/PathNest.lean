import Verif.Model.PathNest
import Verif.Spec.Path

/-! # What paths inside of paths are -/

namespace Sp

/-- A value that an index can be made from. -/
def InRange (x : ℚ) : Prop := 0 ≤ x ∧ x < 9223372036854775808

/-- The segments that are not paths. -/
def plainSegments : List NSeg → List Segment
  | [] => []
  | .plain s :: rest => s :: plainSegments rest
  | .path _ _ _ _ _ :: rest => plainSegments rest

mutual
/-- Nothing but moves, lines and constants at any depth, and all x are in range. -/
def NSeg.Simple : NSeg → Prop
  | .plain s => (s.kind = .move ∨ s.kind = .line ∨ s.kind = .constant) ∧ s.pointsCount = 2 ∧
      ∃ p q r, s.points = p :: q :: r ∧ InRange p.x ∧ InRange q.x
  | .path p0 _ inner _ _ => InRange p0.x ∧ SimpleList inner

/-- The same for a list of segments. -/
def SimpleList : List NSeg → Prop
  | [] => True
  | s :: rest => s.Simple ∧ SimpleList rest
end

/-- Where a path of steps has come to. -/
def stepsEnd (steps : List PathStep) : Point := steps.foldl PathStep.target ⟨0, 0⟩

/-- Where a path that ends with the step `s` after `steps` ends: a constant has no end and counts with its beginning. -/
def endAfter (steps : List PathStep) (s : PathStep) : Point :=
  match s with
  | .move x y => ⟨x, y⟩
  | .line x y => ⟨x, y⟩
  | .constant => stepsEnd steps

/-- A step that ends before the largest size. -/
def PathStep.Bounded : PathStep → Prop
  | .move x _ => x ≠ splineSizeMax
  | .line x _ => x ≠ splineSizeMax
  | .constant => True

/-- The points of a segment are in range, and a contained path is simple. -/
def NSeg.Fits (s : NSeg) : Prop :=
  (∃ p q, s.first = .ok p ∧ s.last = .ok q ∧ InRange p.x ∧ InRange q.x) ∧
    ∀ p0 p1 inner cur prev, s = .path p0 p1 inner cur prev → SimpleList inner

/-- The output of a read. -/
def outputOf {α : Type} (r : C (α × Buf ℚ)) : C (Buf ℚ) := r.map Prod.snd

end Sp
