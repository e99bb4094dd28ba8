import Verif.Model.Path

/-!
# Model of spline-path.c: spline_path_segments_get

Line numbers without a file are for /repo/source/c/foreign/sph-sc-lib/sph-sp/spline-path.c.
-/

namespace Sp

/-- `spline_path_segments_get` for segments without data. The result has the array `segments`, which the function changes, and the output. 108-116 -/
def segmentsGet (fuel : Nat) (segments : List Segment) (start stop : Nat) (out : Buf ℚ) : C (List Segment × Buf ℚ) := do
  let path ← splinePathSet segments
  let r ← splineGet fuel path start stop out
  pure (path.segments, r.2)

end Sp
