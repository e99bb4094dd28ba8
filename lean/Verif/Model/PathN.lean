import Verif.Model.Envelope

/-!
# Model of path.c: the other functions with a fixed number of points

As in Model/Envelope.lean the returned status is indeterminate, `none`, except for the envelope functions, which return what the path function
returns and so have the same status. Line numbers are for /repo/source/c-precompiled/sph-sp/path.c.
-/

namespace Sp

/-- `sp_path_times2`. 43-48 -/
def pathTimes2 (fuel length : Nat) (y1 y2 : ℚ) : C (Option Nat × Buf Nat) := do
  let out ← pathTimes fuel length 2 [] [y1, y2] none
  pure (none, out)

/-- `sp_path_samples_c2`. 80-85 -/
def pathSamplesC2 (fuel length : Nat) (y1 y2 c1 : ℚ) : C (Option Nat × Buf ℚ) := do
  let out ← pathSamples fuel length 2 [] [y1, y2] (some [c1])
  pure (none, out)

/-- `sp_path_samples_c3`. 86-95 -/
def pathSamplesC3 (fuel length : Nat) (x1 y1 y2 y3 c1 c2 : ℚ) : C (Option Nat × Buf ℚ) := do
  let out ← pathSamples fuel length 3 [x1] [y1, y2, y3] (some [c1, c2])
  pure (none, out)

/-- `sp_path_samples_c4`. 96-110 -/
def pathSamplesC4 (fuel length : Nat) (x1 x2 y1 y2 y3 y4 c1 c2 c3 : ℚ) : C (Option Nat × Buf ℚ) := do
  let out ← pathSamples fuel length 4 [x1, x2] [y1, y2, y3, y4] (some [c1, c2, c3])
  pure (none, out)

/-- `sp_path_samples_c5`. 111-128 -/
def pathSamplesC5 (fuel length : Nat) (x1 x2 x3 y1 y2 y3 y4 y5 c1 c2 c3 c4 : ℚ) : C (Option Nat × Buf ℚ) := do
  let out ← pathSamples fuel length 5 [x1, x2, x3] [y1, y2, y3, y4, y5] (some [c1, c2, c3, c4])
  pure (none, out)

/-- `sp_path_times_c2`. 80-85 -/
def pathTimesC2 (fuel length : Nat) (y1 y2 c1 : ℚ) : C (Option Nat × Buf Nat) := do
  let out ← pathTimes fuel length 2 [] [y1, y2] (some [c1])
  pure (none, out)

/-- `sp_path_times_c3`. 86-95 -/
def pathTimesC3 (fuel length : Nat) (x1 y1 y2 y3 c1 c2 : ℚ) : C (Option Nat × Buf Nat) := do
  let out ← pathTimes fuel length 3 [x1] [y1, y2, y3] (some [c1, c2])
  pure (none, out)

/-- `sp_path_times_c4`. 96-110 -/
def pathTimesC4 (fuel length : Nat) (x1 x2 y1 y2 y3 y4 c1 c2 c3 : ℚ) : C (Option Nat × Buf Nat) := do
  let out ← pathTimes fuel length 4 [x1, x2] [y1, y2, y3, y4] (some [c1, c2, c3])
  pure (none, out)

/-- `sp_path_times_c5`. 111-128 -/
def pathTimesC5 (fuel length : Nat) (x1 x2 x3 y1 y2 y3 y4 y5 c1 c2 c3 c4 : ℚ) : C (Option Nat × Buf Nat) := do
  let out ← pathTimes fuel length 5 [x1, x2, x3] [y1, y2, y3, y4, y5] (some [c1, c2, c3, c4])
  pure (none, out)

/-- `sp_envelope_zero_c3`. 155 -/
def envelopeZeroC3 (fuel length : Nat) (x1 y1 c1 c2 : ℚ) : C (Option Nat × Buf ℚ) :=
  pathSamplesC3 fuel length (x1 * length) 0 y1 0 c1 c2

/-- `sp_envelope_zero_c4`. 156 -/
def envelopeZeroC4 (fuel length : Nat) (x1 x2 y1 y2 c1 c2 c3 : ℚ) : C (Option Nat × Buf ℚ) :=
  pathSamplesC4 fuel length (x1 * length) (x1 * length + x2 * length) 0 y1 y2 0 c1 c2 c3

/-- `sp_envelope_zero_c5`. 157-162 -/
def envelopeZeroC5 (fuel length : Nat) (x1 x2 x3 y1 y2 y3 c1 c2 c3 c4 : ℚ) : C (Option Nat × Buf ℚ) :=
  let x1 := x1 * length
  let x2 := x1 + x2 * length
  let x3 := x2 + x3 * length
  pathSamplesC5 fuel length x1 x2 x3 0 y1 y2 y3 0 c1 c2 c3 c4

end Sp
