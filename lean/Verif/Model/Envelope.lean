import Verif.Model.Path

/-!
# Model of path.c: paths of times, paths with a fixed number of points, envelopes

The functions made by `sp_define_path_n` end without a return statement: the status they return is
indeterminate, here `none`. Line numbers are for /repo/source/c-precompiled/sph-sp/path.c.
-/

namespace Sp

/-- `sp_sample_to_time`, which is `sp_cheap_round_positive`: adds a half and converts to `sp_time_t`.
/repo/source/c-precompiled/sph-sp/main.h:9, 32 -/
def timeOfValue (v : ℚ) : C Nat :=
  if v + 1 / 2 ≤ -1 ∨ 4294967296 ≤ v + 1 / 2 then .error .outOfBounds else .ok ⌊v + 1 / 2⌋.toNat

/-- The loop body of `sp_samples_to_times_replace`. /repo/source/c-precompiled/sph-sp/arrays.c:507 -/
def toTimesBody (samples : Buf ℚ) (i : Nat) (times : Buf Nat) : C (Buf Nat) := do
  let v ← rd samples i
  let t ← timeOfValue v
  wr times i t

/-- `sp_path_times` with `sp_samples_to_times_replace`. 34-41, /repo/source/c-precompiled/sph-sp/arrays.c:503-513 -/
def pathTimes (fuel length pointCount : Nat) (x y : Buf ℚ) (c : Option (Buf ℚ)) : C (Buf Nat) := do
  let samples ← pathSamples fuel length pointCount x y c
  forRange 0 length (toTimesBody samples) (List.replicate length 0)

/-- `sp_path_samples2`. 43-48 -/
def pathSamples2 (fuel length : Nat) (y1 y2 : ℚ) : C (Option Nat × Buf ℚ) := do
  let out ← pathSamples fuel length 2 [] [y1, y2] none
  pure (none, out)

/-- `sp_path_samples3`. 49-55 -/
def pathSamples3 (fuel length : Nat) (x1 y1 y2 y3 : ℚ) : C (Option Nat × Buf ℚ) := do
  let out ← pathSamples fuel length 3 [x1] [y1, y2, y3] none
  pure (none, out)

/-- `sp_path_samples4`. 56-66 -/
def pathSamples4 (fuel length : Nat) (x1 x2 y1 y2 y3 y4 : ℚ) : C (Option Nat × Buf ℚ) := do
  let out ← pathSamples fuel length 4 [x1, x2] [y1, y2, y3, y4] none
  pure (none, out)

/-- `sp_path_samples5`. 67-79 -/
def pathSamples5 (fuel length : Nat) (x1 x2 x3 y1 y2 y3 y4 y5 : ℚ) : C (Option Nat × Buf ℚ) := do
  let out ← pathSamples fuel length 5 [x1, x2, x3] [y1, y2, y3, y4, y5] none
  pure (none, out)

/-- `sp_path_times3`. 49-55 -/
def pathTimes3 (fuel length : Nat) (x1 y1 y2 y3 : ℚ) : C (Option Nat × Buf Nat) := do
  let out ← pathTimes fuel length 3 [x1] [y1, y2, y3] none
  pure (none, out)

/-- `sp_path_times4`. 56-66 -/
def pathTimes4 (fuel length : Nat) (x1 x2 y1 y2 y3 y4 : ℚ) : C (Option Nat × Buf Nat) := do
  let out ← pathTimes fuel length 4 [x1, x2] [y1, y2, y3, y4] none
  pure (none, out)

/-- `sp_path_times5`. 67-79 -/
def pathTimes5 (fuel length : Nat) (x1 x2 x3 y1 y2 y3 y4 y5 : ℚ) : C (Option Nat × Buf Nat) := do
  let out ← pathTimes fuel length 5 [x1, x2, x3] [y1, y2, y3, y4, y5] none
  pure (none, out)

/-- The elements of an array that must all have been set. -/
def collectValues : List (Option ℚ) → C (List ℚ)
  | [] => .ok []
  | none :: _ => .error .uninitialized
  | some v :: rest => do
    let rest ← collectValues rest
    pure (v :: rest)

/-- The loop body of `sp_envelope_zero` (`scalar` 1) and `sp_envelope_scaled`: x and path_y. 140-143, 174-177 -/
def envelopeBody (length : Nat) (scalar : ℚ) (y : Buf ℚ) (i : Nat) (s : Buf ℚ × Buf (Option ℚ)) :
    C (Buf ℚ × Buf (Option ℚ)) := do
  let a ← rd s.1 (i - 1)
  let b ← rd s.1 i
  let x ← wr s.1 i (a + b * length)
  let v ← rd y i
  let pathY ← wr s.2 i (some (scalar * v))
  pure (x, pathY)

/-- The common part of `sp_envelope_zero` and `sp_envelope_scaled`: the arrays x and path_y given to the path function, for the
first and last value. 136-143, 170-177. Simplified: `point_count` is greater than zero; that the first `point_count` elements of path_y have been set is checked here, and
read by `sp_path_samples`. -/
def envelopeArrays (length pointCount : Nat) (first last scalar : ℚ) (x y : Buf ℚ) : C (Buf ℚ × Buf ℚ) := do
  let x1 ← rd x 1
  let x ← wr x 1 (x1 * length)
  let pathY ← wr (List.replicate 24 none) 0 (some first)
  let pathY ← wr pathY (pointCount - 1) (some last)
  let s ← forRange 2 (pointCount - 1) (envelopeBody length scalar y) (x, pathY)
  let ys ← collectValues (s.2.take pointCount)
  pure (s.1, ys)

/-- `sp_envelope_zero`. 135-145 -/
def envelopeZero (fuel length pointCount : Nat) (x y : Buf ℚ) (c : Option (Buf ℚ)) : C (Buf ℚ) := do
  let s ← envelopeArrays length pointCount 0 0 1 x y
  pathSamples fuel length pointCount s.1 s.2 c

/-- `sp_envelope_zero3`. 147 -/
def envelopeZero3 (fuel length : Nat) (x1 y1 : ℚ) : C (Option Nat × Buf ℚ) :=
  pathSamples3 fuel length (x1 * length) 0 y1 0

/-- `sp_envelope_zero4`. 148 -/
def envelopeZero4 (fuel length : Nat) (x1 x2 y1 y2 : ℚ) : C (Option Nat × Buf ℚ) :=
  pathSamples4 fuel length (x1 * length) (x1 * length + x2 * length) 0 y1 y2 0

/-- `sp_envelope_zero5`. 149-154 -/
def envelopeZero5 (fuel length : Nat) (x1 x2 x3 y1 y2 y3 : ℚ) : C (Option Nat × Buf ℚ) :=
  let x1 := x1 * length
  let x2 := x1 + x2 * length
  let x3 := x2 + x3 * length
  pathSamples5 fuel length x1 x2 x3 0 y1 y2 y3 0

/-- `sp_envelope_scaled`. 169-179 -/
def envelopeScaled (fuel length pointCount : Nat) (scalar : ℚ) (x y : Buf ℚ) (c : Option (Buf ℚ)) : C (Buf Nat) := do
  let y0 ← rd y 0
  let yn ← rd y (pointCount - 1)
  let s ← envelopeArrays length pointCount (scalar * y0) (scalar * yn) scalar x y
  pathTimes fuel length pointCount s.1 s.2 c

/-- `sp_envelope_scaled3`. 181 -/
def envelopeScaled3 (fuel length : Nat) (scalar x1 y1 y2 y3 : ℚ) : C (Option Nat × Buf Nat) :=
  pathTimes3 fuel length (x1 * length) (y1 * scalar) (y2 * scalar) (y3 * scalar)

/-- `sp_envelope_scaled4`. 182 -/
def envelopeScaled4 (fuel length : Nat) (scalar x1 x2 y1 y2 y3 y4 : ℚ) : C (Option Nat × Buf Nat) :=
  pathTimes4 fuel length (x1 * length) (x1 * length + x2 * length) (scalar * y1) (scalar * y2) (scalar * y3) (scalar * y4)

/-- `sp_envelope_scaled5`. 183-188 -/
def envelopeScaled5 (fuel length : Nat) (scalar x1 x2 x3 y1 y2 y3 y4 y5 : ℚ) : C (Option Nat × Buf Nat) :=
  let x1 := x1 * length
  let x2 := x1 + x2 * length
  let x3 := x2 + x3 * length
  pathTimes5 fuel length x1 x2 x3 (scalar * y1) (scalar * y2) (scalar * y3) (scalar * y4) (scalar * y5)

end Sp
