import Verif.Model.Convolve
import Verif.Model.Statistics
import Verif.Model.Fft
import Mathlib.Analysis.SpecialFunctions.Trigonometric.Basic

/-!
# Model of the impulse response functions and of the moving average

Line numbers without a file are for /repo/source/c-precompiled/sph-sp/filter.c. Samples are real numbers or, where the
definitions are for any type with the operations, also numbers of type `double`; a division by zero, which gives infinity or NaN in the code, is the
outcome `divByZero`. Allocation succeeds.
-/

namespace Sp

section Spectral
variable {S : Type} [Add S] [Neg S] [One S]

/-- The loop body of `sp_spectral_inversion_ir`; `a[i] *= -1` as negation. /repo/source/c-precompiled/sph-sp/main.c:235 -/
def negateAt (i : Nat) (a : Buf S) : C (Buf S) := do
  let x ← rd a i
  wr a i (-x)

/-- `sp_spectral_inversion_ir`. /repo/source/c-precompiled/sph-sp/main.c:232-239 -/
def spectralInversion (a : Buf S) (aLen : Nat) : C (Buf S) := do
  let a ← forRange 0 aLen negateAt a
  addAt a (sub32 aLen 1 / 2) 1

/-- `sp_spectral_reversal_ir`; the argument is also the loop counter. /repo/source/c-precompiled/sph-sp/main.c:244-249 -/
def spectralReversal : Buf S → Nat → C (Buf S)
  | a, 0 => .ok a
  | a, 1 => .ok a
  | a, n + 2 => do
    let a ← negateAt n a
    spectralReversal a n

end Spectral

section Sinc
variable {S : Type} [Zero S] [One S] [Add S] [Sub S] [Mul S] [Div S] [NatCast S] [OfNat S 2] [OfNat S 4] [OfScientific S] [Trig S] [DecidableEq S]

/-- Division of samples. -/
def divOf (x y : S) : C S := if y = 0 then .error .divByZero else .ok (x / y)

/-- `sp_sinc`. /repo/source/c-precompiled/sph-sp/main.c:218 -/
def spSinc (a : S) : S := if 0 = a then 1 else Trig.sin (Trig.pi * a) / (Trig.pi * a)

/-- `sp_window_blackman`. 106 -/
def windowBlackman (a : S) (width : Nat) : C S := do
  let x ← divOf (2 * Trig.pi * a) (sub32 width 1 : Nat)
  let y ← divOf (4 * Trig.pi * a) (sub32 width 1 : Nat)
  pure ((0.42 - 0.5 * Trig.cos x) + 0.08 * Trig.cos y)

/-- Conversion of the result of `ceil` to `sp_time_t`: undefined behaviour (`outOfBounds`) when it is not in the range of the type. -/
class CeilTime (S : Type) where
  ceilTime : S → C Nat

noncomputable instance : CeilTime ℝ := ⟨fun x => timeOfSample (⌈x⌉ : ℤ)⟩

/-- `sp_windowed_sinc_lp_hp_ir_length`. 110-117 -/
def irLength [CeilTime S] (transition : S) : C Nat := do
  let x ← divOf 4 transition
  let a ← CeilTime.ceilTime x
  pure (if a % 2 = 0 then u32 (a + 1) else a)

/-- The loop body for the windowed sinc. 147-149 -/
def sincBody (cutoff centerIndex : S) (len : Nat) (i : Nat) (ir : Buf S) : C (Buf S) := do
  let w ← windowBlackman (i : S) len
  wr ir i (w * spSinc (2 * cutoff * (i - centerIndex)))

end Sinc

section Scale
variable {S : Type} [Add S] [Sub S] [Neg S] [Div S] [Zero S] [One S] [LE S] [DecidableLE S] [DecidableEq S]

/-- The loop body for the scaling; samples are of any type with arithmetic operations. 152-154 -/
def irScaleBody (sum : S) (i : Nat) (ir : Buf S) : C (Buf S) := do
  let x ← rd ir i
  if sum = 0 then .error .divByZero else wr ir i (x / sum)

/-- The part of `sp_windowed_sinc_lp_hp_ir` after the windowed sinc was written. 150-157 -/
def irFinish (ir : Buf S) (len : Nat) (isHighPass : Bool) : C (Buf S) := do
  let sum ← f64Sum ir len
  let ir ← forRange 0 len (irScaleBody sum) ir
  if isHighPass then spectralInversion ir len else pure ir

end Scale

section LpHp
variable {S : Type} [Zero S] [One S] [Add S] [Sub S] [Neg S] [Mul S] [Div S] [NatCast S] [OfNat S 2] [OfNat S 4] [OfScientific S] [Trig S] [DecidableEq S]
  [CeilTime S] [LE S] [DecidableLE S]

/-- `sp_windowed_sinc_lp_hp_ir`: the kernel; its length is `out_len`. `junk` is the content of allocated memory. 135-162 -/
def lpHpIr (junk cutoff transition : S) (isHighPass : Bool) : C (Buf S) := do
  let len ← irLength transition
  let ir ← forRange 0 len (sincBody cutoff ((len - 1) / 2) len) (List.replicate len junk)
  irFinish ir len isHighPass

/-- The loop body that adds the shorter kernel. 206-208 -/
def irAddBody (over : Buf S) (start : Nat) (i : Nat) (out : Buf S) : C (Buf S) := do
  let x ← rd over (i - start)
  let y ← rd out i
  wr out i (x + y)

/-- The part of `sp_windowed_sinc_bp_br_ir` for band reject when both cutoffs are inside of the range, after the kernels were
created. 192-210 -/
def irAdd (lp hp : Buf S) : C (Buf S) :=
  if lp.length > hp.length then
    let start := sub32 (sub32 lp.length 1 / 2) (sub32 hp.length 1 / 2)
    forRange start (u32 (hp.length + start)) (irAddBody hp start) lp
  else
    let start := sub32 (sub32 hp.length 1 / 2) (sub32 lp.length 1 / 2)
    forRange start (u32 (lp.length + start)) (irAddBody lp start) hp

/-- `sp_windowed_sinc_bp_br_ir`: the kernel and the number of arrays that were allocated and are not freed, the kernel included. 166-233 -/
def bpBrIr (junk cutoffL cutoffH transitionL transitionH : S) (isReject : Bool) : C (Buf S × Nat) :=
  if isReject then
    if 0 ≥ cutoffL then
      if 0.5 ≤ cutoffH then .ok ([0], 1)
      else do
        let ir ← lpHpIr junk cutoffH transitionH true
        pure (ir, 1)
    else if 0.5 ≤ cutoffH then do
      let ir ← lpHpIr junk cutoffL transitionL false
      pure (ir, 1)
    else do
      let lp ← lpHpIr junk cutoffL transitionL false
      let hp ← lpHpIr junk cutoffH transitionH true
      let out ← irAdd lp hp
      pure (out, 1)
  else
    if 0 ≥ cutoffL then
      if 0.5 ≤ cutoffH then .ok ([1], 1)
      else do
        let ir ← lpHpIr junk cutoffH transitionH false
        pure (ir, 1)
    else if 0.5 ≤ cutoffH then do
      let ir ← lpHpIr junk cutoffL transitionL true
      pure (ir, 1)
    else do
      let hp ← lpHpIr junk cutoffL transitionL true
      let lp ← lpHpIr junk cutoffH transitionH false
      let outLen := sub32 (u32 (lp.length + hp.length)) 1
      let out ← convolveOne lp lp.length hp hp.length (List.replicate outLen 0)
      pure (out, 3)

end LpHp

section Average
variable {S : Type} [Add S] [Sub S] [Mul S] [Div S] [Neg S] [One S] [NatCast S]

/-- The loop body for the initial sum. 326-328 -/
def averageInitBody (inp prev : Buf S) (inSize : Nat) (i : Nat) (sum : S) : C S := do
  let p ← rd prev (sub32 (sub32 inSize i) 1)
  let x ← rd inp (u32 (i + 1))
  pure (sum + (p + x))

/-- The value that leaves the window while there are preceding outside values. 334 -/
def averageLeft (inp : Buf S) (prev : Option (Buf S)) (inSize radius i : Nat) : C S :=
  match prev with
  | some prev => rd prev (u32 (sub32 (sub32 inSize radius) 1 + i))
  | none => do
    let x ← rd inp (u32 (sub32 radius i + 1))
    pure (x * -1)

/-- The loop body with preceding outside values: sum and out. 333-336 -/
def averageFirstBody (inp : Buf S) (prev : Option (Buf S)) (inSize radius width : Nat) (i : Nat) (s : S × Buf S) : C (S × Buf S) := do
  let x ← rd inp (u32 (i + radius))
  let y ← averageLeft inp prev inSize radius i
  let sum := (s.1 + x) - y
  let out ← wr s.2 i (sum / width)
  pure (sum, out)

/-- The loop body for middle values. 337-340 -/
def averageMiddleBody (inp : Buf S) (radius width : Nat) (i : Nat) (s : S × Buf S) : C (S × Buf S) := do
  let x ← rd inp (u32 (i + radius))
  let y ← rd inp (sub32 (sub32 i radius) 1)
  let sum := (s.1 + x) - y
  let out ← wr s.2 i (sum / width)
  pure (sum, out)

/-- The value that enters the window while there are succeeding outside values. 342 -/
def averageRight (inp : Buf S) (next : Option (Buf S)) (inSize radius i : Nat) : C S :=
  match next with
  | some next => rd next (sub32 i (sub32 inSize radius))
  | none => do
    let x ← rd inp (sub32 (u32 (i + radius + 1)) inSize)
    pure (x * -1)

/-- The loop body with succeeding outside values. 341-344 -/
def averageLastBody (inp : Buf S) (next : Option (Buf S)) (inSize radius width : Nat) (i : Nat) (s : S × Buf S) : C (S × Buf S) := do
  let x ← averageRight inp next inSize radius i
  let y ← rd inp (sub32 (sub32 i radius) 1)
  let sum := (s.1 + x) - y
  let out ← wr s.2 i (sum / width)
  pure (sum, out)

/-- The initial sum. 324-331 -/
def averageInit (inp : Buf S) (prev : Option (Buf S)) (inSize radius : Nat) : C S := do
  let sum ← rd inp 0
  match prev with
  | some prev => forRange 0 radius (averageInitBody inp prev inSize) sum
  | none => pure sum

/-- `sp_moving_average`; samples are of any type with arithmetic operations; `none` is the null pointer. The width is never zero because it is odd.
314-345 -/
def movingAverage (inp : Buf S) (inSize : Nat) (prev next : Option (Buf S)) (radius : Nat) (out : Buf S) : C (Buf S) := do
  let width := u32 (radius * 2 + 1)
  let sum ← averageInit inp prev inSize radius
  let out ← wr out 0 (sum / width)
  let s ← forRange 1 (radius + 1) (averageFirstBody inp prev inSize radius width) (sum, out)
  let s ← forRange (radius + 1) (sub32 inSize radius) (averageMiddleBody inp radius width) s
  let s ← forRange (sub32 inSize radius) inSize (averageLastBody inp next inSize radius width) s
  pure s.2

end Average

end Sp
