import Verif.C

/-!
# Model of approximate comparison (float.h, float.c)
-/

namespace Sp
variable {S : Type} [Sub S] [Neg S] [Zero S] [LT S] [DecidableLT S]

/-- `sph_f64_nearly_equal`, also `sp_sample_nearly_equal`. `fabs` changes the sign of negative numbers.
/repo/source/c/foreign/sph-sc-lib/sph-sp/float.c:5, sph-sp.h:32 -/
def nearlyEqual (a b margin : S) : Bool :=
  let d := a - b
  decide ((if d < 0 then -d else d) < margin)

/-- The loop of `sph_f64_array_nearly_equal`, from `index` on, for `n` more elements. /repo/source/c/foreign/sph-sc-lib/sph-sp/float.h:28-34 -/
def nearlyEqualLoop (a b : Buf S) (margin : S) : Nat → Nat → C Bool
  | 0, _ => .ok true
  | n + 1, index => do
    let x ← rd a index
    let y ← rd b index
    if ¬ nearlyEqual x y margin then return false
    else nearlyEqualLoop a b margin n (1 + index)

/-- `sph_f64_array_nearly_equal`, also `sp_samples_nearly_equal`. /repo/source/c/foreign/sph-sc-lib/sph-sp/float.h:22-35, sph-sp.h:38 -/
def arrayNearlyEqual (a : Buf S) (aLen : Nat) (b : Buf S) (bLen : Nat) (margin : S) : C Bool :=
  if ¬ aLen = bLen then .ok false else nearlyEqualLoop a b margin aLen 0

end Sp
