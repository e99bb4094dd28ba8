import Verif.C

/-!
# Sample blocks as tables
-/

namespace Sp

/-- The sample arrays of a block: `nch` channels of `n` samples, sample `k` of channel `c` being
`f c k`. -/
def blk {S : Type} (nch n : Nat) (f : Nat → Nat → S) : Buf (Buf S) := tab nch (fun c => tab n (f c))

/-- The samples after each sample of the `len` samples from index `off` on has been changed by `G`:
index `off` corresponds to time `a`. -/
def applyRange {S : Type} (G : Nat → Nat → S → S) (a off len : Nat) (f : Nat → Nat → S) :
    Nat → Nat → S :=
  fun c k => if off ≤ k ∧ k < off + len then G c (a + (k - off)) (f c k) else f c k

end Sp
