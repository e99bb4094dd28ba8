import Mathlib.Algebra.BigOperators.NatAntidiagonal
import Mathlib.Algebra.BigOperators.Ring.Finset

/-!
# Specification of convolution

Independent of the model of the code.
-/

namespace Sp

/-- Sample `k` of the discrete linear convolution of `a` and `b`: the sum of `a[i] * b[j]` over all
`i + j = k` (samples outside the arrays are zero). -/
def linearConvolution {S : Type _} [CommSemiring S] (a b : List S) (k : Nat) : S :=
  ∑ p ∈ Finset.antidiagonal k, a.getD p.1 0 * b.getD p.2 0

/-- The same with machine arithmetic, no laws assumed: start with zero and add the products
`x[i] * b[k - i]` that exist, one after the other, in order of increasing `i`. -/
def orderedConvolution {S : Type _} [Zero S] [Add S] [Mul S] (x b : List S) (k : Nat) : S :=
  ((List.range x.length).filter (fun i => i ≤ k ∧ k - i < b.length)).foldl
    (fun acc i => acc + x.getD i 0 * b.getD (k - i) 0) 0

/-- The terms that make up sample `k` of the output of a filter whose impulse response can change
between blocks: a list of (block, impulse response). Every input sample of every block is multiplied
with the impulse response of its own block, in input order. -/
def convolutionTerms {S : Type _} [Zero S] [Mul S] : List (List S × List S) → Nat → List S
  | [], _ => []
  | (x, h) :: rest, k =>
    ((List.range x.length).filter (fun i => i ≤ k ∧ k - i < h.length)).map
      (fun i => x.getD i 0 * h.getD (k - i) 0) ++
    (if x.length ≤ k then convolutionTerms rest (k - x.length) else [])

/-- Sample `k` of the output stream for blocks with their own impulse responses. -/
def timeVaryingConvolution {S : Type _} [Zero S] [Add S] [Mul S] (calls : List (List S × List S))
    (k : Nat) : S :=
  (convolutionTerms calls k).foldl (· + ·) 0

/-- No call drops carried over samples: the carryover of each call fits into the next block and the
next carryover. -/
def KeepsAll {S : Type _} : Nat → List (List S × List S) → Prop
  | _, [] => True
  | carryLen, (x, h) :: rest => carryLen ≤ x.length + (h.length - 1) ∧ KeepsAll (h.length - 1) rest


end Sp
