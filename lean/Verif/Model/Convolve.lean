import Verif.C

/-!
# Model of the convolution functions of main.c

Samples are an arbitrary type with operations and no laws. `a`, `b`, `out` and `carryover` are
different arrays (required by `memcpy` in the C code for `out` and `carryover`).
-/

namespace Sp
variable {S : Type _} [Zero S] [Add S] [Mul S]

/-- The body of the inner loops: `out[i + j] += a[i] * b[j]`, index sum on `uint32_t`.
/repo/source/c-precompiled/sph-sp/main.c:259 -/
def convolveStep (a b : Buf S) (i j : Nat) (out : Buf S) : C (Buf S) := do
  let x ← rd a i
  let y ← rd b j
  addAt out (u32 (i + j)) (x * y)

/-- `sp_convolve_one`. /repo/source/c-precompiled/sph-sp/main.c:254-265 -/
def convolveOne (a : Buf S) (aLen : Nat) (b : Buf S) (bLen : Nat) (out : Buf S) : C (Buf S) :=
  forRange 0 aLen (fun i => forRange 0 bLen (fun j => convolveStep a b i j)) out

/-- First part of `sp_convolve`, preparing `out` and `carryover`. Returns (out, carryover).
/repo/source/c-precompiled/sph-sp/main.c:286-300 -/
def convolvePrepare (aLen carryLen : Nat) (carry out : Buf S) : C (Buf S × Buf S) :=
  if carryLen ≠ 0 then
    if carryLen ≤ aLen then do
      let out ← memcpy out 0 carry 0 carryLen
      let carry ← memzero carry 0 carryLen
      let out ← memzero out carryLen (aLen - carryLen)
      return (out, carry)
    else do
      let out ← memcpy out 0 carry 0 aLen
      let carry ← memmove carry 0 aLen (carryLen - aLen)
      let carry ← memzero carry (carryLen - aLen) aLen
      return (out, carry)
  else do
    let out ← memzero out 0 aLen
    return (out, carry)

/-- The body of the loop for values with carryover.
/repo/source/c-precompiled/sph-sp/main.c:309-315 -/
def convolveCarryStep (a : Buf S) (aLen : Nat) (b : Buf S) (i j : Nat) (s : Buf S × Buf S) :
    C (Buf S × Buf S) := do
  let c := u32 (i + j)
  let x ← rd a i
  let y ← rd b j
  if c < aLen then
    let out ← addAt s.1 c (x * y)
    return (out, s.2)
  else
    let carry ← addAt s.2 (c - aLen) (x * y)
    return (s.1, carry)

/-- `sp_convolve`. Returns (out, carryover). /repo/source/c-precompiled/sph-sp/main.c:280-318 -/
def convolve (a : Buf S) (aLen : Nat) (b : Buf S) (bLen carryLen : Nat) (carry out : Buf S) :
    C (Buf S × Buf S) := do
  let (out, carry) ← convolvePrepare aLen carryLen carry out
  let size := if aLen < bLen then 0 else sub32 aLen (sub32 bLen 1)
  let first : C (Buf S) := if size ≠ 0 then convolveOne a size b bLen out else .ok out
  let out ← first
  forRange size aLen (fun i => forRange 0 bLen (fun j => convolveCarryStep a aLen b i j)) (out, carry)

/-- A caller feeding blocks: the first call with the given `carryover_len`, later calls with
`b_len - 1` as the documentation of `sp_convolve` asks (main.c:271-276). Each call gets a fresh `out`
array of the block's length with arbitrary previous content (`junk`).
Returns the outputs in order and the final carryover. -/
def convolveBlocks (junk : S) (b : Buf S) : List (Buf S) → Nat → Buf S → C (List (Buf S) × Buf S)
  | [], _, carry => .ok ([], carry)
  | a :: rest, carryLen, carry => do
    let (out, carry) ← convolve a a.length b b.length carryLen carry (List.replicate a.length junk)
    let (outs, carry) ← convolveBlocks junk b rest (b.length - 1) carry
    return (out :: outs, carry)

end Sp
