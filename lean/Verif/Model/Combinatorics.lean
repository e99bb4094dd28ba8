import Verif.Model.Arrays
import Verif.Model.RandomArrays

/-!
# Model of powers, factorials, sequences, permutations and compositions (main.c, arrays.c)

`sp_size_t` and `sp_time_t` are unsigned 32 bit. `fuel` bounds the number of loop iterations of the model;
theorems show which amount is enough. Allocations succeed.
-/

namespace Sp
variable {α : Type}

/-- The loop of `sp_time_expt`. /repo/source/c-precompiled/sph-sp/main.c:532-541 -/
def exptLoop : Nat → Nat → Nat → Nat → C Nat
  | 0, _, _, _ => .error .nonTermination
  | fuel + 1, a, base, exp =>
    let a := if exp &&& 1 ≠ 0 then u32 (a * base) else a
    let exp := exp >>> 1
    if exp = 0 then .ok a else exptLoop fuel a (u32 (base * base)) exp

/-- `sp_time_expt`. /repo/source/c-precompiled/sph-sp/main.c:530-543 -/
def timeExpt (base exp : Nat) : C Nat := exptLoop 33 1 base exp

/-- The loop of `sp_time_factorial`; structural in `n`, which decreases to zero.
/repo/source/c-precompiled/sph-sp/main.c:546-549 -/
def factorialLoop : Nat → Nat → Nat
  | 0, result => result
  | n + 1, result => factorialLoop n (u32 (result * (n + 1)))

/-- `sp_time_factorial`. /repo/source/c-precompiled/sph-sp/main.c:544-551 -/
def timeFactorial (n : Nat) : Nat := factorialLoop n 1

/-- `sp_set_sequence_max`. /repo/source/c-precompiled/sph-sp/main.c:554 -/
def setSequenceMax (setSize selectionSize : Nat) : C Nat :=
  if setSize = 0 then .ok 0 else timeExpt setSize selectionSize

/-- `sp_permutations_max`. /repo/source/c-precompiled/sph-sp/main.c:555 -/
def permutationsMax (setSize selectionSize : Nat) : C Nat :=
  divTime (timeFactorial setSize) (sub32 setSize selectionSize)

/-- `sp_compositions_max`. /repo/source/c-precompiled/sph-sp/main.c:556 -/
def compositionsMax (sum : Nat) : C Nat := timeExpt 2 (sub32 sum 1)

/-- The loop of `sp_modulo_match` from index `i` with `n` divisors left.
/repo/source/c-precompiled/sph-sp/main.c:523-527 -/
def moduloMatchLoop (index : Nat) (divisors : Buf Nat) : Nat → Nat → C (Option Nat)
  | 0, _ => .ok none
  | n + 1, i => do
    let d ← rd divisors i
    if d = 0 then .error .divByZero
    else if index % d = 0 then return some i else moduloMatchLoop index divisors n (i + 1)

/-- `sp_modulo_match`; `size_t` is 64 bit. /repo/source/c-precompiled/sph-sp/main.c:522-529 -/
def moduloMatch (index : Nat) (divisors : Buf Nat) (divisorCount : Nat) : C Nat := do
  let r ← moduloMatchLoop index divisors divisorCount 0
  return r.getD ((divisorCount + 18446744073709551616 - 1) % 18446744073709551616)

/-- The loop of `sp_times_sequence_increment` from index `i` with `n` digits left.
/repo/source/c-precompiled/sph-sp/arrays.c:130-137 -/
def sequenceIncrementLoop (setSize : Nat) : Nat → Nat → Buf Nat → C (Buf Nat)
  | 0, _, b => .ok b
  | n + 1, i, b => do
    let x ← rd b i
    if x < sub32 setSize 1 then wr b i (u32 (x + 1))
    else do
      let b ← wr b i 0
      sequenceIncrementLoop setSize n (i + 1) b

/-- `sp_times_sequence_increment` on the array `b + offset`.
/repo/source/c-precompiled/sph-sp/arrays.c:129-138 -/
def sequenceIncrement (b : Buf Nat) (offset size setSize : Nat) : C (Buf Nat) :=
  sequenceIncrementLoop setSize size offset b

/-- The loop of `sp_times_sequences`. /repo/source/c-precompiled/sph-sp/arrays.c:353-356 -/
def sequencesLoop (base digits setSize : Nat) : Nat → Nat → Buf Nat → C (Buf Nat)
  | 0, _, _ => .error .nonTermination
  | fuel + 1, i, out =>
    if i < u32 (digits * setSize) then do
      let out ← memcpy out i out (sub32 i digits) digits
      let out ← sequenceIncrement out i digits base
      sequencesLoop base digits setSize fuel (u32 (i + digits)) out
    else .ok out

/-- `sp_times_sequences`. /repo/source/c-precompiled/sph-sp/arrays.c:351-357 -/
def timesSequences (base digits setSize fuel : Nat) (out : Buf Nat) : C (Buf Nat) :=
  sequencesLoop base digits setSize fuel digits out

/-- The state of the loop of `sp_times_permutations`; `out` is the array of pointers, each either not set or
to an array with the given content. -/
structure PermState (α : Type) where
  a : Buf α
  s : Buf Nat
  i : Nat
  out : Buf (Option (Buf α))
  used : Nat

/-- The loop of `sp_times_permutations`. /repo/source/c-precompiled/sph-sp/arrays.c:90-107 -/
def permLoop (size : Nat) : Nat → PermState α → C (PermState α)
  | 0, _ => .error .nonTermination
  | fuel + 1, st =>
    if st.i < size then do
      let c ← rd st.s st.i
      if c < st.i then do
        let a ← timesSwap st.a (if st.i &&& 1 ≠ 0 then c else 0) st.i
        let s ← wr st.s st.i (u32 (c + 1))
        let out ← wr st.out st.used (some (a.take size))
        permLoop size fuel { a := a, s := s, i := 0, out := out, used := u32 (st.used + 1) }
      else do
        let s ← wr st.s st.i 0
        permLoop size fuel { st with s := s, i := u32 (st.i + 1) }
    else .ok st

/-- `sp_times_permutations`; returns the set after the call, the array of results and their number. The two
calls of `sp_times_copy` are as in the code: the first copies from the new array `a`, filled with zeros, to
the set. /repo/source/c-precompiled/sph-sp/arrays.c:67-126 -/
def timesPermutations (size fuel : Nat) (set : Buf Nat) : C (Buf Nat × Buf (Option (Buf Nat)) × Nat) := do
  let a := List.replicate size 0
  let s := List.replicate size 0
  let tempOut := List.replicate (timeFactorial size) none
  let b := List.replicate size 0
  let set ← arrayCopy (some a) size set
  let a ← arrayCopy (some b) size a
  let out ← wr tempOut 0 (some b)
  let st ← permLoop size fuel { a := a, s := s, i := 0, out := out, used := 1 }
  return (set, st.out, st.used)

/-- The inner loop of `sp_times_compositions`; returns the array, `k`, `x` and `y`.
/repo/source/c-precompiled/sph-sp/arrays.c:169-174 -/
def compInner : Nat → Buf Nat → Nat → Nat → Nat → C (Buf Nat × Nat × Nat × Nat)
  | 0, _, _, _, _ => .error .nonTermination
  | fuel + 1, a, k, x, y =>
    if 1 ≤ y then do
      let a ← wr a k x
      compInner fuel a (u32 (k + 1)) 1 (sub32 y 1)
    else .ok (a, k, x, y)

/-- The state of the outer loop of `sp_times_compositions`. -/
structure CompState where
  a : Buf Nat
  k : Nat
  out : Buf (Option (Buf Nat))
  sizes : Buf Nat
  used : Nat

/-- The body of the outer loop of `sp_times_compositions`.
/repo/source/c-precompiled/sph-sp/arrays.c:166-181 -/
def compBody (inner : Nat) (st : CompState) : C CompState := do
  let p ← rd st.a (sub32 st.k 1)
  let q ← rd st.a st.k
  let (a, k, x, y) ← compInner inner st.a (sub32 st.k 1) (u32 (p + 1)) (sub32 q 1)
  let a ← wr a k (u32 (x + y))
  let bSize := u32 (k + 1)
  let b ← memcpy (List.replicate bSize 0) 0 a 0 bSize
  let out ← wr st.out st.used (some b)
  let sizes ← wr st.sizes st.used bSize
  return { a := a, k := k, out := out, sizes := sizes, used := u32 (st.used + 1) }

/-- The outer loop of `sp_times_compositions`. /repo/source/c-precompiled/sph-sp/arrays.c:165-182 -/
def compLoop (inner : Nat) : Nat → CompState → C CompState
  | 0, _ => .error .nonTermination
  | fuel + 1, st =>
    if st.k = 0 then .ok st
    else do
      let st ← compBody inner st
      compLoop inner fuel st

/-- `sp_times_compositions`; returns `out`, `out_size` and `out_sizes`.
/repo/source/c-precompiled/sph-sp/arrays.c:142-200 -/
def timesCompositions (sum inner fuel : Nat) : C (Buf (Option (Buf Nat)) × Nat × Buf Nat) := do
  let oSize ← timeExpt 2 (sub32 sum 1)
  let a ← wr (List.replicate (u32 (1 + sum)) 0) 1 sum
  let st ← compLoop inner fuel
    { a := a, k := 1, out := List.replicate oSize none, sizes := List.replicate oSize 0, used := 0 }
  return (st.out, st.used, st.sizes)

end Sp
