import Verif.C

/-!
# Model of the array functions that use random numbers (arrays.c)

The source of bounded random numbers is a parameter: `sp_time_random_bounded` of the model
`Verif.Model.Random`, or any other.
-/

namespace Sp

/-- A source of bounded random numbers with state `σ`: `rand n` gives a number below `n`. -/
abbrev Rand (σ : Type) := Nat → σ → C (Nat × σ)

/-- `sp_times_swap`. The second instance of the template, `sp_samples_swap`, has the same parameter
type `sp_time_t*`. The indices have the signed type `sp_ssize_t` with 32 bit: the callers pass `sp_size_t`, and values from `2 ^ 31` on
become negative and outside of the array. /repo/source/c-precompiled/sph-sp/arrays-template.c:110-114 -/
def timesSwap {α : Type} (m : Buf α) (i j : Nat) : C (Buf α) := do
  if 2147483648 ≤ i ∨ 2147483648 ≤ j then .error .outOfBounds
  let temp ← rd m i
  let v ← rd m j
  let m ← wr m i v
  wr m j temp

/-- The loop body of `sp_shuffle`. /repo/source/c-precompiled/sph-sp/arrays.c:597-598 -/
def shuffleStep {σ M : Type} (rand : Rand σ) (swap : M → Nat → Nat → C M) (count i : Nat) (ms : M × σ) :
    C (M × σ) := do
  let (d, s) ← rand (sub32 count i) ms.2
  let m ← swap ms.1 i (u32 (i + d))
  return (m, s)

/-- `sp_shuffle` for the swap function `swap`. /repo/source/c-precompiled/sph-sp/arrays.c:594-600 -/
def shuffle {σ M : Type} (rand : Rand σ) (swap : M → Nat → Nat → C M) (m : M) (count : Nat) (s : σ) :
    C (M × σ) :=
  forRange 0 count (shuffleStep rand swap count) (m, s)

/-- `sp_times_shuffle`. /repo/source/c-precompiled/sph-sp/arrays-template.c:115 -/
def timesShuffle {σ α : Type} (rand : Rand σ) (m : Buf α) (count : Nat) (s : σ) : C (Buf α × σ) :=
  shuffle rand timesSwap m count s

/-- `sp_times_shuffle_swap` for an array of pointers; the pointers are values of `α`, the element size 8 bytes is that of a pointer.
/repo/source/c-precompiled/sph-sp/arrays.c:299-304 -/
def pointerSwap {α : Type} (m : Buf α) (i j : Nat) : C (Buf α) := do
  let b ← rd m i
  let v ← rd m j
  let m ← wr m i v
  wr m j b

/-- `sp_times_shuffle_swap` for an array of 32 bit words: element `i` of the pointer array is the words `2 * i` and `2 * i + 1`. Byte order
and alignment are left out. /repo/source/c-precompiled/sph-sp/arrays.c:299-304 -/
def pointerSwapWords {α : Type} (m : Buf α) (i j : Nat) : C (Buf α) := do
  let a ← rd m (2 * i)
  let b ← rd m (2 * i + 1)
  let c ← rd m (2 * j)
  let d ← rd m (2 * j + 1)
  let m ← wr m (2 * i) c
  let m ← wr m (2 * i + 1) d
  let m ← wr m (2 * j) a
  wr m (2 * j + 1) b

/-- `sp_samples_shuffle`. The array is seen as the swap function sees it, as an array of 32 bit words:
sample `i` is the words `2 * i` and `2 * i + 1`.
/repo/source/c-precompiled/sph-sp/arrays-template.c:110-115 -/
def samplesShuffle {σ α : Type} (rand : Rand σ) (words : Buf α) (count : Nat) (s : σ) : C (Buf α × σ) :=
  shuffle rand timesSwap words count s

/-- The search loop of `sp_time_random_discrete` from index `i`, `n` indices left: `none` if it runs to
the end. /repo/source/c-precompiled/sph-sp/arrays.c:49-53 and 39-44 -/
def discreteFind (cudist : Buf Nat) (deviate : Nat) : Nat → Nat → C (Option Nat)
  | 0, _ => .ok none
  | n + 1, i => do
    let c ← rd cudist i
    if deviate < c then return some i else discreteFind cudist deviate n (i + 1)

/-- `sp_time_random_discrete`. /repo/source/c-precompiled/sph-sp/arrays.c:47-55 -/
def timeRandomDiscrete {σ : Type} (rand : Rand σ) (cudist : Buf Nat) (cudistSize : Nat) (s : σ) :
    C (Nat × σ) := do
  let sum ← rd cudist (sub32 cudistSize 1)
  let (deviate, s) ← rand sum s
  let r ← discreteFind cudist deviate cudistSize 0
  return (r.getD cudistSize, s)

/-- `sp_times_random_discrete`. /repo/source/c-precompiled/sph-sp/arrays.c:33-46 -/
def timesRandomDiscrete {σ : Type} (rand : Rand σ) (cudist : Buf Nat) (cudistSize count : Nat)
    (out : Buf Nat) (s : σ) : C (Buf Nat × σ) := do
  let sum ← rd cudist (sub32 cudistSize 1)
  forRange 0 count (fun i (os : Buf Nat × σ) => do
    let (deviate, s) ← rand sum os.2
    let r ← discreteFind cudist deviate cudistSize 0
    match r with
    | some k => do
      let out ← wr os.1 i k
      return (out, s)
    | none => return (os.1, s)) (out, s)

/-- `sp_times_contains` from index `i`, `n` elements left. An element `none` is not initialised.
/repo/source/c-precompiled/sph-sp/arrays.c:324-331 -/
def timesContains (b : Buf (Option Nat)) (value : Nat) : Nat → Nat → C Bool
  | 0, _ => .ok false
  | n + 1, i => do
    let c ← rd b i
    match c with
    | none => .error .uninitialized
    | some c => if value = c then return true else timesContains b value n (i + 1)

/-- The loop of `sp_times_random_discrete_unique`.
/repo/source/c-precompiled/sph-sp/arrays.c:338-345 -/
def discreteUniqueLoop {σ : Type} (rand : Rand σ) (cudist : Buf Nat) (cudistSize size : Nat) :
    Nat → Nat → Buf (Option Nat) → σ → C (Buf (Option Nat) × σ)
  | 0, _, _, _ => .error .nonTermination
  | fuel + 1, remaining, out, s =>
    if remaining = 0 then .ok (out, s) else do
      let (a, s) ← timeRandomDiscrete rand cudist cudistSize s
      let found ← timesContains out a (sub32 size remaining) 0
      if found then discreteUniqueLoop rand cudist cudistSize size fuel remaining out s else do
        let out ← wr out (sub32 size remaining) (some a)
        discreteUniqueLoop rand cudist cudistSize size fuel (remaining - 1) out s

/-- `sp_times_random_discrete_unique`. /repo/source/c-precompiled/sph-sp/arrays.c:334-346 -/
def timesRandomDiscreteUnique {σ : Type} (rand : Rand σ) (cudist : Buf Nat) (cudistSize size fuel : Nat)
    (out : Buf (Option Nat)) (s : σ) : C (Buf (Option Nat) × σ) :=
  discreteUniqueLoop rand cudist cudistSize size fuel (if size < cudistSize then size else cudistSize) out s

end Sp
