import Verif.C
import Mathlib.Data.Rat.Defs
import Mathlib.Algebra.Order.Ring.Rat

/-!
# Model of the random number generators (random.c)

64 bit words are `BitVec 64`. Doubles are rational numbers with an explicit rounding function `rnd`
after each operation.
-/

namespace Sp

/-- `uint64_t`. -/
abbrev U64 := BitVec 64

/-- `sph_random_state_t`. -/
structure RandomState where
  s0 : U64
  s1 : U64
  s2 : U64
  s3 : U64
  deriving DecidableEq

/-- `sph_rotl`. /repo/source/c/foreign/sph-sc-lib/sph-sp/random.c:2 -/
def rotl (x : U64) (k : Nat) : U64 := (x <<< k) ||| (x >>> (64 - k))

/-- The value derived from one seed value. /repo/source/c/foreign/sph-sc-lib/sph-sp/random.c:16-19 -/
def splitmix (z : U64) : U64 :=
  let z := (z ^^^ (z >>> 30)) * 13787848793156543929#64
  let z := (z ^^^ (z >>> 27)) * 10723151780598845931#64
  z ^^^ (z >>> 31)

/-- The constant added to the seed. /repo/source/c/foreign/sph-sc-lib/sph-sp/random.c:15 -/
def seedStep : U64 := 11400714819323198485#64

/-- `sph_random_state_new`, the loop unrolled.
/repo/source/c/foreign/sph-sc-lib/sph-sp/random.c:11-22 -/
def randomStateNew (seed : U64) : RandomState :=
  let seed1 := seed + seedStep
  let seed2 := seed1 + seedStep
  let seed3 := seed2 + seedStep
  let seed4 := seed3 + seedStep
  ⟨splitmix seed1, splitmix seed2, splitmix seed3, splitmix seed4⟩

/-- The change of the state in `sph_random_u64` and `sph_random_f64_bounded`, the assignments in
order. /repo/source/c/foreign/sph-sc-lib/sph-sp/random.c:35-41 and 81-87 -/
def RandomState.next (s : RandomState) : RandomState :=
  let t := s.s1 <<< 17
  let s2 := s.s2 ^^^ s.s0
  let s3 := s.s3 ^^^ s.s1
  let s1 := s.s1 ^^^ s2
  let s0 := s.s0 ^^^ s3
  let s2 := s2 ^^^ t
  let s3 := rotl s3 45
  ⟨s0, s1, s2, s3⟩

/-- `sph_random_u64`. /repo/source/c/foreign/sph-sc-lib/sph-sp/random.c:29-43 -/
def randomU64 (s : RandomState) : U64 × RandomState := (9 * rotl (5 * s.s1) 7, s.next)

/-- The raw number of `sph_random_f64_bounded`.
/repo/source/c/foreign/sph-sc-lib/sph-sp/random.c:75-88 -/
def randomU64Plus (s : RandomState) : U64 × RandomState := (s.s0 + s.s3, s.next)

/-- `sp_random_state_new`. /repo/source/c-precompiled/sph-sp/main.c:413-419 -/
def spRandomStateNew (seed : Nat) : RandomState := (randomStateNew (BitVec.ofNat 64 (u32 seed))).next.next

/-- The loop of `sph_random_u64_bounded` that draws again while the low word is less than `t`. The
generator `draw` gives numbers below 2^64. /repo/source/c/foreign/sph-sc-lib/sph-sp/random.c:64-68 -/
def boundedLoop {σ : Type} (draw : σ → Nat × σ) (range t : Nat) : Nat → Nat → σ → C (Nat × σ)
  | 0, _, _ => .error .nonTermination
  | fuel + 1, m, s =>
    if m % 18446744073709551616 < t then
      boundedLoop draw range t fuel ((draw s).1 * range) (draw s).2
    else .ok (m / 18446744073709551616, s)

/-- The threshold. /repo/source/c/foreign/sph-sc-lib/sph-sp/random.c:57-63 -/
def boundedThreshold (range : Nat) : Nat :=
  let t := (18446744073709551616 - range) % 18446744073709551616
  if t ≥ range then
    let t := t - range
    if t ≥ range then t % range else t
  else t

/-- `sph_random_u64_bounded`, for an arbitrary generator in place of `sph_random_u64`. The products
are below 2^128. /repo/source/c/foreign/sph-sc-lib/sph-sp/random.c:48-71 -/
def randomBounded {σ : Type} (draw : σ → Nat × σ) (fuel range : Nat) (s : σ) : C (Nat × σ) :=
  let m := (draw s).1 * range
  let s := (draw s).2
  if m % 18446744073709551616 < range then boundedLoop draw range (boundedThreshold range) fuel m s
  else .ok (m / 18446744073709551616, s)

/-- `sph_random_u64_bounded`. /repo/source/c/foreign/sph-sc-lib/sph-sp/random.c:48-71 -/
def randomU64Bounded (fuel range : Nat) (s : RandomState) : C (Nat × RandomState) :=
  randomBounded (fun s => ((randomU64 s).1.toNat, (randomU64 s).2)) fuel range s

/-- `sph_random_u32_bounded`, also known as `sp_time_random_bounded`.
/repo/source/c/foreign/sph-sc-lib/sph-sp/random.c:112 and sph-sp.h:65 -/
def randomU32Bounded (fuel range : Nat) (s : RandomState) : C (Nat × RandomState) := do
  let (r, s) ← randomU64Bounded fuel range s
  return (u32 r, s)

/-- `sph_random_f64_from_u64`: conversion of the upper 53 bits to double, multiplication.
/repo/source/c/foreign/sph-sc-lib/sph-sp/random.c:7 -/
def f64FromU64 (rnd : ℚ → ℚ) (a : U64) : ℚ := rnd (rnd ((a >>> 11).toNat : ℚ) * (1 / 2 ^ 53))

/-- `sph_random_f64`. /repo/source/c/foreign/sph-sc-lib/sph-sp/random.c:90 -/
def randomF64 (rnd : ℚ → ℚ) (s : RandomState) : ℚ × RandomState := (f64FromU64 rnd (randomU64 s).1, s.next)

/-- `sph_random_f64_bounded`. /repo/source/c/foreign/sph-sc-lib/sph-sp/random.c:75-89 -/
def randomF64Bounded (rnd : ℚ → ℚ) (range : ℚ) (s : RandomState) : ℚ × RandomState :=
  (rnd (range * f64FromU64 rnd (randomU64Plus s).1), s.next)

/-- `sph_random_f64_0to1`. /repo/source/c/foreign/sph-sc-lib/sph-sp/random.c:133 -/
def randomF64_0to1 (rnd : ℚ → ℚ) (s : RandomState) : ℚ × RandomState := randomF64Bounded rnd 1 s

/-- `sph_random_f64_1to1`. /repo/source/c/foreign/sph-sc-lib/sph-sp/random.c:125 -/
def randomF64_1to1 (rnd : ℚ → ℚ) (s : RandomState) : ℚ × RandomState :=
  (rnd ((randomF64Bounded rnd 2 s).1 - 1), s.next)

end Sp
