import Mathlib.Data.Fin.VecNotation

/-!
# Specification of the random number generators

The published algorithms splitmix64 and xoshiro256** (https://prng.di.unimi.it/splitmix64.c, https://prng.di.unimi.it/xoshiro256starstar.c),
with natural numbers below `2 ^ 64`. Independent of the model of the code.
-/

namespace Sp

/-- `x` exclusive or `x` shifted to the right by `k` bits. -/
def xorShiftRight (x k : ℕ) : ℕ := x ^^^ x / 2 ^ k

/-- The mixing function of splitmix64. -/
def splitmix64Mix (x : ℕ) : ℕ :=
  xorShiftRight (xorShiftRight (xorShiftRight x 30 * 0xbf58476d1ce4e5b9 % 2 ^ 64) 27 * 0x94d049bb133111eb % 2 ^ 64) 31

/-- Number `i` of splitmix64 with the state `seed`, counted from zero. -/
def splitmix64 (seed i : ℕ) : ℕ := splitmix64Mix ((seed + (i + 1) * 0x9e3779b97f4a7c15) % 2 ^ 64)

/-- `x` with its 64 bits rotated to the left. -/
def rotateLeft64 (x k : ℕ) : ℕ := x * 2 ^ k % 2 ^ 64 + x / 2 ^ (64 - k)

/-- The number that xoshiro256** gives in a state of four words. -/
def xoshiroNumber (s : Fin 4 → ℕ) : ℕ := rotateLeft64 (s 1 * 5 % 2 ^ 64) 7 * 9 % 2 ^ 64

/-- The state after that. -/
def xoshiroNext (s : Fin 4 → ℕ) : Fin 4 → ℕ :=
  ![s 0 ^^^ (s 3 ^^^ s 1), s 1 ^^^ (s 2 ^^^ s 0), s 2 ^^^ s 0 ^^^ s 1 * 2 ^ 17 % 2 ^ 64, rotateLeft64 (s 3 ^^^ s 1) 45]

end Sp
