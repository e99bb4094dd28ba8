import Mathlib.Algebra.Order.Field.Rat
import Mathlib.Data.Rat.Floor

/-! # Specification for various small functions -/

namespace Sp

/-- The amplitude of the first channel of a pair for a pan value from 0 to 1: full up to the middle, from there linearly to zero. -/
def panFirst (p : ℚ) : ℚ := max 0 (min 1 (2 * (1 - p)))

/-- The amplitude of the second channel of a pair: linearly from zero to full in the middle, from there full. -/
def panSecond (p : ℚ) : ℚ := max 0 (min 1 (2 * p))

/-- The number with the given bytes, the lowest first. -/
def littleEndian : List Nat → Nat
  | [] => 0
  | x :: xs => x + 256 * littleEndian xs

end Sp
