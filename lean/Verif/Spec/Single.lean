import Verif.Spec.Float
import Verif.Model.File

/-!
# Floating point numbers of type `float`

IEEE 754 binary32: the finite numbers, their 32 bit patterns, and what the conversions between `double` and `float` and the storage of a
`float` in memory do. The conversion of numbers above the largest finite one, which gives an infinity, is left open.
-/

namespace Sp

/-- The finite numbers of IEEE 754 binary32. -/
def IsSingle (q : ℚ) : Prop := ∃ m e : ℤ, |m| < 2 ^ 24 ∧ -149 ≤ e ∧ e ≤ 104 ∧ q = m * (2 : ℚ) ^ e

/-- The largest finite number. -/
def singleMax : ℚ := (2 ^ 24 - 1) * (2 : ℚ) ^ (104 : ℤ)

/-- A finite number that no other is nearer to `x` than. -/
def NearestSingle (x y : ℚ) : Prop := IsSingle y ∧ ∀ z, IsSingle z → |x - y| ≤ |x - z|

/-- The bit pattern is not an infinity or NaN: not all bits of the exponent are set. -/
def SingleFinite (b : Nat) : Prop := b / 2 ^ 23 % 256 ≠ 255

instance (b : Nat) : Decidable (SingleFinite b) := inferInstanceAs (Decidable (_ ≠ _))

/-- The number with the bit pattern: one bit for the sign, eight for the exponent, 23 for the fraction. -/
def singleValue (b : Nat) : ℚ :=
  (if b / 2 ^ 31 % 2 = 0 then 1 else -1) *
    (if b / 2 ^ 23 % 256 = 0 then ((b % 2 ^ 23 : Nat) : ℚ) * (2 : ℚ) ^ (-149 : ℤ)
     else ((2 ^ 23 + b % 2 ^ 23 : Nat) : ℚ) * (2 : ℚ) ^ ((b / 2 ^ 23 % 256 : Nat) - 150 : ℤ))

/-- The conversions of the compiler and machine: a conversion to `float` gives the pattern of a nearest number, a conversion to `double`
does not change the number, and a `float` in memory is its pattern with the lowest byte first. -/
structure IsSingleFmt {rnd : ℚ → ℚ} (fmt : FloatFmt (Fl rnd) (Fin (2 ^ 32))) : Prop where
  finite : ∀ x : Fl rnd, |x.val| ≤ singleMax → SingleFinite (fmt.narrow x)
  nearest : ∀ (x : Fl rnd) (b : Fin (2 ^ 32)), |x.val| ≤ singleMax → SingleFinite b →
    |x.val - singleValue (fmt.narrow x)| ≤ |x.val - singleValue b|
  widen : ∀ b : Fin (2 ^ 32), SingleFinite b → (fmt.widen b).val = singleValue b
  bytes : ∀ b : Fin (2 ^ 32), fmt.toBytes b = [b.val % 256, b.val / 256 % 256, b.val / 65536 % 256, b.val / 16777216 % 256]

end Sp
