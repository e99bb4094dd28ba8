import Mathlib.Data.Rat.Defs
import Mathlib.Algebra.Order.Field.Rat

/-!
# Numbers as text

How a reader understands a text of numbers: lines that end with a newline, decimal numbers with an optional sign and fraction.
-/

namespace Sp

/-- The value of a decimal digit. -/
def digitValue (c : Char) : Option Nat := if 48 ≤ c.toNat ∧ c.toNat ≤ 57 then some (c.toNat - 48) else none

/-- The value of digits read from left to right, `a` for what was read before. -/
def digitsValue : Nat → List Char → Option Nat
  | a, [] => some a
  | a, c :: r => (digitValue c).bind fun d => digitsValue (10 * a + d) r

/-- The natural number that a text is, if it is one: at least one digit and nothing else. -/
def readNat (s : List Char) : Option Nat := if s = [] then none else digitsValue 0 s

/-- A number without sign: digits, or digits, a point and digits. -/
def readUnsigned (s : List Char) : Option ℚ :=
  match s.dropWhile (· ≠ '.') with
  | [] => (readNat s).map fun n : Nat => (n : ℚ)
  | _ :: frac => (readNat (s.takeWhile (· ≠ '.'))).bind fun n : Nat => (readNat frac).map fun m : Nat => (n : ℚ) + (m : ℚ) / 10 ^ frac.length

/-- The number that a text is. -/
def readNumber : List Char → Option ℚ
  | '-' :: r => (readUnsigned r).map fun x => -x
  | s => readUnsigned s

/-- `text` is made of the lines `ls`. -/
def IsLines (text : List Char) (ls : List (List Char)) : Prop := text = ls.flatMap (fun l => l ++ ['\n']) ∧ ∀ l ∈ ls, '\n' ∉ l

/-- `text` is made of the words `ws`, separated by one blank, and ends with a newline. -/
def IsLineOf (text : List Char) (ws : List (List Char)) : Prop :=
  text = [' '].intercalate ws ++ ['\n'] ∧ ∀ w ∈ ws, '\n' ∉ w ∧ ' ' ∉ w

example : readNumber "-12.375".toList = some (-99 / 8) := by decide +kernel
example : readNumber "1e5".toList = none := by decide +kernel

end Sp
