import Verif.C

/-!
# Model of formatted output

The part of `printf` that the code uses: `%s`, `%lu`, `%.1f`, `%.3f`, `%.5f` and `%%`. Text is a list of characters. What is a call with
undefined behaviour by the C standard (unknown conversion, missing argument, argument of another kind) is the fault `badFormat`. The code
passes arguments of type `uint32_t` for `%lu`, which reads an `unsigned long` of 64 bit. This is also undefined by the standard; what is read
depends on the upper half of the argument slot, which the caller need not set. The model has it as a parameter (`slot`).
-/

namespace Sp
variable {S : Type}

/-- An argument: `uint32_t`, pointer, `double`, string. -/
inductive PrintArg (S : Type)
  | u32 (n : Nat)
  | ptr (n : Nat)
  | f64 (x : S)
  | str (s : List Char)

/-- What depends on the platform: the number that `%lu` finds where a `uint32_t` was passed, and the text for a `double` with a number of
decimal places. -/
structure Libc (S : Type) where
  slot : Nat → C Nat
  fixed : Nat → S → List Char

/-- A decimal digit. -/
def digitChar (d : Nat) : Char := Char.ofNat (48 + d)

/-- `%lu`: a number in decimal digits. -/
def decimal (n : Nat) : List Char := if h : n < 10 then [digitChar n] else decimal (n / 10) ++ [digitChar (n % 10)]
decreasing_by omega

/-- The text that `printf` makes. -/
def printf (c : Libc S) : List Char → List (PrintArg S) → C (List Char)
  | [], _ => .ok []
  | '%' :: 's' :: r, .str s :: as => do
    let t ← printf c r as
    pure (s ++ t)
  | '%' :: 'l' :: 'u' :: r, .u32 n :: as => do
    let n ← c.slot n
    let t ← printf c r as
    pure (decimal n ++ t)
  | '%' :: 'l' :: 'u' :: r, .ptr n :: as => do
    let t ← printf c r as
    pure (decimal n ++ t)
  | '%' :: '.' :: d :: 'f' :: r, .f64 x :: as => do
    let t ← printf c r as
    pure (c.fixed (d.toNat - 48) x ++ t)
  | '%' :: '%' :: r, as => do
    let t ← printf c r as
    pure ('%' :: t)
  | '%' :: _, _ => .error .badFormat
  | a :: r, as => do
    let t ← printf c r as
    pure (a :: t)

/-- Writing the text `s` at the begin of an array. -/
def writeText (buf : Buf Char) (s : List Char) : C (Buf Char) :=
  if s.length ≤ buf.length then .ok (s ++ buf.drop s.length) else .error .outOfBounds

/-- `snprintf`: at most `size - 1` characters and a null character. -/
def snprintf (buf : Buf Char) (size : Nat) (text : List Char) : C (Buf Char) :=
  if size = 0 then .ok buf else writeText buf (text.take (size - 1) ++ ['\x00'])

/-- The string at the begin of an array: the characters before the first null character. -/
def cString (buf : Buf Char) : C (List Char) :=
  if '\x00' ∈ buf then .ok (buf.takeWhile (· ≠ '\x00')) else .error .outOfBounds

end Sp
