import Verif.C

/-!
# Model of string.h and of the display of bits in helper.c

A string is an array of bytes; a byte that has not been set since `malloc` is `none`. The length of the array is the allocated size.
`size_t` has 64 bit. Whether an allocation succeeds is a parameter. Simplified: the arrays that are read do not overlap the new ones.
-/

namespace Sp

/-- Reading a byte. Using the value of one that has not been set is a fault. -/
def rdByte (a : Buf (Option Nat)) (i : Nat) : C Nat := do
  match ← rd a i with
  | some v => pure v
  | none => .error .uninitialized

/-- `strlen` from index `i` on, for at most the `n` bytes that are left of the array. -/
def strlenFrom (a : Buf (Option Nat)) : Nat → Nat → C Nat
  | 0, _ => .error .outOfBounds
  | n + 1, i => do
    let v ← rdByte a i
    if v = 0 then pure i else strlenFrom a n (i + 1)

/-- `strlen`. -/
def strlen (a : Buf (Option Nat)) : C Nat := strlenFrom a (a.length + 1) 0

/-- `malloc` of `n` bytes. -/
def mallocBytes (n : Nat) : Buf (Option Nat) := List.replicate n none

/-- `size_t` reduction. -/
def u64 (n : Nat) : Nat := n % 18446744073709551616

/-- `ensure_trailing_slash`: the returned number and what `*result` is, if it is a new string. With 0 it is the given string, with 1 it is
not set. The length is kept in 32 bit. /repo/source/c/foreign/sph-sc-lib/sph-sp/string.h:7-23 -/
def ensureTrailingSlash (alloc : Bool) (a : Buf (Option Nat)) : C (Nat × Option (Buf (Option Nat))) := do
  let n ← strlen a
  let len := u32 n
  let same ← if len = 0 then pure true else do
    let c ← rdByte a (len - 1)
    pure (decide (c = 47))
  if same then pure (0, none)
  else if ¬ alloc then pure (1, none)
  else do
    let new := mallocBytes (u32 (2 + len))
    let new ← memcpy new 0 a 0 len
    let new ← wr new len (some 47)
    let new ← wr new 0 (some 0)
    pure (2, some new)

/-- `string_append`. /repo/source/c/foreign/sph-sc-lib/sph-sp/string.h:26-35 -/
def stringAppend (alloc : Bool) (a b : Buf (Option Nat)) : C (Option (Buf (Option Nat))) := do
  let la ← strlen a
  let lb ← strlen b
  if ¬ alloc then pure none
  else do
    let result := mallocBytes (u64 (1 + la + lb))
    let result ← memcpy result 0 a 0 la
    let result ← memcpy result la b 0 (1 + lb)
    pure (some result)

/-- `string_clone`. /repo/source/c/foreign/sph-sc-lib/sph-sp/string.h:38-45 -/
def stringClone (alloc : Bool) (a : Buf (Option Nat)) : C (Option (Buf (Option Nat))) := do
  let la ← strlen a
  let size := u64 (1 + la)
  if ¬ alloc then pure none
  else do
    let result ← memcpy (mallocBytes size) 0 a 0 size
    pure (some result)

/-- The loop for the size in `string_join`. /repo/source/c/foreign/sph-sc-lib/sph-sp/string.h:62-64 -/
def joinSizeBody (strings : Buf (Buf (Option Nat))) (i size : Nat) : C Nat := do
  let s ← rd strings i
  let l ← strlen s
  pure (u64 (size + l))

/-- The loop for the copies in `string_join`; the state is `result` and the offset of `result_temp`.
/repo/source/c/foreign/sph-sc-lib/sph-sp/string.h:73-79 -/
def joinBody (strings : Buf (Buf (Option Nat))) (delimiter : Buf (Option Nat)) (dlen i : Nat) (st : Buf (Option Nat) × Nat) :
    C (Buf (Option Nat) × Nat) := do
  let result ← memcpy st.1 st.2 delimiter 0 dlen
  let t := dlen + st.2
  let s ← rd strings i
  let l ← strlen s
  let result ← memcpy result t s 0 l
  pure (result, l + t)

/-- `string_join`: the new string and `*result_len`; `none` if zero is returned (`*result_len` is not set then).
/repo/source/c/foreign/sph-sc-lib/sph-sp/string.h:49-83 -/
def stringJoin (alloc : Bool) (strings : Buf (Buf (Option Nat))) (stringsLen : Nat) (delimiter : Buf (Option Nat)) :
    C (Option (Buf (Option Nat) × Nat)) :=
  if stringsLen = 0 then .ok none
  else do
    let dlen ← strlen delimiter
    let size := u64 (1 + dlen * (stringsLen - 1))
    let size ← forRange 0 stringsLen (joinSizeBody strings) size
    if ¬ alloc then pure none
    else do
      let result := mallocBytes size
      let s ← rd strings 0
      let l ← strlen s
      let result ← memcpy result 0 s 0 l
      let st ← forRange 1 stringsLen (joinBody strings delimiter dlen) (result, l)
      let last := (size + 18446744073709551615) % 18446744073709551616
      let result ← wr st.1 last (some 0)
      pure (some (result, last))

/-- `printf("%u", b)` for a bit. -/
def bitChar (b : Bool) : Char := if b then '1' else '0'

/-- The loop of `sph_helper_display_bits_u8`; the state is the text written so far.
/repo/source/c/foreign/sph-sc-lib/sph-sp/helper.c:75-77 -/
def displayBitsBody (a i : Nat) (out : List Char) : C (List Char) := .ok (out ++ [bitChar (decide ((1 <<< i) &&& a ≠ 0))])

/-- `sph_helper_display_bits_u8`: the text written after `out`. /repo/source/c/foreign/sph-sc-lib/sph-sp/helper.c:72-78 -/
def displayBitsU8 (a : Nat) (out : List Char) : C (List Char) :=
  forRange 1 8 (displayBitsBody a) (out ++ [bitChar (decide (1 &&& a ≠ 0))])

/-- `sph_helper_display_bits`: the text it writes. /repo/source/c/foreign/sph-sc-lib/sph-sp/helper.c:81-87 -/
def displayBits (a : Buf (Option Nat)) (size : Nat) : C (List Char) := do
  let out ← forRange 0 size (fun i out => do
    let v ← rdByte a i
    displayBitsU8 v out) []
  pure (out ++ ['\n'])

end Sp
