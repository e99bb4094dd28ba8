import Mathlib.Data.Nat.Digits.Defs

/-!
# Specification of wav files
-/

namespace Sp

/-- The `k` bytes of a number, the lowest first. -/
def bytesLE (k n : Nat) : List Nat := (List.range k).map fun i => n / 256 ^ i % 256

/-- The number with the given bytes, the lowest first. -/
def numberLE (bytes : List Nat) : Nat := Nat.ofDigits 256 bytes

/-- The bytes of a text. -/
def ascii (s : String) : List Nat := s.toList.map Char.toNat

/-- A wav file with 32 bit float samples. http://soundfile.sapp.org/doc/WaveFormat -/
def wavFile (ch rate : Nat) (data : List Nat) : List Nat :=
  ascii "RIFF" ++ bytesLE 4 (36 + data.length) ++ ascii "WAVE" ++
    ascii "fmt " ++ bytesLE 4 16 ++ bytesLE 2 3 ++ bytesLE 2 ch ++ bytesLE 4 rate ++ bytesLE 4 (rate * ch * 4) ++
    bytesLE 2 (ch * 4) ++ bytesLE 2 32 ++ ascii "data" ++ bytesLE 4 data.length ++ data

/-- Beginning with the chunk whose header is at `p`, the first data chunk's content is at `q`. A chunk header is four letters and the size. -/
inductive DataAt (content : List Nat) : Nat → Nat → Prop
  | here {p : Nat} : p + 8 ≤ content.length → (content.drop p).take 4 = ascii "data" → DataAt content p (p + 8)
  | next {p q : Nat} : p + 8 ≤ content.length → (content.drop p).take 4 ≠ ascii "data" →
      DataAt content (p + 8 + numberLE ((content.drop (p + 4)).take 4)) q → DataAt content p q

/-- The beginning of a wav file. -/
def IsWav (content : List Nat) : Prop :=
  44 ≤ content.length ∧ content.take 4 = ascii "RIFF" ∧ (content.drop 8).take 4 = ascii "WAVE" ∧ (content.drop 12).take 4 = ascii "fmt "

/-- The samples are 32 bit floats. -/
def IsFloat32 (content : List Nat) : Prop :=
  (content.drop 20).take 2 = bytesLE 2 3 ∧ (content.drop 34).take 2 = bytesLE 2 32

end Sp
