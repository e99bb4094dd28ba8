import Verif.Model.WaveDefaults
import Verif.Model.ConvolutionFilter

/-! # A program that plays a tone block by block -/

namespace Sp

/-- A program that uses the library: for each of the sizes, `sp_samples_new` gives zeros to which `sp_sine` adds the tone, with an amplitude modulation that
is constantly one, and the phase is kept in one variable between the calls. Not code of the library; it calls
/repo/source/c-precompiled/sph-sp/main.c:211-213 -/
def sineBlocks {S : Type} [Zero S] [One S] [Add S] [Mul S] (table : Buf S) (rate : Nat) (amp : S) (frq : Nat) : List Nat → Nat → C (List (Buf S))
  | [], _ => .ok []
  | size :: rest, phase => do
    let (phase', out) ← sine table rate size amp (some (List.replicate size 1)) frq none (some phase) (List.replicate size 0)
    let more ← sineBlocks table rate amp frq rest (phase'.getD 0)
    return out :: more

/-- The arguments for one tone: amplitude, frequency in hertz, and the phase variable whose address is passed to `sp_sine`. -/
structure SineTone (S : Type) where
  amp : S
  frq : Nat
  phase : Nat

/-- A program that adds one block of each of several tones to an array, with one call of `sp_sine` for each tone. Not code of the library; it calls
/repo/source/c-precompiled/sph-sp/main.c:211-213 -/
def chordBlock {S : Type} [One S] [Add S] [Mul S] (table : Buf S) (rate size : Nat) : List (SineTone S) → Buf S → C (List (SineTone S) × Buf S)
  | [], out => .ok ([], out)
  | x :: rest, out => do
    let (phase, out) ← sine table rate size x.amp (some (List.replicate size 1)) x.frq none (some x.phase) out
    let (rest, out) ← chordBlock table rate size rest out
    return ({ x with phase := phase.getD 0 } :: rest, out)

/-- The program for blocks of the given sizes, each in an array of its own that is zero at first. -/
def chordBlocks {S : Type} [Zero S] [One S] [Add S] [Mul S] (table : Buf S) (rate : Nat) : List Nat → List (SineTone S) → C (List (Buf S))
  | [], _ => .ok []
  | size :: rest, tones => do
    let (tones, out) ← chordBlock table rate size tones (List.replicate size 0)
    let more ← chordBlocks table rate rest tones
    return out :: more

end Sp
