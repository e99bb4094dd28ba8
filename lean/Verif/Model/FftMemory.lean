import Verif.Model.Fft
import Verif.Model.Noise

/-!
# Model of the nayuki-fft library with its memory

Like `Verif.Model.Fft`, with the allocation and release of the temporary arrays, and with allocations that fail. Line numbers without a
file are for /repo/source/c/foreign/nayuki-fft/fft.c.
-/

noncomputable section

namespace Sp

/-- The live allocations and the number of allocations that have been tried. -/
structure Alloc where
  live : Live
  count : Nat

/-- `malloc`, `calloc`: the allocation with number `k` succeeds if `ok k`, otherwise the result is null. This includes the choice of the library for
allocations of zero bytes. -/
def Alloc.malloc (ok : Nat → Bool) (a : Alloc) : Option Nat × Alloc :=
  if ok a.count then (some a.live.malloc.1, ⟨a.live.malloc.2, a.count + 1⟩) else (none, ⟨a.live, a.count + 1⟩)

/-- `free` for pointers in the given order. -/
def Alloc.free : List (Option Nat) → Alloc → C Alloc
  | [], a => .ok a
  | p :: ps, a => do
    let live ← a.live.free p
    Alloc.free ps ⟨live, a.count⟩

variable {S : Type} [Zero S] [Add S] [Sub S] [Mul S] [Neg S] [Div S] [NatCast S] [OfNat S 2] [Trig S]

/-- `Fft_transformRadix2`. 52-111 -/
def fftRadix2Mem (ok : Nat → Bool) (n : Nat) (s : CBufOf S) (a : Alloc) : C (Bool × CBufOf S × Alloc) :=
  let levels := fftLevels n
  if (1 <<< levels) % 18446744073709551616 ≠ n then pure (false, s, a)
  else if 18446744073709551615 / 8 < n / 2 then pure (false, s, a)
  else do
    let (cosTable, a) := a.malloc ok
    let (sinTable, a) := a.malloc ok
    if cosTable.isNone || sinTable.isNone then do
      let a ← a.free [cosTable, sinTable]
      pure (false, s, a)
    else do
      let table ← forRange 0 (n / 2) (fftTableBody n) (List.replicate (n / 2) 0, List.replicate (n / 2) 0)
      let s ← forRange 0 n (fftPermuteBody levels) s
      let s ← fftStages table n 64 2 s
      let a ← a.free [cosTable, sinTable]
      pure (true, s, a)

/-- `Fft_convolveComplex`, see `fftConvolve`. The copies are made with `memdup`. 208-250, 261-266 -/
def fftConvolveMem (ok : Nat → Bool) (transform : Nat → CBufOf S → Alloc → C (Bool × CBufOf S × Alloc)) (n : Nat) (x y out : CBufOf S)
    (a : Alloc) : C (Bool × CBufOf S × Alloc) :=
  if 18446744073709551615 / 8 < n then pure (false, out, a)
  else do
    let (xr, a) := a.malloc ok
    let (xi, a) := a.malloc ok
    let (yr, a) := a.malloc ok
    let (yi, a) := a.malloc ok
    if xr.isNone || xi.isNone || yr.isNone || yi.isNone then do
      let a ← a.free [yi, yr, xi, xr]
      pure (false, out, a)
    else do
      let (st, x, a) ← transform n x a
      if !st then do
        let a ← a.free [yi, yr, xi, xr]
        pure (false, out, a)
      else do
        let (st, y, a) ← transform n y a
        if !st then do
          let a ← a.free [yi, yr, xi, xr]
          pure (false, out, a)
        else do
          let x ← forRange 0 n (fftMultiplyBody y) x
          let (st, x, a) ← transform n (x.2, x.1) a
          if !st then do
            let a ← a.free [yi, yr, xi, xr]
            pure (false, out, a)
          else do
            let out ← forRange 0 n (fftScaleBody n (x.2, x.1)) out
            let a ← a.free [yi, yr, xi, xr]
            pure (true, out, a)

/-- `Fft_transformBluestein`, see `fftBluestein`. 114-188 -/
def fftBluesteinMem (ok : Nat → Bool) (transform : Nat → CBufOf S → Alloc → C (Bool × CBufOf S × Alloc)) (n : Nat) (s : CBufOf S)
    (a : Alloc) : C (Bool × CBufOf S × Alloc) := do
  let m? ← fftLength n 65 1
  match m? with
  | none => pure (false, s, a)
  | some m =>
    if 18446744073709551615 / 8 < n ∨ 18446744073709551615 / 8 < m then pure (false, s, a)
    else do
      let (cosTable, a) := a.malloc ok
      let (sinTable, a) := a.malloc ok
      let (ar, a) := a.malloc ok
      let (ai, a) := a.malloc ok
      let (br, a) := a.malloc ok
      let (bi, a) := a.malloc ok
      let (cr, a) := a.malloc ok
      let (ci, a) := a.malloc ok
      let all := [ci, cr, bi, br, ai, ar, sinTable, cosTable]
      if cosTable.isNone || sinTable.isNone || ar.isNone || ai.isNone || br.isNone || bi.isNone || cr.isNone || ci.isNone then do
        let a ← a.free all
        pure (false, s, a)
      else do
        let table ← forRange 0 n (chirpTableBody n) (List.replicate n 0, List.replicate n 0)
        let x ← forRange 0 n (chirpMultiplyBody table s) (List.replicate m 0, List.replicate m 0)
        let y ← chirpFirst table (List.replicate m 0, List.replicate m 0)
        let y ← forRange 1 n (chirpMirrorBody table m) y
        let (st, c, a) ← fftConvolveMem ok transform m x y (List.replicate m 0, List.replicate m 0) a
        if !st then do
          let a ← a.free all
          pure (false, s, a)
        else do
          let s ← forRange 0 n (chirpMultiplyBody table c) s
          let a ← a.free all
          pure (true, s, a)

/-- `Fft_transform`, see `fftTransform`. 37-44 -/
def fftTransformMem (ok : Nat → Bool) : Nat → Nat → CBufOf S → Alloc → C (Bool × CBufOf S × Alloc)
  | 0, _, _, _ => .error .nonTermination
  | depth + 1, n, s, a =>
    if n = 0 then pure (true, s, a)
    else if n &&& (n - 1) = 0 then fftRadix2Mem ok n s a
    else fftBluesteinMem ok (fftTransformMem ok depth) n s a

/-- `sp_fft`: the return value and the arrays. /repo/source/c-precompiled/sph-sp/main.c:221 -/
def spFftMem (ok : Nat → Bool) (n : Nat) (re im : Buf S) (a : Alloc) : C (Nat × Buf S × Buf S × Alloc) := do
  let (st, s, a) ← fftTransformMem ok 2 n (re, im) a
  pure (if st then 0 else 1, s.1, s.2, a)

/-- `sp_ffti`, with `Fft_inverseTransform`. /repo/source/c-precompiled/sph-sp/main.c:227, 47-49 -/
def spFftiMem (ok : Nat → Bool) (n : Nat) (re im : Buf S) (a : Alloc) : C (Nat × Buf S × Buf S × Alloc) := do
  let (st, s, a) ← fftTransformMem ok 2 n (im, re) a
  pure (if st then 0 else 1, s.2, s.1, a)

end Sp
