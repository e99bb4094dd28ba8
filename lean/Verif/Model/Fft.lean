import Verif.C
import Mathlib.Analysis.SpecialFunctions.Trigonometric.Basic

/-!
# Model of the nayuki-fft library and of `sp_fft`, `sp_ffti`

The type of the values is a parameter. With real numbers there is no rounding and `cos`, `sin`, `M_PI` are the real ones;
with `Fl rnd` (Spec/Float.lean) every operation rounds. Allocation succeeds, also allocation of zero bytes (the C standard allows `malloc(0)` to return a null pointer, with
which the length one would fail). Line numbers without a file are for /repo/source/c/foreign/nayuki-fft/fft.c.
-/

noncomputable section

namespace Sp

/-- A pair of arrays, `real` and `imag`. -/
abbrev CBufOf (S : Type) := Buf S × Buf S

/-- With real numbers. -/
abbrev CBuf := CBufOf ℝ

/-- What is used from math.h: `M_PI`, `cos`, `sin`. -/
class Trig (S : Type) where
  pi : S
  cos : S → S
  sin : S → S

instance : Trig ℝ := ⟨Real.pi, Real.cos, Real.sin⟩

variable {S : Type} [Zero S] [Add S] [Sub S] [Mul S] [Neg S] [Div S] [NatCast S] [OfNat S 2] [Trig S]

/-- The number of iterations of the loop that computes `levels`. 55-57 -/
def fftLevels (temp : Nat) : Nat := if h : 1 < temp then fftLevels (temp >>> 1) + 1 else 0
  decreasing_by
    rw [Nat.shiftRight_one]
    omega

/-- The loop body of `reverse_bits`: result and x. 255-256 -/
def reverseBitsBody (_ : Nat) (s : Nat × Nat) : C (Nat × Nat) :=
  .ok (((s.1 <<< 1) % 18446744073709551616) ||| (s.2 &&& 1), s.2 >>> 1)

/-- `reverse_bits`. 253-258 -/
def reverseBits (x n : Nat) : C Nat := do
  let s ← forRange 0 n reverseBitsBody (0, x)
  pure s.1

/-- The loop body that fills the tables of `Fft_transformRadix2`. 70-71 -/
def fftTableBody (n : Nat) (i : Nat) (s : CBufOf S) : C (CBufOf S) := do
  let c ← wr s.1 i (Trig.cos (2 * Trig.pi * i / n))
  let d ← wr s.2 i (Trig.sin (2 * Trig.pi * i / n))
  pure (c, d)

/-- Exchange of two elements. 78-80, 81-83 -/
def fftSwap (a : Buf S) (i j : Nat) : C (Buf S) := do
  let temp ← rd a i
  let v ← rd a j
  let a ← wr a i v
  wr a j temp

/-- The loop body of the bit-reversed addressing permutation. 76-84 -/
def fftPermuteBody (levels : Nat) (i : Nat) (s : CBufOf S) : C (CBufOf S) := do
  let j ← reverseBits i levels
  if j > i then do
    let re ← fftSwap s.1 i j
    let im ← fftSwap s.2 i j
    pure (re, im)
  else pure s

/-- The body of the innermost loop, for its iteration number `h`: j is `i + h` and k is `h * tablestep`. 93-99 -/
def fftButterfly (table : CBufOf S) (halfsize tablestep i : Nat) (h : Nat) (s : CBufOf S) : C (CBufOf S) := do
  let j := i + h
  let k := h * tablestep
  let l := j + halfsize
  let c ← rd table.1 k
  let d ← rd table.2 k
  let rl ← rd s.1 l
  let il ← rd s.2 l
  let tpre := rl * c + il * d
  let tpim := -rl * d + il * c
  let rj ← rd s.1 j
  let re ← wr s.1 l (rj - tpre)
  let ij ← rd s.2 j
  let im ← wr s.2 l (ij - tpim)
  let re ← addAt re j tpre
  let im ← addAt im j tpim
  pure (re, im)

/-- The loop over the blocks, for its iteration number `b`: i is `b * size`. 91-100 -/
def fftBlock (table : CBufOf S) (size tablestep : Nat) (b : Nat) (s : CBufOf S) : C (CBufOf S) :=
  forRange 0 (size / 2) (fftButterfly table (size / 2) tablestep (b * size)) s

/-- The loop over the sizes; the loop over the blocks has `n / size` iterations rounded up. 88-104 -/
def fftStages (table : CBufOf S) (n : Nat) : Nat → Nat → CBufOf S → C (CBufOf S)
  | 0, _, _ => .error .nonTermination
  | fuel + 1, size, s =>
    if size ≤ n then do
      let s ← forRange 0 ((n + size - 1) / size) (fftBlock table size (n / size)) s
      if size = n then pure s else fftStages table n fuel (2 * size % 18446744073709551616) s
    else pure s

/-- `Fft_transformRadix2`. 52-111 -/
def fftRadix2 (n : Nat) (s : CBufOf S) : C (Bool × CBufOf S) :=
  let levels := fftLevels n
  if (1 <<< levels) % 18446744073709551616 ≠ n then pure (false, s)
  else if 18446744073709551615 / 8 < n / 2 then pure (false, s)
  else do
    let table ← forRange 0 (n / 2) (fftTableBody n) (List.replicate (n / 2) 0, List.replicate (n / 2) 0)
    let s ← forRange 0 n (fftPermuteBody levels) s
    let s ← fftStages table n 64 2 s
    pure (true, s)

/-- The loop body of the multiplication in `Fft_convolveComplex`. 231-233 -/
def fftMultiplyBody (y : CBufOf S) (i : Nat) (x : CBufOf S) : C (CBufOf S) := do
  let xr ← rd x.1 i
  let yr ← rd y.1 i
  let xi ← rd x.2 i
  let yi ← rd y.2 i
  let im ← wr x.2 i (xi * yr + xr * yi)
  let re ← wr x.1 i (xr * yr - xi * yi)
  pure (re, im)

/-- The loop body of the scaling. 239-240 -/
def fftScaleBody (n : Nat) (x : CBufOf S) (i : Nat) (out : CBufOf S) : C (CBufOf S) := do
  let xr ← rd x.1 i
  let re ← wr out.1 i (xr / n)
  let xi ← rd x.2 i
  let im ← wr out.2 i (xi / n)
  pure (re, im)

/-- `Fft_convolveComplex`, with the transform that it calls as an argument. The inverse transform is the transform with the arrays
exchanged. 208-250 -/
def fftConvolve (transform : Nat → CBufOf S → C (Bool × CBufOf S)) (n : Nat) (x y out : CBufOf S) : C (Bool × CBufOf S) :=
  if 18446744073709551615 / 8 < n then pure (false, out)
  else do
    let x ← transform n x
    if !x.1 then pure (false, out)
    else do
      let y ← transform n y
      if !y.1 then pure (false, out)
      else do
        let x ← forRange 0 n (fftMultiplyBody y.2) x.2
        let x ← transform n (x.2, x.1)
        if !x.1 then pure (false, out)
        else do
          let out ← forRange 0 n (fftScaleBody n (x.2.2, x.2.1)) out
          pure (true, out)

/-- The loop that finds the convolution length: `none` if it is too large. 118-123 -/
def fftLength (n : Nat) : Nat → Nat → C (Option Nat)
  | 0, _ => .error .nonTermination
  | fuel + 1, m =>
    if m / 2 ≤ n then
      if m > 18446744073709551615 / 2 then .ok none else fftLength n fuel (m * 2)
    else .ok (some m)

/-- The loop body that fills the tables of `Fft_transformBluestein`. 146-151 -/
def chirpTableBody (n : Nat) (i : Nat) (s : CBufOf S) : C (CBufOf S) := do
  let temp := (i * i % 18446744073709551616) % (n * 2 % 18446744073709551616)
  let c ← wr s.1 i (Trig.cos (Trig.pi * temp / n))
  let d ← wr s.2 i (Trig.sin (Trig.pi * temp / n))
  pure (c, d)

/-- The product with the conjugate of the table, in the preprocessing (156-157) and in the postprocessing (172-173). -/
def chirpMultiplyBody (table x : CBufOf S) (i : Nat) (out : CBufOf S) : C (CBufOf S) := do
  let r ← rd x.1 i
  let c ← rd table.1 i
  let j ← rd x.2 i
  let d ← rd table.2 i
  let re ← wr out.1 i (r * c + j * d)
  let im ← wr out.2 i (-r * d + j * c)
  pure (re, im)

/-- `breal[i] = breal[m - i] = cos_table[i]` and for the other array. 162-163 -/
def chirpMirrorBody (table : CBufOf S) (m : Nat) (i : Nat) (b : CBufOf S) : C (CBufOf S) := do
  let c ← rd table.1 i
  let re ← wr b.1 (m - i) c
  let re ← wr re i c
  let d ← rd table.2 i
  let im ← wr b.2 (m - i) d
  let im ← wr im i d
  pure (re, im)

/-- The first elements of b. 159-160 -/
def chirpFirst (table : CBufOf S) (b : CBufOf S) : C (CBufOf S) := do
  let c ← rd table.1 0
  let re ← wr b.1 0 c
  let d ← rd table.2 0
  let im ← wr b.2 0 d
  pure (re, im)

/-- `Fft_transformBluestein` with the transform that `Fft_convolveComplex` calls as an argument. 114-188. The loop that writes
the result reads creal and cimag only, so that the arrays it writes can be separate. -/
def fftBluestein (transform : Nat → CBufOf S → C (Bool × CBufOf S)) (n : Nat) (s : CBufOf S) : C (Bool × CBufOf S) := do
  let m? ← fftLength n 65 1
  match m? with
  | none => pure (false, s)
  | some m =>
    if 18446744073709551615 / 8 < n ∨ 18446744073709551615 / 8 < m then pure (false, s)
    else do
      let table ← forRange 0 n (chirpTableBody n) (List.replicate n 0, List.replicate n 0)
      let a ← forRange 0 n (chirpMultiplyBody table s) (List.replicate m 0, List.replicate m 0)
      let b ← chirpFirst table (List.replicate m 0, List.replicate m 0)
      let b ← forRange 1 n (chirpMirrorBody table m) b
      let c ← fftConvolve transform m a b (List.replicate m 0, List.replicate m 0)
      if !c.1 then pure (false, s)
      else do
        let s ← forRange 0 n (chirpMultiplyBody table c.2) s
        pure (true, s)

/-- `Fft_transform`. 37-44. `Fft_transform`, `Fft_transformBluestein` and `Fft_convolveComplex` are mutually recursive; the first argument
is the allowed depth of the recursion. -/
def fftTransform : Nat → Nat → CBufOf S → C (Bool × CBufOf S)
  | 0, _, _ => .error .nonTermination
  | depth + 1, n, s =>
    if n = 0 then pure (true, s)
    else if n &&& (n - 1) = 0 then fftRadix2 n s
    else fftBluestein (fftTransform depth) n s

/-- `sp_fft`: the return value and the arrays. /repo/source/c-precompiled/sph-sp/main.c:221 -/
def spFft (n : Nat) (re im : Buf S) : C (Nat × Buf S × Buf S) := do
  let r ← fftTransform 2 n (re, im)
  pure (if r.1 then 0 else 1, r.2.1, r.2.2)

/-- `sp_ffti`, with `Fft_inverseTransform`. /repo/source/c-precompiled/sph-sp/main.c:227, 47-49 -/
def spFfti (n : Nat) (re im : Buf S) : C (Nat × Buf S × Buf S) := do
  let r ← fftTransform 2 n (im, re)
  pure (if r.1 then 0 else 1, r.2.2, r.2.1)

end Sp
