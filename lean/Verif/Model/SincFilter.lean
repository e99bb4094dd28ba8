import Verif.Model.ConvolutionFilter

/-!
# Model of the windowed sinc filters (filter.c)

The filters write their parameters to an array of bytes, which the filter state keeps to see if the parameters have
changed, and from which the impulse response functions read the parameters. The creation of the kernel itself is a
parameter here, see `Verif.Model.Filter` for it.
-/

namespace Sp
variable {S : Type}

/-- How samples are stored in memory. A sample has eight bytes, from which it can be read again. -/
structure SampleBytes (S : Type) where
  enc : S → List UInt8
  dec : List UInt8 → S
  enc_length : ∀ x, (enc x).length = 8
  dec_enc : ∀ x, dec (enc x) = x

/-- The impulse response functions. -/
inductive SincFunction
  | lpHp
  | bpBr
deriving DecidableEq, Repr

/-- The parameters of one call of `sp_windowed_sinc_lp_hp` or `sp_windowed_sinc_bp_br`. -/
inductive SincCall (S : Type)
  | lpHp (cutoff transition : S) (isHighPass : UInt8)
  | bpBr (cutoffL cutoffH transitionL transitionH : S) (isReject : UInt8)

/-- `*(i + (sp_sample_t*)a) = x`. -/
def wrSample (e : SampleBytes S) (a : Buf UInt8) (i : Nat) (x : S) : C (Buf UInt8) := memcpy a (8 * i) (e.enc x) 0 8

/-- `*(i + (sp_sample_t*)a)`. Reading outside of the array is not excluded here, as the impulse response functions do not
know its length. -/
def rdSample (e : SampleBytes S) (a : Buf UInt8) (i : Nat) : S := e.dec ((a.drop (8 * i)).take 8)

/-- The argument arrays. `a` is the array before it is written to.
/repo/source/c-precompiled/sph-sp/filter.c:272-280,289-299 -/
def sincArgs (e : SampleBytes S) (a : Buf UInt8) : SincCall S → C (Buf UInt8)
  | .lpHp cutoff transition isHighPass => do
    let a ← wrSample e a 0 cutoff
    let a ← wrSample e a 1 transition
    wr a 16 isHighPass
  | .bpBr cutoffL cutoffH transitionL transitionH isReject => do
    let a ← wrSample e a 0 cutoffL
    let a ← wrSample e a 1 cutoffH
    let a ← wrSample e a 2 transitionL
    let a ← wrSample e a 3 transitionH
    wr a 32 isReject

/-- The impulse response functions `sp_windowed_sinc_lp_hp_ir_f` and `sp_windowed_sinc_bp_br_ir_f`. `K` creates the kernels.
/repo/source/c-precompiled/sph-sp/filter.c:238-261 -/
def sincIr (e : SampleBytes S) (K : SincCall S → Option (Buf S)) : SincFunction → List UInt8 → Option (Buf S)
  | .lpHp, a => K (.lpHp (rdSample e a 0) (rdSample e a 1) (a.getD 16 0))
  | .bpBr, a => K (.bpBr (rdSample e a 0) (rdSample e a 1) (rdSample e a 2) (rdSample e a 3) (a.getD 32 0))

variable [Zero S] [Add S] [Mul S]

/-- `sp_windowed_sinc_lp_hp` and `sp_windowed_sinc_bp_br`. `stack` is what the stack contains where the argument array is.
/repo/source/c-precompiled/sph-sp/filter.c:271-303 -/
def windowedSinc (e : SampleBytes S) (K : SincCall S → Option (Buf S)) (junk : S) (stack : UInt8) (input : Buf S) (p : SincCall S)
    (old : Option (FilterState SincFunction S)) (out : Buf S) : C (FilterResult SincFunction S) :=
  match p with
  | .lpHp .. => do
    let args ← sincArgs e (List.replicate 17 stack) p
    convolutionFilter (sincIr e K) junk input .lpHp args old out
  | .bpBr .. => do
    let args ← sincArgs e (List.replicate 33 stack) p
    convolutionFilter (sincIr e K) junk input .bpBr args old out

/-- A caller that filters a list of blocks, each with its parameters, with one state. -/
def sincCalls (e : SampleBytes S) (K : SincCall S → Option (Buf S)) (junk : S) (stack : UInt8) :
    List (Buf S × SincCall S) → Option (FilterState SincFunction S) → C (List (FilterResult SincFunction S))
  | [], _ => .ok []
  | (input, p) :: rest, st => do
    let r ← windowedSinc e K junk stack input p st (List.replicate input.length junk)
    let rs ← sincCalls e K junk stack rest r.state
    return r :: rs

end Sp
