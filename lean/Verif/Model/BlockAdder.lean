import Verif.Model.SeqParallel

/-!
# Events of any kind in `sp_seq_parallel`

`sp_seq_parallel` gives each event a new block of zeros (sequencer.c:346) in which the future generates (sequencer.c:295). So
what any event adds is the content of such a block after generate. `Verif.Lemmas.BlockAdder` shows that the future with these functions
does the same as one that calls the generate function with its block (`futGenerate_block`).
-/

namespace Sp
variable {D S : Type} [Zero S]

/-- The content of a block of `nch` channels with `n` samples. -/
def blockWrites (nch n : Nat) (w : Buf (Buf S)) : List (Write S) :=
  (List.range nch).flatMap fun c => (List.range n).map fun i => ⟨c, i, (w.getD c []).getD i 0⟩

/-- The functions of events as `sp_seq_parallel` uses them, for events with the functions `cb` and an output with `nch` channels. The prepare and
free functions do not get a block (sequencer.h:154-156), which is an empty one here.
/repo/source/c-precompiled/sph-sp/sequencer.c:286-298, 346 -/
def blockAdder (cb : Callbacks D (Buf (Buf S))) (nch : Nat) : Adder D S where
  prepare e := do
    let (st, e, _) ← cb.prepare e []
    return (st, e)
  generate x y e := do
    let (st, e, w) ← cb.generate x y 0 e (newBlock nch (sub32 y x))
    return (st, e, blockWrites nch (sub32 y x) w)
  free e := do
    let _ ← cb.free e []
    return ()

end Sp
