import Verif.Model.SeqParallel
import Verif.Spec.EventTree

/-!
# Rendering with consecutive calls of `sp_seq_parallel`
-/

namespace Sp
variable {D S : Type}

/-- Consecutive calls of `sp_seq_parallel` that have returned, each with the list that the one before left, with a new block and under any
schedule: the list before and after, and for each call the status and the output. -/
inductive ParBlocks [Add S] [Zero S] (f : Adder D S) (nch : Nat) :
    Nat → List Nat → List (Addr × Event D) → List (Addr × Event D) → List (Nat × Buf (Buf S)) → Prop
  | nil {start : Nat} {l : List (Addr × Event D)} : ParBlocks f nch start [] l l []
  | cons {start stop st : Nat} {stops : List Nat} {l l' : List (Addr × Event D)} {s : Par D S} {outs : List (Nat × Buf (Buf S))} :
      ParReach f start stop l (newBlock nch (stop - start)) s → s.main = .returned st →
      ParBlocks f nch stop stops s.events l' outs → ParBlocks f nch start (stop :: stops) l l' ((st, s.out) :: outs)

/-- What an event of `sp_seq_parallel` does to a sample: its sound is played into a block of zeros, which is added. -/
def addSound [Add S] [Zero S] (G : Sound S) : Sound S := fun c t x => x + G c t 0

/-- The sound adds to samples. -/
def Adds [Add S] [Zero S] (G : Sound S) : Prop := ∀ c t x, G c t x = x + G c t 0

end Sp
