import Verif.Spec.EventTree
import Verif.Model.File

/-!
# The samples of an event and their bytes
-/

namespace Sp
variable {S D F : Type}

/-- Sample at time `t` of channel `c` of a single event that is played beginning at time `p`, mixed
into silence: the event plays in its time, and before and after it there is silence. -/
def soundAt [Zero S] (e : Event D) (G : Nat → Sound S) (p c t : Nat) : S :=
  if e.start ≤ t ∧ t < e.stop then G (p - e.start) c (t - e.start) 0 else 0

/-- The bytes of `n` frames of `ch` samples, sample `k` of channel `c` being `f c k`. -/
def frameBytes (fmt : FloatFmt S F) (ch n : Nat) (f : Nat → Nat → S) : List Nat :=
  (List.range n).flatMap fun k => (List.range ch).flatMap fun c => fmt.toBytes (fmt.narrow (f c k))

end Sp
