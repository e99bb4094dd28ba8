import Verif.Model.NoiseRun
import Verif.Model.EventTree

/-!
# Model of where noise events take their seed from (sequencer.c)

The world is the random state of the library and the output.
-/

namespace Sp
variable {S ρ F G : Type} [Zero S] [Add S] [Mul S] [One S] [Neg S] [Max S] [Min S] [DecidableEq F]

/-- The functions of noise events. `sp_noise_event_prepare` first takes a number from the random state of the library,
and makes the random state of the event from it.
/repo/source/c-precompiled/sph-sp/sequencer.c:620, /repo/source/c-precompiled/sph-sp/sequencer.h:36-39 -/
def seedCb (draw : G → ρ × G) (env : NoiseEnv S ρ F) : Callbacks (NoiseRun S ρ F) (G × Buf (Buf S)) where
  prepare e w := do
    let (seed, g) := draw w.1
    let (st, s) ← noiseRunPrepare env e.start e.stop { e.data with random := seed }
    return (st, { e with data := s }, (g, w.2))
  generate x y off e w := do
    let (st, s, out) ← noiseRunGenerate env x y off e.data w.2
    return (st, { e with data := s }, (w.1, out))
  free _ w := .ok w

end Sp
