import Verif.Model.SeqParallel
import Verif.Model.Wave

/-!
# Wave events in `sp_seq_parallel`

What `sp_wave_event_generate` adds to its output block, in order. The loops are those of `Verif.Model.Wave`; instead of adding to the
block, they collect what is added, so that the same generate function can be run with any block by any thread.
-/

namespace Sp
variable {S : Type} [Add S] [Mul S]

/-- One sample of the inner loop of `sp_wave_event_generate`; the state is the phase and what has been added.
/repo/source/c-precompiled/sph-sp/sequencer.c:535-549 -/
def waveStepWrites (wvf : Buf S) (wvfSize : Nat) (cc : WaveChannel S) (start i : Nat) (s : Nat × List (Write S)) :
    C (Nat × List (Write S)) := do
  let phsn ← readPhase s.1 cc.pmod wvfSize i
  let m ← amodGet cc.amod i
  let v ← rd wvf phsn
  let d ← phaseChange cc.frq cc.fmod i
  let phs ← wrapPhase (u32 (s.1 + d)) wvfSize
  return (phs, s.2 ++ [⟨cc.channel, i - start, cc.amp * m * v⟩])

/-- One channel configuration, for a block with `nch` channels. sequencer.c:532-551 -/
def waveChannelWrites (nch : Nat) (c : WaveConfig S) (start stop cci : Nat) (s : Buf (WaveChannel S) × List (Write S)) :
    C (Buf (WaveChannel S) × List (Write S)) := do
  let cc ← rd s.1 cci
  if cc.channel < nch then do
    let (phs, ws) ← forRange start stop (waveStepWrites c.wvf c.wvfSize cc start) (cc.phs, s.2)
    let ccs ← wr s.1 cci { cc with phs := phs }
    return (ccs, ws)
  else .error .outOfBounds

/-- `sp_wave_event_generate`. /repo/source/c-precompiled/sph-sp/sequencer.c:525-553 -/
def waveWrites (nch start stop : Nat) (c : WaveConfig S) : C (WaveConfig S × List (Write S)) := do
  let (ccs, ws) ← forRange 0 c.channelCount (waveChannelWrites nch c start stop) (c.channelConfig, [])
  return ({ c with channelConfig := ccs }, ws)

/-- Wave events for a block with `nch` channels. They have no free function of their own.
/repo/source/c-precompiled/sph-sp/sequencer.h:32-35 -/
def waveAdder (nch : Nat) : Adder (WaveConfig S) S where
  prepare e := do
    let c ← wavePrepare e.data
    return (0, { e with data := c })
  generate x y e := do
    let (c, ws) ← waveWrites nch x y e.data
    return (0, { e with data := c }, ws)
  free _ := .ok ()

end Sp
