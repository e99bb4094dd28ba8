import Verif.Model.Wave

/-!
# Specification of the oscillators
-/

namespace Sp
variable {S : Type} [Add S] [Mul S]

/-- The phase after `n` samples with phase changes `f a`, `f (a + 1)`, ... : the phase is a 32 bit
number that is taken modulo the size of the waveform after each change. -/
def phaseAfter (wvfSize : Nat) (f : Nat → Nat) (p a : Nat) : Nat → Nat
  | 0 => p
  | n + 1 => (phaseAfter wvfSize f p a n + f (a + n)) % 4294967296 % wvfSize

/-- Element `i` of an optional array, or the given value if there is no array. -/
def optGet {α : Type} (b : Option (Buf α)) (d : α) (i : Nat) : α :=
  match b with
  | some b => b.getD i d
  | none => d

/-- An optional array, if it is there, has at least `n` elements. -/
def OptLen {α : Type} (b : Option (Buf α)) (n : Nat) : Prop := ∀ x, b = some x → n ≤ x.length

/-- The phase change of the wave event channel at event time `i`. -/
def WaveChannel.change (cc : WaveChannel S) (i : Nat) : Nat :=
  match cc.fmod with
  | some f => (cc.frq + f.getD i 0) % 4294967296
  | none => cc.frq

/-- The phase of the wave event channel at event time `i`, when it has its phase `cc.phs` at event
time `a`. -/
def WaveChannel.phaseAt (wvfSize : Nat) (cc : WaveChannel S) (a i : Nat) : Nat :=
  phaseAfter wvfSize cc.change cc.phs a (i - a)

/-- The index at which the waveform is read at event time `i`. -/
def WaveChannel.index (wvfSize : Nat) (cc : WaveChannel S) (a i : Nat) : Nat :=
  match cc.pmod with
  | some p => (cc.phaseAt wvfSize a i + p.getD i 0) % 4294967296 % wvfSize
  | none => cc.phaseAt wvfSize a i

/-- What the channel adds at event time `i`. -/
def WaveChannel.value (wvf : Buf S) (wvfSize : Nat) (cc : WaveChannel S) (z : S) (a i : Nat) : S :=
  cc.amp * optGet cc.amod z i * wvf.getD (cc.index wvfSize a i) z

/-- A wave event channel that can be played up to event time `dur`, into blocks with `nch`
channels. -/
structure WaveChannel.Ok (wvfSize dur nch : Nat) (cc : WaveChannel S) : Prop where
  amod : ∃ b, cc.amod = some b ∧ dur ≤ b.length
  fmod : OptLen cc.fmod dur
  pmod : OptLen cc.pmod dur
  phs : cc.phs < wvfSize
  channel : cc.channel < nch

/-- A wave event configuration that can be played up to event time `dur`. The waveform has exactly
`wvfSize` samples, so reading at `wvfSize` or above is out of bounds. -/
structure WaveConfig.Ok (dur nch : Nat) (c : WaveConfig S) : Prop where
  wvf : c.wvf.length = c.wvfSize
  count : c.channelCount = c.channelConfig.length
  channels : ∀ cc ∈ c.channelConfig, cc.Ok c.wvfSize dur nch

/-- The sample `x` of channel `ch` at event time `i` after the channels have added to it, in order,
when the channel phases are those of event time `a`. -/
def WaveConfig.mix (c : WaveConfig S) (z : S) (a ch i : Nat) (x : S) : S :=
  c.channelConfig.foldl (fun x cc => if cc.channel = ch then x + cc.value c.wvf c.wvfSize z a i else x) x

/-- The configuration with the channel phases advanced from event time `a` to `b`. -/
def WaveConfig.advance (c : WaveConfig S) (a b : Nat) : WaveConfig S :=
  { c with
    channelConfig := c.channelConfig.map fun cc => { cc with phs := cc.phaseAt c.wvfSize a b } }

end Sp
