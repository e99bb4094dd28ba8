import Verif.C
import Mathlib.Algebra.Order.Field.Rat

/-!
# Model of the oscillators (main.c) and of wave events (sequencer.c)

Samples are an arbitrary type with arbitrary addition and multiplication.
-/

namespace Sp

/-- `sp_phase`. /repo/source/c-precompiled/sph-sp/main.c:177-180 -/
def phase (current change cycle : Nat) : C Nat :=
  let a := u32 (current + change)
  if a < cycle then .ok a
  else if cycle = 0 then .error .divByZero
  else .ok (a % cycle)

/-- `sp_cheap_ceiling_positive(a)` for a value whose conversion to `sp_time_t` is `t` and where
`above` says if the value is greater than `t`.
/repo/source/c-precompiled/sph-sp/main.h:36 -/
def cheapCeilingPositive (t : Nat) (above : Bool) : Nat := u32 (t + if above then 1 else 0)

/-- `sp_phase_float`. The floating point number `change` enters only through its truncation `t` and
whether it has a fractional part (`above`). Simplified: `change` is nonnegative and below 2^32, as
the conversion is undefined otherwise.
/repo/source/c-precompiled/sph-sp/main.c:184-187 -/
def phaseFloat (current t : Nat) (above : Bool) (cycle : Nat) : C Nat :=
  let a := u32 (current + cheapCeilingPositive t above)
  if a < cycle then .ok a
  else if cycle = 0 then .error .divByZero
  else .ok (a % cycle)

variable {S : Type} [Add S] [Mul S]

/-- `sp_optional_array_get(array, fixed, index)`; a null pointer is `none`.
/repo/source/c-precompiled/sph-sp/main.h:69 -/
def optionalArrayGet {α : Type} (array : Option (Buf α)) (fixed : α) (i : Nat) : C α :=
  match array with
  | some b => rd b i
  | none => .ok fixed

/-- `if (phs >= wvf_size) phs = phs % wvf_size`. main.c:203-205, sequencer.c:538-540, 546-548 -/
def wrapPhase (phs wvfSize : Nat) : C Nat :=
  if phs ≥ wvfSize then
    if wvfSize = 0 then .error .divByZero else .ok (phs % wvfSize)
  else .ok phs

/-- The loop of `sp_wave` for one sample; the state is the phase and the output.
/repo/source/c-precompiled/sph-sp/main.c:200-206 -/
def waveStep (wvf : Buf S) (wvfSize : Nat) (amp : S) (amod : Option (Buf S)) (frq : Nat)
    (fmod : Option (Buf Nat)) (i : Nat) (s : Nat × Buf S) : C (Nat × Buf S) := do
  let m ← optionalArrayGet amod amp i
  let v ← rd wvf s.1
  let out ← addAt s.2 i (amp * m * v)
  let f ← optionalArrayGet fmod frq i
  let phs ← wrapPhase (u32 (s.1 + f)) wvfSize
  return (phs, out)

/-- `sp_wave`. `phsState` is the value that the pointer points to, `none` for the null pointer.
/repo/source/c-precompiled/sph-sp/main.c:198-210 -/
def wave (size : Nat) (wvf : Buf S) (wvfSize : Nat) (amp : S) (amod : Option (Buf S)) (frq : Nat)
    (fmod : Option (Buf Nat)) (phsState : Option Nat) (out : Buf S) : C (Option Nat × Buf S) := do
  let (phs, out) ← forRange 0 size (waveStep wvf wvfSize amp amod frq fmod) (phsState.getD 0, out)
  return (phsState.map (fun _ => phs), out)

/-- `sp_wave_event_channel_config_t`. Null pointers are `none`.
/repo/source/c-precompiled/sph-sp/sequencer.h:175-184 -/
structure WaveChannel (S : Type) where
  amod : Option (Buf S)
  amp : S
  channel : Nat
  fmod : Option (Buf Nat)
  frq : Nat
  phs : Nat
  pmod : Option (Buf Nat)
  use : Bool

/-- `sp_wave_event_config_t`. Simplified: the number of channel configurations is that of the list,
not fixed by `sp_channel_count_limit`; the arrays are owned, not shared.
/repo/source/c-precompiled/sph-sp/sequencer.h:185-190 -/
structure WaveConfig (S : Type) where
  wvf : Buf S
  wvfSize : Nat
  channelCount : Nat
  channelConfig : Buf (WaveChannel S)

/-- `sp_inline_default(a, b)` for a pointer. /repo/source/c-precompiled/sph-sp/main.h:41 -/
def inlineDefault {α : Type} (a b : Option α) : Option α :=
  match a with
  | none => b
  | some x => some x

/-- `sp_wave_event_prepare`. /repo/source/c-precompiled/sph-sp/sequencer.c:504-524 -/
def wavePrepare (c : WaveConfig S) : C (WaveConfig S) :=
  forRange 1 c.channelCount (fun i c => do
    let cc ← rd c.channelConfig i
    let first ← rd c.channelConfig 0
    let cc' : WaveChannel S :=
      if cc.use then
        { cc with
          amod := inlineDefault cc.amod first.amod
          pmod := inlineDefault cc.pmod first.pmod
          fmod := inlineDefault cc.fmod first.fmod
          frq := if cc.frq = 0 then first.frq else cc.frq }
      else { first with channel := cc.channel }
    let ccs ← wr c.channelConfig i cc'
    return { c with channelConfig := ccs }) c

/-- The phase at which the waveform is read. sequencer.c:536-543 -/
def readPhase (phs : Nat) (pmod : Option (Buf Nat)) (wvfSize i : Nat) : C Nat :=
  match pmod with
  | some p => do
    let m ← rd p i
    wrapPhase (u32 (phs + m)) wvfSize
  | none => .ok phs

/-- The phase change of one sample. `frq` is `uint16_t`, the sum is `uint32_t`. sequencer.c:545 -/
def phaseChange (frq : Nat) (fmod : Option (Buf Nat)) (i : Nat) : C Nat :=
  match fmod with
  | some f => do
    let m ← rd f i
    return u32 (frq + m)
  | none => .ok frq

/-- A null `amod` is dereferenced. sequencer.c:544 -/
def amodGet (amod : Option (Buf S)) (i : Nat) : C S :=
  match amod with
  | some a => rd a i
  | none => .error .nullDeref

/-- One sample of the inner loop of `sp_wave_event_generate`; the state is the phase and the sample
array of the channel, whose pointer is at offset `off`.
/repo/source/c-precompiled/sph-sp/sequencer.c:535-549 -/
def waveEventStep (wvf : Buf S) (wvfSize : Nat) (cc : WaveChannel S) (start off i : Nat)
    (s : Nat × Buf S) : C (Nat × Buf S) := do
  let phsn ← readPhase s.1 cc.pmod wvfSize i
  let m ← amodGet cc.amod i
  let v ← rd wvf phsn
  let out ← addAt s.2 (off + (i - start)) (cc.amp * m * v)
  let d ← phaseChange cc.frq cc.fmod i
  let phs ← wrapPhase (u32 (s.1 + d)) wvfSize
  return (phs, out)

/-- One channel configuration. sequencer.c:532-551 -/
def waveEventChannel (c : WaveConfig S) (start stop off cci : Nat)
    (s : Buf (WaveChannel S) × Buf (Buf S)) : C (Buf (WaveChannel S) × Buf (Buf S)) := do
  let cc ← rd s.1 cci
  let chan ← rd s.2 cc.channel
  let (phs, chan) ← forRange start stop (waveEventStep c.wvf c.wvfSize cc start off) (cc.phs, chan)
  let ccs ← wr s.1 cci { cc with phs := phs }
  let out ← wr s.2 cc.channel chan
  return (ccs, out)

/-- `sp_wave_event_generate`. `off` is the offset of the sample pointers of the block in the sample
arrays. Simplified: the sample array of a channel is loaded also when the range is empty.
/repo/source/c-precompiled/sph-sp/sequencer.c:525-553 -/
def waveGenerate (start stop off : Nat) (c : WaveConfig S) (out : Buf (Buf S)) :
    C (WaveConfig S × Buf (Buf S)) := do
  let (ccs, out) ← forRange 0 c.channelCount (waveEventChannel c start stop off) (c.channelConfig, out)
  return ({ c with channelConfig := ccs }, out)

/-- `sp_square`. /repo/source/c-precompiled/sph-sp/main.c:467 -/
def square (t size : Nat) : C Int :=
  let d := u32 (2 * size)
  if d = 0 then .error .divByZero
  else if u32 (2 * t) % d < size then .ok (-1) else .ok 1

/-- `sp_triangle` with exact arithmetic instead of floating point.
/repo/source/c-precompiled/sph-sp/main.c:462-466 -/
def triangle (t a b : Nat) : C ℚ :=
  let s := u32 (a + b)
  if s = 0 then .error .divByZero
  else
    let r := t % s
    if r < a then .ok (r * (1 / (a : ℚ))) else .ok (((b : ℚ) - ((r : ℚ) - (a : ℚ))) * (1 / (b : ℚ)))

end Sp
