import Verif.Model.EventTree
import Verif.Model.Extra
import Verif.Model.Arrays

/-!
# Model of default configurations, scheduling of events, sine oscillators and unity gain
-/

namespace Sp

/-- `sp_event_schedule`. A null pointer as configuration is `none`. /repo/source/c-precompiled/sph-sp/sequencer.c:229-237 -/
def eventSchedule {D : Type} (e : Event D) (onset duration : Nat) (config : Option D) : Event D :=
  let e := { e with start := u32 (e.start + onset) }
  let e := { e with stop := u32 (e.stop + u32 (onset + duration)) }
  match config with
  | some c => { e with data := c }
  | none => e

/-- A channel configuration with all fields zero: `sp_wave_event_config_t out = { 0 }`. sequencer.c:468 -/
def waveChannelZero {S : Type} [Zero S] : WaveChannel S where
  amod := none
  amp := 0
  channel := 0
  fmod := none
  frq := 0
  phs := 0
  pmod := none
  use := false

/-- `sp_wave_event_config_defaults`. `limit` is `sp_channel_count_limit`, `table` is `sp_sine_table`, `rate` is `sp_rate`.
/repo/source/c-precompiled/sph-sp/sequencer.c:467-478 -/
def waveDefaults {S : Type} [Zero S] [One S] (limit : Nat) (table : Buf S) (rate : Nat) : C (WaveConfig S) := do
  let ccs : Buf (WaveChannel S) := List.replicate limit waveChannelZero
  let first ← rd ccs 0
  let ccs ← wr ccs 0 { first with use := true }
  let ccs ← forRange 0 limit (fun i ccs => do
    let cc ← rd ccs i
    let ccs ← wr ccs i { cc with amp := 1 }
    let cc ← rd ccs i
    wr ccs i { cc with channel := i }) ccs
  return ⟨table, rate, limit, ccs⟩

/-- `sp_wave_event_config_new_n` with successful allocation; also `sp_noise_event_config_new_n` (sequencer.c:568-578), which is the same with
other defaults. The new memory is not initialised. /repo/source/c-precompiled/sph-sp/sequencer.c:481-490 -/
def configNewN {A : Type} (defaults : A) (count : Nat) (fresh : Buf A) : C (Buf A) :=
  forRange 0 count (fun i out => wr out i defaults) fresh

/-- `sp_sine`. `table` is `sp_sine_table`. /repo/source/c-precompiled/sph-sp/main.c:211 -/
def sine {S : Type} [Add S] [Mul S] (table : Buf S) (rate size : Nat) (amp : S) (amod : Option (Buf S)) (frq : Nat) (fmod : Option (Buf Nat))
    (phsState : Option Nat) (out : Buf S) : C (Option Nat × Buf S) :=
  wave size table rate amp amod frq fmod phsState out

/-- `sp_sine_lfo_factor`. /repo/source/c-precompiled/sph-sp/main.c:438 -/
def sineLfoFactor : Nat := 100

/-- `sp_sine_lfo`. `table` is `sp_sine_table_lfo`. /repo/source/c-precompiled/sph-sp/main.c:215 -/
def sineLfo {S : Type} [Add S] [Mul S] (table : Buf S) (rate size : Nat) (amp : S) (amod : Option (Buf S)) (frq : Nat) (fmod : Option (Buf Nat))
    (phsState : Option Nat) (out : Buf S) : C (Option Nat × Buf S) :=
  wave size table (u32 (rate * sineLfoFactor)) amp amod frq fmod phsState out

/-- The tables as `sp_initialize` makes them: `sp_samples_new` gives zeros. main.c:437-442 -/
def sineTables {S : Type} [Zero S] [Mul S] [Div S] [NatCast S] [Trig S] (rate : Nat) : C (Buf S × Buf S) := do
  let a ← sinePeriod rate (List.replicate rate 0)
  let b ← sinePeriod (u32 (rate * sineLfoFactor)) (List.replicate (u32 (rate * sineLfoFactor)) 0)
  return (a, b)

/-- `sp_samples_set_unity_gain`. /repo/source/c-precompiled/sph-sp/arrays.c:529-531 -/
def samplesSetUnityGain (b reference : Buf ℚ) (count : Nat) : C (Buf ℚ) := do
  let m ← samplesAbsoluteMax reference count
  samplesSetGain b count (m : ℚ)

/-- `sp_##type##_duplicate` with successful allocation: `sp_##type##_new` gives zeros. /repo/source/c-precompiled/sph-sp/arrays-template.c:133-141 -/
def arrayDuplicate {S : Type} [Zero S] (a : Buf S) (count : Nat) : C (Buf S) :=
  memcpy (List.replicate count 0) 0 a 0 count

end Sp
