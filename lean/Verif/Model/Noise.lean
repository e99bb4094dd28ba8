import Verif.Model.Seq
import Verif.Model.BlockGenerate

/-!
# Model of noise events (sequencer.c)

`Live` is the set of live allocations. A filter state with the memory it owns (impulse response,
carryover, arguments) is one allocation, released by `sp_convolution_filter_state_free`.
Simplified: memory allocation succeeds. The length of the impulse response for a transition frequency
is a function `irLen` (`sp_windowed_sinc_lp_hp_ir_length`, see `Verif.Model.Filter`), the status of
creating a filter state is a parameter, and the samples that random numbers and filters give are
parameters. The pointers in the configuration that the event does not own (`amod`, `fmod`, `wmod`) are
arrays. The event memory (`sp_event_memory_free`) is in `Verif.Model.EventMemory`.
-/

namespace Sp
variable {S : Type}

/-- Live allocations. `next` is the address that the next allocation returns. -/
structure Live where
  next : Nat
  live : Nat → Bool

/-- `malloc`. -/
def Live.malloc (m : Live) : Nat × Live :=
  (m.next, ⟨m.next + 1, fun a => if a = m.next then true else m.live a⟩)

/-- `free`. Freeing null does nothing. -/
def Live.free (m : Live) : Option Nat → C Live
  | none => .ok m
  | some a => if m.live a then .ok { m with live := fun b => if b = a then false else m.live b }
    else .error .doubleFree

/-- `sp_noise_event_channel_config_t`. /repo/source/c-precompiled/sph-sp/sequencer.h:191-203 -/
structure NoiseChannel (S : Type) where
  amp : S
  amod : Option (Buf S)
  channel : Nat
  filterState : Option Nat
  frq : Nat
  fmod : Option (Buf Nat)
  wdt : Nat
  wmod : Option (Buf Nat)
  trnl : Nat
  trnh : Nat
  use : Bool

/-- `sp_noise_event_config_t` without the random state. `temp` has three elements. `tempLength` is not
in the code: it is the size of the allocated temporary buffers, set with them, to be able to say what is
out of bounds. /repo/source/c-precompiled/sph-sp/sequencer.h:204-211 -/
structure NoiseConfig (S : Type) where
  isReject : Bool
  resolution : Nat
  temp : Buf (Option Nat)
  tempLength : Nat
  channelCount : Nat
  channelConfig : Buf (NoiseChannel S)

/-- `sp_s_id_invalid_argument`. /repo/source/c-precompiled/sph-sp/main.h:19 -/
def idInvalidArgument : Nat := 9

/-- A value is set if it is not zero, a pointer if it is not null. sequencer.c:636 -/
def NoiseChannel.ownFilter (cc : NoiseChannel S) : Bool :=
  cc.frq ≠ 0 || cc.wdt ≠ 0 || cc.fmod.isSome || cc.wmod.isSome || cc.trnl ≠ 0 || cc.trnh ≠ 0

/-- The defaults for a used channel that has filter settings. sequencer.c:641-655 -/
def NoiseChannel.filterDefaults (first cc : NoiseChannel S) : NoiseChannel S :=
  { cc with
    fmod := cc.fmod.or first.fmod
    trnh := if cc.trnh = 0 then first.trnh else cc.trnh
    trnl := if cc.trnl = 0 then first.trnl else cc.trnl
    wdt := if cc.wdt = 0 then first.wdt else cc.wdt
    wmod := cc.wmod.or first.wmod }

/-- What the loop over channels in `sp_noise_event_prepare` changes. -/
structure NoiseSizes (S : Type) where
  channels : Buf (NoiseChannel S)
  filterMod : Bool
  filterStates : Bool
  irLengths : Buf Nat
  tempLength : Nat

/-- One iteration of the loop over channels.
/repo/source/c-precompiled/sph-sp/sequencer.c:630-669 -/
def noiseDefaultsStep (irLen : Nat → Nat) (cci : Nat) (s : NoiseSizes S) : C (NoiseSizes S) := do
  let first ← rd s.channels 0
  let cc ← rd s.channels cci
  if cc.use then
    let cc := { cc with amod := cc.amod.or first.amod }
    if cc.ownFilter then
      let filterMod := s.filterMod || cc.fmod.isSome || cc.wmod.isSome
      let cc := NoiseChannel.filterDefaults first cc
      let len := irLen (min cc.trnl cc.trnh)
      let irLengths ← wr s.irLengths cci len
      let channels ← wr s.channels cci cc
      return ⟨channels, filterMod, true, irLengths, if s.tempLength < len then len else s.tempLength⟩
    else
      let channels ← wr s.channels cci cc
      return { s with channels := channels }
  else
    let channels ← wr s.channels cci { first with channel := cc.channel }
    return { s with channels := channels }

/-- The first part of `sp_noise_event_prepare`: channel defaults and sizes, for a first channel with
`amod`. /repo/source/c-precompiled/sph-sp/sequencer.c:620-675 -/
def noiseSizes (irLen : Nat → Nat) (rate start stop : Nat) (c : NoiseConfig S) : C (NoiseConfig S × NoiseSizes S) := do
  let first ← rd c.channelConfig 0
  let len := irLen (min first.trnl first.trnh)
  let irLengths ← wr (List.replicate c.channelConfig.length 0) 0 len
  let s ← forRange 1 c.channelCount (noiseDefaultsStep irLen)
    ⟨c.channelConfig, first.fmod.isSome || first.wmod.isSome, false, irLengths, len⟩
  let resolution := if s.filterMod then c.resolution else sub32 stop start
  let tempLength := min (max s.tempLength resolution) (u32 (4 * rate))
  return ({ c with channelConfig := s.channels, resolution := resolution }, { s with tempLength := tempLength })

/-- `sp_noise_event_filter_state` for channel `cci`: writes `irLength` samples to the first and second
temporary buffer, reads the first element of the modulation arrays and creates the filter state.
`status` is the status of creating it; after a failure there is no new filter state.
/repo/source/c-precompiled/sph-sp/sequencer.c:581-586 -/
def noiseFilterState (status : Nat) (cci irLength : Nat) (c : NoiseConfig S) (m : Live) :
    C (Nat × NoiseConfig S × Live) := do
  let cc ← rd c.channelConfig cci
  if c.tempLength < irLength then .error .outOfBounds
  else if cc.fmod = some [] ∨ cc.wmod = some [] then .error .outOfBounds
  else if status ≠ 0 then return (status, c, m)
  else match cc.filterState with
    | some _ => return (0, c, m)
    | none =>
      let (a, m) := m.malloc
      let channels ← wr c.channelConfig cci { cc with filterState := some a }
      return (0, { c with channelConfig := channels }, m)

/-- The loop that creates the filter states of the other channels. State: status, configuration,
memory, register of allocations. The loop is left on failure.
/repo/source/c-precompiled/sph-sp/sequencer.c:689-695 -/
def noiseFilterLoop (status : Nat → Nat) (irLengths : Buf Nat) (channelCount : Nat) (c : NoiseConfig S) (m : Live)
    (reg : List (Option Nat)) : C (Nat × NoiseConfig S × Live × List (Option Nat)) :=
  forRange 1 channelCount (fun cci (st, c, m, reg) =>
    if st ≠ 0 then .ok (st, c, m, reg)
    else do
      let len ← rd irLengths cci
      if len = 0 then return (0, c, m, reg)
      else
        let (st, c, m) ← noiseFilterState (status cci) cci len c m
        if st ≠ 0 then return (st, c, m, reg)
        else
          let cc ← rd c.channelConfig cci
          return (0, c, m, reg ++ [cc.filterState])) (0, c, m, reg)

/-- The allocations of `sp_noise_event_prepare`, with the register of what is to be freed on failure.
/repo/source/c-precompiled/sph-sp/sequencer.c:678-696 -/
def noiseAllocate (status : Nat → Nat) (s : NoiseSizes S) (c : NoiseConfig S) (m : Live) :
    C (Nat × NoiseConfig S × Live × List (Option Nat)) := do
  let (a0, m) := m.malloc
  let temp ← wr c.temp 0 (some a0)
  let (a1, m) := m.malloc
  let temp ← wr temp 1 (some a1)
  let len ← rd s.irLengths 0
  let reg := [some a0, some a1]
  let (st, c, m) ← noiseFilterState (status 0) 0 len { c with temp := temp, tempLength := s.tempLength } m
  if st ≠ 0 then return (st, c, m, reg)
  else
    let cc ← rd c.channelConfig 0
    let reg := reg ++ [cc.filterState]
    if s.filterStates then
      let (a2, m) := m.malloc
      let temp ← wr c.temp 2 (some a2)
      noiseFilterLoop status s.irLengths c.channelCount { c with temp := temp } m (reg ++ [some a2])
    else return (0, c, m, reg)

/-- Frees a list of addresses in order. -/
def freeEach : List (Option Nat) → Live → C Live
  | [], m => .ok m
  | a :: rest, m => do
    let m ← m.free a
    freeEach rest m

/-- `sp_noise_event_prepare`. Returns the status. On failure what is in the register is freed, last
first. The function does not set the free function of the event.
/repo/source/c-precompiled/sph-sp/sequencer.c:608-702 -/
def noisePrepare (irLen : Nat → Nat) (rate : Nat) (status : Nat → Nat) (start stop : Nat) (c : NoiseConfig S)
    (m : Live) : C (Nat × NoiseConfig S × Live) := do
  let first ← rd c.channelConfig 0
  if first.amod.isNone then return (idInvalidArgument, c, m)
  else
    let (c, s) ← noiseSizes irLen rate start stop c
    let (st, c, m, reg) ← noiseAllocate status s c m
    if st ≠ 0 then
      let m ← freeEach reg.reverse m
      return (st, c, m)
    else return (0, c, m)

/-- `sp_noise_event_free`. /repo/source/c-precompiled/sph-sp/sequencer.c:587-602 -/
def noiseFree (c : NoiseConfig S) (m : Live) : C Live := do
  let m ← forRange 0 c.channelCount (fun i m => do
    let cc ← rd c.channelConfig i
    m.free cc.filterState) m
  let t0 ← rd c.temp 0
  let m ← m.free t0
  let t1 ← rd c.temp 1
  let m ← m.free t1
  let t2 ← rd c.temp 2
  m.free t2

/-- The functions of noise events, with the live allocations as the world; what is generated is left
out. /repo/source/c-precompiled/sph-sp/sequencer.h:36-39 -/
def noiseCb (irLen : Nat → Nat) (rate : Nat) (status : Nat → Nat) : Callbacks (NoiseConfig S) Live where
  prepare e m := do
    let (st, c, m) ← noisePrepare irLen rate status e.start e.stop e.data m
    return (st, { e with data := c }, m)
  generate _ _ _ e m := .ok (0, e, m)
  free e m := noiseFree e.data m

/-- `sp_declare_event` and `sp_noise_event`: the event has a prepare and no free function.
/repo/source/c-precompiled/sph-sp/sequencer.h:5-7,36-39 -/
def noiseEvent (start stop : Nat) (c : NoiseConfig S) : Event (NoiseConfig S) := ⟨start, stop, true, false, c⟩

/-- `sp_noise_event_config_defaults` for `limit` channels.
/repo/source/c-precompiled/sph-sp/sequencer.c:554-567.
`trn` is the conversion of `sp_rate * 0.08` to `sp_frq_t`. -/
def noiseDefaults [Zero S] [One S] (limit rate trn : Nat) : NoiseConfig S where
  isReject := false
  resolution := if rate < 10000 then rate else rate / 1000
  temp := [none, none, none]
  tempLength := 0
  channelCount := limit
  channelConfig := (List.range limit).map fun i =>
    ⟨1, none, i, none, 0, none, rate / 2 % 65536, none, trn, trn, i = 0⟩

/-! ### generating -/

/-- `sp_inline_limit(x, -1, 1)`. /repo/source/c-precompiled/sph-sp/main.h:39 -/
def limit1 [One S] [Neg S] [Max S] [Min S] (x : S) : S := max (-1) (min 1 x)

/-- The inner loop of `sp_noise_event_generate_block`.
/repo/source/c-precompiled/sph-sp/sequencer.c:723-726 -/
def noiseAdd [One S] [Neg S] [Max S] [Min S] [Mul S] [Add S] (cc : NoiseChannel S) (amod temp : Buf S)
    (duration blockI eventI : Nat) (out : Buf (Buf S)) : C (Buf (Buf S)) :=
  forRange 0 duration (fun i out => do
    let a ← rd amod (eventI + i)
    let t ← rd temp i
    let row ← rd out cc.channel
    let row ← addAt row (blockI + i) (limit1 (cc.amp * a * t))
    wr out cc.channel row) out

/-- What a pointer that is dereferenced points to. -/
def derefArray : Option (Buf S) → C (Buf S)
  | some b => .ok b
  | none => .error .nullDeref

/-- `sp_noise_event_generate_block`. `noise n` are the first `n` random samples, `filter cci input` is the result of the
filter of channel `cci`, which has as many samples as the input. `temps` are the temporary buffers.
Simplified: filters succeed. Returns the temporary buffers and the output.
/repo/source/c-precompiled/sph-sp/sequencer.c:703-730 -/
def noiseGenerateBlock [One S] [Neg S] [Max S] [Min S] [Mul S] [Add S] (noise : Nat → S) (filter : Nat → Buf S → Nat → S)
    (c : NoiseConfig S) (duration blockI eventI : Nat) (temps : Buf (Buf S)) (out : Buf (Buf S)) :
    C (Buf (Buf S) × Buf (Buf S)) := do
  let t0 ← rd temps 0
  let t0 ← memcpy t0 0 (tab duration noise) 0 duration
  let temps ← wr temps 0 t0
  forRange 0 c.channelCount (fun cci (temps, out) => do
    let cc ← rd c.channelConfig cci
    let amod ← derefArray cc.amod
    if cc.use && cc.filterState.isSome then
      let k := if 0 < cci then 2 else 1
      let t ← rd temps k
      let t ← memcpy t 0 (tab duration (filter cci (t0.take duration))) 0 duration
      let temps ← wr temps k t
      let out ← noiseAdd cc amod t duration blockI eventI out
      return (temps, out)
    else
      let t ← rd temps 1
      let out ← noiseAdd cc amod t duration blockI eventI out
      return (temps, out)) (temps, out)

end Sp
