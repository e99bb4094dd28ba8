import Verif.Model.Noise
import Verif.Model.ConvolutionFilter

/-!
# Model of noise events with random numbers and filters (sequencer.c)

`Verif.Model.Noise` has the memory that noise events allocate; this file has the samples. The pointer
`filter_state` of a channel and what it points to are here one optional filter state, in the list `filters`,
one for each channel configuration.

Simplified: the memory for the temporary buffers can be allocated. The seed that `sp_noise_event_prepare` takes
from the random state of the library (sequencer.c:620) is the initial value of `random`. That the order in which
events are prepared decides which seed an event gets is left out here, see `Verif.Model.NoiseSeed`.
-/

namespace Sp
variable {S ρ F : Type}

/-- What is used from other parts of the library: the random numbers, the impulse response for the argument
bytes of the filter (`sp_windowed_sinc_bp_br_ir_f`, named `irF`), the bytes for frequency, frequency plus width,
the two transition frequencies and `is_reject` (filter.c:293-297, with the conversion to factors), the length of
the impulse response for a transition frequency, the sample rate, and what new memory contains. -/
structure NoiseEnv (S ρ F : Type) where
  next : ρ → S × ρ
  irOf : F → List UInt8 → Option (Buf S)
  irF : F
  pack : Nat → Nat → Nat → Nat → Bool → List UInt8
  irLen : Nat → Nat
  rate : Nat
  junk : S

/-- A noise event's configuration with what its pointers point to. -/
structure NoiseRun (S ρ F : Type) where
  config : NoiseConfig S
  random : ρ
  filters : Buf (Option (FilterState F S))
  temps : Buf (Buf S)

/-- `sp_samples_random_primitive`. /repo/source/c/foreign/sph-sc-lib/sph-sp/random.c:126-130,
/repo/source/c-precompiled/sph-sp/sph-sp.h:44 -/
def randomFill (next : ρ → S × ρ) (n : Nat) (r : ρ) (b : Buf S) : C (Buf S × ρ) :=
  forRange 0 n (fun i (b, r) => do
    let b ← wr b i (next r).1
    return (b, (next r).2)) (b, r)

/-- `sp_optional_array_get`. /repo/source/c-precompiled/sph-sp/main.h:69 -/
def modAt (mod : Option (Buf Nat)) (fixed i : Nat) : C Nat :=
  match mod with
  | some a => rd a i
  | none => .ok fixed

/-- The arguments of the filter at event time `i`. `frqn` has 16 bits, the sum 32.
/repo/source/c-precompiled/sph-sp/sequencer.c:584-585,718-719 -/
def noiseArgs (env : NoiseEnv S ρ F) (isReject : Bool) (cc : NoiseChannel S) (i : Nat) : C (List UInt8) := do
  let q ← modAt cc.fmod cc.frq i
  let w ← modAt cc.wmod cc.wdt i
  return env.pack (q % 65536) (u32 (q % 65536 + w)) cc.trnl cc.trnh isReject

variable [Zero S] [Add S] [Mul S] [DecidableEq F]

/-- `sp_noise_event_filter_state`: one call of the filter with `irLength` random samples, the result is not used.
The status of a failure is that of memory, the only one that the filter has.
/repo/source/c-precompiled/sph-sp/sequencer.c:580-586 -/
def noiseRunFilterState (env : NoiseEnv S ρ F) (cci irLength : Nat) (s : NoiseRun S ρ F) : C (Nat × NoiseRun S ρ F) := do
  let cc ← rd s.config.channelConfig cci
  let t0 ← rd s.temps 0
  let (t0, r) ← randomFill env.next irLength s.random t0
  let temps ← wr s.temps 0 t0
  let args ← noiseArgs env s.config.isReject cc 0
  let old ← rd s.filters cci
  let t1 ← rd temps 1
  let res ← convolutionFilter env.irOf env.junk (t0.take irLength) env.irF args old t1
  let filters ← wr s.filters cci res.state
  let temps ← wr temps 1 res.out
  return (if res.success then 0 else 8, { s with random := r, filters := filters, temps := temps })

/-- `sp_noise_event_prepare`, see `noisePrepare` for the memory. A temporary buffer that is not allocated has no
samples. /repo/source/c-precompiled/sph-sp/sequencer.c:608-702 -/
def noiseRunPrepare (env : NoiseEnv S ρ F) (start stop : Nat) (s : NoiseRun S ρ F) : C (Nat × NoiseRun S ρ F) := do
  let first ← rd s.config.channelConfig 0
  if first.amod.isNone then return (idInvalidArgument, s)
  else
    let (c, sizes) ← noiseSizes env.irLen env.rate start stop s.config
    let temp := List.replicate sizes.tempLength env.junk
    let len ← rd sizes.irLengths 0
    let (st, s) ← noiseRunFilterState env 0 len { s with config := c, temps := [temp, temp, []] }
    if st ≠ 0 then return (st, s)
    else if sizes.filterStates then
      let temps ← wr s.temps 2 temp
      forRange 1 c.channelCount (fun cci (st, s) =>
        if st ≠ 0 then .ok (st, s)
        else do
          let len ← rd sizes.irLengths cci
          if len = 0 then return (0, s)
          else noiseRunFilterState env cci len s) (0, { s with temps := temps })
    else return (0, s)

variable [One S] [Neg S] [Max S] [Min S]

/-- One iteration of the loop over channels in `sp_noise_event_generate_block`. `t0` is the first temporary buffer.
State: status, filters, temporary buffers, output. The loop is left on failure.
/repo/source/c-precompiled/sph-sp/sequencer.c:713-726 -/
def noiseRunChannel (env : NoiseEnv S ρ F) (c : NoiseConfig S) (t0 : Buf S) (duration blockI eventI cci : Nat)
    (x : Nat × Buf (Option (FilterState F S)) × Buf (Buf S) × Buf (Buf S)) :
    C (Nat × Buf (Option (FilterState F S)) × Buf (Buf S) × Buf (Buf S)) :=
  let (st, filters, temps, out) := x
  if st ≠ 0 then .ok x
  else do
    let cc ← rd c.channelConfig cci
    let fs ← rd filters cci
    if cc.use && fs.isSome then
      let k := if 0 < cci then 2 else 1
      let args ← noiseArgs env c.isReject cc eventI
      let t ← rd temps k
      let res ← convolutionFilter env.irOf env.junk (t0.take duration) env.irF args fs t
      let filters ← wr filters cci res.state
      let temps ← wr temps k res.out
      if res.success then
        let amod ← derefArray cc.amod
        let out ← noiseAdd cc amod res.out duration blockI eventI out
        return (0, filters, temps, out)
      else return (8, filters, temps, out)
    else
      let t ← rd temps 1
      let amod ← derefArray cc.amod
      let out ← noiseAdd cc amod t duration blockI eventI out
      return (0, filters, temps, out)

/-- `sp_noise_event_generate_block`. /repo/source/c-precompiled/sph-sp/sequencer.c:703-730 -/
def noiseRunBlock (env : NoiseEnv S ρ F) (duration blockI eventI : Nat) (s : NoiseRun S ρ F) (out : Buf (Buf S)) :
    C (Nat × NoiseRun S ρ F × Buf (Buf S)) := do
  let t0 ← rd s.temps 0
  let (t0, r) ← randomFill env.next duration s.random t0
  let temps ← wr s.temps 0 t0
  let (st, filters, temps, out) ← forRange 0 s.config.channelCount
    (noiseRunChannel env s.config t0 duration blockI eventI) (0, s.filters, temps, out)
  return (st, { s with random := r, filters := filters, temps := temps }, out)

/-- `sp_noise_event_generate`. The sample pointers of `out` are at offset `off`.
/repo/source/c-precompiled/sph-sp/sequencer.c:731 -/
def noiseRunGenerate (env : NoiseEnv S ρ F) (start stop off : Nat) (s : NoiseRun S ρ F) (out : Buf (Buf S)) :
    C (Nat × NoiseRun S ρ F × Buf (Buf S)) :=
  eventBlockGenerate (sub32 stop start + 1)
    (fun n bi ei (s, out) => noiseRunBlock env n (off + bi) ei s out) s.config.resolution start stop (s, out)

/-- The functions of noise events. Freeing only releases memory (`Verif.Model.Noise`).
/repo/source/c-precompiled/sph-sp/sequencer.h:36-39 -/
def noiseRunCb (env : NoiseEnv S ρ F) : Callbacks (NoiseRun S ρ F) (Buf (Buf S)) where
  prepare e w := do
    let (st, s) ← noiseRunPrepare env e.start e.stop e.data
    return (st, { e with data := s }, w)
  generate x y off e w := do
    let (st, s, w) ← noiseRunGenerate env x y off e.data w
    return (st, { e with data := s }, w)
  free _ w := .ok w

end Sp
