import Verif.Spec.Convolution
import Verif.Spec.EventTree
import Verif.Model.Noise

/-!
# What noise events play
-/

namespace Sp
variable {S ρ : Type}

/-- Number `i` of the series of random numbers that begins with the generator state `r`. -/
def randomAt (next : ρ → S × ρ) : ρ → Nat → S
  | r, 0 => (next r).1
  | r, i + 1 => randomAt next (next r).2 i

/-- The generator state after `n` numbers. -/
def randomAfter (next : ρ → S × ρ) : ρ → Nat → ρ
  | r, 0 => r
  | r, n + 1 => randomAfter next (next r).2 n

/-- A filter that is applied to an endless input: its input, its impulse response, and how many samples of its
output are not used because they were made before the event is played. -/
structure NoiseFilter (S : Type) where
  input : Nat → S
  ir : List S
  warm : Nat

/-- Sample `i` of the used output: the convolution of the input so far with the impulse response. -/
def NoiseFilter.out [Zero S] [Add S] [Mul S] (v : NoiseFilter S) (i : Nat) : S :=
  orderedConvolution ((List.range (v.warm + i + 1)).map v.input) v.ir (v.warm + i)

/-- The sound of a noise event that is played from event time `p` on: each channel configuration adds its filtered
noise, multiplied by amplitude and envelope and limited to −1 to 1, to its output channel. `flt i` is the filter
whose output channel configuration `i` uses. -/
def noiseSound [Zero S] [Add S] [Mul S] [One S] [Neg S] [Max S] [Min S] (channels : List (NoiseChannel S)) (count : Nat)
    (flt : Nat → NoiseFilter S) (p : Nat) : Sound S :=
  fun ch t x => (List.range count).foldl (fun x i => match channels[i]? with
    | some cc => if cc.channel = ch then
        x + max (-1) (min 1 (cc.amp * (cc.amod.getD []).getD t 0 * (flt i).out (t - p))) else x
    | none => x) x

/-- The channel has filter settings of its own. -/
def NoiseChannel.HasFilter (cc : NoiseChannel S) : Prop :=
  cc.frq ≠ 0 ∨ cc.wdt ≠ 0 ∨ cc.fmod ≠ none ∨ cc.wmod ≠ none ∨ cc.trnl ≠ 0 ∨ cc.trnh ≠ 0

/-- `cc'` is `cc` after missing settings were taken from the first channel: a channel that is not used becomes the
first channel except for the output channel. A used channel takes the amplitude envelope if it has none. If it has
any filter settings, it takes each of the others that it does not have, except for the frequency. -/
structure NoiseChannel.Defaulted (first cc cc' : NoiseChannel S) : Prop where
  unused : cc.use = false → cc' = { first with channel := cc.channel }
  same : cc.use = true → cc'.use = true ∧ cc'.amp = cc.amp ∧ cc'.channel = cc.channel ∧ cc'.frq = cc.frq ∧
    cc'.filterState = cc.filterState
  amod : cc.use = true → cc'.amod = if cc.amod = none then first.amod else cc.amod
  filter : cc.use = true → cc.HasFilter →
    cc'.wdt = (if cc.wdt = 0 then first.wdt else cc.wdt) ∧
    cc'.trnl = (if cc.trnl = 0 then first.trnl else cc.trnl) ∧
    cc'.trnh = (if cc.trnh = 0 then first.trnh else cc.trnh) ∧
    cc'.fmod = (if cc.fmod = none then first.fmod else cc.fmod) ∧
    cc'.wmod = (if cc.wmod = none then first.wmod else cc.wmod)
  noFilter : cc.use = true → ¬ cc.HasFilter →
    cc'.wdt = cc.wdt ∧ cc'.trnl = cc.trnl ∧ cc'.trnh = cc.trnh ∧ cc'.fmod = cc.fmod ∧ cc'.wmod = cc.wmod

/-- `cs'` are the first `count` channel configurations `cs` after missing settings were taken from the first one. -/
structure ChannelDefaults (count : Nat) (cs cs' : List (NoiseChannel S)) : Prop where
  length : cs'.length = cs.length
  first : cs'[0]? = cs[0]?
  others : ∀ i first cc cc', 1 ≤ i → i < count → cs[0]? = some first → cs[i]? = some cc → cs'[i]? = some cc' →
    NoiseChannel.Defaulted first cc cc'
  rest : ∀ i, count ≤ i → cs'[i]? = cs[i]?

/-- Channel configuration `i` has a filter of its own: the first one, and those used that have filter settings. -/
def OwnFilter (cs : List (NoiseChannel S)) (i : Nat) : Prop :=
  i = 0 ∨ ∃ cc, cs[i]? = some cc ∧ cc.use = true ∧ cc.HasFilter

open Classical in
/-- How many random numbers the filters before filter `i` have used when the event is prepared: filter `j` uses
`len j`. -/
noncomputable def randomBefore (own : Nat → Prop) (len : Nat → Nat) (i : Nat) : Nat :=
  (((List.range i).filter fun j => decide (own j)).map len).sum

open Classical in
/-- The filters of a noise event with `count` channel configurations and the random numbers `x`. Filter `i` gets
`len i` numbers when the event is prepared, in the order of the channels, then all filters get the same numbers, those
that come after. `ir i` is the impulse response. Channel configurations without a filter use the filter of the first. -/
noncomputable def noiseFilters (x : Nat → S) (own : Nat → Prop) (len : Nat → Nat) (ir : Nat → List S) (count i : Nat) :
    NoiseFilter S :=
  let j := if own i then i else 0
  ⟨fun k => x (if k < len j then randomBefore own len j + k else randomBefore own len count + (k - len j)), ir j, len j⟩

end Sp
