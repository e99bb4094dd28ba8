import Verif.Spec.EventTree
import Verif.Spec.Wave
import Verif.Spec.Float

/-!
# Trees of wave events and the tones that sound

A tone is an amplitude, the value of the amplitude modulation and the value of the waveform, at one time in one channel.
-/

namespace Sp
variable {S : Type}

/-- The tones of a wave event with the prepared configuration `c` in channel `ch` at event time `i`, played from event time `p` on. -/
def WaveConfig.tones [Add S] [Mul S] (c : WaveConfig S) (z : S) (p ch i : Nat) : List (S × S × S) :=
  (c.channelConfig.filter fun cc => cc.channel = ch).map fun cc =>
    (cc.amp, optGet cc.amod z i, c.wvf.getD (cc.index c.wvfSize p i) z)

/-- The tones of events at time `t`, in order: those of each event in its time. -/
def eventTones {D : Type} (events : List (Addr × Event D)) (T : Addr → Nat → Nat → Nat → List (S × S × S)) (p ch t : Nat) :
    List (S × S × S) :=
  events.flatMap fun y => if y.2.start ≤ t ∧ t < y.2.stop then T y.1 (p - y.2.start) ch (t - y.2.start) else []

/-- Trees of wave events of depth at most `d`, with their sound and their tones. The conditions are those of `Playable`, and wave
events that are playable after `sp_wave_event_prepare`. -/
inductive WaveTree [Add S] [Mul S] (z : S) (fuel nch : Nat) :
    Nat → Event (Tree (WaveConfig S)) → (Nat → Sound S) → (Nat → Nat → Nat → List (S × S × S)) → Prop
  | wave {d : Nat} {e : Event (Tree (WaveConfig S))} {c0 c : WaveConfig S} (he : e.data = .leaf c0)
      (hprep : if e.prep then wavePrepare c0 = .ok c else c0 = c) (hc : c.Ok (e.stop - e.start) nch) :
      WaveTree z fuel nch d e (fun p => c.mix z p) (c.tones z)
  | group {d : Nat} {e : Event (Tree (WaveConfig S))} {heap : Heap (Event (Tree (WaveConfig S)))} {head : Option Addr}
      {l : List (Addr × Event (Tree (WaveConfig S)))} {F : Addr → Nat → Sound S} {T : Addr → Nat → Nat → Nat → List (S × S × S)}
      (he : e.data = .group heap head) (hwf : WellFormed heap head (if e.prep then l.reverse else l)) (hlen : l.length < fuel)
      (hsort : SortedEvents l) (hdur : e.stop - e.start < 4294967296)
      (h : ∀ x ∈ l, WaveTree z fuel nch d x.2 (F x.1) (T x.1)) :
      WaveTree z fuel nch (d + 1) e (mixEvents l F) (eventTones l T)

variable {rnd : ℚ → ℚ}

/-- The exact sum of the products of tones. -/
def exactMix (ts : List (Fl rnd × Fl rnd × Fl rnd)) : ℚ := (ts.map fun t => t.1.val * t.2.1.val * t.2.2.val).sum

/-- The sum of the absolute values of the products of tones. -/
def absMix (ts : List (Fl rnd × Fl rnd × Fl rnd)) : ℚ := (ts.map fun t => |t.1.val * t.2.1.val * t.2.2.val|).sum

/-- The sum of the absolute values of the waveforms of tones. -/
def waveMix (ts : List (Fl rnd × Fl rnd × Fl rnd)) : ℚ := (ts.map fun t => |t.2.2.val|).sum

end Sp
