import Verif.Model.EventTree
import Verif.Spec.EventList
import Verif.Spec.Seq
import Verif.Spec.Block

/-!
# What it means that an event is seamless, and what a tree of events sounds like
-/

namespace Sp
variable {S D L : Type}

/-- What a sound does to a sample: channel, event relative time, sample before. -/
abbrev Sound (S : Type) := Nat → Nat → S → S

/-- The generate function of the event, whose next sample is at event time `a`, is seamless and
plays the sound `G`: each call for a range that follows the previous range changes the samples of
that range, each by `G`, and nothing else, and succeeds, up to the event time `dur`. The length of the
range is one that `ok` admits (wave events can generate ranges of any length, noise events only those that
are not empty and fit into their buffers). The event functions keep the event in some set `R` of states in
which this is so. -/
def Seamless (ok : Nat → Prop) (cb : Callbacks D (Buf (Buf S))) (nch dur : Nat) (G : Sound S) (e : Event D) (a : Nat) :
    Prop :=
  ∃ R : Event D → Nat → Prop, R e a ∧ ∀ e a, R e a →
    (e.hasFree = true → ∀ w, cb.free e w = .ok w) ∧
    ∀ b off n f, a ≤ b → b ≤ dur → ok (b - a) → off + (b - a) ≤ n →
      ∃ e', cb.generate a b off e (blk nch n f) =
          .ok (0, e', blk nch n (applyRange G a off (b - a) f)) ∧
        e'.start = e.start ∧ e'.stop = e.stop ∧ e'.prep = e.prep ∧ R e' b

/-- With each range every shorter one that is not empty can be generated. -/
def Shorter (ok : Nat → Prop) : Prop := ∀ m n, ok n → 0 < m → m ≤ n → ok m

/-- The event plays `G` from event time `a` on, after it has been prepared, if it is not already. -/
def Ready (ok : Nat → Prop) (cb : Callbacks D (Buf (Buf S))) (nch dur : Nat) (G : Sound S) (e : Event D) (a : Nat) :
    Prop :=
  (e.hasFree = true → ∀ w, cb.free e w = .ok w) ∧
  if e.prep then ∃ e', (∀ w, cb.prepare e w = .ok (0, e', w)) ∧ e'.start = e.start ∧ e'.stop = e.stop ∧
    Seamless ok cb nch dur G { e' with prep := false } a
  else Seamless ok cb nch dur G e a

/-- The event can be played, beginning at any event time `p`, and then plays `F p`. -/
def Plays (ok : Nat → Prop) (cb : Callbacks D (Buf (Buf S))) (nch : Nat) (e : Event D) (F : Nat → Sound S) : Prop :=
  ∀ p, p ≤ e.stop - e.start → Ready ok cb nch (e.stop - e.start) (F p) e p

/-- The sound of events that are mixed in the given order: each plays in its time. `p` is the time at
which playing begins. -/
def mixEvents (events : List (Addr × Event D)) (F : Addr → Nat → Sound S) (p : Nat) : Sound S :=
  fun c t x => events.foldl (fun x (y : Addr × Event D) =>
    if y.2.start ≤ t ∧ t < y.2.stop then F y.1 (p - y.2.start) c (t - y.2.start) x else x) x

/-- Trees of events of depth at most `d` whose leaf events are seamless, with the sound they play.
A group that is not yet prepared has its list in the order in which `sp_group_add` leaves it, which
is the reverse. Events without duration are only allowed if the leaf events can generate empty ranges. -/
inductive Playable (ok : Nat → Prop) (leaf : Callbacks L (Buf (Buf S))) (fuel nch : Nat) :
    Nat → Event (Tree L) → (Nat → Sound S) → Prop
  | leaf {d : Nat} {e : Event (Tree L)} {l : L} {F : Nat → Sound S} (he : e.data = .leaf l)
      (h : Plays ok leaf nch (e.withData l) F) : Playable ok leaf fuel nch d e F
  | group {d : Nat} {e : Event (Tree L)} {heap : Heap (Event (Tree L))} {head : Option Addr}
      {l : List (Addr × Event (Tree L))} {F : Addr → Nat → Sound S} (he : e.data = .group heap head)
      (hwf : WellFormed heap head (if e.prep then l.reverse else l)) (hlen : l.length < fuel)
      (hsort : SortedEvents l) (hdur : e.stop - e.start < 4294967296)
      (hempty : ok 0 ∨ ∀ x ∈ l, x.2.start < x.2.stop)
      (h : ∀ x ∈ l, Playable ok leaf fuel nch d x.2 (F x.1)) :
      Playable ok leaf fuel nch (d + 1) e (mixEvents l F)

end Sp
