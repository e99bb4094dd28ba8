import Verif.Spec.Score
import Verif.Model.EventTree
import Verif.Model.Group
import Verif.Model.WaveDefaults

/-!
# Model of a program that makes the events of a score and adds them to groups

The program makes a wave event with the default configuration for each tone, adds the parts that play together to a group with `sp_group_add`,
and the parts that play one after the other with `sp_group_append`, and schedules each event with `sp_event_schedule`
(/repo/source/c-precompiled/sph-sp/sequencer.c:229-237, 394-417, 466-490; sequencer.h:32-35, 44-47).
Simplified: each tone has its own configuration (in the code the user has to make one for each, as events change it); the list nodes of each group
have an address space of their own, in which the k-th allocation gives address k.
-/

namespace Sp
variable {W : Type}

/-- A wave event: `sp_wave_event(event, config)` with `config` from the defaults `c` and then frequency and envelope set, scheduled. The other fields
of the event are zero. /repo/source/c-precompiled/sph-sp/sequencer.h:32-35, sequencer.c:229-237 -/
def toneEvent {S : Type} (c : WaveConfig S) (onset duration frq : Nat) (env : Buf S) : Event (Tree (WaveConfig S)) :=
  eventSchedule ⟨0, 0, true, false, .leaf { c with channelConfig := c.channelConfig.modify 0 fun cc => { cc with
    frq := frq
    amod := some env } }⟩ onset duration none

/-- A group event: `sp_group_event(event)`, then events are added with `add`, then the group is scheduled with duration 0.
/repo/source/c-precompiled/sph-sp/sequencer.h:44-47, sequencer.c:229-237 -/
def groupOf {L : Type} (add : Addr → Event (Tree L) → Group (Tree L) → W → C (Nat × Group (Tree L) × W)) (onset : Nat)
    (events : List (Addr × Event (Tree L))) (w : W) : C (Event (Tree L) × W) := do
  let (st, g, w) ← groupEach add events ⟨0, fun _ => none, none⟩ w
  if st ≠ 0 then throw .badFormat
  else return (eventSchedule ⟨0, g.stop, true, false, .group g.heap g.head⟩ onset 0 none, w)

mutual
/-- The event of a score. `c` is the default configuration, `conv` gives the samples of the program for the values of envelopes. If adding fails, then
the result is a fault, so that a program without fault is one in which nothing failed. -/
def scoreEvent {S : Type} (cb : Callbacks (Tree (WaveConfig S)) W) (fuel : Nat) (c : WaveConfig S) (conv : ℝ → S) :
    Score → W → C (Event (Tree (WaveConfig S)) × W)
  | .tone onset duration frq env, w => .ok (toneEvent c onset duration frq (env.map conv), w)
  | .together onset parts, w => do
    let (events, w) ← scoreEvents cb fuel c conv 0 parts w
    groupOf (groupAdd cb fuel) onset events w
  | .sequence onset parts, w => do
    let (events, w) ← scoreEvents cb fuel c conv 0 parts w
    groupOf (groupAppend cb fuel) onset events w
/-- The events of the parts with the addresses of their list nodes. -/
def scoreEvents {S : Type} (cb : Callbacks (Tree (WaveConfig S)) W) (fuel : Nat) (c : WaveConfig S) (conv : ℝ → S) :
    Nat → List Score → W → C (List (Addr × Event (Tree (WaveConfig S))) × W)
  | _, [], w => .ok ([], w)
  | k, p :: rest, w => do
    let (e, w) ← scoreEvent cb fuel c conv p w
    let (es, w) ← scoreEvents cb fuel c conv (k + 1) rest w
    return ((k, e) :: es, w)
end

end Sp
