import Verif.Model.Seq
import Verif.Model.File

/-!
# Model of `sp_seq_parallel` (sequencer.c:277-376)

A transition system: the thread that called `sp_seq_parallel`, and the futures it has made, which take steps at
any time after they have been made. When futures are run is the thread pool's business
(`Verif.Model.ThreadPool`); here any order and interleaving is possible, and `sph_future_touch` returns only after the function
of the future has returned, which is C38.

Simplified: the linked list is represented by the list of its elements, each with its address; that
`sp_event_list_remove` removes an element of the linked list is C19. Events
are independent: their functions use their own event and the output they are given, in which they add to samples.
Allocation succeeds.
-/

namespace Sp
variable {D S : Type}

/-- A sample added to the output: channel, index, value. -/
structure Write (S : Type) where
  channel : Nat
  index : Nat
  value : S

/-- The functions of independent events that add to their output. `generate` is called with event relative start and end
and returns status, event, and what is added to the output block, in order.
/repo/source/c-precompiled/sph-sp/sequencer.h:154-156 -/
structure Adder (D S : Type) where
  prepare : Event D → C (Nat × Event D)
  generate : Nat → Nat → Event D → C (Nat × Event D × List (Write S))
  free : Event D → C Unit

/-- `block.samples[c][i] += v` -/
def add2 [Add S] (block : Buf (Buf S)) (c i : Nat) (v : S) : C (Buf (Buf S)) := do
  let x ← rd2 block c i
  wr2 block c i (x + v)

/-- What an event adds, to a block whose sample pointers are at the offset `off`. -/
def applyWrites [Add S] (off : Nat) : List (Write S) → Buf (Buf S) → C (Buf (Buf S))
  | [], block => .ok block
  | w :: ws, block => do
    let block ← add2 block w.channel (off + w.index) w.value
    applyWrites off ws block

/-- The same functions as they are called by `sp_seq`, where the world is the output block. -/
def Adder.callbacks [Add S] (f : Adder D S) : Callbacks D (Buf (Buf S)) where
  prepare e w := do
    let r ← f.prepare e
    pure (r.1, r.2, w)
  generate x y off e w := do
    let r ← f.generate x y e
    let w ← applyWrites off r.2.2 w
    pure (r.1, r.2.1, w)
  free e w := do
    f.free e
    pure w

/-- How far the function of a future is. -/
inductive Fut
  /-- not started -/
  | new
  /-- the event has been prepared, generate is to be called -/
  | prepared
  /-- has returned -/
  | returned
  deriving DecidableEq

/-- `sp_seq_future_t`. sequencer.c:277-285. `event` is the address of the list element. -/
structure Slot (S : Type) where
  start : Nat
  stop : Nat
  outStart : Nat
  out : Buf (Buf S)
  event : Addr
  status : Nat
  fut : Fut

/-- What the calling thread does next. -/
inductive ParMain
  /-- in the distribute loop at the element with this index. sequencer.c:329 -/
  | distribute (pos : Nat)
  /-- in the merge loop. sequencer.c:355 -/
  | merge (i : Nat)
  /-- at the exit label with a status. sequencer.c:365 -/
  | exit (status : Nat)
  | returned (status : Nat)

/-- The state. `slots`: the array sf_array, with unset elements. -/
structure Par (D S : Type) where
  main : ParMain
  events : List (Addr × Event D)
  slots : List (Option (Slot S))
  /-- sf_array and the blocks have been freed -/
  freed : Bool
  allocated : Nat
  out : Buf (Buf S)

/-- The loop that counts. sequencer.c:318-325 -/
def parCount (start stop : Nat) : List (Addr × Event D) → Nat
  | [] => 0
  | (_, e) :: rest =>
    if stop ≤ e.start then 0
    else if e.stop > start then 1 + parCount start stop rest
    else parCount start stop rest

/-- The state after counting and allocating sf_array. sequencer.c:313-326 -/
def parInit (start stop : Nat) (events : List (Addr × Event D)) (out : Buf (Buf S)) : Par D S where
  main := .distribute 0
  events := events
  slots := List.replicate (parCount start stop events) none
  freed := false
  allocated := 0
  out := out

/-- `sp_block_new`: a block of zeros. main.c:130-146 -/
def newBlock [Zero S] (channels size : Nat) : Buf (Buf S) := List.replicate channels (List.replicate size 0)

/-- The slot for an event. sequencer.c:339-347 -/
def parSlot [Zero S] (start stop channels : Nat) (a : Addr) (e : Event D) : Slot S where
  start := relStart start e.start
  stop := relEnd stop e.start e.stop
  outStart := if e.start > start then sub32 e.start start else 0
  out := newBlock channels (sub32 (relEnd stop e.start e.stop) (relStart start e.start))
  event := a
  status := 0
  fut := .new

/-- One iteration of the distribute loop for the event `e` at `a`. sequencer.c:331-352 -/
def parDistribute [Zero S] (f : Adder D S) (start stop : Nat) (pos : Nat) (a : Addr) (e : Event D) (s : Par D S) :
    C (Par D S) :=
  if e.stop ≤ start then do
    (if e.hasFree then f.free e else pure ())
    pure { s with events := s.events.eraseIdx pos }
  else if stop ≤ e.start then .ok { s with main := .merge 0 }
  else if e.stop > start then do
    let slots ← wr s.slots s.allocated (some (parSlot start stop s.out.length a e))
    pure { s with main := .distribute (pos + 1), slots := slots, allocated := s.allocated + 1 }
  else .ok { s with main := .distribute (pos + 1) }

/-- The inner loop of merge over the samples of one channel. sequencer.c:360-362 -/
def mergeChannel [Add S] (sf : Slot S) (ci size : Nat) (out : Buf (Buf S)) : C (Buf (Buf S)) :=
  forRange 0 size (fun i out => do
    let v ← rd2 sf.out ci i
    add2 out ci (sf.outStart + i) v) out

/-- The loops of merge that add the output of one event. `out.channel_count` is the number of channels of `out`. `sf->out.size` is the size given to sp_block_new.
sequencer.c:359-363 -/
def mergeSlot [Add S] (sf : Slot S) (out : Buf (Buf S)) : C (Buf (Buf S)) :=
  forRange 0 out.length (fun ci out => mergeChannel sf ci (sub32 sf.stop sf.start) out) out

/-- Replace the event of the list element at `a`. -/
def setEvent (events : List (Addr × Event D)) (a : Addr) (e : Event D) : List (Addr × Event D) :=
  events.map fun p => if p.1 = a then (a, e) else p

/-- `(*ep)` in the function of a future: the event of the list element at `a`, unless it has been freed. -/
def loadEvent (events : List (Addr × Event D)) (a : Addr) : C (Event D) :=
  match events.find? (fun p => p.1 = a) with
  | some p => .ok p.2
  | none => .error .useAfterFree

/-- The first part of the function of a future: prepare. sequencer.c:286-292 -/
def futPrepare (f : Adder D S) (k : Nat) (sf : Slot S) (s : Par D S) : C (Par D S) :=
  if s.freed then .error .useAfterFree
  else do
    let e ← loadEvent s.events sf.event
    if e.prep then do
      let r ← f.prepare e
      if r.1 ≠ 0 then
        pure { s with events := setEvent s.events sf.event r.2,
                      slots := s.slots.set k (some { sf with status := r.1, fut := .returned }) }
      else
        pure { s with events := setEvent s.events sf.event { r.2 with prep := false },
                      slots := s.slots.set k (some { sf with fut := .prepared }) }
    else pure { s with slots := s.slots.set k (some { sf with fut := .prepared }) }

/-- The second part: generate. sequencer.c:293-296 -/
def futGenerate [Add S] (f : Adder D S) (k : Nat) (sf : Slot S) (s : Par D S) : C (Par D S) :=
  if s.freed then .error .useAfterFree
  else do
    let e ← loadEvent s.events sf.event
    let r ← f.generate sf.start sf.stop e
    let out ← applyWrites 0 r.2.2 sf.out
    pure { s with events := setEvent s.events sf.event r.2.1,
                  slots := s.slots.set k (some { sf with out := out, status := r.1, fut := .returned }) }

/-- The end of `sp_seq_parallel`. sequencer.c:365-375. `sp_event_list_free` calls the free functions and empties the list. -/
def parExit (f : Adder D S) (st : Nat) (s : Par D S) : C (Par D S) :=
  if st ≠ 0 then do
    s.events.forM (fun p => if p.2.hasFree then f.free p.2 else pure ())
    pure { s with main := .returned st, freed := true, events := [] }
  else .ok { s with main := .returned st, freed := true }

/-- The steps of `sp_seq_parallel(start, stop, out, events)`. -/
inductive ParStep [Add S] [Zero S] (f : Adder D S) (start stop : Nat) : Par D S → C (Par D S) → Prop
  /-- sequencer.c:330-353 -/
  | distribute {s : Par D S} {pos : Nat} {a : Addr} {e : Event D} : s.main = .distribute pos →
      s.events[pos]? = some (a, e) → ParStep f start stop s (parDistribute f start stop pos a e s)
  /-- the end of the list. sequencer.c:329 -/
  | distributeEnd {s : Par D S} {pos : Nat} : s.main = .distribute pos → s.events[pos]? = none →
      ParStep f start stop s (.ok { s with main := .merge 0 })
  /-- `sph_future_touch` of an element that has not been set. sequencer.c:357 -/
  | mergeUnset {s : Par D S} {i : Nat} : s.main = .merge i → s.slots[i]? = some none →
      ParStep f start stop s (.error .uninitialized)
  /-- `sph_future_touch` returns, and the future has failed. sequencer.c:357-358 -/
  | mergeFail {s : Par D S} {i : Nat} {sf : Slot S} : s.main = .merge i → s.slots[i]? = some (some sf) →
      sf.fut = .returned → sf.status ≠ 0 → ParStep f start stop s (.ok { s with main := .exit sf.status })
  /-- `sph_future_touch` returns, and the output is added. sequencer.c:357-363 -/
  | merge {s : Par D S} {i : Nat} {sf : Slot S} : s.main = .merge i → s.slots[i]? = some (some sf) →
      sf.fut = .returned → sf.status = 0 →
      ParStep f start stop s ((mergeSlot sf s.out).map fun out => { s with main := .merge (i + 1), out := out })
  /-- the end of the merge loop. sequencer.c:355 -/
  | mergeEnd {s : Par D S} {i : Nat} : s.main = .merge i → s.slots[i]? = none →
      ParStep f start stop s (.ok { s with main := .exit 0 })
  | exit {s : Par D S} {st : Nat} : s.main = .exit st → ParStep f start stop s (parExit f st s)
  /-- A future, in another thread. -/
  | prepare {s : Par D S} {k : Nat} {sf : Slot S} : s.slots[k]? = some (some sf) → sf.fut = .new →
      ParStep f start stop s (futPrepare f k sf s)
  | generate {s : Par D S} {k : Nat} {sf : Slot S} : s.slots[k]? = some (some sf) → sf.fut = .prepared →
      ParStep f start stop s (futGenerate f k sf s)

/-- States that can be reached. -/
inductive ParReach [Add S] [Zero S] (f : Adder D S) (start stop : Nat) (events : List (Addr × Event D))
    (out : Buf (Buf S)) : Par D S → Prop
  | init : ParReach f start stop events out (parInit start stop events out)
  | step {s s' : Par D S} : ParReach f start stop events out s → ParStep f start stop s (.ok s') →
      ParReach f start stop events out s'

end Sp
