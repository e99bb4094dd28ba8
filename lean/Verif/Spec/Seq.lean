import Verif.Model.Seq

/-!
# Specification vocabulary for the sequencer
-/

namespace Sp
variable {D W : Type}

/-- The log entries about the list element `a`. -/
def traceOf (a : Addr) (log : List Call) : List Call := log.filter (fun c => c.addr = a)

/-- Event functions behave: prepare and generate do not change the times of the event, and generate
does not set the prepare pointer again. -/
structure KeepsTimes (cb : Callbacks D W) : Prop where
  prepare : ∀ e w st e' w', cb.prepare e w = .ok (st, e', w') → e'.start = e.start ∧ e'.stop = e.stop
  generate : ∀ x y off e w st e' w', cb.generate x y off e w = .ok (st, e', w') →
    e'.start = e.start ∧ e'.stop = e.stop ∧ (e.prep = false → e'.prep = false)

/-- Prepare and generate do not remove the free function of the event. -/
structure KeepsFree (cb : Callbacks D W) : Prop where
  prepare : ∀ e w st e' w', cb.prepare e w = .ok (st, e', w') → e.hasFree → e'.hasFree
  generate : ∀ x y off e w st e' w', cb.generate x y off e w = .ok (st, e', w') → e.hasFree → e'.hasFree

/-- A prepared event list: sorted by ascending start, no event ends before it starts, times are 32
bit. -/
structure SortedEvents (l : List (Addr × Event D)) : Prop where
  sorted : l.Pairwise (fun x y => x.2.start ≤ y.2.start)
  ordered : ∀ x ∈ l, x.2.start ≤ x.2.stop
  small : ∀ x ∈ l, x.2.stop < 4294967296

/-- Consecutive nonempty blocks, given by the start of the first and the end of each. -/
def Blocks : Nat → List Nat → Prop
  | _, [] => True
  | start, stop :: rest => start < stop ∧ stop < 4294967296 ∧ Blocks stop rest

/-- The bounds (start, end) of consecutive blocks. -/
def blockBounds : Nat → List Nat → List (Nat × Nat)
  | _, [] => []
  | start, stop :: rest => (start, stop) :: blockBounds stop rest

/-- The arguments (start, end, offset of the output pointer) of the generate calls for the element
`a`, in order. -/
def generatesOf (a : Addr) (log : List Call) : List (Nat × Nat × Nat) :=
  log.filterMap fun c => match c with
    | .generate b x y off _ => if b = a then some (x, y, off) else none
    | _ => none

/-- The prepare calls for the element `a`. -/
def preparesOf (a : Addr) (log : List Call) : List Nat :=
  log.filterMap fun c => match c with
    | .prepare b st => if b = a then some st else none
    | _ => none

end Sp
