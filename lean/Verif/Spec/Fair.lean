import Verif.Model.ThreadPool

/-!
# Executions of the thread pool and fairness

Only the notions that are needed to say that something happens at some time.
-/

namespace Sp
variable {V : Type}

/-- An infinite execution from the state after `sph_thread_pool_new`: from one moment to the next some thread makes a step, or
nothing happens. -/
structure Execution (n : Nat) (σ : Nat → Pool V) : Prop where
  start : ∃ mem, σ 0 = Pool.init n mem
  next : ∀ m, σ (m + 1) = σ m ∨ Step n (σ m) (.ok (σ (m + 1)))

/-- The thread `i` can go on and it is not up to the user if it does: it is not sleeping, it is not a client between calls,
it does not run the function of a future, and there is a step that changes where it is. -/
def CanGo (n : Nat) (s : Pool V) (i : Nat) : Prop :=
  s.th i ≠ .waiting ∧ s.th i ≠ .client ∧ (∀ t k, s.th i ≠ .inF t k) ∧ ∃ s', Step n s (.ok s') ∧ s'.th i ≠ s.th i

/-- A thread that stays at one place for ever can from some time on not go on any more. In other words, a thread that can go on
again and again does so at some time. -/
def FairRun (n : Nat) (σ : Nat → Pool V) : Prop :=
  ∀ i m, (∀ m' ≥ m, (σ m').th i = (σ m).th i) → ∃ m₁, ∀ m' ≥ m₁, ¬ CanGo n (σ m') i

/-- The thread runs the function of the future at `t`, the task number `k`, or a function called from there. -/
def Th.calls (x : Th V) (t : Addr) (k : Nat) : Prop :=
  match x with
  | .inF u j => u = t ∧ j = k
  | .enq _ _ b => b = .inF t k
  | .touch _ b => b = .inF t k
  | .touchRead _ b => b = .inF t k
  | .touched _ _ b => b = .inF t k
  | _ => False

/-- The functions of futures return at some time. -/
def FunctionsReturn (σ : Nat → Pool V) : Prop :=
  ∀ m i t k, ((σ m).th i).calls t k → ∃ m' ≥ m, ∃ r, (σ m').th i = .ret t k r

/-- The same without the time that is spent in calls: a function does not do something itself again and again for ever, it can fail to
return only because a call does not return. -/
def FunctionsEnd (σ : Nat → Pool V) : Prop :=
  ∀ m i t k, (∀ m' ≥ m, ((σ m').th i).calls t k) → ∃ m₁, ∀ m' ≥ m₁, (σ m').th i ≠ .inF t k

/-- There are always fewer than 2^32 - 1 tasks in the queue. -/
def QueueRoom (σ : Nat → Pool V) : Prop := ∀ m, (σ m).gEnqueued.length + 1 < (σ m).gTaken.length + 4294967296

/-- `malloc` returns memory when `sph_thread_pool_finish` needs it for the next finish task. -/
def MemoryRoom (n : Nat) (σ : Nat → Pool V) : Prop :=
  ∀ m i t j, (σ m).th i = .enq .unlock t (.fin j) → j + 1 < n → ∃ u, (σ m).mem u = none

end Sp
