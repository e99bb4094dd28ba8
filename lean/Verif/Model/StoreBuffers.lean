import Verif.Model.ThreadPool

/-!
# Model of the thread pool on machines with store buffers

The model of `Verif.Model.ThreadPool`, except that the stores of `sph_future_eval` (futures.c:29-30), which are made without the mutex,
go to a buffer of the thread and reach the memory later. With `fifo` the stores of a thread reach the memory in order (total store order,
as on x86-64), without it in any order if they are to different locations (partial store order). The operations of
the mutex wait until the buffer of the thread is empty.

Simplified: the stores of `sph_future_new` (futures.c:36-39) and the ones made with the mutex are not buffered. They are followed by an operation of the
mutex before another thread can read what they write. The compiler keeps the order of the stores.
-/

namespace Sp
variable {V : Type}

/-- A store: `task->data = r` or `a->finished = 1` for the future at `t`, the task number `k`. futures.c:29-30 -/
inductive FutureStore (V : Type)
  | data (t : Addr) (k : Nat) (r : V)
  | finished (t : Addr) (k : Nat)

/-- The stores are to the same location. -/
def FutureStore.sameLoc : FutureStore V → FutureStore V → Prop
  | .data t _ _, .data u _ _ => t = u
  | .finished t _, .finished u _ => t = u
  | _, _ => False

/-- The store reaches the memory. When `finished` is visible the future is no longer in use. -/
def FutureStore.apply (w : FutureStore V) (p : Pool V) : C (Pool V) :=
  match w with
  | .data t _ r =>
    match p.mem t with
    | none => .error .useAfterFree
    | some x => .ok { p with mem := upd p.mem t (some { x with rest := { x.rest with data := r } }) }
  | .finished t k =>
    match p.mem t with
    | none => .error .useAfterFree
    | some x => .ok { p with mem := upd p.mem t (some { x with rest := { x.rest with finished := true } }),
                             gDone := p.gDone ++ [k], gPlace := upd p.gPlace t .idle }

/-- The state: shared memory and threads, and for each thread the stores that are not yet in memory, oldest first. -/
structure Buffered (V : Type) where
  pool : Pool V
  buf : Nat → List (FutureStore V)

/-- The next action of the thread is an operation of the mutex. thread-pool.c:15,18,63,69,72 -/
def Th.fence (x : Th V) : Bool :=
  match x with
  | .getTask | .check | .woken | .took _ _ | .enq .lock _ _ | .enq .unlock _ _ => true
  | _ => false

/-- The next action of the thread is one of the stores that are buffered. -/
def Th.stores (x : Th V) : Bool :=
  match x with
  | .ret _ _ _ | .stored _ _ => true
  | _ => false

/-- The steps of the machine. -/
inductive BStep (fifo : Bool) (n : Nat) : Buffered V → C (Buffered V) → Prop
  /-- `task->data = `. futures.c:29 -/
  | store {s : Buffered V} {i : Nat} {t : Addr} {k : Nat} {r : V} : s.pool.th i = .ret t k r →
      BStep fifo n s (.ok { pool := { s.pool with th := upd s.pool.th i (.stored t k) },
                            buf := upd s.buf i (s.buf i ++ [.data t k r]) })
  /-- `a->finished = 1`. futures.c:30 -/
  | finished {s : Buffered V} {i : Nat} {t : Addr} {k : Nat} : s.pool.th i = .stored t k →
      BStep fifo n s (.ok { pool := { s.pool with th := upd s.pool.th i .getTask },
                            buf := upd s.buf i (s.buf i ++ [.finished t k]) })
  /-- a store reaches the memory, before the older ones `a` -/
  | drain {s : Buffered V} {i : Nat} {a b : List (FutureStore V)} {w : FutureStore V} {p : Pool V} : s.buf i = a ++ w :: b →
      (∀ u ∈ a, fifo = false ∧ ¬ u.sameLoc w) → w.apply s.pool = .ok p →
      BStep fifo n s (.ok { pool := p, buf := upd s.buf i (a ++ b) })
  | drainFault {s : Buffered V} {i : Nat} {a b : List (FutureStore V)} {w : FutureStore V} {e : Fault} : s.buf i = a ++ w :: b →
      (∀ u ∈ a, fifo = false ∧ ¬ u.sameLoc w) → w.apply s.pool = .error e → BStep fifo n s (.error e)
  /-- all other steps -/
  | other {s : Buffered V} {p : Pool V} : Step n s.pool (.ok p) →
      (∀ i, p.th i ≠ s.pool.th i → (s.pool.th i).stores = false ∧ ((s.pool.th i).fence = true → s.buf i = [])) →
      BStep fifo n s (.ok { pool := p, buf := s.buf })
  | otherFault {s : Buffered V} {e : Fault} : Step n s.pool (.error e) → BStep fifo n s (.error e)

/-- States that can be reached from the initialised pool with empty buffers. -/
inductive BReach (fifo : Bool) (n : Nat) : Buffered V → Prop
  | init (mem : QMem (TaskRest V)) : BReach fifo n { pool := Pool.init n mem, buf := fun _ => [] }
  | step {s s' : Buffered V} : BReach fifo n s → BStep fifo n s (.ok s') → BReach fifo n s'

end Sp
