import Verif.Model.Queue

/-!
# Model of the thread pool and of futures (thread-pool.c, futures.c)

A transition system: each step is one action of one thread on shared memory. Threads `i < n` are the
workers, all others are clients, of which there can be any number. Clients, and the functions of futures while
they are run by workers, can at any time make calls of `sph_future_new`, `sph_future_touch`, and clients one call
of `sph_thread_pool_finish(pool, 0, 0)`. What else these functions do, when they return and what, is
arbitrary.

Modelled: mutex and condition variable with spurious wakeups, the queue in memory, the memory of tasks and
futures with deallocation, and the destruction of the mutex. Simplified: memory is sequentially consistent
(the code accesses `finished` of `sph_future_t` without synchronisation), threads can be created, `malloc`
returns memory, fewer than 2^32 tasks are in the queue.

Obligations of callers, which are conditions of the steps: a future is not used for `sph_future_new` or freed while
it is in use, that is, between `sph_future_new` and the end of its evaluation, or while a thread is waiting for it.
`sph_future_touch` is called for futures that have been made. Clients do not make
futures during and after `sph_thread_pool_finish`.

Fields that start with `g` only record the history for stating properties.
-/

namespace Sp

/-- `task->f`: `sph_future_eval` or `sph_thread_finish`. -/
inductive TaskF
  | eval
  | finish
  deriving DecidableEq

/-- The fields of `sph_future_t` other than the queue node. Finish tasks have only `f`.
thread-pool.h:25-29, futures.h:17-21 -/
structure TaskRest (V : Type) where
  f : TaskF
  data : V
  finished : Bool

/-- Where a call returns to: to a client, to the function of the future at `t` (the task number `k`), or to
the loop of `sph_thread_pool_finish` that enqueues the finish task with index `i`. -/
inductive Back
  | client
  | inF (t : Addr) (k : Nat)
  | fin (i : Nat)

/-- The next action in `sph_thread_pool_enqueue`. thread-pool.c:14-19 -/
inductive EnqPc
  | lock
  | put
  | signal
  | unlock
  deriving DecidableEq

/-- What a thread does next. `t`, `k`: address and number of the task being processed. -/
inductive Th (V : Type)
  /-- a client between calls -/
  | client
  /-- worker: about to lock the mutex. thread-pool.c:63 -/
  | getTask
  /-- worker: about to check the size, with the mutex. thread-pool.c:66 -/
  | check
  /-- worker: in `pthread_cond_wait`. thread-pool.c:69 -/
  | waiting
  /-- worker: in `pthread_cond_wait`, about to lock the mutex again -/
  | woken
  /-- worker: about to unlock the mutex. thread-pool.c:72 -/
  | took (t : Addr) (k : Nat)
  /-- worker: about to call the function of the task. thread-pool.c:73 -/
  | run (t : Addr) (k : Nat)
  /-- worker: in the function of the future. futures.c:29 -/
  | inF (t : Addr) (k : Nat)
  /-- worker: about to store the result. futures.c:29 -/
  | ret (t : Addr) (k : Nat) (r : V)
  /-- worker: about to set finished. futures.c:30 -/
  | stored (t : Addr) (k : Nat)
  /-- a worker that has ended -/
  | ended
  /-- in `sph_thread_pool_enqueue` -/
  | enq (pc : EnqPc) (t : Addr) (b : Back)
  /-- in the loop of `sph_future_touch`. futures.c:55 -/
  | touch (t : Addr) (b : Back)
  /-- about to read the result. futures.c:58 -/
  | touchRead (t : Addr) (b : Back)
  /-- returning from `sph_future_touch` with a result -/
  | touched (t : Addr) (v : V) (b : Back)
  /-- about to join the worker `j`. thread-pool.c:48 -/
  | join (j : Nat)
  /-- `sph_thread_pool_finish` has returned -/
  | joined

/-- Where the task at an address is. -/
inductive Place
  /-- not in use: not yet or no longer a task of the pool -/
  | idle
  /-- in `sph_thread_pool_enqueue` of thread `i`, not yet in the queue -/
  | pending (i : Nat)
  /-- in the queue -/
  | queued
  /-- taken by worker `i` and not yet completed -/
  | proc (i : Nat)
  deriving DecidableEq

/-- The state of the program. -/
structure Pool (V : Type) where
  /-- owner of `queue_mutex` -/
  mutex : Option Nat
  queue : Queue
  mem : QMem (TaskRest V)
  th : Nat → Th V
  /-- `a->size` -/
  size : Nat
  /-- calls of `sph_thread_pool_destroy` -/
  destroyed : Nat
  /-- tasks in the order of enqueueing; the number of a task is its index -/
  gEnqueued : List Addr
  /-- the workers and the tasks they took, in order -/
  gTaken : List (Nat × Addr)
  /-- numbers of the tasks whose function has been called, in order -/
  gCalled : List Nat
  /-- numbers of the tasks whose processing has ended -/
  gDone : List Nat
  /-- where the task at an address is -/
  gPlace : Addr → Place
  /-- a future has been made at the address -/
  gMade : Addr → Bool
  /-- what the function of the future has returned -/
  gResult : Addr → Option V
  /-- number of tasks enqueued when `sph_thread_pool_finish` was called -/
  gFinishAt : Option Nat
  /-- the thread that called `sph_thread_pool_finish` -/
  gFinisher : Nat

variable {V : Type}

/-- `f` with the value `v` at `a`. -/
def upd {B : Type} (f : Nat → B) (a : Nat) (v : B) : Nat → B := fun x => if x = a then v else f x

/-- What a thread does after a call has returned. -/
def Back.th : Back → Th V
  | .client => .client
  | .inF t k => .inF t k
  | .fin _ => .client

/-- The thread is in `sph_future_touch` for `t`. -/
def Th.touches (x : Th V) (t : Addr) : Prop :=
  match x with
  | .touch u _ => u = t
  | .touchRead u _ => u = t
  | .touched u _ _ => u = t
  | _ => False

/-- The thread is a client in a call of `sph_future_new`. -/
def Th.clientEnq (x : Th V) : Prop :=
  match x with
  | .enq _ _ .client => True
  | _ => False

/-- Can make a call, which returns to `b`. -/
def CanCall (x : Th V) (b : Back) : Prop :=
  match b with
  | .client => x = .client
  | .inF t k => x = .inF t k
  | .fin _ => False

/-- The steps, with `n` workers. The result is the next state or a fault. -/
inductive Step (n : Nat) : Pool V → C (Pool V) → Prop
  /-- worker: `pthread_mutex_lock`. thread-pool.c:63 -/
  | lock {s : Pool V} {i : Nat} : s.th i = .getTask → s.destroyed = 0 → s.mutex = none →
      Step n s (.ok { s with mutex := some i, th := upd s.th i .check })
  | lockFault {s : Pool V} {i : Nat} : s.th i = .getTask → s.destroyed ≠ 0 → Step n s (.error .useAfterFree)
  /-- worker: the queue is not empty, `sph_queue_deq`. thread-pool.c:66-67 -/
  | take {s : Pool V} {i : Nat} {t : Addr} {q : Queue} : s.th i = .check → s.queue.size ≠ 0 →
      queueDeq s.queue s.mem = .ok (t, q) →
      Step n s (.ok { s with queue := q, th := upd s.th i (.took t s.gTaken.length), gTaken := s.gTaken ++ [(i, t)],
                             gPlace := upd s.gPlace t (.proc i) })
  | takeFault {s : Pool V} {i : Nat} {e : Fault} : s.th i = .check → s.queue.size ≠ 0 →
      queueDeq s.queue s.mem = .error e → Step n s (.error e)
  /-- worker: the queue is empty, `pthread_cond_wait` unlocks the mutex. thread-pool.c:69 -/
  | wait {s : Pool V} {i : Nat} : s.th i = .check → s.queue.size = 0 →
      Step n s (.ok { s with mutex := none, th := upd s.th i .waiting })
  /-- worker: wakeup without signal -/
  | spurious {s : Pool V} {i : Nat} : s.th i = .waiting → Step n s (.ok { s with th := upd s.th i .woken })
  /-- worker: `pthread_cond_wait` locks the mutex and returns -/
  | relock {s : Pool V} {i : Nat} : s.th i = .woken → s.destroyed = 0 → s.mutex = none →
      Step n s (.ok { s with mutex := some i, th := upd s.th i .check })
  | relockFault {s : Pool V} {i : Nat} : s.th i = .woken → s.destroyed ≠ 0 → Step n s (.error .useAfterFree)
  /-- worker: `pthread_mutex_unlock`. thread-pool.c:72 -/
  | unlock {s : Pool V} {i : Nat} {t : Addr} {k : Nat} : s.th i = .took t k →
      Step n s (.ok { s with mutex := none, th := upd s.th i (.run t k) })
  /-- worker: call of `sph_future_eval`, call of the function. thread-pool.c:73, futures.c:26-29 -/
  | eval {s : Pool V} {i : Nat} {t : Addr} {k : Nat} {x : QNode (TaskRest V)} : s.th i = .run t k →
      s.mem t = some x → x.rest.f = .eval →
      Step n s (.ok { s with th := upd s.th i (.inF t k), gCalled := s.gCalled ++ [k] })
  /-- worker: `sph_thread_finish`. thread-pool.c:7-10 -/
  | finish {s : Pool V} {i : Nat} {t : Addr} {k : Nat} {x : QNode (TaskRest V)} : s.th i = .run t k →
      s.mem t = some x → x.rest.f = .finish →
      Step n s (.ok { s with mem := upd s.mem t none, th := upd s.th i .ended, gCalled := s.gCalled ++ [k],
                             gDone := s.gDone ++ [k], gPlace := upd s.gPlace t .idle })
  | runFault {s : Pool V} {i : Nat} {t : Addr} {k : Nat} : s.th i = .run t k → s.mem t = none →
      Step n s (.error .useAfterFree)
  /-- worker: the function of the future returns `r` -/
  | ret {s : Pool V} {i : Nat} {t : Addr} {k : Nat} (r : V) : s.th i = .inF t k →
      Step n s (.ok { s with th := upd s.th i (.ret t k r), gResult := upd s.gResult t (some r) })
  /-- worker: `task->data = `. futures.c:29 -/
  | store {s : Pool V} {i : Nat} {t : Addr} {k : Nat} {r : V} {x : QNode (TaskRest V)} : s.th i = .ret t k r →
      s.mem t = some x →
      Step n s (.ok { s with mem := upd s.mem t (some { x with rest := { x.rest with data := r } }),
                             th := upd s.th i (.stored t k) })
  | storeFault {s : Pool V} {i : Nat} {t : Addr} {k : Nat} {r : V} : s.th i = .ret t k r → s.mem t = none →
      Step n s (.error .useAfterFree)
  /-- worker: `a->finished = 1`. futures.c:30 -/
  | finished {s : Pool V} {i : Nat} {t : Addr} {k : Nat} {x : QNode (TaskRest V)} : s.th i = .stored t k →
      s.mem t = some x →
      Step n s (.ok { s with mem := upd s.mem t (some { x with rest := { x.rest with finished := true } }),
                             th := upd s.th i .getTask, gDone := s.gDone ++ [k], gPlace := upd s.gPlace t .idle })
  | finishedFault {s : Pool V} {i : Nat} {t : Addr} {k : Nat} : s.th i = .stored t k → s.mem t = none →
      Step n s (.error .useAfterFree)
  /-- `sph_future_new` sets the fields. futures.c:36-39 -/
  | new {s : Pool V} {i : Nat} {t : Addr} {b : Back} {x : QNode (TaskRest V)} (d : V) : CanCall (s.th i) b →
      s.mem t = some x → s.gPlace t = .idle → (∀ j, ¬ (s.th j).touches t) → (i < n ∨ s.gFinishAt = none) →
      Step n s (.ok { s with mem := upd s.mem t (some { x with rest := { f := .eval, data := d, finished := false } }),
                             th := upd s.th i (.enq .lock t b), gPlace := upd s.gPlace t (.pending i),
                             gMade := upd s.gMade t true, gResult := upd s.gResult t none })
  /-- `pthread_mutex_lock`. thread-pool.c:15 -/
  | enqLock {s : Pool V} {i : Nat} {t : Addr} {b : Back} : s.th i = .enq .lock t b → s.destroyed = 0 → s.mutex = none →
      Step n s (.ok { s with mutex := some i, th := upd s.th i (.enq .put t b) })
  | enqLockFault {s : Pool V} {i : Nat} {t : Addr} {b : Back} : s.th i = .enq .lock t b → s.destroyed ≠ 0 →
      Step n s (.error .useAfterFree)
  /-- `sph_queue_enq`. thread-pool.c:16 -/
  | enqPut {s : Pool V} {i : Nat} {t : Addr} {b : Back} {q : Queue} {m : QMem (TaskRest V)} : s.th i = .enq .put t b →
      s.gEnqueued.length + 1 < s.gTaken.length + 4294967296 → queueEnq s.queue s.mem t = .ok (q, m) →
      Step n s (.ok { s with queue := q, mem := m, th := upd s.th i (.enq .signal t b), gEnqueued := s.gEnqueued ++ [t],
                             gPlace := upd s.gPlace t .queued })
  | enqPutFault {s : Pool V} {i : Nat} {t : Addr} {b : Back} {e : Fault} : s.th i = .enq .put t b →
      s.gEnqueued.length + 1 < s.gTaken.length + 4294967296 → queueEnq s.queue s.mem t = .error e →
      Step n s (.error e)
  /-- `pthread_cond_signal` with at least one waiting thread wakes one. thread-pool.c:17 -/
  | signal {s : Pool V} {i w : Nat} {t : Addr} {b : Back} : s.th i = .enq .signal t b → s.th w = .waiting →
      Step n s (.ok { s with th := upd (upd s.th w .woken) i (.enq .unlock t b) })
  /-- `pthread_cond_signal` without waiting threads. -/
  | signalNone {s : Pool V} {i : Nat} {t : Addr} {b : Back} : s.th i = .enq .signal t b → (∀ w, s.th w ≠ .waiting) →
      Step n s (.ok { s with th := upd s.th i (.enq .unlock t b) })
  /-- `pthread_mutex_unlock` and return to the caller of `sph_future_new`. thread-pool.c:18 -/
  | enqUnlock {s : Pool V} {i : Nat} {t : Addr} {b : Back} : s.th i = .enq .unlock t b → (∀ j, b ≠ .fin j) →
      Step n s (.ok { s with mutex := none, th := upd s.th i b.th })
  /-- the same, in the loop of `sph_thread_pool_finish`, which then allocates and enqueues the next finish task.
  thread-pool.c:18,38-45 -/
  | finUnlock {s : Pool V} {i : Nat} {t u : Addr} {j : Nat} {y : V} : s.th i = .enq .unlock t (.fin j) → j + 1 < n →
      s.mem u = none →
      Step n s (.ok { s with mutex := none, mem := upd s.mem u (some ⟨none, ⟨.finish, y, false⟩⟩),
                             th := upd s.th i (.enq .lock u (.fin (j + 1))), gPlace := upd s.gPlace u (.pending i),
                             gMade := upd s.gMade u false })
  /-- the same, for the last finish task. thread-pool.c:18,47 -/
  | finLast {s : Pool V} {i : Nat} {t : Addr} {j : Nat} : s.th i = .enq .unlock t (.fin j) → n ≤ j + 1 →
      Step n s (.ok { s with mutex := none, th := upd s.th i (.join 0) })
  /-- call of `sph_future_touch` -/
  | touch {s : Pool V} {i : Nat} {t : Addr} {b : Back} : CanCall (s.th i) b → s.gMade t = true →
      Step n s (.ok { s with th := upd s.th i (.touch t b) })
  /-- `finished` is set: the loop ends. futures.c:55 -/
  | touchEnd {s : Pool V} {i : Nat} {t : Addr} {b : Back} {x : QNode (TaskRest V)} : s.th i = .touch t b →
      s.mem t = some x → x.rest.finished = true → Step n s (.ok { s with th := upd s.th i (.touchRead t b) })
  | touchFault {s : Pool V} {i : Nat} {t : Addr} {b : Back} : s.th i = .touch t b → s.mem t = none →
      Step n s (.error .useAfterFree)
  /-- the result is read. futures.c:58 -/
  | touchRead {s : Pool V} {i : Nat} {t : Addr} {b : Back} {x : QNode (TaskRest V)} : s.th i = .touchRead t b →
      s.mem t = some x → Step n s (.ok { s with th := upd s.th i (.touched t x.rest.data b) })
  | touchReadFault {s : Pool V} {i : Nat} {t : Addr} {b : Back} : s.th i = .touchRead t b → s.mem t = none →
      Step n s (.error .useAfterFree)
  /-- return to the caller of `sph_future_touch` -/
  | touchRet {s : Pool V} {i : Nat} {t : Addr} {v : V} {b : Back} : s.th i = .touched t v b →
      Step n s (.ok { s with th := upd s.th i b.th })
  /-- call of `sph_thread_pool_finish`, allocation of the first finish task. thread-pool.c:27-43 -/
  | finStart {s : Pool V} {i : Nat} {u : Addr} {y : V} : s.th i = .client → s.gFinishAt = none → 0 < n →
      (∀ j, ¬ (s.th j).clientEnq) → s.mem u = none →
      Step n s (.ok { s with mem := upd s.mem u (some ⟨none, ⟨.finish, y, false⟩⟩), th := upd s.th i (.enq .lock u (.fin 0)),
                             gPlace := upd s.gPlace u (.pending i), gMade := upd s.gMade u false,
                             gFinishAt := some s.gEnqueued.length, gFinisher := i })
  /-- `pthread_join` returns; the last one destroys the mutex. thread-pool.c:48-52 -/
  | join {s : Pool V} {i j : Nat} : s.th i = .join j → j < n → s.th j = .ended →
      Step n s (.ok { s with th := upd s.th i (.join (j + 1)), size := s.size - 1,
                             destroyed := if s.size - 1 = 0 then s.destroyed + 1 else s.destroyed })
  /-- the loop over the threads ends. thread-pool.c:47 -/
  | joined {s : Pool V} {i j : Nat} : s.th i = .join j → n ≤ j → Step n s (.ok { s with th := upd s.th i .joined })
  /-- memory for a future is allocated -/
  | alloc {s : Pool V} {t : Addr} (x : QNode (TaskRest V)) : s.mem t = none →
      Step n s (.ok { s with mem := upd s.mem t (some x), gMade := upd s.gMade t false })
  /-- memory of a future is freed -/
  | free {s : Pool V} {t : Addr} : s.gPlace t = .idle → (∀ j, ¬ (s.th j).touches t) →
      Step n s (.ok { s with mem := upd s.mem t none, gMade := upd s.gMade t false })

/-- The state after `sph_thread_pool_new` with `n` workers: empty queue, unlocked mutex. thread-pool.c:78-103 -/
def Pool.init (n : Nat) (mem : QMem (TaskRest V)) : Pool V where
  mutex := none
  queue := queueInit
  mem := mem
  th i := if i < n then .getTask else .client
  size := n
  destroyed := 0
  gEnqueued := []
  gTaken := []
  gCalled := []
  gDone := []
  gPlace _ := .idle
  gMade _ := false
  gResult _ := none
  gFinishAt := none
  gFinisher := 0

/-- States that can be reached from `s`. -/
inductive Steps (n : Nat) : Pool V → Pool V → Prop
  | refl {s : Pool V} : Steps n s s
  | tail {s t u : Pool V} : Steps n s t → Step n t (.ok u) → Steps n s u

/-- States that can be reached from the initialised pool. -/
def PoolReach (n : Nat) (s : Pool V) : Prop := ∃ mem, Steps n (Pool.init n mem) s

end Sp
