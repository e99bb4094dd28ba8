import Verif.Model.Init

/-!
# Model of the initialisation of the library when resources are missing (main.c:424-455, futures.c:9-20, 45-50, thread-pool.c:1-57, 78-103)

As `Verif.Model.Init`, but `pthread_create`, `malloc` for the tasks that end threads and `calloc` for the sine tables can fail.
The workers have nothing to do but to take tasks that end them. Simplified: `pthread_join` does not fail; other global variables and the contents of
the sine tables are left out; mutex and attribute functions do not fail.
-/

namespace Sp

/-- What is available during a call. -/
structure Resources where
  /-- what the call of `pthread_create` for thread `i` returns; zero is success -/
  create : Nat → Nat
  /-- if the allocation of task `i` by `sph_thread_pool_finish` is successful -/
  task : Nat → Bool
  /-- if the allocation of `sp_sine_table` is successful -/
  sine : Bool
  /-- if the allocation of `sp_sine_table_lfo` is successful -/
  sineLfo : Bool

/-- Everything is available. -/
def Resources.enough : Resources := ⟨fun _ => 0, fun _ => true, true, true⟩

/-- The state of `Lib` with the number of tasks in the queue of the pool; all of them are tasks that end a thread. -/
structure LibTasks extends Lib where
  tasks : Nat
  /-- `sp_rate`, type uint32_t -/
  rate : Nat

/-- The state when the program starts. -/
def LibTasks.start : LibTasks := { Lib.start with tasks := 0, rate := 0 }

/-- The first loop of `sph_thread_pool_finish`, from index `i` on with `m` iterations left: enqueues tasks that end threads. The result is the return
value. thread-pool.c:37-44 -/
def finishTasks (o : Resources) (i : Nat) : Nat → LibTasks → LibTasks × Nat
  | 0, s => (s, 0)
  | m + 1, s => if o.task i then finishTasks o (i + 1) m { s with tasks := s.tasks + 1 } else (s, 1)

/-- The loop of `sph_thread_pool_new`, from index `i` on with `m` iterations left. The result is `error`. `sph_thread_pool_finish(a, 1, 0)` is called
when threads have been created before. thread-pool.c:88-98 -/
def poolCreate (o : Resources) (i : Nat) : Nat → LibTasks → C (LibTasks × Nat)
  | 0, s => .ok (s, 0)
  | m + 1, s =>
    if o.create i ≠ 0 then
      .ok (if 0 < i then (finishTasks o 0 i { s with size := i }).1 else s, o.create i)
    else do
      let t ← wr s.threads i true
      poolCreate o (i + 1) m { s with threads := t, workers := s.workers + 1 }

/-- `sph_thread_pool_new`. `sph_queue_init` drops what has been in the queue. thread-pool.c:78-103 -/
def poolNewFail (o : Resources) (size : Nat) (s : LibTasks) : C (LibTasks × Nat) := do
  let r ← poolCreate o 0 size { s with mutexInits := s.mutexInits + 1, tasks := 0 }
  if r.2 = 0 then pure ({ r.1 with size := size }, 0) else pure r

/-- `sph_future_init`. futures.c:9-20 -/
def futureInitFail (o : Resources) (threadCount : Nat) (s : LibTasks) : C (LibTasks × Nat) :=
  if s.initialized then .ok (s, 0)
  else do
    let r ← poolNewFail o (threadCount % 256) s
    if r.2 = 0 then pure ({ r.1 with initialized := true }, 0) else pure r

/-- `sp_samples_new` for a table: null stays if memory is missing; the status is 0, which is success, in any case. helper.c:46-57,
arrays-template.c:93 -/
def tableNew (enough : Bool) : TablePtr := if enough then .live else .null

/-- `sp_sine_period` writes `size` elements. main.c:191-195 -/
def tableFill (size : Nat) (t : TablePtr) : C Unit :=
  if size = 0 then .ok () else match t with
    | .null => .error .nullDeref
    | .live => .ok ()
    | .freed => .error .useAfterFree

/-- `sp_initialize`, with the status id that is returned. As `sp_samples_new` returns success in any case, so that the label `exit` is never reached
with a failure, `sp_deinitialize` is not called. The product for the second table wraps around. main.c:424-448 -/
def initializeFail (o : Resources) (cpuCount rate : Nat) (s : LibTasks) : C (LibTasks × Nat) := do
  let r ← (if cpuCount ≠ 0 then futureInitFail o cpuCount s else .ok (s, 0))
  if r.2 ≠ 0 then pure r
  else do
    let a := tableNew o.sine
    let b := tableNew o.sineLfo
    tableFill rate a
    tableFill (u32 (rate * 100)) b
    pure ({ r.1 with cpuCount := cpuCount, rate := rate, sine := a, sineLfo := b }, 0)

/-- `sph_future_deinit` when a task to end a thread can not be allocated: `sph_thread_pool_finish` returns 1 without waiting for threads, which is ignored, and the
mutex is destroyed. Simplified: nothing is modelled for the case that all tasks can be allocated, see `futureDeinit`. futures.c:45-50,
thread-pool.c:37-42 -/
def futureDeinitNoMemory (o : Resources) (s : LibTasks) : C LibTasks :=
  if s.initialized then
    match finishTasks o 0 s.size s with
    | (r, _) => .ok { r with mutexDestroys := r.mutexDestroys + 1 }
  else .ok s

/-- A worker takes a task from the queue and ends. thread-pool.c:7-10, 61-76 -/
inductive WorkerEnds : LibTasks → LibTasks → Prop
  | step {s : LibTasks} : 0 < s.tasks → 0 < s.workers → WorkerEnds s { s with tasks := s.tasks - 1, workers := s.workers - 1 }

/-- What the workers do between calls. -/
inductive WorkersRun : LibTasks → LibTasks → Prop
  | refl {s : LibTasks} : WorkersRun s s
  | step {s t u : LibTasks} : WorkersRun s t → WorkerEnds t u → WorkersRun s u

end Sp
