import Verif.C

/-!
# Model of the initialisation of the library (main.c:424-455, futures.c:9-20, 45-50, thread-pool.c:1-4, 27-57, 78-103)

Sequential: which threads are running, whether the mutex of the pool exists, which tables are allocated.
What workers do meanwhile is in `Verif.Model.ThreadPool`. Simplified: threads can be created and joined,
`malloc` returns memory; other global variables and the contents of the sine tables are left out.
-/

namespace Sp

/-- A pointer returned by `malloc`: null, allocated, or freed. -/
inductive TablePtr
  | null
  | live
  | freed
  deriving DecidableEq

/-- `free` -/
def TablePtr.free : TablePtr → C TablePtr
  | .null => .ok .null
  | .live => .ok .freed
  | .freed => .error .doubleFree

/-- Global variables and resources. -/
structure Lib where
  /-- `sph_futures_pool_is_initialized` -/
  initialized : Bool
  /-- `sph_futures_pool.size`, type uint8_t -/
  size : Nat
  /-- slots of `sph_futures_pool.threads` that have been written, of 128 -/
  threads : Buf Bool
  /-- calls of pthread_mutex_init for the mutex of the pool -/
  mutexInits : Nat
  /-- calls of pthread_mutex_destroy for the mutex of the pool -/
  mutexDestroys : Nat
  /-- number of worker threads that run -/
  workers : Nat
  /-- `sp_cpu_count`, type uint16_t -/
  cpuCount : Nat
  /-- `sp_sine_table` -/
  sine : TablePtr
  /-- `sp_sine_table_lfo` -/
  sineLfo : TablePtr

/-- The state when the program starts: global variables are zero. -/
def Lib.start : Lib where
  initialized := false
  size := 0
  threads := List.replicate 128 false
  mutexInits := 0
  mutexDestroys := 0
  workers := 0
  cpuCount := 0
  sine := .null
  sineLfo := .null

/-- One iteration of the loop that creates threads. thread-pool.c:89 -/
def poolNewBody (i : Nat) (s : Lib) : C Lib := do
  let t ← wr s.threads i true
  pure { s with threads := t, workers := s.workers + 1 }

/-- `sph_thread_pool_new`. thread-pool.c:78-103 -/
def poolNew (size : Nat) (s : Lib) : C Lib := do
  let r ← forRange 0 size poolNewBody { s with mutexInits := s.mutexInits + 1 }
  pure { r with size := size }

/-- `sph_future_init`. The parameter has the type uint8_t. futures.c:9-20 -/
def futureInit (threadCount : Nat) (s : Lib) : C Lib :=
  if s.initialized then .ok s
  else do
    let r ← poolNew (threadCount % 256) s
    pure { r with initialized := true }

/-- `sph_thread_pool_destroy`. thread-pool.c:1-4 -/
def poolDestroy (s : Lib) : Lib := { s with mutexDestroys := s.mutexDestroys + 1 }

/-- One iteration of the loop that joins threads. thread-pool.c:48-53 -/
def poolFinishBody (_ : Nat) (s : Lib) : C Lib :=
  if s.size - 1 = 0 then .ok (poolDestroy { s with workers := s.workers - 1, size := s.size - 1 })
  else .ok { s with workers := s.workers - 1, size := s.size - 1 }

/-- `sph_thread_pool_finish(pool, 0, 0)`: all workers end and are joined. thread-pool.c:27-57 -/
def poolFinish (s : Lib) : C Lib := forRange 0 s.size poolFinishBody s

/-- `sph_future_deinit`. futures.c:45-50 -/
def futureDeinit (s : Lib) : C Lib :=
  if s.initialized then do
    let r ← poolFinish s
    pure (poolDestroy r)
  else .ok s

/-- `sp_initialize`. The parameter has the type uint16_t. main.c:424-448 -/
def spInitialize (cpuCount : Nat) (s : Lib) : C Lib := do
  let r ← (if cpuCount ≠ 0 then futureInit cpuCount s else .ok s)
  pure { r with cpuCount := cpuCount, sine := .live, sineLfo := .live }

/-- `sp_deinitialize`. main.c:449-455 -/
def spDeinitialize (s : Lib) : C Lib := do
  let r ← (if s.cpuCount ≠ 0 then futureDeinit s else .ok s)
  let a ← r.sine.free
  let b ← r.sineLfo.free
  pure { r with sine := a, sineLfo := b }

end Sp
