import Verif.Model.ThreadPool

/-!
# Accesses to shared memory by the thread pool and futures

The locations that a thread reads or writes in its next action, to say what a data race is.
-/

namespace Sp
variable {V : Type}

/-- Locations in memory: the fields of the queue, the link of a task in the queue, and the other fields of a task or future. -/
inductive Loc
  | queue
  | link (t : Addr)
  | f (t : Addr)
  | data (t : Addr)
  | finished (t : Addr)
  deriving DecidableEq

/-- `Access s i l w`: the next action of the thread `i` accesses the location `l`, and writes it if `w`. Clients between calls and functions of
futures are not included. -/
inductive Access (s : Pool V) (i : Nat) : Loc → Bool → Prop
  /-- `queue.size`, `sph_queue_deq`. thread-pool.c:66-67, queue.h -/
  | checkQueue : s.th i = .check → Access s i .queue true
  | checkLink {t : Addr} : s.th i = .check → s.queue.first = some t → Access s i (.link t) false
  /-- `sph_queue_enq`. thread-pool.c:16, queue.h -/
  | putQueue {t : Addr} {b : Back} : s.th i = .enq .put t b → Access s i .queue true
  | putLink {t : Addr} {b : Back} : s.th i = .enq .put t b → Access s i (.link t) true
  | putLast {t u : Addr} {b : Back} : s.th i = .enq .put t b → s.queue.first ≠ none → s.queue.last = some u → Access s i (.link u) true
  /-- `task->f`, and `task->data`. thread-pool.c:73, futures.c:29 -/
  | runF {t : Addr} {k : Nat} : s.th i = .run t k → Access s i (.f t) false
  | runData {t : Addr} {k : Nat} : s.th i = .run t k → Access s i (.data t) false
  /-- `free(task)`. thread-pool.c:8 -/
  | freeLink {t : Addr} {k : Nat} {x : QNode (TaskRest V)} : s.th i = .run t k → s.mem t = some x → x.rest.f = .finish →
      Access s i (.link t) true
  | freeF {t : Addr} {k : Nat} {x : QNode (TaskRest V)} : s.th i = .run t k → s.mem t = some x → x.rest.f = .finish → Access s i (.f t) true
  | freeData {t : Addr} {k : Nat} {x : QNode (TaskRest V)} : s.th i = .run t k → s.mem t = some x → x.rest.f = .finish →
      Access s i (.data t) true
  /-- `task->data = `. futures.c:29 -/
  | store {t : Addr} {k : Nat} {r : V} : s.th i = .ret t k r → Access s i (.data t) true
  /-- `a->finished = 1`. futures.c:30 -/
  | finished {t : Addr} {k : Nat} : s.th i = .stored t k → Access s i (.finished t) true
  /-- `a->finished`, `a->task.data`. futures.c:55,58 -/
  | touch {t : Addr} {b : Back} : s.th i = .touch t b → Access s i (.finished t) false
  | touchRead {t : Addr} {b : Back} : s.th i = .touchRead t b → Access s i (.data t) false

/-- A data race: two threads are about to access the same location and one of them to write it. -/
def Race (s : Pool V) (l : Loc) : Prop := ∃ i j w, i ≠ j ∧ Access s i l true ∧ Access s j l w

end Sp
