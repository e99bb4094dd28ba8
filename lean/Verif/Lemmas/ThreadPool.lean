import Verif.Model.ThreadPool
import Verif.Lemmas.Queue

/-! # Invariants of the thread pool -/

set_option linter.unusedSectionVars false

namespace Sp
variable {V : Type} {n : Nat} {s s' : Pool V}

/-- The thread owns the mutex. -/
def Th.holds : Th V → Bool
  | .check => true
  | .took _ _ => true
  | .enq .lock _ _ => false
  | .enq _ _ _ => true
  | _ => false

/-- The task that is being processed by the function that made the call. -/
def Back.proc : Back → Option (Addr × Nat)
  | .inF t k => some (t, k)
  | _ => none

/-- The task that is being processed by the thread. -/
def Th.proc : Th V → Option (Addr × Nat)
  | .took t k => some (t, k)
  | .run t k => some (t, k)
  | .inF t k => some (t, k)
  | .ret t k _ => some (t, k)
  | .stored t k => some (t, k)
  | .enq _ _ b => b.proc
  | .touch _ b => b.proc
  | .touchRead _ b => b.proc
  | .touched _ _ b => b.proc
  | _ => none

/-- The task that the thread is about to enqueue. -/
def Th.pend : Th V → Option Addr
  | .enq .lock t _ => some t
  | .enq .put t _ => some t
  | _ => none

def Th.isWorker : Th V → Bool
  | .getTask => true
  | .check => true
  | .waiting => true
  | .woken => true
  | .ended => true
  | x => x.proc.isSome

/-- The thread will look at the queue without being woken. -/
def Th.awake : Th V → Bool
  | .getTask => true
  | .check => true
  | .woken => true
  | _ => false

def Back.isFin : Back → Bool
  | .fin _ => true
  | _ => false

/-- The thread is in `sph_thread_pool_finish`, or has been. -/
def Th.isFin : Th V → Bool
  | .enq _ _ b => b.isFin
  | .join _ => true
  | .joined => true
  | _ => false

theorem upd_same {B : Type} (f : Nat → B) (a : Nat) (v : B) : upd f a v a = v := by simp [upd]

theorem upd_ne {B : Type} (f : Nat → B) {a x : Nat} (v : B) (h : x ≠ a) : upd f a v x = f x := by simp [upd, h]

/-- Workers stay workers. -/
def KindInv (n : Nat) (s : Pool V) : Prop := ∀ i, (s.th i).isWorker = true ↔ i < n

theorem canCall_iff {x : Th V} {b : Back} : CanCall x b ↔ x = b.th ∧ ∀ j, b ≠ .fin j := by
  cases b <;> simp_all [CanCall, Back.th]

theorem back_isWorker (b : Back) : (b.th : Th V).isWorker = b.proc.isSome := by cases b <;> rfl
theorem back_proc (b : Back) : (b.th : Th V).proc = b.proc := by cases b <;> rfl
theorem back_holds (b : Back) : (b.th : Th V).holds = false := by cases b <;> rfl
theorem back_pend (b : Back) : (b.th : Th V).pend = none := by cases b <;> rfl
theorem back_awake (b : Back) : (b.th : Th V).awake = false := by cases b <;> rfl
theorem back_isFin (b : Back) : (b.th : Th V).isFin = false := by cases b <;> rfl

theorem kindInv_step (hs : Step n s (.ok s')) (h : KindInv n s) : KindInv n s' := by
  intro j
  have hj := h j
  cases hs <;> grind [upd, Th.isWorker, Th.proc, Back.proc, canCall_iff, back_isWorker]

/-- The mutex is owned by the thread that is in a critical section. -/
def MutexInv (s : Pool V) : Prop := ∀ i, s.mutex = some i ↔ (s.th i).holds = true

theorem mutexInv_step (hs : Step n s (.ok s')) (h : MutexInv s) : MutexInv s' := by
  intro j
  have hj := h j
  cases hs <;> grind [upd, Th.holds, canCall_iff, MutexInv, back_holds]

theorem QRepr.upd_some {R : Type} {q : Queue} {m : QMem R} {l : List Addr} (h : QRepr q m l) {t : Addr} {x y : QNode R}
    (hx : m t = some x) (hy : y.next = x.next) : QRepr q (upd m t (some y)) l := by
  refine h.congr fun a _ => ?_
  by_cases e : a = t
  · subst e; simp [upd, hx, hy]
  · simp [upd, e]

theorem QRepr.upd_notin {R : Type} {q : Queue} {m : QMem R} {l : List Addr} (h : QRepr q m l) {t : Addr} {v : Option (QNode R)}
    (ht : t ∉ l) : QRepr q (upd m t v) l := by
  refine h.congr fun a ha => ?_
  have e : a ≠ t := fun e => ht (e ▸ ha)
  simp [upd, e]

/-- The tasks in the queue. -/
def Pool.waitingTasks (s : Pool V) : List Addr := s.gEnqueued.drop s.gTaken.length

/-- The queue represents the tasks that are enqueued and not taken; each task is in one place. -/
structure PlaceInv (s : Pool V) : Prop where
  pend : ∀ i t, (s.th i).pend = some t → s.gPlace t = .pending i
  queued : ∀ t, t ∈ s.waitingTasks → s.gPlace t = .queued
  proc : ∀ i t k, (s.th i).proc = some (t, k) → s.gPlace t = .proc i
  alloc : ∀ t, s.gPlace t ≠ .idle → s.mem t ≠ none
  repr : QRepr s.queue s.mem s.waitingTasks
  le : s.gTaken.length ≤ s.gEnqueued.length
  small : s.gEnqueued.length < s.gTaken.length + 4294967296

theorem PlaceInv.take_ok (h : PlaceInv s) (h0 : s.queue.size ≠ 0) :
    ∃ t q, queueDeq s.queue s.mem = .ok (t, q) ∧ s.gEnqueued[s.gTaken.length]? = some t ∧
      s.waitingTasks = t :: s.gEnqueued.drop (s.gTaken.length + 1) ∧
      QRepr q s.mem (s.gEnqueued.drop (s.gTaken.length + 1)) := by
  have hlen : s.waitingTasks.length = s.gEnqueued.length - s.gTaken.length := by simp [Pool.waitingTasks]
  have hr := h.repr
  have hlt : s.gTaken.length < s.gEnqueued.length := by
    have := hr.size
    omega
  have hd : s.waitingTasks = s.gEnqueued[s.gTaken.length] :: s.gEnqueued.drop (s.gTaken.length + 1) :=
    List.drop_eq_getElem_cons hlt
  rw [hd] at hr
  have hsm := h.small
  obtain ⟨q, h1, h2⟩ := queueDeq_repr hr (by simp; omega)
  exact ⟨_, q, h1, List.getElem?_eq_getElem hlt, hd, h2⟩

theorem PlaceInv.put_ok (h : PlaceInv s) {i : Nat} {t : Addr} {b : Back} (ht : s.th i = .enq .put t b)
    (hl : s.gEnqueued.length + 1 < s.gTaken.length + 4294967296) :
    ∃ q m, queueEnq s.queue s.mem t = .ok (q, m) ∧ QRepr q m (s.waitingTasks ++ [t]) ∧
      (∀ a, (m a).map QNode.rest = (s.mem a).map QNode.rest) ∧ (∀ a, m a = none ↔ s.mem a = none) := by
  have hp := h.pend i t (by rw [ht]; rfl)
  have hn : t ∉ s.waitingTasks := fun e => by
    have := h.queued t e
    rw [hp] at this
    cases this
  have hlen : s.waitingTasks.length = s.gEnqueued.length - s.gTaken.length := by simp [Pool.waitingTasks]
  have hle := h.le
  cases hx : s.mem t with
  | none => exact absurd hx (h.alloc t (by rw [hp]; simp))
  | some x =>
    obtain ⟨q, m, h1, h2, h3, _⟩ := queueEnq_repr h.repr hn (by omega) hx
    refine ⟨q, m, h1, h2, h3, fun a => ?_⟩
    have := h3 a
    cases h4 : m a <;> cases h5 : s.mem a <;> simp_all

theorem placeInv_step (hs : Step n s (.ok s')) (h : PlaceInv s) : PlaceInv s' := by
  have hp := h.pend
  have hq := h.queued
  have hr := h.proc
  have ha := h.alloc
  have hle := h.le
  have hsm := h.small
  have f1 : ∀ i t k, s.th i = .run t k → s.gPlace t = .proc i := fun i t k e => hr i t k (by rw [e]; rfl)
  have f2 : ∀ i t k r, s.th i = .ret t k r → s.gPlace t = .proc i := fun i t k r e => hr i t k (by rw [e]; rfl)
  have f3 : ∀ i t k, s.th i = .stored t k → s.gPlace t = .proc i := fun i t k e => hr i t k (by rw [e]; rfl)
  cases hs with
  | take h1 h2 h3 =>
    obtain ⟨t', q', e1, e2, e3, e4⟩ := h.take_ok h2
    rw [h3] at e1
    simp only [Except.ok.injEq, Prod.mk.injEq] at e1
    obtain ⟨rfl, rfl⟩ := e1
    have hnd := h.repr.nodup
    rw [e3] at hnd hq
    have hlt : s.gTaken.length < s.gEnqueued.length := by
      by_contra hc
      rw [List.getElem?_eq_none (by omega)] at e2
      cases e2
    constructor <;> simp only [Pool.waitingTasks, List.length_append, List.length_singleton] 
    · grind [upd, Th.pend]
    · grind [upd]
    · grind [upd, Th.proc]
    · grind [upd]
    · exact e4
    · omega
    · omega
  | @enqPut i t b q m h1 h2 h3 =>
    have hpt := hp i t (by rw [h1]; rfl)
    obtain ⟨q', m', e1, e2, e3, e4⟩ := h.put_ok h1 h2
    rw [h3] at e1
    simp only [Except.ok.injEq, Prod.mk.injEq] at e1
    obtain ⟨rfl, rfl⟩ := e1
    have hdr : ∀ t, (s.gEnqueued ++ [t]).drop s.gTaken.length = s.waitingTasks ++ [t] := by
      intro t
      rw [List.drop_append_of_le_length hle]; rfl
    constructor <;> simp only [Pool.waitingTasks, List.length_append, List.length_singleton, hdr] 
    · grind [upd, Th.pend]
    · grind [upd]
    · grind [upd, Th.proc, Th.pend]
    · grind [upd]
    · exact e2
    · omega
    · omega
  | _ =>
    constructor
    · grind [upd, Th.pend, canCall_iff, back_pend]
    · simp only [Pool.waitingTasks] at hq ⊢
      grind [upd, Th.pend, Th.proc]
    · grind [upd, Th.proc, Back.proc, Th.pend, canCall_iff, back_proc]
    · grind [upd, Th.proc]
    · have hrep := h.repr
      simp only [Pool.waitingTasks] at hq hrep ⊢
      first
      | exact hrep
      | (refine QRepr.upd_some hrep ?_ ?_; assumption; rfl)
      | (refine QRepr.upd_notin hrep ?_; grind [Th.proc])
    · exact hle
    · exact hsm

end Sp
