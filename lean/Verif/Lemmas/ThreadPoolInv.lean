import Verif.Lemmas.ThreadPoolWake

/-! # All invariants of the thread pool, absence of faults -/

set_option linter.unusedSectionVars false

namespace Sp
variable {V : Type} {n : Nat} {s s' : Pool V}

/-- Tasks are where their place says. -/
structure PlaceInv2 (s : Pool V) : Prop where
  pend : ∀ i t, s.gPlace t = .pending i → (s.th i).pend = some t
  queued : ∀ t, s.gPlace t = .queued → t ∈ s.waitingTasks
  proc : ∀ i t, s.gPlace t = .proc i → ∃ k, (s.th i).proc = some (t, k)
  idle : ∀ t x, s.gPlace t = .idle → s.gMade t = true → s.mem t = some x → x.rest.finished = true

theorem placeInv2_pend (hs : Step n s (.ok s')) (hP : PlaceInv s) (h : PlaceInv2 s) :
    ∀ i t, s'.gPlace t = .pending i → (s'.th i).pend = some t := by
  have h0 := h.pend
  clear h
  intro i t
  have h0' := h0 i t
  clear h0
  cases hs <;> simp only <;> grind [upd, Th.pend, canCall_iff, back_pend]

theorem placeInv2_queued (hs : Step n s (.ok s')) (hP : PlaceInv s) (h : PlaceInv2 s) :
    ∀ t, s'.gPlace t = .queued → t ∈ s'.waitingTasks := by
  have h0 := h.queued
  have hle := hP.le
  clear h
  intro t
  have h0' := h0 t
  clear h0
  cases hs with
  | @take i u q a1 a2 a3 =>
    obtain ⟨t', q', e1, e2, e3, e4⟩ := hP.take_ok a2
    rw [a3] at e1
    simp only [Except.ok.injEq, Prod.mk.injEq] at e1
    obtain ⟨rfl, rfl⟩ := e1
    rw [e3] at h0'
    simp only [Pool.waitingTasks, List.length_append, List.length_singleton]
    clear hP a3 e2 e3 e4
    grind [upd]
  | @enqPut i u b q m a1 a2 a3 =>
    have hdr : (s.gEnqueued ++ [u]).drop s.gTaken.length = s.waitingTasks ++ [u] := by
      rw [List.drop_append_of_le_length hle]; rfl
    simp only [Pool.waitingTasks] at hdr ⊢
    rw [hdr]
    clear hP a3
    grind [upd, Pool.waitingTasks]
  | _ => clear hP; simp only [Pool.waitingTasks] at h0' ⊢; grind [upd]

theorem placeInv2_proc (hs : Step n s (.ok s')) (hP : PlaceInv s) (h : PlaceInv2 s) :
    ∀ i t, s'.gPlace t = .proc i → ∃ k, (s'.th i).proc = some (t, k) := by
  have h0 := h.proc
  clear h hP
  intro i t
  have h0' := h0 i t
  clear h0
  cases hs with
  | @take i' u q a1 a2 a3 =>
    simp only
    intro p1
    by_cases e : t = u
    · subst e
      rw [upd_same] at p1
      cases p1
      exact ⟨s.gTaken.length, by rw [upd_same]; rfl⟩
    · rw [upd_ne _ _ e] at p1
      obtain ⟨k, hk⟩ := h0' p1
      exact ⟨k, by rw [upd_ne _ _ (by rintro rfl; rw [a1] at hk; cases hk), hk]⟩
  | _ => simp only; grind [upd, Th.proc, Back.proc, canCall_iff, back_proc]

theorem placeInv2_idle (hs : Step n s (.ok s')) (hP : PlaceInv s) (h : PlaceInv2 s) :
    ∀ t x, s'.gPlace t = .idle → s'.gMade t = true → s'.mem t = some x → x.rest.finished = true := by
  have h0 := h.idle
  have f2 : ∀ i t k r, s.th i = .ret t k r → s.gPlace t = .proc i := fun i t k r e => hP.proc i t k (by rw [e]; rfl)
  clear h
  intro t x
  have h0' := h0 t
  clear h0
  cases hs with
  | @enqPut i u b q m a1 a2 a3 =>
    obtain ⟨q', m', e1, e2, e3, e4⟩ := hP.put_ok a1 a2
    rw [a3] at e1
    simp only [Except.ok.injEq, Prod.mk.injEq] at e1
    obtain ⟨rfl, rfl⟩ := e1
    simp only
    intro p1 p2 p3
    obtain ⟨y, hy, hr⟩ := rest_of_map e3 p3
    by_cases e : t = u
    · subst e; rw [upd_same] at p1; cases p1
    · rw [upd_ne _ _ e] at p1
      rw [← hr]
      exact h0' y p1 p2 hy
  | _ =>
    simp only
    clear hP
    grind [upd]

/-- All invariants. -/
structure PoolInv (n : Nat) (s : Pool V) : Prop where
  kind : KindInv n s
  mutex : MutexInv s
  place : PlaceInv s
  place2 : PlaceInv2 s
  serial : SerialInv s
  value : ValueInv s
  fin : FinInv s
  size : SizeInv n s
  wake : WakeInv n s

theorem PoolInv.step (h : PoolInv n s) (hs : Step n s (.ok s')) : PoolInv n s' where
  kind := kindInv_step hs h.kind
  mutex := mutexInv_step hs h.mutex
  place := placeInv_step hs h.place
  place2 := ⟨placeInv2_pend hs h.place h.place2, placeInv2_queued hs h.place h.place2,
    placeInv2_proc hs h.place h.place2, placeInv2_idle hs h.place h.place2⟩
  serial := serialInv_step hs h.place h.serial
  value := valueInv_step hs h.place h.value
  fin := finInv_step hs h.kind h.place h.serial h.value h.fin
  size := sizeInv_step hs h.kind h.fin h.size
  wake := wakeInv_step hs h.kind h.mutex h.place h.wake

theorem init_cases (mem : QMem (TaskRest V)) (i : Nat) :
    (Pool.init n mem).th i = .getTask ∧ i < n ∨ (Pool.init n mem).th i = .client ∧ ¬ i < n := by
  by_cases h : i < n <;> simp [Pool.init, h]

theorem PoolInv.init (mem : QMem (TaskRest V)) : PoolInv n (Pool.init n mem) := by
  have hc := fun i => init_cases (n := n) mem i
  constructor
  · intro i; rcases hc i with ⟨h, h'⟩ | ⟨h, h'⟩ <;> rw [h] <;> simp [Th.isWorker, Th.proc, h']
  · intro i; rcases hc i with ⟨h, h'⟩ | ⟨h, h'⟩ <;> rw [h] <;> simp [Pool.init, Th.holds]
  · constructor
    · intro i t h1; rcases hc i with ⟨h, h'⟩ | ⟨h, h'⟩ <;> rw [h] at h1 <;> cases h1
    · intro t h; simp [Pool.init, Pool.waitingTasks] at h
    · intro i t k h1; rcases hc i with ⟨h, h'⟩ | ⟨h, h'⟩ <;> rw [h] at h1 <;> cases h1
    · intro t h; exact absurd rfl h
    · exact QRepr.init _
    · exact Nat.le_refl _
    · simp [Pool.init]
  · constructor
    · intro i t h; cases h
    · intro t h; cases h
    · intro i t h; cases h
    · intro t x _ h; cases h
  · constructor
    · intro i t k h; simp [Pool.init] at h
    · intro i t k h1; rcases hc i with ⟨h, h'⟩ | ⟨h, h'⟩ <;> rw [h] at h1 <;> cases h1
    · intro i t k h; simp [Pool.init] at h
    · intro k h; simp [Pool.init] at h
    · simp [Pool.init]
    · intro k h; simp [Pool.init] at h
    · simp [Pool.init]
    · intro i t k h1; rcases hc i with ⟨h, h'⟩ | ⟨h, h'⟩ <;> rw [h] at h1 <;> simp at h1
    · intro i t k h1; rcases hc i with ⟨h, h'⟩ | ⟨h, h'⟩ <;> rw [h] at h1 <;> cases h1
  · constructor
    · intro t h; cases h
    · intro t x h; exact absurd rfl h
    · intro i t h1; rcases hc i with ⟨h, h'⟩ | ⟨h, h'⟩ <;> rw [h] at h1 <;> cases h1
    · intro t x h; cases h
    · intro i t k r h1; rcases hc i with ⟨h, h'⟩ | ⟨h, h'⟩ <;> rw [h] at h1 <;> cases h1
    · intro i t k r h1; rcases hc i with ⟨h, h'⟩ | ⟨h, h'⟩ <;> rw [h] at h1 <;> cases h1
    · intro i t b h1; rcases hc i with ⟨h, h'⟩ | ⟨h, h'⟩ <;> rw [h] at h1 <;> cases h1
    · intro i t v b h1; rcases hc i with ⟨h, h'⟩ | ⟨h, h'⟩ <;> rw [h] at h1 <;> cases h1
  · constructor
    · intro _ i; rcases hc i with ⟨h, h'⟩ | ⟨h, h'⟩ <;> rw [h] <;> rfl
    · intro _ i; rcases hc i with ⟨h, h'⟩ | ⟨h, h'⟩ <;> rw [h] <;> simp
    · intro _ t h; exact absurd rfl h
    · intro i h1; rcases hc i with ⟨h, h'⟩ | ⟨h, h'⟩ <;> rw [h] at h1 <;> cases h1
    · intro h; exact absurd rfl h
    · intro F h; cases h
    · intro F k t h; cases h
    · intro F i t k h; cases h
    · intro F i h; cases h
  · constructor
    · intro h; exact absurd rfl h
    · intro h; exact absurd rfl h
    · intro _; exact ⟨rfl, rfl⟩
    · intro i pc t j h1; rcases hc i with ⟨h, h'⟩ | ⟨h, h'⟩ <;> rw [h] at h1 <;> cases h1
    · intro i j h1; rcases hc i with ⟨h, h'⟩ | ⟨h, h'⟩ <;> rw [h] at h1 <;> cases h1
    · intro i h1; rcases hc i with ⟨h, h'⟩ | ⟨h, h'⟩ <;> rw [h] at h1 <;> cases h1
  · rintro ⟨i, h1⟩; rcases hc i with ⟨h, h'⟩ | ⟨h, h'⟩ <;> rw [h] at h1 <;> cases h1

theorem PoolInv.steps (h : PoolInv n s) (hs : Steps n s s') : PoolInv n s' := by
  induction hs with
  | refl => exact h
  | tail _ h2 ih => exact ih.step h2

theorem PoolReach.inv (h : PoolReach n s) : PoolInv n s := by
  obtain ⟨mem, h⟩ := h
  exact (PoolInv.init mem).steps h

theorem PoolInv.no_fault (h : PoolInv n s) {e : Fault} (hs : Step n s (.error e)) : False := by
  have hw : ∀ i, (s.th i).isWorker = true → s.th i ≠ .ended → s.destroyed ≠ 0 → False := fun i h1 h2 h3 =>
    h2 ((h.size.dead h3).2.1 i ((h.kind i).1 h1))
  have hp : ∀ i t k, (s.th i).proc = some (t, k) → s.mem t ≠ none := fun i t k e => by
    refine h.place.alloc t ?_
    rw [h.place.proc i t k e]
    simp
  have ht : ∀ i t, (s.th i).touches t → s.mem t ≠ none := fun i t e => h.value.made t (h.value.touches i t e)
  cases hs with
  | @lockFault i h1 h2 => exact hw i (by rw [h1]; rfl) (by rw [h1]; simp) h2
  | takeFault h1 h2 h3 =>
    obtain ⟨t, q, e1, _⟩ := h.place.take_ok h2
    rw [h3] at e1
    cases e1
  | @relockFault i h1 h2 => exact hw i (by rw [h1]; rfl) (by rw [h1]; simp) h2
  | @runFault i t k h1 h2 => exact hp i t k (by rw [h1]; rfl) h2
  | @storeFault i t k r h1 h2 => exact hp i t k (by rw [h1]; rfl) h2
  | @finishedFault i t k h1 h2 => exact hp i t k (by rw [h1]; rfl) h2
  | @enqLockFault i t b h1 h2 =>
    cases b with
    | client => exact h.fin.noClient (h.size.dead h2).1 i _ _ h1
    | inF u k => exact hw i (by rw [h1]; rfl) (by rw [h1]; simp) h2
    | fin j => exact h2 (h.size.enq _ _ _ _ h1).2
  | enqPutFault h1 h2 h3 =>
    obtain ⟨q, m, e1, _⟩ := h.place.put_ok h1 h2
    rw [h3] at e1
    cases e1
  | @touchFault i t b h1 h2 => exact ht i t (by rw [h1]; rfl) h2
  | @touchReadFault i t b h1 h2 => exact ht i t (by rw [h1]; rfl) h2

end Sp
