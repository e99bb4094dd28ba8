import Verif.Lemmas.ThreadPoolValues

/-! # Invariants of the thread pool: finishing -/

set_option linter.unusedSectionVars false

namespace Sp
variable {V : Type} {n : Nat} {s s' : Pool V}

/-- Which tasks are finish tasks. -/
structure FinInv (s : Pool V) : Prop where
  noFin : s.gFinishAt = none → ∀ i, (s.th i).isFin = false
  noEnded : s.gFinishAt = none → ∀ i, s.th i ≠ .ended
  allMade : s.gFinishAt = none → ∀ t, s.gPlace t ≠ .idle → s.gMade t = true
  finisher : ∀ i, (s.th i).isFin = true → s.gFinisher = i
  noClient : s.gFinishAt ≠ none → ∀ i pc t, s.th i ≠ .enq pc t .client
  le : ∀ F, s.gFinishAt = some F → F ≤ s.gEnqueued.length
  queued : ∀ F k t, s.gFinishAt = some F → s.gTaken.length ≤ k → k < F → s.gEnqueued[k]? = some t → s.gMade t = true
  proc : ∀ F i t k, s.gFinishAt = some F → (s.th i).proc = some (t, k) → k < F → s.gMade t = true
  ended : ∀ F i, s.gFinishAt = some F → s.th i = .ended → F < s.gTaken.length

theorem canCall_isFin {x : Th V} {b : Back} (h : CanCall x b) : b.isFin = false := by
  cases b <;> simp_all [CanCall, Back.isFin]

theorem canCall_isFin' {x : Th V} {b : Back} (h : CanCall x b) : x.isFin = false := by
  cases b <;> simp_all [CanCall, Th.isFin]

theorem backIsFin_iff (b : Back) : b.isFin = true ↔ ∃ j, b = .fin j := by
  cases b <;> simp [Back.isFin]

theorem clientEnq_iff (x : Th V) : x.clientEnq ↔ ∃ pc t, x = .enq pc t .client := by
  cases x <;> try simp [Th.clientEnq]
  rename_i pc t b
  cases b <;> simp [Th.clientEnq]

theorem mem_waitingTasks {k : Nat} {t : Addr} (h1 : s.gTaken.length ≤ k) (h2 : s.gEnqueued[k]? = some t) :
    t ∈ s.waitingTasks := by
  rw [Pool.waitingTasks, List.mem_iff_getElem?]
  exact ⟨k - s.gTaken.length, by rw [List.getElem?_drop, Nat.add_sub_cancel' h1, h2]⟩

theorem finInv_noFin (hs : Step n s (.ok s')) (h : FinInv s) : s'.gFinishAt = none → ∀ i, (s'.th i).isFin = false := by
  have h0 := h.noFin
  clear h
  cases hs <;> grind [upd, Th.isFin, Back.isFin, back_isFin, canCall_isFin]

/-- Finish tasks have numbers from the number of tasks enqueued before. -/
theorem finish_number (hP : PlaceInv s) (hS : SerialInv s) (hV : ValueInv s) (h : FinInv s) {i : Nat} {t : Addr} {k : Nat}
    {x : QNode (TaskRest V)} (a1 : s.th i = .run t k) (a2 : s.mem t = some x) (a3 : x.rest.f = .finish) :
    s.gFinishAt ≠ none ∧ ∀ F, s.gFinishAt = some F → F < s.gTaken.length := by
  have p1 := hS.proc i t k (by rw [a1]; rfl)
  have p2 := hP.proc i t k (by rw [a1]; rfl)
  have p3 := hV.kind t x (by rw [p2]; simp) a2
  have p5 : k < s.gTaken.length := (List.getElem?_eq_some_iff.1 p1.1).1
  have hm : ¬ s.gMade t = true := by
    rw [← p3, a3]
    simp
  refine ⟨fun e => hm (h.allMade e t (by rw [p2]; simp)), fun F e => ?_⟩
  by_contra hc
  exact hm (h.proc F i t k e (by rw [a1]; rfl) (by omega))

theorem finInv_ended (hs : Step n s (.ok s')) (hP : PlaceInv s) (hS : SerialInv s) (hV : ValueInv s) (h : FinInv s) :
    (s'.gFinishAt = none → ∀ i, s'.th i ≠ .ended) ∧
    ∀ F i, s'.gFinishAt = some F → s'.th i = .ended → F < s'.gTaken.length := by
  have h0 := h.noEnded
  have h1 := h.ended
  have h2 := @finish_number _ s hP hS hV h
  clear hP hS hV h
  cases hs <;> constructor <;> simp only <;> grind [upd, back_cases]

theorem finInv_allMade (hs : Step n s (.ok s')) (hP : PlaceInv s) (hV : ValueInv s) (h : FinInv s) :
    s'.gFinishAt = none → ∀ t, s'.gPlace t ≠ .idle → s'.gMade t = true := by
  have h0 := h.allMade
  have h1 := h.noFin
  have ha := hP.alloc
  have f1 : ∀ i t b, s.th i = .enq .put t b → s.gPlace t = .pending i := fun i t b e => hP.pend i t (by rw [e]; rfl)
  have f2 : ∀ i pc t j, s.th i = .enq pc t (.fin j) → s.gFinishAt ≠ none := fun i pc t j e e' => by
    have := h1 e' i
    rw [e] at this
    simp [Th.isFin, Back.isFin] at this
  have f3 : ∀ t q, s.queue.size ≠ 0 → queueDeq s.queue s.mem = .ok (t, q) → s.gPlace t = .queued :=
    fun t q h0 h => hP.queued t (mem_waitingTasks (Nat.le_refl _) (hP.take_eq h0 h))
  clear hP hV h h1
  cases hs <;> simp only <;> grind [upd]

theorem finInv_finisher (hs : Step n s (.ok s')) (h : FinInv s) : ∀ i, (s'.th i).isFin = true → s'.gFinisher = i := by
  have h0 := h.noFin
  have h1 := h.finisher
  clear h
  intro j
  have h1' := h1 j
  cases hs with
  | @finStart i u y a1 a2 a3 a4 a5 =>
    have := h0 a2 j
    grind [upd]
  | _ =>
    simp only
    grind [upd, Th.isFin, Back.isFin, back_isFin, canCall_isFin]

theorem finInv_noClient (hs : Step n s (.ok s')) (hK : KindInv n s) (h : FinInv s) :
    s'.gFinishAt ≠ none → ∀ i pc t, s'.th i ≠ .enq pc t .client := by
  have h0 := h.noClient
  clear h
  cases hs with
  | @new i t b x d a1 a2 a3 a4 a5 =>
    have p1 := hK i
    rw [canCall_iff] at a1
    have : s.gFinishAt ≠ none → b ≠ .client := by
      rintro hf rfl
      rcases a5 with h | h
      · rw [a1.1] at p1
        exact absurd (p1.2 h) (by simp [Back.th, Th.isWorker, Th.proc])
      · exact hf h
    grind [upd]
  | @finStart i u y a1 a2 a3 a4 a5 =>
    simp only [clientEnq_iff] at a4
    grind [upd]
  | _ =>
    simp only
    grind [upd, back_cases]

theorem finInv_le (hs : Step n s (.ok s')) (h : FinInv s) : ∀ F, s'.gFinishAt = some F → F ≤ s'.gEnqueued.length := by
  have h0 := h.le
  clear h
  cases hs <;> simp only <;> grind

theorem finInv_queued (hs : Step n s (.ok s')) (hP : PlaceInv s) (hV : ValueInv s) (h : FinInv s) :
    ∀ F k t, s'.gFinishAt = some F → s'.gTaken.length ≤ k → k < F → s'.gEnqueued[k]? = some t → s'.gMade t = true := by
  have h0 := h.queued
  have h1 := h.le
  have h2 := h.allMade
  have hq : ∀ k t, s.gTaken.length ≤ k → s.gEnqueued[k]? = some t → s.gPlace t ≠ .idle ∧ s.mem t ≠ none := fun k t a b => by
    have := hP.queued t (mem_waitingTasks a b)
    exact ⟨by rw [this]; simp, hP.alloc t (by rw [this]; simp)⟩
  clear hP hV h
  intro F k t
  have h0' := h0 F k t
  have h2' := fun e => h2 e t
  have hq' := hq k t
  have h1' := h1 F
  clear h0 h2 hq h1
  cases hs with
  | take _ _ _ => simp only [List.length_append, List.length_singleton]; intro a b; exact h0' a (by omega)
  | enqPut _ _ _ =>
    simp only
    intro a b c d
    rw [List.getElem?_append_left (by have := h1' a; omega)] at d
    exact h0' a b c d
  | _ =>
    simp only
    grind [upd]

theorem finInv_proc (hs : Step n s (.ok s')) (hP : PlaceInv s) (hS : SerialInv s) (h : FinInv s) :
    ∀ F i t k, s'.gFinishAt = some F → (s'.th i).proc = some (t, k) → k < F → s'.gMade t = true := by
  have h0 := h.proc
  have h1 := h.queued
  have h2 := h.allMade
  have hpp : ∀ i t k, (s.th i).proc = some (t, k) → s.gPlace t ≠ .idle ∧ s.mem t ≠ none := fun i t k a => by
    have := hP.proc i t k a
    exact ⟨by rw [this]; simp, hP.alloc t (by rw [this]; simp)⟩
  have f3 : ∀ t q, s.queue.size ≠ 0 → queueDeq s.queue s.mem = .ok (t, q) → s.gEnqueued[s.gTaken.length]? = some t :=
    fun t q h0 h => hP.take_eq h0 h
  clear hP hS h
  intro F i t k
  have h0' := h0 F i t k
  have h2' := fun e => h2 e t
  have hp' := hpp i t k
  clear h0 hpp h2
  cases hs with
  | @take i' t' q a1 a2 a3 =>
    have := fun e e' => h1 F _ t' e (Nat.le_refl _) e' (f3 _ _ a2 a3)
    clear h1 f3
    grind [upd, Th.proc]
  | _ =>
    clear h1 f3
    simp only
    grind [upd, Th.proc, Back.proc, back_proc, canCall_iff]

theorem finInv_step (hs : Step n s (.ok s')) (hK : KindInv n s) (hP : PlaceInv s) (hS : SerialInv s) (hV : ValueInv s)
    (h : FinInv s) : FinInv s' where
  noFin := finInv_noFin hs h
  noEnded := (finInv_ended hs hP hS hV h).1
  allMade := finInv_allMade hs hP hV h
  finisher := finInv_finisher hs h
  noClient := finInv_noClient hs hK h
  le := finInv_le hs h
  queued := finInv_queued hs hP hV h
  proc := finInv_proc hs hP hS h
  ended := (finInv_ended hs hP hS hV h).2

end Sp
