import Verif.Lemmas.ThreadPool

/-! # Further invariants of the thread pool: numbers of tasks -/

set_option linter.unusedSectionVars false

namespace Sp
variable {V : Type} {n : Nat} {s s' : Pool V}

/-- Every task number that was taken is completed or being processed by the thread that took it. -/
structure SerialInv (s : Pool V) : Prop where
  order : ∀ (i : Nat) (t : Addr) (k : Nat), s.gTaken[k]? = some (i, t) → s.gEnqueued[k]? = some t
  proc : ∀ i t k, (s.th i).proc = some (t, k) → s.gTaken[k]? = some (i, t) ∧ k ∉ s.gDone
  cover : ∀ (i : Nat) (t : Addr) (k : Nat), s.gTaken[k]? = some (i, t) → k ∈ s.gDone ∨ (s.th i).proc = some (t, k)
  done : ∀ k, k ∈ s.gDone → k < s.gTaken.length ∧ k ∈ s.gCalled
  nodup : s.gDone.Nodup
  called : ∀ k, k ∈ s.gCalled → k < s.gTaken.length
  calledNodup : s.gCalled.Nodup
  notCalled : ∀ i t k, s.th i = .took t k ∨ s.th i = .run t k → k ∉ s.gCalled
  isCalled : ∀ i t k, (s.th i).proc = some (t, k) → k ∈ s.gCalled ∨ s.th i = .took t k ∨ s.th i = .run t k

theorem PlaceInv.take_eq (h : PlaceInv s) (h0 : s.queue.size ≠ 0) {t : Addr} {q : Queue}
    (hd : queueDeq s.queue s.mem = .ok (t, q)) : s.gEnqueued[s.gTaken.length]? = some t := by
  obtain ⟨t', q', e1, e2, _⟩ := h.take_ok h0
  rw [hd] at e1
  simp only [Except.ok.injEq, Prod.mk.injEq] at e1
  rw [e1.1, e2]

theorem back_cases (b : Back) : (b.th : Th V) = .client ∨ ∃ t k, (b.th : Th V) = .inF t k := by
  cases b <;> simp [Back.th]

theorem serialInv_order (hs : Step n s (.ok s')) (hP : PlaceInv s) (h : SerialInv s) :
    ∀ (i : Nat) (t : Addr) (k : Nat), s'.gTaken[k]? = some (i, t) → s'.gEnqueued[k]? = some t := by
  have h0 := h.order
  have ht : ∀ t q, s.queue.size ≠ 0 → queueDeq s.queue s.mem = .ok (t, q) → s.gEnqueued[s.gTaken.length]? = some t :=
    fun t q h0 h => hP.take_eq h0 h
  clear h hP
  cases hs <;> simp only <;> grind

theorem serialInv_proc (hs : Step n s (.ok s')) (h : SerialInv s) :
    ∀ i t k, (s'.th i).proc = some (t, k) → s'.gTaken[k]? = some (i, t) ∧ k ∉ s'.gDone := by
  have h0 := h.proc
  have h1 : ∀ k, k ∈ s.gDone → k < s.gTaken.length := fun k e => (h.done k e).1
  have f1 : ∀ i t k, s.th i = .run t k → s.gTaken[k]? = some (i, t) := fun i t k e => (h0 i t k (by rw [e]; rfl)).1
  have f2 : ∀ i t k, s.th i = .stored t k → s.gTaken[k]? = some (i, t) := fun i t k e => (h0 i t k (by rw [e]; rfl)).1
  clear h
  intro i t k
  have h0' := h0 i t k
  have h1' := h1 k
  clear h0 h1
  cases hs <;> simp only <;> grind [upd, Th.proc, Back.proc, canCall_iff, back_proc]

theorem serialInv_cover (hs : Step n s (.ok s')) (h : SerialInv s) :
    ∀ (i : Nat) (t : Addr) (k : Nat), s'.gTaken[k]? = some (i, t) → k ∈ s'.gDone ∨ (s'.th i).proc = some (t, k) := by
  have h0 := h.cover
  clear h
  intro i t k
  have h0' := h0 i t k
  clear h0
  cases hs <;> simp only <;> grind [upd, Th.proc, Back.proc, canCall_iff, back_proc]

theorem serialInv_done (hs : Step n s (.ok s')) (h : SerialInv s) :
    (∀ k, k ∈ s'.gDone → k < s'.gTaken.length ∧ k ∈ s'.gCalled) ∧ s'.gDone.Nodup := by
  have h0 := h.done
  have h1 := h.nodup
  have f1 : ∀ i t k, s.th i = .run t k → k < s.gTaken.length ∧ k ∉ s.gDone := fun i t k e => by
    obtain ⟨a, b⟩ := h.proc i t k (by rw [e]; rfl)
    exact ⟨(List.getElem?_eq_some_iff.1 a).1, b⟩
  have f2 : ∀ i t k, s.th i = .stored t k → k < s.gTaken.length ∧ k ∉ s.gDone ∧ k ∈ s.gCalled := fun i t k e => by
    obtain ⟨a, b⟩ := h.proc i t k (by rw [e]; rfl)
    refine ⟨(List.getElem?_eq_some_iff.1 a).1, b, ?_⟩
    rcases h.isCalled i t k (by rw [e]; rfl) with c | c | c
    · exact c
    · rw [e] at c; cases c
    · rw [e] at c; cases c
  clear h
  cases hs <;> constructor <;> simp only <;> grind

theorem serialInv_called (hs : Step n s (.ok s')) (h : SerialInv s) :
    (∀ k, k ∈ s'.gCalled → k < s'.gTaken.length) ∧ s'.gCalled.Nodup := by
  have h0 := h.called
  have h1 := h.calledNodup
  have f1 : ∀ i t k, s.th i = .run t k → k < s.gTaken.length ∧ k ∉ s.gCalled := fun i t k e => by
    obtain ⟨a, b⟩ := h.proc i t k (by rw [e]; rfl)
    exact ⟨(List.getElem?_eq_some_iff.1 a).1, h.notCalled i t k (.inr e)⟩
  clear h
  cases hs <;> constructor <;> simp only <;> grind

theorem serialInv_notCalled (hs : Step n s (.ok s')) (h : SerialInv s) :
    ∀ i t k, s'.th i = .took t k ∨ s'.th i = .run t k → k ∉ s'.gCalled := by
  have h0 := h.notCalled
  have h2 := h.called
  have f1 : ∀ i t k, s.th i = .run t k ∨ s.th i = .took t k → s.gTaken[k]? = some (i, t) := by
    rintro i t k (e | e)
    · exact (h.proc i t k (by rw [e]; rfl)).1
    · exact (h.proc i t k (by rw [e]; rfl)).1
  clear h
  intro i t k
  have h0' := h0 i t k
  have h2' := h2 k
  have f1' := f1 i t k
  clear h0 h2
  cases hs <;> simp only <;> grind [upd, back_cases]

theorem serialInv_isCalled (hs : Step n s (.ok s')) (h : SerialInv s) :
    ∀ i t k, (s'.th i).proc = some (t, k) → k ∈ s'.gCalled ∨ s'.th i = .took t k ∨ s'.th i = .run t k := by
  have h0 := h.isCalled
  clear h
  intro i t k
  have h0' := h0 i t k
  clear h0
  cases hs <;> simp only <;> grind [upd, Th.proc, Back.proc, canCall_iff, back_proc, back_cases]

theorem serialInv_step (hs : Step n s (.ok s')) (hP : PlaceInv s) (h : SerialInv s) : SerialInv s' where
  order := serialInv_order hs hP h
  proc := serialInv_proc hs h
  cover := serialInv_cover hs h
  done := (serialInv_done hs h).1
  nodup := (serialInv_done hs h).2
  called := (serialInv_called hs h).1
  calledNodup := (serialInv_called hs h).2
  notCalled := serialInv_notCalled hs h
  isCalled := serialInv_isCalled hs h

end Sp
