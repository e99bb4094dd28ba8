import Verif.Lemmas.ThreadPoolSerial

/-! # Further invariants of the thread pool: values -/

set_option linter.unusedSectionVars false

namespace Sp
variable {V : Type} {n : Nat} {s s' : Pool V}

/-- What is known about results. -/
structure ValueInv (s : Pool V) : Prop where
  made : ∀ t, s.gMade t = true → s.mem t ≠ none
  kind : ∀ t x, s.gPlace t ≠ .idle → s.mem t = some x → (x.rest.f = .eval ↔ s.gMade t = true)
  touches : ∀ i t, (s.th i).touches t → s.gMade t = true
  fin : ∀ t x, s.gMade t = true → s.mem t = some x → x.rest.finished = true →
    s.gPlace t = .idle ∧ s.gResult t = some x.rest.data
  ret : ∀ i t k r, s.th i = .ret t k r → s.gResult t = some r
  stored : ∀ i t k x, s.th i = .stored t k → s.mem t = some x → s.gResult t = some x.rest.data
  read : ∀ i t b, s.th i = .touchRead t b → ∃ x, s.mem t = some x ∧ x.rest.finished = true
  touched : ∀ i t v b, s.th i = .touched t v b → s.gPlace t = .idle ∧ s.gResult t = some v

theorem rest_of_map {R : Type} {m m' : QMem R} (h : ∀ a, (m a).map QNode.rest = (m' a).map QNode.rest) {a : Addr}
    {x : QNode R} (hx : m a = some x) : ∃ y, m' a = some y ∧ y.rest = x.rest := by
  have := h a
  rw [hx] at this
  cases h' : m' a with
  | none => rw [h'] at this; cases this
  | some y => rw [h'] at this; exact ⟨y, rfl, by simpa using this.symm⟩

theorem back_touches (b : Back) (t : Addr) : ¬ (b.th : Th V).touches t := by cases b <;> simp [Back.th, Th.touches]
set_option maxHeartbeats 2000000 in
theorem valueInv_step (hs : Step n s (.ok s')) (hP : PlaceInv s) (h : ValueInv s) : ValueInv s' := by
  have hm := h.made
  have hk := h.kind
  have ht := h.touches
  have hf := h.fin
  have hr := h.ret
  have hst := h.stored
  have hrd := h.read
  have htd := h.touched
  have ha := hP.alloc
  have f0 : ∀ i t k, s.th i = .inF t k → s.gPlace t = .proc i := fun i t k e => hP.proc i t k (by rw [e]; rfl)
  have f1 : ∀ i t k, s.th i = .run t k → s.gPlace t = .proc i := fun i t k e => hP.proc i t k (by rw [e]; rfl)
  have f2 : ∀ i t k r, s.th i = .ret t k r → s.gPlace t = .proc i := fun i t k r e => hP.proc i t k (by rw [e]; rfl)
  have f3 : ∀ i t k, s.th i = .stored t k → s.gPlace t = .proc i := fun i t k e => hP.proc i t k (by rw [e]; rfl)
  have f4 : ∀ i t b, s.th i = .touch t b → s.gMade t = true := fun i t b e => ht i t (by rw [e]; rfl)
  have f5 : ∀ i t b, s.th i = .touchRead t b → s.gMade t = true := fun i t b e => ht i t (by rw [e]; rfl)
  have f6 : ∀ i t v b, s.th i = .touched t v b → s.gMade t = true := fun i t v b e => ht i t (by rw [e]; rfl)
  have g1 : ∀ t, (∀ j, ¬ (s.th j).touches t) → (∀ i b, s.th i ≠ .touchRead t b) ∧ (∀ i v b, s.th i ≠ .touched t v b) :=
    fun t h => ⟨fun i b e => h i (by rw [e]; rfl), fun i v b e => h i (by rw [e]; rfl)⟩
  cases hs with
  | @take i t q h1 h2 h3 =>
    obtain ⟨t', q', e1, e2, e3, e4⟩ := hP.take_ok h2
    rw [h3] at e1
    simp only [Except.ok.injEq, Prod.mk.injEq] at e1
    obtain ⟨rfl, rfl⟩ := e1
    have hq := hP.queued t (by rw [e3]; simp)
    constructor
    · grind
    · grind [upd]
    · grind [upd, Th.touches]
    · grind [upd]
    · grind [upd]
    · grind [upd]
    · grind [upd]
    · grind [upd]
  | @enqPut i t b q m h1 h2 h3 =>
    obtain ⟨q', m', e1, e2, e3, e4⟩ := hP.put_ok h1 h2
    rw [h3] at e1
    simp only [Except.ok.injEq, Prod.mk.injEq] at e1
    obtain ⟨rfl, rfl⟩ := e1
    have hpt := hP.pend i t (by rw [h1]; rfl)
    have r1 : ∀ a x, m a = some x → ∃ y, s.mem a = some y ∧ y.rest = x.rest := fun a x hx => rest_of_map e3 hx
    have r2 : ∀ a x, s.mem a = some x → ∃ y, m a = some y ∧ y.rest = x.rest :=
      fun a x hx => rest_of_map (fun a => (e3 a).symm) hx
    constructor
    · grind
    · grind [upd]
    · grind [upd, Th.touches]
    · grind [upd]
    · grind [upd]
    · grind [upd]
    · grind [upd]
    · grind [upd]
  | new d h1 h2 h3 h4 h5 =>
    obtain ⟨g2, g3⟩ := g1 _ h4
    constructor
    · grind [upd]
    · grind [upd]
    · grind [upd, Th.touches, back_touches]
    · grind [upd]
    · grind [upd, back_cases]
    · grind [upd, back_cases]
    · grind [upd, back_cases]
    · grind [upd, back_cases]
  | free h1 h2 =>
    obtain ⟨g2, g3⟩ := g1 _ h2
    constructor
    · grind [upd]
    · grind [upd]
    · grind [upd, Th.touches, back_touches]
    · grind [upd]
    · grind [upd, back_cases]
    · grind [upd, back_cases]
    · grind [upd, back_cases]
    · grind [upd, back_cases]
  | _ =>
    constructor
    · grind [upd]
    · grind [upd]
    · grind [upd, Th.touches, back_touches]
    · grind [upd]
    · grind [upd, back_cases]
    · grind [upd, back_cases]
    · grind [upd, back_cases]
    · grind [upd, back_cases]

end Sp
