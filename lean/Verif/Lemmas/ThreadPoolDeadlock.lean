import Verif.Lemmas.ThreadPoolProgress

/-! # Workers that wait for futures -/

set_option linter.unusedSectionVars false

namespace Sp
variable {V : Type} {n : Nat} {s s' : Pool V}

theorem Steps.trans {s t u : Pool V} (h1 : Steps n s t) (h2 : Steps n t u) : Steps n s u := by
  induction h2 with
  | refl => exact h1
  | tail _ h3 ih => exact .tail ih h3

theorem Steps.one {s t : Pool V} (h : Step n s (.ok t)) : Steps n s t := .tail .refl h

/-- Every worker waits for a future that is in the queue. -/
def Stuck (n : Nat) (s : Pool V) (t : Nat → Addr) (b : Nat → Back) : Prop :=
  ∀ i, i < n → s.th i = .touch (t i) (b i) ∧ s.gPlace (t i) = .queued

theorem queued_unfinished (h : PoolInv n s) {t : Addr} {x : QNode (TaskRest V)} (hp : s.gPlace t = .queued)
    (hm : s.gMade t = true) (hx : s.mem t = some x) : x.rest.finished = false := by
  cases e : x.rest.finished
  · rfl
  · have := (h.value.fin t x hm hx e)
    rw [this.1] at hp
    cases hp

/-- The workers are stuck for ever. -/
theorem stuck_step (h : PoolInv n s) {t : Nat → Addr} {b : Nat → Back} (hk : Stuck n s t b)
    (hs : Step n s (.ok s')) : Stuck n s' t b := by
  intro w hw
  obtain ⟨h1, h2⟩ := hk w hw
  have hwk : ∀ i, (s.th i).isWorker = true → i < n := fun i => (h.kind i).1
  have hpend : ∀ i u, (s.th i).pend = some u → s.gPlace u = .pending i := h.place.pend
  have hfin : ∀ x, s.mem (t w) = some x → x.rest.finished = false := fun x hx =>
    queued_unfinished h h2 (h.value.touches w (t w) (by rw [h1]; rfl)) hx
  have hall : ∀ i, (s.th i).isWorker = true → ∃ u c, s.th i = .touch u c := fun i hi =>
    ⟨_, _, (hk i (hwk i hi)).1⟩
  have hal : s.mem (t w) ≠ none := h.place.alloc (t w) (by rw [h2]; simp)
  clear hk h hwk
  have hnw : ∀ i x, s.th i = x → (∀ u c, x ≠ .touch u c) → x.isWorker = false := by
    intro i x e hx
    cases hx2 : x.isWorker
    · rfl
    · obtain ⟨u, c, e2⟩ := hall i (by rw [e]; exact hx2)
      exact absurd (e.symm.trans e2) (hx u c)
  have hne : ∀ i x, s.th i = x → (∀ u c, x ≠ .touch u c) → w ≠ i := by
    rintro i x e hx rfl
    exact hx _ _ (e.symm.trans h1)
  cases hs with
  | lock h3 => have := hnw _ _ h3 (by simp); cases this
  | take h3 => have := hnw _ _ h3 (by simp); cases this
  | wait h3 => have := hnw _ _ h3 (by simp); cases this
  | spurious h3 => have := hnw _ _ h3 (by simp); cases this
  | relock h3 => have := hnw _ _ h3 (by simp); cases this
  | unlock h3 => have := hnw _ _ h3 (by simp); cases this
  | eval h3 => have := hnw _ _ h3 (by simp); cases this
  | finish h3 => have := hnw _ _ h3 (by simp); cases this
  | ret r h3 => have := hnw _ _ h3 (by simp); cases this
  | store h3 => have := hnw _ _ h3 (by simp); cases this
  | finished h3 => have := hnw _ _ h3 (by simp); cases this
  | @new i u c x d h3 h4 h5 =>
    have hwi : w ≠ i := by
      rintro rfl
      rw [h1] at h3
      cases c <;> simp [CanCall] at h3
    have : t w ≠ u := by intro e; rw [e, h5] at h2; cases h2
    simp only
    rw [upd_ne _ _ hwi, upd_ne _ _ this]
    exact ⟨h1, h2⟩
  | enqLock h3 => simp only; rw [upd_ne _ _ (hne _ _ h3 (by simp))]; exact ⟨h1, h2⟩
  | @enqPut i u c q m h3 =>
    simp only
    rw [upd_ne _ _ (hne _ _ h3 (by simp))]
    have : t w ≠ u := by
      intro e
      have := hpend i u (by rw [h3]; rfl)
      rw [← e, h2] at this
      cases this
    rw [upd_ne _ _ this]
    exact ⟨h1, h2⟩
  | signal h3 h4 =>
    simp only
    rw [upd_ne _ _ (hne _ _ h3 (by simp)), upd_ne _ _ (hne _ _ h4 (by simp))]
    exact ⟨h1, h2⟩
  | signalNone h3 => simp only; rw [upd_ne _ _ (hne _ _ h3 (by simp))]; exact ⟨h1, h2⟩
  | enqUnlock h3 => simp only; rw [upd_ne _ _ (hne _ _ h3 (by simp))]; exact ⟨h1, h2⟩
  | @finUnlock i u a j y h3 h4 h5 =>
    simp only
    rw [upd_ne _ _ (hne _ _ h3 (by simp))]
    by_cases e : t w = a
    · exfalso
      rw [e] at hal
      exact hal h5
    · rw [upd_ne _ _ e]
      exact ⟨h1, h2⟩
  | finLast h3 => simp only; rw [upd_ne _ _ (hne _ _ h3 (by simp))]; exact ⟨h1, h2⟩
  | @touch i u c h3 =>
    have hwi : w ≠ i := by
      rintro rfl
      rw [h1] at h3
      cases c <;> simp [CanCall] at h3
    simp only
    rw [upd_ne _ _ hwi]
    exact ⟨h1, h2⟩
  | @touchEnd i u c x h3 h4 h5 =>
    by_cases e : w = i
    · subst e
      rw [h1] at h3
      simp only [Th.touch.injEq] at h3
      rw [← h3.1] at h4
      rw [hfin x h4] at h5
      cases h5
    · simp only
      rw [upd_ne _ _ e]
      exact ⟨h1, h2⟩
  | touchRead h3 => simp only; rw [upd_ne _ _ (hne _ _ h3 (by simp))]; exact ⟨h1, h2⟩
  | touchRet h3 => simp only; rw [upd_ne _ _ (hne _ _ h3 (by simp))]; exact ⟨h1, h2⟩
  | @finStart i u y h3 h4 h5 h6 h7 =>
    simp only
    rw [upd_ne _ _ (hne _ _ h3 (by simp))]
    by_cases e : t w = u
    · exfalso
      rw [e] at hal
      exact hal h7
    · rw [upd_ne _ _ e]
      exact ⟨h1, h2⟩
  | join h3 => simp only; rw [upd_ne _ _ (hne _ _ h3 (by simp))]; exact ⟨h1, h2⟩
  | joined h3 => simp only; rw [upd_ne _ _ (hne _ _ h3 (by simp))]; exact ⟨h1, h2⟩
  | alloc => exact ⟨h1, h2⟩
  | free => exact ⟨h1, h2⟩

theorem stuck_steps (h : PoolInv n s) {t : Nat → Addr} {b : Nat → Back} (hk : Stuck n s t b)
    (hs : Steps n s s') : Stuck n s' t b := by
  induction hs with
  | refl => exact hk
  | tail h1 h2 ih => exact stuck_step (h.steps h1) ih h2

/-- A call of `sph_future_new` without interruption, while no worker waits. -/
theorem enqueue_steps [Inhabited V] (h : PoolInv n s) (hf : s.gFinishAt = none) (hm : s.mutex = none)
    (hnw : ∀ w, s.th w ≠ .waiting) {i : Nat} {b : Back} (hc : CanCall (s.th i) b) {t : Addr} (ha : ∀ a, s.mem a ≠ none)
    (hp : s.gPlace t = .idle) (hnt : ∀ j, ¬ (s.th j).touches t) (hroom : s.gEnqueued.length + 1 < s.gTaken.length + 4294967296) :
    ∃ s', Steps n s s' ∧ s'.mutex = none ∧ s'.gFinishAt = none ∧ s'.th = s.th ∧ s'.gPlace = upd s.gPlace t .queued ∧
      s'.gEnqueued = s.gEnqueued ++ [t] ∧ s'.gTaken = s.gTaken ∧ s'.gMade = upd s.gMade t true ∧ (∀ a, s'.mem a ≠ none) := by
  obtain ⟨x, hx⟩ := Option.ne_none_iff_exists'.1 (ha t)
  have hd := (h.size.before hf).2
  have hback : (b.th : Th V) = s.th i := by
    cases b with
    | client => exact hc.symm
    | inF u k => exact hc.symm
    | fin j => cases hc
  have hnf : ∀ j, b ≠ .fin j := by rintro j rfl; cases hc
  have st1 : Step n s (.ok _) := .new (i := i) default hc hx hp hnt (.inr hf)
  generalize hs1 : ({ s with mem := upd s.mem t (some { x with rest := { f := .eval, data := default, finished := false } }),
                             th := upd s.th i (.enq .lock t b), gPlace := upd s.gPlace t (.pending i),
                             gMade := upd s.gMade t true, gResult := upd s.gResult t none } : Pool V) = s1 at st1
  have st2 : Step n s1 (.ok _) := .enqLock (i := i) (t := t) (b := b) (by rw [← hs1]; exact upd_same _ _ _)
    (by rw [← hs1]; exact hd) (by rw [← hs1]; exact hm)
  generalize hs2 : ({ s1 with mutex := some i, th := upd s1.th i (.enq .put t b) } : Pool V) = s2 at st2
  have h2 := (h.step st1).step st2
  have hth2 : s2.th i = .enq .put t b := by rw [← hs2]; exact upd_same _ _ _
  have hroom2 : s2.gEnqueued.length + 1 < s2.gTaken.length + 4294967296 := by rw [← hs2, ← hs1]; exact hroom
  obtain ⟨q, m, e1, e2⟩ := h2.place.put_ok hth2 hroom2
  have st3 : Step n s2 (.ok _) := .enqPut hth2 hroom2 e1
  generalize hs3 : ({ s2 with queue := q, mem := m, th := upd s2.th i (.enq .signal t b), gEnqueued := s2.gEnqueued ++ [t],
                              gPlace := upd s2.gPlace t .queued } : Pool V) = s3 at st3
  have hth : ∀ w, w ≠ i → s3.th w = s.th w := by
    intro w hw
    rw [← hs3, ← hs2, ← hs1]
    simp only
    rw [upd_ne _ _ hw, upd_ne _ _ hw, upd_ne _ _ hw]
  have hth3 : s3.th i = .enq .signal t b := by rw [← hs3]; exact upd_same _ _ _
  have st4 : Step n s3 (.ok _) := .signalNone (i := i) (t := t) (b := b) hth3 (by
    intro w
    by_cases e : w = i
    · subst e; rw [hth3]; simp
    · rw [hth w e]; exact hnw w)
  generalize hs4 : ({ s3 with th := upd s3.th i (.enq .unlock t b) } : Pool V) = s4 at st4
  have st5 : Step n s4 (.ok _) := .enqUnlock (i := i) (t := t) (b := b) (by rw [← hs4]; exact upd_same _ _ _) hnf
  refine ⟨_, .tail (.tail (.tail (.tail (.one st1) st2) st3) st4) st5, rfl, ?_, ?_, ?_, ?_, ?_, ?_, ?_⟩
  · rw [← hs4, ← hs3, ← hs2, ← hs1]; exact hf
  · funext w
    simp only
    by_cases e : w = i
    · subst e; rw [upd_same]; exact hback
    · rw [upd_ne _ _ e, ← hs4]
      simp only
      rw [upd_ne _ _ e, hth w e]
  · rw [← hs4, ← hs3, ← hs2, ← hs1]
    funext a
    simp only [upd]
    split <;> rfl
  · rw [← hs4, ← hs3, ← hs2, ← hs1]
  · rw [← hs4, ← hs3, ← hs2, ← hs1]
  · rw [← hs4, ← hs3, ← hs2, ← hs1]
  · intro a
    rw [← hs4, ← hs3]
    simp only
    have hm2 : s2.mem a ≠ none := by
      rw [← hs2, ← hs1]
      simp only [upd]
      split
      · simp
      · exact ha a
    intro e
    have := e2.2.1 a
    rw [e] at this
    cases h5 : s2.mem a with
    | none => exact hm2 h5
    | some y => rw [h5] at this; simp at this

/-- A worker takes the next task and calls its function. -/
theorem takeRun_steps (h : PoolInv n s) (hf : s.gFinishAt = none) (hm : s.mutex = none) {i : Nat}
    (hth : s.th i = .getTask) {t : Addr} (he : s.gEnqueued[s.gTaken.length]? = some t) :
    ∃ s', Steps n s s' ∧ s'.mutex = none ∧ s'.gFinishAt = none ∧ s'.th = upd s.th i (.inF t s.gTaken.length) ∧
      s'.gPlace = upd s.gPlace t (.proc i) ∧ s'.gEnqueued = s.gEnqueued ∧ s'.gTaken = s.gTaken ++ [(i, t)] ∧
      s'.gMade = s.gMade ∧ s'.mem = s.mem := by
  have hd := (h.size.before hf).2
  have hlen := (List.getElem?_eq_some_iff.1 he).1
  have st1 : Step n s (.ok _) := .lock hth hd hm
  generalize hs1 : ({ s with mutex := some i, th := upd s.th i .check } : Pool V) = s1 at st1
  have h1 := h.step st1
  have hth1 : s1.th i = .check := by rw [← hs1]; exact upd_same _ _ _
  have hsz : s1.queue.size ≠ 0 := by
    have := h.place.repr.size
    rw [← hs1]
    simp only
    rw [this, Pool.waitingTasks, List.length_drop]
    omega
  obtain ⟨u, q, e1, e2, _⟩ := h1.place.take_ok hsz
  have hu : u = t := by
    rw [← hs1] at e2
    simp only at e2
    rw [he] at e2
    exact (Option.some.inj e2).symm
  subst hu
  have st2 : Step n s1 (.ok _) := .take hth1 hsz e1
  generalize hs2 : ({ s1 with queue := q, th := upd s1.th i (.took u s1.gTaken.length), gTaken := s1.gTaken ++ [(i, u)],
                              gPlace := upd s1.gPlace u (.proc i) } : Pool V) = s2 at st2
  have st3 : Step n s2 (.ok _) := .unlock (i := i) (t := u) (k := s.gTaken.length) (by rw [← hs2, ← hs1]; exact upd_same _ _ _)
  generalize hs3 : ({ s2 with mutex := none, th := upd s2.th i (.run u s.gTaken.length) } : Pool V) = s3 at st3
  have h3 := ((h.step st1).step st2).step st3
  have hp3 : s3.gPlace u = .proc i := by rw [← hs3, ← hs2]; exact upd_same _ _ _
  have hf3 : s3.gFinishAt = none := by rw [← hs3, ← hs2, ← hs1]; exact hf
  obtain ⟨x, hx⟩ := Option.ne_none_iff_exists'.1 (h3.place.alloc u (by rw [hp3]; simp))
  have st4 : Step n s3 (.ok _) := .eval (i := i) (t := u) (k := s.gTaken.length) (by rw [← hs3]; exact upd_same _ _ _) hx
    ((h3.value.kind u x (by rw [hp3]; simp) hx).2 (h3.fin.allMade hf3 u (by rw [hp3]; simp)))
  refine ⟨_, .tail (.tail (.tail (.one st1) st2) st3) st4, ?_, hf3, ?_, ?_, ?_, ?_, ?_, ?_⟩
  · rw [← hs3]
  · funext w
    simp only
    by_cases e : w = i
    · subst e; rw [upd_same, upd_same]
    · rw [upd_ne _ _ e, upd_ne _ _ e, ← hs3, ← hs2, ← hs1]
      simp only
      rw [upd_ne _ _ e, upd_ne _ _ e, upd_ne _ _ e]
  all_goals rw [← hs3, ← hs2, ← hs1]

end Sp
