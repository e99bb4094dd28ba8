import Verif.Spec.Fair
import Verif.Lemmas.ThreadPoolInv
import Verif.Lemmas.ThreadPoolDeadlock
import Mathlib.Data.Finset.Card

/-! # Lemmas about fair executions of the thread pool -/

set_option linter.unusedSectionVars false

namespace Sp
variable {V : Type} {n : Nat} {s s' : Pool V} {σ : Nat → Pool V}

theorem Execution.reach (h : Execution n σ) (m : Nat) : PoolReach n (σ m) := by
  induction m with
  | zero =>
    obtain ⟨mem, h0⟩ := h.start
    exact ⟨mem, h0 ▸ .refl⟩
  | succ m ih =>
    rcases h.next m with e | hs
    · rw [e]; exact ih
    · obtain ⟨mem, h1⟩ := ih
      exact ⟨mem, h1.tail hs⟩

theorem Execution.inv (h : Execution n σ) (m : Nat) : PoolInv n (σ m) := (h.reach m).inv

/-! ## What a thread can do next -/

theorem th_getTask (hs : Step n s (.ok s')) {i : Nat} (h : s.th i = .getTask) (hc : s'.th i ≠ s.th i) : s'.th i = .check := by
  cases hs <;> simp only at hc ⊢ <;> grind [upd, canCall_iff, back_cases]

theorem th_woken (hs : Step n s (.ok s')) {i : Nat} (h : s.th i = .woken) (hc : s'.th i ≠ s.th i) : s'.th i = .check := by
  cases hs <;> simp only at hc ⊢ <;> grind [upd, canCall_iff, back_cases]

theorem th_check (hs : Step n s (.ok s')) {i : Nat} (h : s.th i = .check) (hc : s'.th i ≠ s.th i) :
    (∃ t, s'.th i = .took t s.gTaken.length ∧ s'.gTaken = s.gTaken ++ [(i, t)]) ∨ (s'.th i = .waiting ∧ s.queue.size = 0 ∧ s'.mutex = none) := by
  cases hs <;> simp only at hc ⊢ <;> grind [upd, canCall_iff, back_cases]

theorem th_took (hs : Step n s (.ok s')) {i : Nat} {t : Addr} {k : Nat} (h : s.th i = .took t k) (hc : s'.th i ≠ s.th i) :
    s'.th i = .run t k ∧ s'.mutex = none := by
  cases hs <;> simp only at hc ⊢ <;> grind [upd, canCall_iff, back_cases]

theorem th_run (hs : Step n s (.ok s')) {i : Nat} {t : Addr} {k : Nat} (h : s.th i = .run t k) (hc : s'.th i ≠ s.th i) :
    (s'.th i = .inF t k ∧ ∃ x, s.mem t = some x ∧ x.rest.f = .eval) ∨ (s'.th i = .ended ∧ s'.gPlace t = .idle) := by
  cases hs <;> simp only at hc ⊢ <;> grind [upd, canCall_iff, back_cases]

theorem th_ret (hs : Step n s (.ok s')) {i : Nat} {t : Addr} {k : Nat} {r : V} (h : s.th i = .ret t k r) (hc : s'.th i ≠ s.th i) :
    s'.th i = .stored t k := by
  cases hs <;> simp only at hc ⊢ <;> grind [upd, canCall_iff, back_cases]

theorem th_stored (hs : Step n s (.ok s')) {i : Nat} {t : Addr} {k : Nat} (h : s.th i = .stored t k) (hc : s'.th i ≠ s.th i) :
    s'.th i = .getTask ∧ s'.gPlace t = .idle := by
  cases hs <;> simp only at hc ⊢ <;> grind [upd, canCall_iff, back_cases]

theorem th_enqLock (hs : Step n s (.ok s')) {i : Nat} {t : Addr} {b : Back} (h : s.th i = .enq .lock t b) (hc : s'.th i ≠ s.th i) :
    s'.th i = .enq .put t b := by
  cases hs <;> simp only at hc ⊢ <;> grind [upd, canCall_iff, back_cases]

theorem th_enqPut (hs : Step n s (.ok s')) {i : Nat} {t : Addr} {b : Back} (h : s.th i = .enq .put t b) (hc : s'.th i ≠ s.th i) :
    s'.th i = .enq .signal t b ∧ s'.gPlace t = .queued := by
  cases hs <;> simp only at hc ⊢ <;> grind [upd, canCall_iff, back_cases]

theorem th_enqSignal (hs : Step n s (.ok s')) {i : Nat} {t : Addr} {b : Back} (h : s.th i = .enq .signal t b) (hc : s'.th i ≠ s.th i) :
    s'.th i = .enq .unlock t b ∧ ((∀ w, s.th w ≠ .waiting) ∨ ∃ w, s.th w = .waiting ∧ s'.th w = .woken) := by
  cases hs <;> simp only at hc ⊢ <;> grind [upd, canCall_iff, back_cases]

theorem th_enqUnlock (hs : Step n s (.ok s')) {i : Nat} {t : Addr} {b : Back} (h : s.th i = .enq .unlock t b) (hc : s'.th i ≠ s.th i) :
    s'.mutex = none ∧ (((∀ j, b ≠ .fin j) ∧ s'.th i = b.th) ∨
      ∃ j, b = .fin j ∧ ((j + 1 < n ∧ ∃ u, s'.th i = .enq .lock u (.fin (j + 1))) ∨ (n ≤ j + 1 ∧ s'.th i = .join 0))) := by
  cases hs <;> simp only at hc ⊢ <;> grind [upd, canCall_iff, back_cases]

theorem th_touch (hs : Step n s (.ok s')) {i : Nat} {t : Addr} {b : Back} (h : s.th i = .touch t b) (hc : s'.th i ≠ s.th i) :
    s'.th i = .touchRead t b := by
  cases hs <;> simp only at hc ⊢ <;> grind [upd, canCall_iff, back_cases]

theorem th_touchRead (hs : Step n s (.ok s')) {i : Nat} {t : Addr} {b : Back} (h : s.th i = .touchRead t b) (hc : s'.th i ≠ s.th i) :
    ∃ v, s'.th i = .touched t v b := by
  cases hs <;> simp only at hc ⊢ <;> grind [upd, canCall_iff, back_cases]

theorem th_join (hs : Step n s (.ok s')) {i j : Nat} (h : s.th i = .join j) (hc : s'.th i ≠ s.th i) :
    (j < n ∧ s'.th i = .join (j + 1)) ∨ (n ≤ j ∧ s'.th i = .joined) := by
  cases hs <;> simp only at hc ⊢ <;> grind [upd, canCall_iff, back_cases]

theorem th_waiting (hs : Step n s (.ok s')) {i : Nat} (h : s.th i = .waiting) (hc : s'.th i ≠ s.th i) : s'.th i = .woken := by
  cases hs <;> simp only at hc ⊢ <;> grind [upd, canCall_iff, back_cases]

theorem th_touched (hs : Step n s (.ok s')) {i : Nat} {t : Addr} {v : V} {b : Back} (h : s.th i = .touched t v b) (hc : s'.th i ≠ s.th i) :
    s'.th i = b.th := by
  cases hs <;> simp only at hc ⊢ <;> grind [upd, canCall_iff, back_cases]

/-! ## Which threads can go on -/

theorem PoolInv.alive (h : PoolInv n s) {i : Nat} (h1 : (s.th i).isWorker = true) (h2 : s.th i ≠ .ended) : s.destroyed = 0 := by
  by_contra hd
  exact h2 ((h.size.dead hd).2.1 i ((h.kind i).1 h1))

theorem canGo_getTask (h : PoolInv n s) {i : Nat} (ht : s.th i = .getTask) (hm : s.mutex = none) : CanGo n s i :=
  ⟨by rw [ht]; simp, by rw [ht]; simp, by rw [ht]; simp, _, .lock ht (h.alive (by rw [ht]; rfl) (by rw [ht]; simp)) hm,
    by simp [upd_same, ht]⟩

theorem canGo_woken (h : PoolInv n s) {i : Nat} (ht : s.th i = .woken) (hm : s.mutex = none) : CanGo n s i :=
  ⟨by rw [ht]; simp, by rw [ht]; simp, by rw [ht]; simp, _, .relock ht (h.alive (by rw [ht]; rfl) (by rw [ht]; simp)) hm,
    by simp [upd_same, ht]⟩

theorem canGo_check (h : PoolInv n s) {i : Nat} (ht : s.th i = .check) : CanGo n s i := by
  refine ⟨by rw [ht]; simp, by rw [ht]; simp, by rw [ht]; simp, ?_⟩
  by_cases h0 : s.queue.size = 0
  · exact ⟨_, .wait ht h0, by simp [upd_same, ht]⟩
  · obtain ⟨t, q, h1, -⟩ := h.place.take_ok h0
    exact ⟨_, .take ht h0 h1, by simp [upd_same, ht]⟩

theorem canGo_took {i : Nat} {t : Addr} {k : Nat} (ht : s.th i = .took t k) : CanGo n s i :=
  ⟨by rw [ht]; simp, by rw [ht]; simp, by rw [ht]; simp, _, .unlock ht, by simp [upd_same, ht]⟩

theorem PoolInv.procMem (h : PoolInv n s) {i : Nat} {t : Addr} {k : Nat} (e : (s.th i).proc = some (t, k)) : ∃ x, s.mem t = some x := by
  refine Option.ne_none_iff_exists'.1 (h.place.alloc t ?_)
  rw [h.place.proc i t k e]
  simp

theorem canGo_run (h : PoolInv n s) {i : Nat} {t : Addr} {k : Nat} (ht : s.th i = .run t k) : CanGo n s i := by
  refine ⟨by rw [ht]; simp, by rw [ht]; simp, by rw [ht]; simp, ?_⟩
  obtain ⟨x, hx⟩ := h.procMem (i := i) (t := t) (k := k) (by rw [ht]; rfl)
  cases hf : x.rest.f with
  | eval => exact ⟨_, .eval ht hx hf, by simp [upd_same, ht]⟩
  | finish => exact ⟨_, .finish ht hx hf, by simp [upd_same, ht]⟩

theorem canGo_ret (h : PoolInv n s) {i : Nat} {t : Addr} {k : Nat} {r : V} (ht : s.th i = .ret t k r) : CanGo n s i := by
  refine ⟨by rw [ht]; simp, by rw [ht]; simp, by rw [ht]; simp, ?_⟩
  obtain ⟨x, hx⟩ := h.procMem (i := i) (t := t) (k := k) (by rw [ht]; rfl)
  exact ⟨_, .store ht hx, by simp [upd_same, ht]⟩

theorem canGo_stored (h : PoolInv n s) {i : Nat} {t : Addr} {k : Nat} (ht : s.th i = .stored t k) : CanGo n s i := by
  refine ⟨by rw [ht]; simp, by rw [ht]; simp, by rw [ht]; simp, ?_⟩
  obtain ⟨x, hx⟩ := h.procMem (i := i) (t := t) (k := k) (by rw [ht]; rfl)
  exact ⟨_, .finished ht hx, by simp [upd_same, ht]⟩

theorem canGo_enqLock (h : PoolInv n s) {i : Nat} {t : Addr} {b : Back} (ht : s.th i = .enq .lock t b) (hm : s.mutex = none) : CanGo n s i := by
  refine ⟨by rw [ht]; simp, by rw [ht]; simp, by rw [ht]; simp, _, .enqLock ht ?_ hm, by simp [upd_same, ht]⟩
  by_contra hd
  exact h.no_fault (.enqLockFault ht hd)

theorem canGo_enqPut (h : PoolInv n s) (hr : s.gEnqueued.length + 1 < s.gTaken.length + 4294967296) {i : Nat} {t : Addr} {b : Back}
    (ht : s.th i = .enq .put t b) : CanGo n s i := by
  refine ⟨by rw [ht]; simp, by rw [ht]; simp, by rw [ht]; simp, ?_⟩
  obtain ⟨q, m, h1, -⟩ := h.place.put_ok ht hr
  exact ⟨_, .enqPut ht hr h1, by simp [upd_same, ht]⟩

theorem canGo_enqSignal {i : Nat} {t : Addr} {b : Back} (ht : s.th i = .enq .signal t b) : CanGo n s i := by
  refine ⟨by rw [ht]; simp, by rw [ht]; simp, by rw [ht]; simp, ?_⟩
  by_cases h0 : ∃ w, s.th w = .waiting
  · obtain ⟨w, hw⟩ := h0
    exact ⟨_, .signal ht hw, by simp [upd_same, ht]⟩
  · exact ⟨_, .signalNone ht (fun w hw => h0 ⟨w, hw⟩), by simp [upd_same, ht]⟩

theorem canGo_enqUnlock [Inhabited V] {i : Nat} {t : Addr} {b : Back}
    (hmem : ∀ t j, s.th i = .enq .unlock t (.fin j) → j + 1 < n → ∃ u, s.mem u = none) (ht : s.th i = .enq .unlock t b) :
    CanGo n s i := by
  refine ⟨by rw [ht]; simp, by rw [ht]; simp, by rw [ht]; simp, ?_⟩
  cases b with
  | fin j =>
    by_cases hj : j + 1 < n
    · obtain ⟨u, hu⟩ := hmem t j ht hj
      exact ⟨_, .finUnlock (y := default) ht hj hu, by simp [upd_same, ht]⟩
    · exact ⟨_, .finLast ht (by omega), by simp [upd_same, ht]⟩
  | client => exact ⟨_, .enqUnlock ht (by simp), by simp [upd_same, ht, Back.th]⟩
  | inF u k => exact ⟨_, .enqUnlock ht (by simp), by simp [upd_same, ht, Back.th]⟩

theorem canGo_touch {i : Nat} {t : Addr} {b : Back} {x : QNode (TaskRest V)} (ht : s.th i = .touch t b) (hx : s.mem t = some x)
    (hf : x.rest.finished = true) : CanGo n s i :=
  ⟨by rw [ht]; simp, by rw [ht]; simp, by rw [ht]; simp, _, .touchEnd ht hx hf, by simp [upd_same, ht]⟩

theorem canGo_touchRead (h : PoolInv n s) {i : Nat} {t : Addr} {b : Back} (ht : s.th i = .touchRead t b) : CanGo n s i := by
  obtain ⟨x, hx, -⟩ := h.value.read i t b ht
  exact ⟨by rw [ht]; simp, by rw [ht]; simp, by rw [ht]; simp, _, .touchRead ht hx, by simp [upd_same, ht]⟩

theorem canGo_touched {i : Nat} {t : Addr} {v : V} {b : Back} (ht : s.th i = .touched t v b) (hb : (b.th : Th V) ≠ .touched t v b) :
    CanGo n s i :=
  ⟨by rw [ht]; simp, by rw [ht]; simp, by rw [ht]; simp, _, .touchRet ht, by simp [upd_same, ht, hb]⟩

theorem canGo_join {i j : Nat} (ht : s.th i = .join j) (hj : j < n → s.th j = .ended) : CanGo n s i := by
  refine ⟨by rw [ht]; simp, by rw [ht]; simp, by rw [ht]; simp, ?_⟩
  by_cases h0 : j < n
  · exact ⟨_, .join ht h0 (hj h0), by simp [upd_same, ht]⟩
  · exact ⟨_, .joined ht (by omega), by simp [upd_same, ht]⟩

/-! ## Leaving a place -/

/-- A thread that can go on again and again as long as it stays does leave. -/
theorem leave (hE : Execution n σ) (hF : FairRun n σ) {i m : Nat} {x : Th V} (hx : (σ m).th i = x)
    (hgo : ∀ m' ≥ m, (∀ m₁, m ≤ m₁ → m₁ ≤ m' → (σ m₁).th i = x) → ∃ m₁ ≥ m', (σ m₁).th i = x → CanGo n (σ m₁) i) :
    ∃ m' ≥ m, (σ m').th i = x ∧ (σ (m' + 1)).th i ≠ x ∧ Step n (σ m') (.ok (σ (m' + 1))) ∧
      ∀ m₁, m ≤ m₁ → m₁ ≤ m' → (σ m₁).th i = x := by
  by_contra hcon
  have hstay : ∀ d, ∀ m₁, m ≤ m₁ → m₁ ≤ m + d → (σ m₁).th i = x := by
    intro d
    induction d with
    | zero =>
      intro m₁ h1 h2
      rw [show m₁ = m by omega]
      exact hx
    | succ d ih =>
      intro m₁ h1 h2
      by_cases hd : m₁ ≤ m + d
      · exact ih m₁ h1 hd
      · rw [show m₁ = m + d + 1 by omega]
        by_contra hne
        rcases hE.next (m + d) with e | hs
        · rw [e] at hne
          exact hne (ih (m + d) (by omega) (by omega))
        · exact hcon ⟨m + d, by omega, ih (m + d) (by omega) (by omega), hne, hs, ih⟩
  have hall : ∀ m₁ ≥ m, (σ m₁).th i = x := fun m₁ h1 => hstay (m₁ - m) m₁ h1 (by omega)
  obtain ⟨m₂, h2⟩ := hF i m (fun m' h => (hall m' h).trans hx.symm)
  obtain ⟨m₃, h3, h4⟩ := hgo (max m m₂) (by omega) (fun m₁ h1 _ => hall m₁ h1)
  exact h2 m₃ (by omega) (h4 (hall m₃ (by omega)))

/-- A thread that can always go on from a place leaves it. -/
theorem leave_always (hE : Execution n σ) (hF : FairRun n σ) {i m : Nat} {x : Th V} (hx : (σ m).th i = x)
    (hgo : ∀ m' ≥ m, (σ m').th i = x → CanGo n (σ m') i) :
    ∃ m' ≥ m, (σ m').th i = x ∧ (σ (m' + 1)).th i ≠ (σ m').th i ∧ Step n (σ m') (.ok (σ (m' + 1))) := by
  obtain ⟨m', h1, h2, h3, h4, -⟩ := leave hE hF hx (fun m' hm _ => ⟨m', Nat.le_refl _, hgo m' hm⟩)
  exact ⟨m', h1, h2, by rw [h2]; exact h3, h4⟩

/-- What holds of a run in the following. -/
structure GoodRun (n : Nat) (σ : Nat → Pool V) : Prop where
  exec : Execution n σ
  fair : FairRun n σ
  room : QueueRoom σ
  mem : MemoryRoom n σ

variable [Inhabited V]

/-- The mutex is free at some time. -/
theorem GoodRun.mutexFree (h : GoodRun n σ) (m : Nat) : ∃ m' ≥ m, (σ m').mutex = none := by
  cases hm : (σ m).mutex with
  | none => exact ⟨m, Nat.le_refl _, hm⟩
  | some i =>
    have hunlock : ∀ m, ∀ t b, (σ m).th i = .enq .unlock t b → ∃ m' ≥ m, (σ m').mutex = none := by
      intro m t b ht
      obtain ⟨m', h1, h2, h3, h4⟩ := leave_always h.exec h.fair ht (fun m' _ e => canGo_enqUnlock (h.mem m' i) e)
      exact ⟨m' + 1, by omega, (th_enqUnlock h4 h2 h3).1⟩
    have hsignal : ∀ m, ∀ t b, (σ m).th i = .enq .signal t b → ∃ m' ≥ m, (σ m').mutex = none := by
      intro m t b ht
      obtain ⟨m', h1, h2, h3, h4⟩ := leave_always h.exec h.fair ht (fun m' _ e => canGo_enqSignal e)
      obtain ⟨m₂, h5, h6⟩ := hunlock _ _ _ (th_enqSignal h4 h2 h3).1
      exact ⟨m₂, by omega, h6⟩
    have hput : ∀ m, ∀ t b, (σ m).th i = .enq .put t b → ∃ m' ≥ m, (σ m').mutex = none := by
      intro m t b ht
      obtain ⟨m', h1, h2, h3, h4⟩ := leave_always h.exec h.fair ht (fun m' _ e => canGo_enqPut (h.exec.inv m') (h.room m') e)
      obtain ⟨m₂, h5, h6⟩ := hsignal _ _ _ (th_enqPut h4 h2 h3).1
      exact ⟨m₂, by omega, h6⟩
    have htook : ∀ m, ∀ t k, (σ m).th i = .took t k → ∃ m' ≥ m, (σ m').mutex = none := by
      intro m t k ht
      obtain ⟨m', h1, h2, h3, h4⟩ := leave_always h.exec h.fair ht (fun m' _ e => canGo_took e)
      exact ⟨m' + 1, by omega, (th_took h4 h2 h3).2⟩
    have hcheck : ∀ m, (σ m).th i = .check → ∃ m' ≥ m, (σ m').mutex = none := by
      intro m ht
      obtain ⟨m', h1, h2, h3, h4⟩ := leave_always h.exec h.fair ht (fun m' _ e => canGo_check (h.exec.inv m') e)
      rcases th_check h4 h2 h3 with ⟨t, h5, -⟩ | ⟨-, -, h5⟩
      · obtain ⟨m₂, h6, h7⟩ := htook _ _ _ h5
        exact ⟨m₂, by omega, h7⟩
      · exact ⟨m' + 1, by omega, h5⟩
    have hh := ((h.exec.inv m).mutex i).1 hm
    cases hth : (σ m).th i with
    | check => exact hcheck m hth
    | took t k => exact htook m t k hth
    | enq pc t b =>
      cases pc with
      | lock => rw [hth] at hh; cases hh
      | put => exact hput m t b hth
      | signal => exact hsignal m t b hth
      | unlock => exact hunlock m t b hth
    | _ => rw [hth] at hh; cases hh

/-- A worker that is about to look at the queue gets to look at it. -/
theorem GoodRun.looks (h : GoodRun n σ) {m i : Nat} (ht : (σ m).th i = .getTask ∨ (σ m).th i = .woken) :
    ∃ m' ≥ m, (σ m').th i = .check := by
  rcases ht with ht | ht
  · obtain ⟨m', h1, h2, h3, h4, -⟩ := leave h.exec h.fair ht (fun m' _ _ => by
      obtain ⟨m₁, h1, h2⟩ := h.mutexFree m'
      exact ⟨m₁, h1, fun e => canGo_getTask (h.exec.inv m₁) e h2⟩)
    exact ⟨m' + 1, by omega, th_getTask h4 h2 (by rw [h2]; exact h3)⟩
  · obtain ⟨m', h1, h2, h3, h4, -⟩ := leave h.exec h.fair ht (fun m' _ _ => by
      obtain ⟨m₁, h1, h2⟩ := h.mutexFree m'
      exact ⟨m₁, h1, fun e => canGo_woken (h.exec.inv m₁) e h2⟩)
    exact ⟨m' + 1, by omega, th_woken h4 h2 (by rw [h2]; exact h3)⟩

/-- A thread that is about to enqueue a task does. -/
theorem GoodRun.enqueues (h : GoodRun n σ) {m i : Nat} {t : Addr} {b : Back} (ht : (σ m).th i = .enq .lock t b) :
    ∃ m' ≥ m, (σ m').th i = .enq .unlock t b := by
  obtain ⟨m', h1, h2, h3, h4, -⟩ := leave h.exec h.fair ht (fun m' _ _ => by
    obtain ⟨m₁, h1, h2⟩ := h.mutexFree m'
    exact ⟨m₁, h1, fun e => canGo_enqLock (h.exec.inv m₁) e h2⟩)
  have hp := th_enqLock h4 h2 (by rw [h2]; exact h3)
  obtain ⟨m₂, h5, h6, h7, h8⟩ := leave_always h.exec h.fair hp (fun m' _ e => canGo_enqPut (h.exec.inv m') (h.room m') e)
  have hs := (th_enqPut h8 h6 h7).1
  obtain ⟨m₃, h9, h10, h11, h12⟩ := leave_always h.exec h.fair hs (fun m' _ e => canGo_enqSignal e)
  exact ⟨m₃ + 1, by omega, (th_enqSignal h12 h10 h11).1⟩

/-! ## Nothing is forgotten -/

omit [Inhabited V] in
theorem taken_step (hs : Step n s (.ok s')) : s'.gTaken = s.gTaken ∨ ∃ i t, s'.gTaken = s.gTaken ++ [(i, t)] ∧ s.th i = .check ∧
    s.queue.size ≠ 0 ∧ s'.th i = .took t s.gTaken.length := by
  cases hs <;> simp only <;> grind [upd]

omit [Inhabited V] in
theorem enqueued_step (hs : Step n s (.ok s')) : s.gEnqueued <+: s'.gEnqueued := by
  cases hs <;> simp

omit [Inhabited V] in
theorem Execution.taken_prefix (h : Execution n σ) {m m' : Nat} (hm : m ≤ m') : (σ m).gTaken <+: (σ m').gTaken := by
  induction m', hm using Nat.le_induction with
  | base => exact List.prefix_refl _
  | succ m' _ ih =>
    rcases h.next m' with e | hs
    · rw [e]; exact ih
    · rcases taken_step hs with e | ⟨i, t, e, -⟩
      · rw [e]; exact ih
      · rw [e]; exact ih.trans (List.prefix_append _ _)

omit [Inhabited V] in
theorem Execution.enqueued_prefix (h : Execution n σ) {m m' : Nat} (hm : m ≤ m') : (σ m).gEnqueued <+: (σ m').gEnqueued := by
  induction m', hm using Nat.le_induction with
  | base => exact List.prefix_refl _
  | succ m' _ ih =>
    rcases h.next m' with e | hs
    · rw [e]; exact ih
    · exact ih.trans (enqueued_step hs)

omit [Inhabited V] in
theorem Execution.ended_stays (h : Execution n σ) {m m' i : Nat} (hm : m ≤ m') (he : (σ m).th i = .ended) : (σ m').th i = .ended := by
  induction m', hm using Nat.le_induction with
  | base => exact he
  | succ m' _ ih =>
    rcases h.next m' with e | hs
    · rw [e]; exact ih
    · exact Sp.ended_stays hs ih

/-- The functions that worker `i` runs return. -/
def Returns (σ : Nat → Pool V) (i : Nat) : Prop :=
  ∀ m t k, ((σ m).th i).calls t k → ∃ m' ≥ m, ∃ r, (σ m').th i = .ret t k r

/-- Worker `i` waits for a future from `M` on for ever, in the function of the task `k` at `t`. -/
def WaitsIn (σ : Nat → Pool V) (i M : Nat) (u t : Addr) (k : Nat) : Prop := ∀ m ≥ M, (σ m).th i = .touch u (.inF t k)

/-- Worker `i` waits from some time on for ever. -/
def WaitsForever (σ : Nat → Pool V) (i : Nat) : Prop := ∃ M u t k, WaitsIn σ i M u t k

omit [Inhabited V] in
theorem Returns.notStuck {i : Nat} (h : Returns σ i) : ¬ WaitsForever σ i := by
  rintro ⟨M, u, t, k, hs⟩
  obtain ⟨m', h1, r, h2⟩ := h M t k (by rw [hs M (Nat.le_refl _)]; rfl)
  rw [hs m' h1] at h2
  cases h2

/-- A task that is being processed by a worker whose functions return is completed. -/
theorem GoodRun.completes' (h : GoodRun n σ) {m i : Nat} (hret : Returns σ i) {t : Addr} {k : Nat}
    (hp : ((σ m).th i).proc = some (t, k)) :
    ∃ m' ≥ m, (σ m').gPlace t = .idle ∧ k ∈ (σ m').gDone ∧ ((σ m').th i = .getTask ∨ (σ m').th i = .ended) := by
  suffices hs : ∃ m' ≥ m, (σ m').gPlace t = .idle ∧ ((σ m').th i = .getTask ∨ (σ m').th i = .ended) by
    obtain ⟨m', h1, h2, h3⟩ := hs
    refine ⟨m', h1, h2, ?_, h3⟩
    have h4 := ((h.exec.inv m).serial.proc i t k hp).1
    have h5 : (σ m').gTaken[k]? = some (i, t) := by
      obtain ⟨l, hl⟩ := h.exec.taken_prefix h1
      rw [← hl, List.getElem?_append_left (List.getElem?_eq_some_iff.1 h4).1]
      exact h4
    rcases (h.exec.inv m').serial.cover i t k h5 with h6 | h6
    · exact h6
    · rcases h3 with e | e <;> rw [e] at h6 <;> cases h6
  have hstored : ∀ m, (σ m).th i = .stored t k → ∃ m' ≥ m, (σ m').gPlace t = .idle ∧ ((σ m').th i = .getTask ∨ (σ m').th i = .ended) := by
    intro m ht
    obtain ⟨m', h1, h2, h3, h4⟩ := leave_always h.exec h.fair ht (fun m' _ e => canGo_stored (h.exec.inv m') e)
    obtain ⟨h5, h6⟩ := th_stored h4 h2 h3
    exact ⟨m' + 1, by omega, h6, .inl h5⟩
  have hretd : ∀ m r, (σ m).th i = .ret t k r → ∃ m' ≥ m, (σ m').gPlace t = .idle ∧ ((σ m').th i = .getTask ∨ (σ m').th i = .ended) := by
    intro m r ht
    obtain ⟨m', h1, h2, h3, h4⟩ := leave_always h.exec h.fair ht (fun m' _ e => canGo_ret (h.exec.inv m') e)
    obtain ⟨m₂, h5, h6⟩ := hstored _ (th_ret h4 h2 h3)
    exact ⟨m₂, by omega, h6⟩
  have hcalls : ∀ m, ((σ m).th i).calls t k → ∃ m' ≥ m, (σ m').gPlace t = .idle ∧ ((σ m').th i = .getTask ∨ (σ m').th i = .ended) := by
    intro m hc
    obtain ⟨m', h1, r, h2⟩ := hret m t k hc
    obtain ⟨m₂, h5, h6⟩ := hretd _ _ h2
    exact ⟨m₂, by omega, h6⟩
  have hrun : ∀ m, (σ m).th i = .run t k → ∃ m' ≥ m, (σ m').gPlace t = .idle ∧ ((σ m').th i = .getTask ∨ (σ m').th i = .ended) := by
    intro m ht
    obtain ⟨m', h1, h2, h3, h4⟩ := leave_always h.exec h.fair ht (fun m' _ e => canGo_run (h.exec.inv m') e)
    rcases th_run h4 h2 h3 with ⟨h5, -⟩ | ⟨h5, h6⟩
    · obtain ⟨m₂, h6, h7⟩ := hcalls (m' + 1) (by rw [h5]; exact ⟨rfl, rfl⟩)
      exact ⟨m₂, by omega, h7⟩
    · exact ⟨m' + 1, by omega, h6, .inr h5⟩
  cases hth : (σ m).th i with
  | took u j =>
    rw [hth] at hp
    cases hp
    obtain ⟨m', h1, h2, h3, h4⟩ := leave_always h.exec h.fair hth (fun m' _ e => canGo_took e)
    obtain ⟨m₂, h5, h6⟩ := hrun _ (th_took h4 h2 h3).1
    exact ⟨m₂, by omega, h6⟩
  | run u j =>
    rw [hth] at hp
    cases hp
    exact hrun m hth
  | inF u j =>
    rw [hth] at hp
    cases hp
    exact hcalls m (by rw [hth]; exact ⟨rfl, rfl⟩)
  | ret u j r =>
    rw [hth] at hp
    cases hp
    exact hretd m r hth
  | stored u j =>
    rw [hth] at hp
    cases hp
    exact hstored m hth
  | enq pc u b =>
    rw [hth] at hp
    cases b with
    | inF u' k' => cases hp; exact hcalls m (by rw [hth]; rfl)
    | _ => cases hp
  | touch u b =>
    rw [hth] at hp
    cases b with
    | inF u' k' => cases hp; exact hcalls m (by rw [hth]; rfl)
    | _ => cases hp
  | touchRead u b =>
    rw [hth] at hp
    cases b with
    | inF u' k' => cases hp; exact hcalls m (by rw [hth]; rfl)
    | _ => cases hp
  | touched u v b =>
    rw [hth] at hp
    cases b with
    | inF u' k' => cases hp; exact hcalls m (by rw [hth]; rfl)
    | _ => cases hp
  | _ => rw [hth] at hp; cases hp

/-- A task that is being processed is completed. -/
theorem GoodRun.completes (h : GoodRun n σ) (hret : FunctionsReturn σ) {m i : Nat} {t : Addr} {k : Nat}
    (hp : ((σ m).th i).proc = some (t, k)) :
    ∃ m' ≥ m, (σ m').gPlace t = .idle ∧ k ∈ (σ m').gDone ∧ ((σ m').th i = .getTask ∨ (σ m').th i = .ended) :=
  h.completes' (fun m t k => hret m i t k) hp

omit [Inhabited V] in
theorem worker_cases (h : PoolInv n s) {i : Nat} (hi : i < n) : s.th i = .getTask ∨ s.th i = .check ∨ s.th i = .woken ∨ s.th i = .waiting ∨
    s.th i = .ended ∨ ∃ t k, (s.th i).proc = some (t, k) := by
  have hk := (h.kind i).2 hi
  cases hth : s.th i <;> rw [hth] at hk <;> simp [Th.isWorker, Th.proc] at hk ⊢
  all_goals
    rename_i b
    cases b <;> simp [Back.proc] at hk ⊢

/-- While there are tasks in the queue, another one is taken, unless all workers have ended or wait for ever. -/
theorem GoodRun.progress (h : GoodRun n σ) (hret : ∀ i < n, Returns σ i ∨ WaitsForever σ i) {m : Nat} (hq : (σ m).gTaken.length < (σ m).gEnqueued.length) :
    ∃ m' ≥ m, (σ m).gTaken.length < (σ m').gTaken.length ∨ ∀ i < n, (σ m').th i = .ended ∨ WaitsForever σ i := by
  by_contra hcon
  push Not at hcon
  have hT : ∀ m' ≥ m, (σ m').gTaken.length = (σ m).gTaken.length := fun m' hm =>
    Nat.le_antisymm (hcon m' hm).1 (h.exec.taken_prefix hm).length_le
  have hsize : ∀ m' ≥ m, (σ m').queue.size ≠ 0 := by
    intro m' hm
    have h1 := (h.exec.inv m').place.repr.size
    have h2 := (h.exec.enqueued_prefix hm).length_le
    have h3 := hT m' hm
    rw [h1, Pool.waitingTasks, List.length_drop]
    omega
  have hcheck : ∀ m' ≥ m, ∀ i, (σ m').th i ≠ .check := by
    intro m' hm i ht
    obtain ⟨m₁, h1, h2, h3, h4⟩ := leave_always h.exec h.fair ht (fun m' _ e => canGo_check (h.exec.inv m') e)
    rcases th_check h4 h2 h3 with ⟨t, -, h5⟩ | ⟨-, h5, -⟩
    · have h6 := hT m₁ (by omega)
      have h7 := hT (m₁ + 1) (by omega)
      rw [h5, List.length_append, List.length_singleton] at h7
      omega
    · exact hsize m₁ (by omega) h5
  have hlook : ∀ m' ≥ m, ∀ i, ¬((σ m').th i = .getTask ∨ (σ m').th i = .woken) := by
    intro m' hm i ht
    obtain ⟨m₁, h1, h2⟩ := h.looks ht
    exact hcheck m₁ (by omega) i h2
  have hrest : ∀ m' ≥ m, ∀ i, (σ m').th i = .waiting ∨ (σ m').th i = .ended → ∀ m₁ ≥ m', (σ m₁).th i = (σ m').th i := by
    intro m' hm i hw m₁ h1
    induction m₁, h1 using Nat.le_induction with
    | base => rfl
    | succ m₁ h2 ih =>
      rcases h.exec.next m₁ with e | hs
      · rw [e]; exact ih
      · rcases hw with hw | hw
        · by_contra hne
          have h3 := th_waiting hs (ih.trans hw) (fun e => hne (e.trans ih))
          exact hlook (m₁ + 1) (by omega) i (.inr h3)
        · rw [hw] at ih ⊢
          exact Sp.ended_stays hs ih
  have hquiet : ∀ j ≤ n, ∃ M ≥ m, ∀ i < j, WaitsForever σ i ∧ (∃ u b, ∀ m' ≥ M, (σ m').th i = .touch u b) ∨
      ∀ m' ≥ M, (σ m').th i = .waiting ∨ (σ m').th i = .ended := by
    intro j
    induction j with
    | zero => exact fun _ => ⟨m, Nat.le_refl _, fun i hi => absurd hi (by omega)⟩
    | succ j ih =>
      intro hj
      obtain ⟨M, h1, h2⟩ := ih (by omega)
      have hext : ∀ M' ≥ M, ∀ i < j, WaitsForever σ i ∧ (∃ u b, ∀ m' ≥ M', (σ m').th i = .touch u b) ∨
          ∀ m' ≥ M', (σ m').th i = .waiting ∨ (σ m').th i = .ended := by
        intro M' hM i hi
        rcases h2 i hi with ⟨hs, u, b, h3⟩ | h3
        · exact .inl ⟨hs, u, b, fun m' hm => h3 m' (by omega)⟩
        · exact .inr fun m' hm => h3 m' (by omega)
      rcases hret j (by omega) with hret | hstuck
      swap
      · obtain ⟨M₁, u, t, k, hs⟩ := id hstuck
        refine ⟨max M M₁, by omega, fun i hi => ?_⟩
        by_cases hij : i = j
        · subst hij
          exact .inl ⟨hstuck, u, _, fun m' hm => hs m' (by omega)⟩
        · exact hext _ (by omega) i (by omega)
      have hone : ∃ M' ≥ M, (σ M').th j = .waiting ∨ (σ M').th j = .ended := by
        rcases worker_cases (h.exec.inv M) (show j < n by omega) with e | e | e | e | e | ⟨t, k, e⟩
        · exact absurd (.inl e) (hlook M h1 j)
        · exact absurd e (hcheck M h1 j)
        · exact absurd (.inr e) (hlook M h1 j)
        · exact ⟨M, Nat.le_refl _, .inl e⟩
        · exact ⟨M, Nat.le_refl _, .inr e⟩
        · obtain ⟨m', h3, -, -, h4⟩ := h.completes' hret e
          rcases h4 with h4 | h4
          · exact absurd (.inl h4) (hlook m' (by omega) j)
          · exact ⟨m', h3, .inr h4⟩
      obtain ⟨M', h3, h4⟩ := hone
      refine ⟨M', by omega, fun i hi => ?_⟩
      by_cases hij : i = j
      · refine .inr fun m' hm => ?_
        rw [hij, hrest M' (by omega) j h4 m' hm]
        exact h4
      · exact hext M' h3 i (by omega)
  obtain ⟨M, hM, hq2⟩ := hquiet n (Nat.le_refl _)
  obtain ⟨w, hw, hne⟩ := (hcon M hM).2
  have hqw := (hq2 w hw).resolve_left fun e => hne.2 e.1
  have hwait : ∀ m' ≥ M, (σ m').th w = .waiting := by
    intro m' hm
    rw [hrest M hM w (hqw M (Nat.le_refl _)) m' hm]
    exact (hqw M (Nat.le_refl _)).resolve_right hne.1
  have hsig : ∃ i t b, (σ M).th i = .enq .signal t b := by
    have hcount : awakeCount n (σ M).th = 0 := by
      rw [awakeCount, List.countP_eq_zero]
      intro i hi
      rw [List.mem_range] at hi
      rcases hq2 i hi with ⟨-, u, b, e⟩ | e
      · rw [e M (Nat.le_refl _)]; simp [Th.awake]
      · rcases e M (Nat.le_refl _) with e | e <;> rw [e] <;> simp [Th.awake]
    rcases (h.exec.inv M).wake ⟨w, hwait M (Nat.le_refl _)⟩ with h1 | ⟨-, h1⟩
    · exfalso
      have h2 := (h.exec.enqueued_prefix hM).length_le
      have h3 := hT M hM
      omega
    · exact h1
  obtain ⟨i, t, b, hi⟩ := hsig
  obtain ⟨m₁, h1, h2, h3, h4⟩ := leave_always h.exec h.fair hi (fun m' _ e => canGo_enqSignal e)
  rcases (th_enqSignal h4 h2 h3).2 with h5 | ⟨w', -, h5⟩
  · exact h5 w (hwait m₁ h1)
  · exact hlook (m₁ + 1) (by omega) w' (.inr h5)

/-- Each task that was enqueued is taken, unless all workers have ended or wait for ever. -/
theorem GoodRun.taken' (h : GoodRun n σ) (hret : ∀ i < n, Returns σ i ∨ WaitsForever σ i) {m k : Nat} (hk : k < (σ m).gEnqueued.length) :
    ∃ m' ≥ m, k < (σ m').gTaken.length ∨ ∀ i < n, (σ m').th i = .ended ∨ WaitsForever σ i := by
  have key : ∀ d m, k < (σ m).gEnqueued.length → k + 1 ≤ (σ m).gTaken.length + d →
      ∃ m' ≥ m, k < (σ m').gTaken.length ∨ ∀ i < n, (σ m').th i = .ended ∨ WaitsForever σ i := by
    intro d
    induction d with
    | zero => exact fun m _ h1 => ⟨m, Nat.le_refl _, .inl (by omega)⟩
    | succ d ih =>
      intro m hk hd
      by_cases hlt : (σ m).gTaken.length < (σ m).gEnqueued.length
      · obtain ⟨m₁, h1, h2⟩ := h.progress hret hlt
        rcases h2 with h2 | h2
        · have h3 := (h.exec.enqueued_prefix h1).length_le
          obtain ⟨m₂, h4, h5⟩ := ih m₁ (by omega) (by omega)
          exact ⟨m₂, by omega, h5⟩
        · exact ⟨m₁, h1, .inr h2⟩
      · exact ⟨m, Nat.le_refl _, .inl (by omega)⟩
  exact key (k + 1) m hk (by omega)

/-- Each task that was enqueued is taken, unless all workers have ended. -/
theorem GoodRun.taken (h : GoodRun n σ) (hret : FunctionsReturn σ) {m k : Nat} (hk : k < (σ m).gEnqueued.length) :
    ∃ m' ≥ m, k < (σ m').gTaken.length ∨ ∀ i < n, (σ m').th i = .ended := by
  have hr : ∀ i, Returns σ i := fun i m t k => hret m i t k
  obtain ⟨m', h1, h2⟩ := h.taken' (fun i _ => .inl (hr i)) hk
  exact ⟨m', h1, h2.imp_right fun h3 i hi => (h3 i hi).resolve_right (hr i).notStuck⟩

omit [Inhabited V] in
/-- The moment when a task is taken. -/
theorem Execution.take_moment (h : Execution n σ) {m m' k : Nat} (hm : m ≤ m') (h1 : (σ m).gTaken.length ≤ k) (h2 : k < (σ m').gTaken.length) :
    ∃ m₁ i t, m ≤ m₁ ∧ m₁ < m' ∧ (σ m₁).gTaken.length = k ∧ (σ (m₁ + 1)).gTaken = (σ m₁).gTaken ++ [(i, t)] ∧
      (σ (m₁ + 1)).th i = .took t k := by
  induction m', hm using Nat.le_induction with
  | base => omega
  | succ m' hm ih =>
    by_cases h3 : k < (σ m').gTaken.length
    · obtain ⟨m₁, i, t, a1, a2, a3⟩ := ih h3
      exact ⟨m₁, i, t, a1, by omega, a3⟩
    · rcases h.next m' with e | hs
      · rw [e] at h2; omega
      · rcases taken_step hs with e | ⟨i, t, e, -, -, e4⟩
        · rw [e] at h2; omega
        · have hk : (σ m').gTaken.length = k := by
            rw [e, List.length_append, List.length_singleton] at h2
            omega
          exact ⟨m', i, t, hm, by omega, hk, e, hk ▸ e4⟩

omit [Inhabited V] in
theorem proc_isWorker {x : Th V} {p : Addr × Nat} (h : x.proc = some p) : x.isWorker = true := by
  cases x with
  | enq pc u b => cases b <;> first | rfl | cases h
  | touch u b => cases b <;> first | rfl | cases h
  | touchRead u b => cases b <;> first | rfl | cases h
  | touched u v b => cases b <;> first | rfl | cases h
  | _ => first | rfl | cases h

/-- Each future is at some time no longer in use or processed by a worker that waits for ever, if the pool is not finished and there is a
worker that does not wait for ever. -/
theorem GoodRun.idle' (h : GoodRun n σ) (hret : ∀ i < n, Returns σ i ∨ WaitsForever σ i) (hfree : ∃ i < n, ¬ WaitsForever σ i)
    (hfin : ∀ m, (σ m).gFinishAt = none) (m : Nat) (t : Addr) :
    ∃ m' ≥ m, (σ m').gPlace t = .idle ∨ ∃ i k, ((σ m').th i).proc = some (t, k) ∧ WaitsForever σ i := by
  have hdone : ∀ m i u k, ((σ m).th i).proc = some (u, k) → u = t →
      ∃ m' ≥ m, (σ m').gPlace t = .idle ∨ ∃ i k, ((σ m').th i).proc = some (t, k) ∧ WaitsForever σ i := by
    rintro m i u k hk rfl
    have hi : i < n := ((h.exec.inv m).kind i).1 (proc_isWorker hk)
    rcases hret i hi with hr | hr
    · obtain ⟨m', h1, h2, -⟩ := h.completes' hr hk
      exact ⟨m', h1, .inl h2⟩
    · exact ⟨m, Nat.le_refl _, .inr ⟨i, k, hk, hr⟩⟩
  have hproc : ∀ m i, (σ m).gPlace t = .proc i → ∃ m' ≥ m, (σ m').gPlace t = .idle ∨ ∃ i k, ((σ m').th i).proc = some (t, k) ∧ WaitsForever σ i := by
    intro m i hp
    obtain ⟨k, hk⟩ := (h.exec.inv m).place2.proc i t hp
    exact hdone m i t k hk rfl
  have hqueued : ∀ m, (σ m).gPlace t = .queued → ∃ m' ≥ m, (σ m').gPlace t = .idle ∨ ∃ i k, ((σ m').th i).proc = some (t, k) ∧ WaitsForever σ i := by
    intro m hp
    have hmem := (h.exec.inv m).place2.queued t hp
    obtain ⟨j, hj⟩ := List.mem_iff_getElem?.1 hmem
    rw [Pool.waitingTasks, List.getElem?_drop] at hj
    have hlt := (List.getElem?_eq_some_iff.1 hj).1
    obtain ⟨m', h1, h2⟩ := h.taken' hret hlt
    rcases h2 with h2 | h2
    · obtain ⟨m₁, i, u, a1, a2, a3, a4, a5⟩ := h.exec.take_moment h1 (Nat.le_add_right _ _) h2
      have hp2 : ((σ (m₁ + 1)).th i).proc = some (u, (σ m).gTaken.length + j) := by rw [a5]; rfl
      have hu : u = t := by
        have h3 := (h.exec.inv (m₁ + 1)).serial.order i u ((σ m).gTaken.length + j)
          ((h.exec.inv (m₁ + 1)).serial.proc i u _ hp2).1
        obtain ⟨l, hl⟩ := h.exec.enqueued_prefix (show m ≤ m₁ + 1 by omega)
        rw [← hl, List.getElem?_append_left hlt, hj] at h3
        exact (Option.some.inj h3).symm
      subst hu
      obtain ⟨m₂, h5, h6⟩ := hdone _ _ _ _ hp2 rfl
      exact ⟨m₂, by omega, h6⟩
    · obtain ⟨w, hw, hns⟩ := hfree
      exact absurd ((h2 w hw).resolve_right hns) ((h.exec.inv m').fin.noEnded (hfin m') w)
  cases hp : (σ m).gPlace t with
  | idle => exact ⟨m, Nat.le_refl _, .inl hp⟩
  | proc i => exact hproc m i hp
  | queued => exact hqueued m hp
  | pending i =>
    have hpend := (h.exec.inv m).place2.pend i t hp
    have hput : ∀ m b, (σ m).th i = .enq .put t b → ∃ m' ≥ m, (σ m').gPlace t = .idle ∨ ∃ i k, ((σ m').th i).proc = some (t, k) ∧ WaitsForever σ i := by
      intro m b ht
      obtain ⟨m', h1, h2, h3, h4⟩ := leave_always h.exec h.fair ht (fun m' _ e => canGo_enqPut (h.exec.inv m') (h.room m') e)
      obtain ⟨m₂, h5, h6⟩ := hqueued _ (th_enqPut h4 h2 h3).2
      exact ⟨m₂, by omega, h6⟩
    cases hth : (σ m).th i with
    | enq pc u b =>
      rw [hth] at hpend
      cases pc with
      | lock =>
        cases hpend
        obtain ⟨m', h1, h2, h3, h4, -⟩ := leave h.exec h.fair hth (fun m' _ _ => by
          obtain ⟨m₁, h1, h2⟩ := h.mutexFree m'
          exact ⟨m₁, h1, fun e => canGo_enqLock (h.exec.inv m₁) e h2⟩)
        obtain ⟨m₂, h5, h6⟩ := hput _ _ (th_enqLock h4 h2 (by rw [h2]; exact h3))
        exact ⟨m₂, by omega, h6⟩
      | put => cases hpend; exact hput m b hth
      | _ => cases hpend
    | _ => rw [hth] at hpend; cases hpend

/-- Each future is at some time no longer in use, if the pool is not finished. -/
theorem GoodRun.idle (h : GoodRun n σ) (hret : FunctionsReturn σ) (hn : 0 < n) (hfin : ∀ m, (σ m).gFinishAt = none) (m : Nat) (t : Addr) :
    ∃ m' ≥ m, (σ m').gPlace t = .idle := by
  have hr : ∀ i, Returns σ i := fun i m t k => hret m i t k
  obtain ⟨m', h1, h2⟩ := h.idle' (fun i _ => .inl (hr i)) ⟨0, hn, (hr 0).notStuck⟩ hfin m t
  exact ⟨m', h1, h2.resolve_right fun ⟨i, _, _, hs⟩ => (hr i).notStuck hs⟩

/-! ## Functions that do not wait -/

omit [Inhabited V] in
theorem canCall_calls {x : Th V} {b : Back} {t : Addr} {k : Nat} (h : CanCall x b) (hc : x.calls t k) : b = .inF t k := by
  cases b with
  | client => rw [CanCall] at h; subst h; cases hc
  | inF u j => rw [CanCall] at h; subst h; obtain ⟨rfl, rfl⟩ := hc; rfl
  | fin j => cases h

omit [Inhabited V] in
theorem inF_th_calls (t : Addr) (k : Nat) : ((Back.inF t k).th : Th V).calls t k := ⟨rfl, rfl⟩

omit [Inhabited V] in
theorem th_calls (hs : Step n s (.ok s')) {i : Nat} {t : Addr} {k : Nat} (h : (s.th i).calls t k) :
    (s'.th i).calls t k ∨ ∃ r, s'.th i = .ret t k r := by
  by_cases hc : s'.th i = s.th i
  · rw [hc]; exact .inl h
  · cases hs <;> simp only at hc ⊢ <;> grind [upd, canCall_calls, inF_th_calls, Th.calls]

/-- The functions that a worker runs return, if it is only up to them, or it waits from some time on for ever. -/
theorem GoodRun.returns (h : GoodRun n σ) (hend : FunctionsEnd σ) (i : Nat) : Returns σ i ∨ WaitsForever σ i := by
  by_contra hcon
  rw [not_or] at hcon
  obtain ⟨hcon, hns⟩ := hcon
  simp only [Returns, not_forall] at hcon
  obtain ⟨m, t, k, hc, hcon⟩ := hcon
  push Not at hcon
  have hall : ∀ m' ≥ m, ((σ m').th i).calls t k := by
    intro m' hm
    induction m', hm using Nat.le_induction with
    | base => exact hc
    | succ m' hm ih =>
      rcases h.exec.next m' with e | hs
      · rw [e]; exact ih
      · rcases th_calls hs ih with h1 | ⟨r, h1⟩
        · exact h1
        · exact absurd h1 (hcon (m' + 1) (by omega) r)
  obtain ⟨m₁, h1⟩ := hend m i t k hall
  have hunlock : ∀ m' ≥ max m m₁, ∀ u b, b = Back.inF t k → (σ m').th i ≠ .enq .unlock u b := by
    intro m' hm u b hb ht
    obtain ⟨m₂, h2, h3, h4, h5⟩ := leave_always h.exec h.fair ht (fun m' _ e => canGo_enqUnlock (h.mem m' i) e)
    rcases (th_enqUnlock h5 h3 h4).2 with ⟨-, h6⟩ | ⟨j, h6, -⟩
    · subst hb
      exact h1 (m₂ + 1) (by omega) h6
    · subst hb
      cases h6
  have hsignal : ∀ m' ≥ max m m₁, ∀ u b, b = Back.inF t k → (σ m').th i ≠ .enq .signal u b := by
    intro m' hm u b hb ht
    obtain ⟨m₂, h2, h3, h4, h5⟩ := leave_always h.exec h.fair ht (fun m' _ e => canGo_enqSignal e)
    exact hunlock (m₂ + 1) (by omega) u b hb (th_enqSignal h5 h3 h4).1
  have hput : ∀ m' ≥ max m m₁, ∀ u b, b = Back.inF t k → (σ m').th i ≠ .enq .put u b := by
    intro m' hm u b hb ht
    obtain ⟨m₂, h2, h3, h4, h5⟩ := leave_always h.exec h.fair ht (fun m' _ e => canGo_enqPut (h.exec.inv m') (h.room m') e)
    exact hsignal (m₂ + 1) (by omega) u b hb (th_enqPut h5 h3 h4).1
  have htouched : ∀ m' ≥ max m m₁, ∀ u v b, b = Back.inF t k → (σ m').th i ≠ .touched u v b := by
    intro m' hm u v b hb ht
    obtain ⟨m₂, h2, h3, h4, h5⟩ := leave_always h.exec h.fair ht (fun m' _ e => canGo_touched e (by subst hb; simp [Back.th]))
    have h6 := th_touched h5 h3 h4
    subst hb
    exact h1 (m₂ + 1) (by omega) h6
  have hread : ∀ m' ≥ max m m₁, ∀ u b, b = Back.inF t k → (σ m').th i ≠ .touchRead u b := by
    intro m' hm u b hb ht
    obtain ⟨m₂, h2, h3, h4, h5⟩ := leave_always h.exec h.fair ht (fun m' _ e => canGo_touchRead (h.exec.inv m') e)
    obtain ⟨v, h6⟩ := th_touchRead h5 h3 h4
    exact htouched (m₂ + 1) (by omega) u v b hb h6
  have hM := hall (max m m₁) (by omega)
  cases hth : (σ (max m m₁)).th i with
  | inF u j =>
    rw [hth] at hM
    obtain ⟨rfl, rfl⟩ := hM
    exact h1 (max m m₁) (by omega) hth
  | enq pc u b =>
    rw [hth] at hM
    cases pc with
    | lock =>
      obtain ⟨m₂, h2, h3⟩ := h.enqueues hth
      exact hunlock m₂ h2 u b hM h3
    | put => exact hput _ (Nat.le_refl _) u b hM hth
    | signal => exact hsignal _ (Nat.le_refl _) u b hM hth
    | unlock => exact hunlock _ (Nat.le_refl _) u b hM hth
  | touch u b =>
    rw [hth] at hM
    have hb : b = .inF t k := hM
    subst hb
    refine hns ⟨max m m₁, u, t, k, fun m' hm => ?_⟩
    induction m', hm using Nat.le_induction with
    | base => exact hth
    | succ m' hm ih =>
      rcases h.exec.next m' with e | hs
      · rw [e]; exact ih
      · by_contra hne
        exact hread (m' + 1) (by omega) u _ rfl (th_touch hs ih (by rw [ih]; exact hne))
  | touchRead u b =>
    rw [hth] at hM
    exact hread _ (Nat.le_refl _) u b hM hth
  | touched u v b =>
    rw [hth] at hM
    exact htouched _ (Nat.le_refl _) u v b hM hth
  | _ => rw [hth] at hM; exact hM

/-- Functions that do not wait for futures return, if it is only up to them. -/
theorem GoodRun.functionsReturn (h : GoodRun n σ) (hend : FunctionsEnd σ) (hflat : ∀ m i, i < n → ∀ t b, (σ m).th i ≠ .touch t b) :
    FunctionsReturn σ := by
  intro m i t k hc
  refine (h.returns hend i).resolve_right ?_ m t k hc
  rintro ⟨M, u, t', k', hs⟩
  have e := hs M (Nat.le_refl _)
  exact hflat M i (((h.exec.inv M).kind i).1 (by rw [e]; rfl)) u _ e

/-! ## Finish tasks -/

omit [Inhabited V] in
theorem notMade_step (hs : Step n s (.ok s')) {t : Addr} (hp : s.gPlace t ≠ .idle) (hm : s.gMade t = false) : s'.gMade t = false := by
  cases hs <;> simp only <;> grind [upd]

/-- The task number `k` is a finish task: when it was in the queue, it was not a future. -/
def FinNum (σ : Nat → Pool V) (k : Nat) (t : Addr) : Prop :=
  ∃ m, (σ m).gTaken.length ≤ k ∧ (σ m).gEnqueued[k]? = some t ∧ (σ m).gMade t = false

omit [Inhabited V] in
/-- A finish task that is not yet taken. -/
theorem FinNum.stays (h : Execution n σ) {k : Nat} {t : Addr} {m : Nat} (h1 : (σ m).gEnqueued[k]? = some t) (h2 : (σ m).gMade t = false)
    {m' : Nat} (hm : m ≤ m') (h3 : (σ m').gTaken.length ≤ k) : (σ m').gMade t = false := by
  induction m', hm using Nat.le_induction with
  | base => exact h2
  | succ m' hm ih =>
    have hle := (h.taken_prefix (show m' ≤ m' + 1 by omega)).length_le
    have ih := ih (by omega)
    rcases h.next m' with e | hs
    · rw [e]; exact ih
    · refine notMade_step hs ?_ ih
      have : t ∈ (σ m').waitingTasks := by
        obtain ⟨l, hl⟩ := h.enqueued_prefix hm
        rw [Pool.waitingTasks, List.mem_iff_getElem?]
        refine ⟨k - (σ m').gTaken.length, ?_⟩
        rw [List.getElem?_drop, show (σ m').gTaken.length + (k - (σ m').gTaken.length) = k by omega, ← hl,
          List.getElem?_append_left (List.getElem?_eq_some_iff.1 h1).1]
        exact h1
      rw [(h.inv m').place.queued t this]
      simp

omit [Inhabited V] in
/-- A worker that has taken a finish task does nothing else any more. -/
theorem Execution.exits (h : Execution n σ) {m w : Nat} {t : Addr} {k : Nat}
    (h1 : (σ m).th w = .took t k) (h2 : (σ m).gMade t = false) {m' : Nat} (hm : m ≤ m') :
    (((σ m').th w = .took t k ∨ (σ m').th w = .run t k) ∧ (σ m').gMade t = false) ∨ (σ m').th w = .ended := by
  induction m', hm using Nat.le_induction with
  | base => exact .inl ⟨.inl h1, h2⟩
  | succ m' hm ih =>
    rcases h.next m' with e | hs
    · rw [e]; exact ih
    · rcases ih with ⟨h3, h4⟩ | h3
      · have hp : ((σ m').th w).proc = some (t, k) := by rcases h3 with e | e <;> rw [e] <;> rfl
        have hpl := (h.inv m').place.proc w t k hp
        have hmade := notMade_step hs (by rw [hpl]; simp) h4
        by_cases hc : (σ (m' + 1)).th w = (σ m').th w
        · rw [hc]; exact .inl ⟨h3, hmade⟩
        · rcases h3 with e | e
          · exact .inl ⟨.inr (th_took hs e hc).1, hmade⟩
          · rcases th_run hs e hc with ⟨-, x, hx, hf⟩ | ⟨h5, -⟩
            · have := ((h.inv m').value.kind t x (by rw [hpl]; simp) hx).1 hf
              rw [this] at h4
              cases h4
            · exact .inr h5
      · exact .inr (Sp.ended_stays hs h3)

omit [Inhabited V] in
/-- The worker that took a finish task, and no other finish task after it. -/
theorem Execution.finTaken (h : Execution n σ) {k : Nat} {t : Addr} (hk : FinNum σ k t) {m : Nat} (hm : k < (σ m).gTaken.length) :
    ∃ w < n, ∃ m₁, (σ m₁).gTaken.length = k ∧ (σ (m₁ + 1)).gTaken.length = k + 1 ∧
      (σ (m₁ + 1)).th w = .took t k ∧ (σ (m₁ + 1)).gMade t = false := by
  obtain ⟨m₀, h1, h2, h3⟩ := hk
  have hle : m₀ ≤ m := by
    by_contra hlt
    have := (h.taken_prefix (show m ≤ m₀ by omega)).length_le
    omega
  obtain ⟨m₁, w, u, a1, a2, a3, a4, a5⟩ := h.take_moment hle h1 hm
  have hp : ((σ (m₁ + 1)).th w).proc = some (u, k) := by rw [a5]; rfl
  have hu : u = t := by
    have h4 := (h.inv (m₁ + 1)).serial.order w u k ((h.inv (m₁ + 1)).serial.proc w u k hp).1
    obtain ⟨l, hl⟩ := h.enqueued_prefix (show m₀ ≤ m₁ + 1 by omega)
    rw [← hl, List.getElem?_append_left (List.getElem?_eq_some_iff.1 h2).1, h2] at h4
    exact (Option.some.inj h4).symm
  subst hu
  refine ⟨w, ((h.inv (m₁ + 1)).kind w).1 (by rw [a5]; rfl), m₁, a3, by rw [a4]; simp [a3], a5, ?_⟩
  have h5 := FinNum.stays h h2 h3 a1 (by omega)
  rcases h.next m₁ with e | hs
  · rw [e]; exact h5
  · refine notMade_step hs ?_ h5
    have : u ∈ (σ m₁).waitingTasks := by
      obtain ⟨l, hl⟩ := h.enqueued_prefix a1
      rw [Pool.waitingTasks, List.mem_iff_getElem?]
      refine ⟨0, ?_⟩
      rw [List.getElem?_drop, a3, Nat.add_zero, ← hl, List.getElem?_append_left (List.getElem?_eq_some_iff.1 h2).1]
      exact h2
    rw [(h.inv m₁).place.queued u this]
    simp

/-- When `n` finish tasks have been enqueued, all workers end. -/
theorem GoodRun.allEnd (h : GoodRun n σ) (hret : FunctionsReturn σ) (ks : Finset Nat) (hcard : n ≤ ks.card)
    (hks : ∀ k ∈ ks, ∃ t, FinNum σ k t) : ∃ M, ∀ i < n, (σ M).th i = .ended := by
  by_contra hcon
  have hone : ∀ k ∈ ks, ∃ w < n, ∃ m₁ t, (σ m₁).gTaken.length = k ∧ (σ (m₁ + 1)).gTaken.length = k + 1 ∧
      (σ (m₁ + 1)).th w = .took t k ∧ (σ (m₁ + 1)).gMade t = false := by
    intro k hk
    obtain ⟨t, ht⟩ := hks k hk
    obtain ⟨m₀, h1, h2, h3⟩ := id ht
    obtain ⟨m', -, h4⟩ := h.taken hret (List.getElem?_eq_some_iff.1 h2).1
    rcases h4 with h4 | h4
    · obtain ⟨w, hw, m₁, h5⟩ := h.exec.finTaken ht h4
      exact ⟨w, hw, m₁, t, h5⟩
    · exact absurd ⟨m', h4⟩ hcon
  choose! f hf using hone
  have hinj : Set.InjOn f ks := by
    have key : ∀ k ∈ ks, ∀ k' ∈ ks, k < k' → f k ≠ f k' := by
      intro k hk k' hk' hlt he
      obtain ⟨-, m₁, t, h1, h2, h3, h4⟩ := hf k hk
      obtain ⟨-, m₂, t', h5, h6, h7, h8⟩ := hf k' hk'
      have hm : m₁ + 1 ≤ m₂ + 1 := by
        by_contra hgt
        have := (h.exec.taken_prefix (show m₂ + 1 ≤ m₁ + 1 by omega)).length_le
        omega
      rcases h.exec.exits h3 h4 hm with ⟨h9, -⟩ | h9
      · rw [he, h7] at h9
        rcases h9 with h9 | h9
        · cases h9; omega
        · cases h9
      · rw [he, h7] at h9
        cases h9
    intro k hk k' hk' he
    rcases Nat.lt_trichotomy k k' with h1 | h1 | h1
    · exact absurd he (key k hk k' hk' h1)
    · exact h1
    · exact absurd he.symm (key k' hk' k hk h1)
  have himg : ks.image f = Finset.range n := by
    refine Finset.eq_of_subset_of_card_le ?_ ?_
    · intro w hw
      obtain ⟨k, hk, rfl⟩ := Finset.mem_image.1 hw
      exact Finset.mem_range.2 (hf k hk).1
    · rw [Finset.card_range, Finset.card_image_of_injOn hinj]
      exact hcard
  have hend : ∀ i < n, ∃ M, (σ M).th i = .ended := by
    intro i hi
    have : i ∈ ks.image f := by rw [himg]; exact Finset.mem_range.2 hi
    obtain ⟨k, hk, rfl⟩ := Finset.mem_image.1 this
    obtain ⟨-, m₁, t, -, -, h3, h4⟩ := hf k hk
    obtain ⟨m', h5, -, -, h6⟩ := h.completes hret (m := m₁ + 1) (i := f k) (t := t) (k := k) (by rw [h3]; rfl)
    rcases h.exec.exits h3 h4 h5 with ⟨h7, -⟩ | h7
    · rcases h6 with h6 | h6 <;> rw [h6] at h7 <;> rcases h7 with h7 | h7 <;> cases h7
    · exact ⟨m', h7⟩
  have hall : ∀ j ≤ n, ∃ M, ∀ i < j, (σ M).th i = .ended := by
    intro j
    induction j with
    | zero => exact fun _ => ⟨0, fun i hi => absurd hi (by omega)⟩
    | succ j ih =>
      intro hj
      obtain ⟨M, hM⟩ := ih (by omega)
      obtain ⟨M', hM'⟩ := hend j (by omega)
      refine ⟨max M M', fun i hi => ?_⟩
      by_cases hij : i = j
      · subst hij
        exact h.exec.ended_stays (by omega) hM'
      · exact h.exec.ended_stays (by omega) (hM i (by omega))
  exact hcon (hall n (Nat.le_refl _))

omit [Inhabited V] in
theorem th_finUnlock (hs : Step n s (.ok s')) {i : Nat} {t : Addr} {j : Nat} (h : s.th i = .enq .unlock t (.fin j)) (hc : s'.th i ≠ s.th i) :
    (j + 1 < n ∧ ∃ u, s'.th i = .enq .lock u (.fin (j + 1)) ∧ s'.gMade u = false) ∨ (n ≤ j + 1 ∧ s'.th i = .join 0) := by
  cases hs <;> simp only at hc ⊢ <;> grind [upd, canCall_iff, back_cases]

omit [Inhabited V] in
theorem th_put_enqueued (hs : Step n s (.ok s')) {i : Nat} {t : Addr} {b : Back} (h : s.th i = .enq .put t b) (hc : s'.th i ≠ s.th i) :
    s'.gEnqueued = s.gEnqueued ++ [t] ∧ s'.gTaken = s.gTaken ∧ s'.gMade = s.gMade := by
  cases hs <;> simp only at hc ⊢ <;> grind [upd, canCall_iff, back_cases]

omit [Inhabited V] in
/-- What is about to be enqueued stays what it is. -/
theorem Execution.pendMade (h : Execution n σ) {m m' i : Nat} {t : Addr} (hm : m ≤ m') (h1 : (σ m).gMade t = false)
    (h2 : ∀ m₁, m ≤ m₁ → m₁ ≤ m' → ((σ m₁).th i).pend = some t) : (σ m').gMade t = false := by
  induction m', hm using Nat.le_induction with
  | base => exact h1
  | succ m' hm ih =>
    have ih := ih (fun m₁ a b => h2 m₁ a (by omega))
    rcases h.next m' with e | hs
    · rw [e]; exact ih
    · exact notMade_step hs (by rw [(h.inv m').place.pend i t (h2 m' hm (by omega))]; simp) ih

/-- The loop that enqueues finish tasks ends. -/
theorem GoodRun.finLoop (h : GoodRun n σ) {i : Nat} : ∀ d j m u, j + d = n → 0 < d → (σ m).th i = .enq .lock u (.fin j) →
    (σ m).gMade u = false → ∃ m' ≥ m, (σ m').th i = .join 0 ∧ ∃ ks : Finset Nat, ks.card = d ∧
      ∀ k ∈ ks, (σ m).gEnqueued.length ≤ k ∧ ∃ t, FinNum σ k t := by
  intro d
  induction d with
  | zero => exact fun _ _ _ _ h => absurd h (by omega)
  | succ d ih =>
    intro j m u hj _ ht hmade
    obtain ⟨m₁, h1, h2, h3, h4, h5⟩ := leave h.exec h.fair ht (fun m' _ _ => by
      obtain ⟨m₁, h1, h2⟩ := h.mutexFree m'
      exact ⟨m₁, h1, fun e => canGo_enqLock (h.exec.inv m₁) e h2⟩)
    have hp := th_enqLock h4 h2 (by rw [h2]; exact h3)
    obtain ⟨m₂, g1, g2, g3, g4, g5⟩ := leave h.exec h.fair hp (fun m' _ _ =>
      ⟨m', Nat.le_refl _, fun e => canGo_enqPut (h.exec.inv m') (h.room m') e⟩)
    have hmade2 : (σ m₂).gMade u = false := by
      refine h.exec.pendMade (i := i) (show m ≤ m₂ by omega) hmade (fun m' a b => ?_)
      by_cases hle : m' ≤ m₁
      · rw [h5 m' a hle]; rfl
      · rw [g5 m' (by omega) b]; rfl
    obtain ⟨e1, e2, e3⟩ := th_put_enqueued g4 g2 (by rw [g2]; exact g3)
    have hs := (th_enqPut g4 g2 (by rw [g2]; exact g3)).1
    have hfin : FinNum σ (σ m₂).gEnqueued.length u := by
      refine ⟨m₂ + 1, ?_, ?_, ?_⟩
      · rw [e2]; exact (h.exec.inv m₂).place.le
      · rw [e1]; simp
      · rw [e3]; exact hmade2
    obtain ⟨m₃, k1, k2, k3, k4⟩ := leave_always h.exec h.fair hs (fun m' _ e => canGo_enqSignal e)
    have hu := (th_enqSignal k4 k2 k3).1
    obtain ⟨m₄, l1, l2, l3, l4⟩ := leave_always h.exec h.fair hu (fun m' _ e => canGo_enqUnlock (h.mem m' i) e)
    have hle1 := (h.exec.enqueued_prefix (show m ≤ m₂ by omega)).length_le
    have hle2 := (h.exec.enqueued_prefix (show m₂ + 1 ≤ m₄ + 1 by omega)).length_le
    rw [e1, List.length_append, List.length_singleton] at hle2
    rcases th_finUnlock l4 l2 l3 with ⟨hlt, u', hl, hm'⟩ | ⟨hlt, hl⟩
    · obtain ⟨m', q1, q2, ks, q3, q4⟩ := ih (j + 1) (m₄ + 1) u' (by omega) (by omega) hl hm'
      refine ⟨m', by omega, q2, insert (σ m₂).gEnqueued.length ks, ?_, ?_⟩
      · rw [Finset.card_insert_of_notMem, q3]
        intro hmem
        have := (q4 _ hmem).1
        omega
      · intro k hk
        rcases Finset.mem_insert.1 hk with rfl | hk
        · exact ⟨by omega, u, hfin⟩
        · exact ⟨by have := (q4 k hk).1; omega, (q4 k hk).2⟩
    · refine ⟨m₄ + 1, by omega, hl, {(σ m₂).gEnqueued.length}, ?_, ?_⟩
      · rw [Finset.card_singleton]; omega
      · intro k hk
        rw [Finset.mem_singleton] at hk
        subst hk
        exact ⟨by omega, u, hfin⟩

/-- When all workers have ended, the joins return. -/
theorem GoodRun.joins (h : GoodRun n σ) {i : Nat} : ∀ d j m, n ≤ j + d → (σ m).th i = .join j → (∀ w < n, (σ m).th w = .ended) →
    ∃ m' ≥ m, (σ m').th i = .joined := by
  intro d
  induction d with
  | zero =>
    intro j m hj ht hend
    obtain ⟨m', h1, h2, h3, h4⟩ := leave_always h.exec h.fair ht (fun m' hm e => canGo_join e (fun hlt => by omega))
    rcases th_join h4 h2 h3 with ⟨h5, -⟩ | ⟨-, h5⟩
    · omega
    · exact ⟨m' + 1, by omega, h5⟩
  | succ d ih =>
    intro j m hj ht hend
    obtain ⟨m', h1, h2, h3, h4⟩ := leave_always h.exec h.fair ht
      (fun m' hm e => canGo_join e (fun hlt => h.exec.ended_stays hm (hend j hlt)))
    rcases th_join h4 h2 h3 with ⟨h5, h6⟩ | ⟨-, h5⟩
    · obtain ⟨m₂, h7, h8⟩ := ih (j + 1) (m' + 1) (by omega) h6 (fun w hw => h.exec.ended_stays (by omega) (hend w hw))
      exact ⟨m₂, by omega, h8⟩
    · exact ⟨m' + 1, by omega, h5⟩

/-! ## Making executions -/

omit [Inhabited V] in
theorem functionsReturn_of_quiet (h : Execution n σ) {M : Nat} (hq : ∀ m ≥ M, ∀ i t k, ¬ ((σ m).th i).calls t k) : FunctionsReturn σ := by
  intro m i t k hc
  by_contra hcon
  push Not at hcon
  have hall : ∀ m' ≥ m, ((σ m').th i).calls t k := by
    intro m' hm
    induction m', hm using Nat.le_induction with
    | base => exact hc
    | succ m' hm ih =>
      rcases h.next m' with e | hs
      · rw [e]; exact ih
      · rcases th_calls hs ih with h1 | ⟨r, h1⟩
        · exact h1
        · exact absurd h1 (hcon (m' + 1) (by omega) r)
  exact hq (max m M) (by omega) i t k (hall _ (by omega))

omit [Inhabited V] in
/-- An execution that stays in a state can be continued with a step. -/
theorem extendStep (hE : Execution n σ) {M : Nat} {s s' : Pool V} (hM : ∀ m ≥ M, σ m = s) (hst : Step n s (.ok s')) :
    ∃ σ', Execution n σ' ∧ (∀ m ≤ M, σ' m = σ m) ∧ ∀ m ≥ M + 1, σ' m = s' := by
  refine ⟨fun m => if m ≤ M then σ m else s', ⟨?_, ?_⟩, ?_, ?_⟩
  · obtain ⟨mem, h5⟩ := hE.start
    exact ⟨mem, by simpa using h5⟩
  · intro m
    rcases Nat.lt_trichotomy m M with h5 | h5 | h5
    · simp only [if_pos (show m + 1 ≤ M by omega), if_pos (show m ≤ M by omega)]
      exact hE.next m
    · subst h5
      right
      simp only [if_neg (show ¬ m + 1 ≤ m by omega), if_pos (Nat.le_refl m), hM m (Nat.le_refl _)]
      exact hst
    · left
      simp only [if_neg (show ¬ m + 1 ≤ M by omega), if_neg (show ¬ m ≤ M by omega)]
  · intro m hm
    simp only [if_pos hm]
  · intro m hm
    simp only [if_neg (show ¬ m ≤ M by omega)]

omit [Inhabited V] in
/-- An execution that stays in a state can be continued. -/
theorem extend (hE : Execution n σ) {M : Nat} {s s' : Pool V} (hM : ∀ m ≥ M, σ m = s) (hs : Steps n s s') :
    ∃ σ', Execution n σ' ∧ (∀ m ≤ M, σ' m = σ m) ∧ ∃ M' ≥ M, ∀ m ≥ M', σ' m = s' := by
  induction hs with
  | refl => exact ⟨σ, hE, fun _ _ => rfl, M, Nat.le_refl _, hM⟩
  | @tail s₁ s₂ _ hst ih =>
    obtain ⟨σ₁, h1, h2, M₁, h3, h4⟩ := ih
    obtain ⟨σ₂, h5, h6, h7⟩ := extendStep h1 h4 hst
    exact ⟨σ₂, h5, fun m hm => (h6 m (by omega)).trans (h2 m hm), M₁ + 1, by omega, h7⟩

omit [Inhabited V] in
/-- An execution with a given step that stays in the state `s₂`. -/
theorem runThrough {mem : QMem (TaskRest V)} {s₁ s₁' s₂ : Pool V} (h1 : Steps n (Pool.init n mem) s₁) (hst : Step n s₁ (.ok s₁'))
    (h2 : Steps n s₁' s₂) :
    ∃ σ : Nat → Pool V, ∃ m M, Execution n σ ∧ σ m = s₁ ∧ σ (m + 1) = s₁' ∧ ∀ m' ≥ M, σ m' = s₂ := by
  obtain ⟨σ₁, a1, -, M₁, -, a2⟩ := extend (σ := fun _ => Pool.init n mem) (M := 0) ⟨⟨mem, rfl⟩, fun _ => .inl rfl⟩ (fun _ _ => rfl) h1
  obtain ⟨σ₂, b1, b2, b3⟩ := extendStep a1 a2 hst
  obtain ⟨σ₃, c1, c2, M₃, -, c4⟩ := extend b1 b3 h2
  exact ⟨σ₃, M₁, M₃, c1, ((c2 M₁ (by omega)).trans (b2 M₁ (Nat.le_refl _))).trans (a2 M₁ (Nat.le_refl _)),
    (c2 _ (Nat.le_refl _)).trans (b3 _ (Nat.le_refl _)), c4⟩

omit [Inhabited V] in
theorem runTo {mem : QMem (TaskRest V)} {s : Pool V} (h : Steps n (Pool.init n mem) s) :
    ∃ σ : Nat → Pool V, ∃ M, Execution n σ ∧ ∀ m ≥ M, σ m = s := by
  obtain ⟨σ, h1, -, M, -, h2⟩ := extend (σ := fun _ => Pool.init n mem) (M := 0) ⟨⟨mem, rfl⟩, fun _ => .inl rfl⟩ (fun _ _ => rfl) h
  exact ⟨σ, M, h1, h2⟩

omit [Inhabited V] in
/-- If the pool is not finished at the end, it never was. -/
theorem Execution.noFinish (h : Execution n σ) {M : Nat} (hM : ∀ m ≥ M, (σ m).gFinishAt = none) (m : Nat) : (σ m).gFinishAt = none := by
  have key : ∀ d, (σ m).gFinishAt ≠ none → (σ (m + d)).gFinishAt ≠ none := by
    intro d hne
    induction d with
    | zero => exact hne
    | succ d ih =>
      rcases h.next (m + d) with e | hs
      · rw [show m + (d + 1) = m + d + 1 by omega, e]; exact ih
      · rw [show m + (d + 1) = m + d + 1 by omega]
        generalize σ (m + d + 1) = s' at hs
        cases hs <;> simp only <;> first | exact ih | simp
  by_contra hne
  exact key M hne (hM (m + M) (by omega))

omit [Inhabited V] in
theorem fairRun_of_quiet {M : Nat} (hq : ∀ m ≥ M, ∀ i, ¬ CanGo n (σ m) i) : FairRun n σ := fun i _ _ => ⟨M, fun m hm => hq m hm i⟩

omit [Inhabited V] in
theorem queueRoom_of_few (hE : Execution n σ) {M L : Nat} (hM : ∀ m ≥ M, (σ m).gEnqueued.length ≤ L) (hL : L + 1 < 4294967296) : QueueRoom σ := by
  intro m
  have h1 := (hE.enqueued_prefix (show m ≤ max m M by omega)).length_le
  have h2 := hM (max m M) (by omega)
  omega

omit [Inhabited V] in
theorem joined_stays (hs : Step n s (.ok s')) {i : Nat} (h : s.th i = .joined) : s'.th i = .joined := by
  cases hs <;> simp only <;> grind [upd, canCall_iff, back_cases]

omit [Inhabited V] in
/-- For one worker: an execution with a given step at the end of which nothing is left to do. -/
theorem quietRun {mem : QMem (TaskRest V)} {s₁ s₁' s₂ : Pool V} (h1 : Steps 1 (Pool.init 1 mem) s₁) (hst : Step 1 s₁ (.ok s₁'))
    (h2 : Steps 1 s₁' s₂) (hq : ∀ i, s₂.th i = .waiting ∨ s₂.th i = .client ∨ s₂.th i = .ended ∨ s₂.th i = .joined)
    (hL : s₂.gEnqueued.length ≤ 1000) :
    ∃ σ : Nat → Pool V, ∃ m M, Execution 1 σ ∧ FairRun 1 σ ∧ FunctionsReturn σ ∧ QueueRoom σ ∧ MemoryRoom 1 σ ∧
      σ m = s₁ ∧ σ (m + 1) = s₁' ∧ ∀ m' ≥ M, σ m' = s₂ := by
  obtain ⟨σ, m, M, hE, a1, a2, a3⟩ := runThrough h1 hst h2
  refine ⟨σ, m, M, hE, fairRun_of_quiet (M := M) ?_, functionsReturn_of_quiet (M := M) hE ?_,
    queueRoom_of_few (M := M) (L := 1000) hE (fun m' hm => by rw [a3 m' hm]; exact hL) (by omega), ?_, a1, a2, a3⟩
  · intro m' hm i hgo
    rw [a3 m' hm] at hgo
    obtain ⟨g1, g2, -, s', g3, g4⟩ := hgo
    rcases hq i with e | e | e | e
    · exact g1 e
    · exact g2 e
    · exact g4 ((Sp.ended_stays g3 e).trans e.symm)
    · exact g4 ((joined_stays g3 e).trans e.symm)
  · intro m' hm i t k hc
    rw [a3 m' hm] at hc
    rcases hq i with e | e | e | e <;> rw [e] at hc <;> exact hc
  · intro m' i t j _ hj
    omega

end Sp
