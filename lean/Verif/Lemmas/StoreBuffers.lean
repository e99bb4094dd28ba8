import Verif.Model.StoreBuffers
import Verif.Lemmas.ThreadPoolInv
import Verif.Lemmas.ThreadPoolFair

/-! # Lemmas about store buffers: executions on machines with ordered buffers are executions with shared memory -/

set_option linter.unusedSectionVars false

namespace Sp
variable {V : Type} {n : Nat} {s s' : Buffered V}

/-- Where a thread is when its buffered stores are not counted. -/
def backTh (x : Th V) (b : List (FutureStore V)) : Th V :=
  match b with
  | [] => x
  | .data t k r :: _ => .ret t k r
  | .finished t k :: _ => .stored t k

/-- The state when buffered stores are not counted. -/
def Buffered.sc (s : Buffered V) : Pool V := { s.pool with th := fun i => backTh (s.pool.th i) (s.buf i) }

/-- What the buffers contain. -/
def BufInv (s : Buffered V) : Prop := ∀ i, s.buf i = [] ∨
  (∃ t k r, s.buf i = [.data t k r] ∧ s.pool.th i = .stored t k) ∨
  (∃ t k r, s.buf i = [.data t k r, .finished t k] ∧ s.pool.th i = .getTask) ∨
  (∃ t k, s.buf i = [.finished t k] ∧ s.pool.th i = .getTask)

theorem upd_back (th : Nat → Th V) (buf : Nat → List (FutureStore V)) {i : Nat} (x : Th V) (h : buf i = []) :
    (fun j => backTh (upd th i x j) (buf j)) = upd (fun j => backTh (th j) (buf j)) i x := by
  funext j
  by_cases e : j = i
  · subst e; simp [upd_same, h, backTh]
  · simp [upd_ne _ _ e]

theorem BufInv.free (h : BufInv s) {i : Nat} (h1 : (s.pool.th i).stores = false) (h2 : (s.pool.th i).fence = true → s.buf i = []) :
    s.buf i = [] := by
  rcases h i with e | ⟨t, k, r, -, e⟩ | ⟨t, k, r, -, e⟩ | ⟨t, k, -, e⟩
  · exact e
  · rw [e] at h1; cases h1
  · exact h2 (by rw [e]; rfl)
  · exact h2 (by rw [e]; rfl)

theorem sc_th {i : Nat} (h : s.buf i = []) : s.sc.th i = s.pool.th i := by simp [Buffered.sc, h, backTh]

theorem sc_th' {i : Nat} {x : Th V} (h : s.buf i = []) (e : s.pool.th i = x) : s.sc.th i = x := (sc_th h).trans e

theorem backTh_touches (x : Th V) (b : List (FutureStore V)) (t : Addr) (h : (backTh x b).touches t) : x.touches t := by
  rcases b with _ | ⟨w, b⟩
  · exact h
  · cases w <;> cases h

theorem backTh_clientEnq (x : Th V) (b : List (FutureStore V)) (h : (backTh x b).clientEnq) : x.clientEnq := by
  rcases b with _ | ⟨w, b⟩
  · exact h
  · cases w <;> cases h

theorem backTh_waiting (x : Th V) (b : List (FutureStore V)) (h : backTh x b = .waiting) : x = .waiting := by
  rcases b with _ | ⟨w, b⟩
  · exact h
  · cases w <;> cases h

/-- Steps of threads without buffered stores. -/
theorem other_sim (hB : BufInv s) {p : Pool V} (hs : Step n s.pool (.ok p))
    (hm : ∀ i, p.th i ≠ s.pool.th i → (s.pool.th i).stores = false ∧ ((s.pool.th i).fence = true → s.buf i = [])) :
    Step n s.sc (.ok { p with th := fun i => backTh (p.th i) (s.buf i) }) := by
  have key : ∀ i, p.th i ≠ s.pool.th i → s.buf i = [] := fun i h => hB.free (hm i h).1 (hm i h).2
  have nt : ∀ {t : Addr}, (∀ j, ¬ (s.pool.th j).touches t) → ∀ j, ¬ (s.sc.th j).touches t := fun h j e => h j (backTh_touches _ _ _ e)
  have nc : (∀ j, ¬ (s.pool.th j).clientEnq) → ∀ j, ¬ (s.sc.th j).clientEnq := fun h j e => h j (backTh_clientEnq _ _ e)
  have nw : (∀ j, s.pool.th j ≠ .waiting) → ∀ j, s.sc.th j ≠ .waiting := fun h j e => h j (backTh_waiting _ _ e)
  clear hm
  cases hs with
  | @lock i h1 h2 h3 =>
    have hb := key i (by simp [upd_same, h1])
    simp only [upd_back _ _ _ hb]
    exact .lock (s := s.sc) (sc_th' hb h1) h2 h3
  | @take i t q h1 h2 h3 =>
    have hb := key i (by simp [upd_same, h1])
    simp only [upd_back _ _ _ hb]
    exact .take (s := s.sc) (sc_th' hb h1) h2 h3
  | @wait i h1 h2 =>
    have hb := key i (by simp [upd_same, h1])
    simp only [upd_back _ _ _ hb]
    exact .wait (s := s.sc) (sc_th' hb h1) h2
  | @spurious i h1 =>
    have hb := key i (by simp [upd_same, h1])
    simp only [upd_back _ _ _ hb]
    exact .spurious (s := s.sc) (sc_th' hb h1)
  | @relock i h1 h2 h3 =>
    have hb := key i (by simp [upd_same, h1])
    simp only [upd_back _ _ _ hb]
    exact .relock (s := s.sc) (sc_th' hb h1) h2 h3
  | @unlock i t k h1 =>
    have hb := key i (by simp [upd_same, h1])
    simp only [upd_back _ _ _ hb]
    exact .unlock (s := s.sc) (sc_th' hb h1)
  | @eval i t k x h1 h2 h3 =>
    have hb := key i (by simp [upd_same, h1])
    simp only [upd_back _ _ _ hb]
    exact .eval (s := s.sc) (sc_th' hb h1) h2 h3
  | @finish i t k x h1 h2 h3 =>
    have hb := key i (by simp [upd_same, h1])
    simp only [upd_back _ _ _ hb]
    exact .finish (s := s.sc) (sc_th' hb h1) h2 h3
  | @ret i t k r h1 =>
    have hb := key i (by simp [upd_same, h1])
    simp only [upd_back _ _ _ hb]
    exact .ret (s := s.sc) r (sc_th' hb h1)
  | @store i t k r x h1 h2 =>
    have hb := key i (by simp [upd_same, h1])
    simp only [upd_back _ _ _ hb]
    exact .store (s := s.sc) (sc_th' hb h1) h2
  | @finished i t k x h1 h2 =>
    have hb := key i (by simp [upd_same, h1])
    simp only [upd_back _ _ _ hb]
    exact .finished (s := s.sc) (sc_th' hb h1) h2
  | @new i t b x d h1 h2 h3 h4 h5 =>
    have hne : upd s.pool.th i (.enq .lock t b) i ≠ s.pool.th i := by
      rw [upd_same]; intro e; rw [← e] at h1; cases b <;> simp [CanCall] at h1
    have hb := key i hne
    simp only [upd_back _ _ _ hb]
    exact .new (s := s.sc) d (by rw [sc_th hb]; exact h1) h2 h3 (nt h4) h5
  | @enqLock i t b h1 h2 h3 =>
    have hb := key i (by simp [upd_same, h1])
    simp only [upd_back _ _ _ hb]
    exact .enqLock (s := s.sc) (sc_th' hb h1) h2 h3
  | @enqPut i t b q m h1 h2 h3 =>
    have hb := key i (by simp [upd_same, h1])
    simp only [upd_back _ _ _ hb]
    exact .enqPut (s := s.sc) (sc_th' hb h1) h2 h3
  | @signal i w t b h1 h2 =>
    have hb := key i (by simp [upd_same, h1])
    have hne : w ≠ i := by intro e; rw [e, h1] at h2; cases h2
    have hw := key w (by simp [upd_ne _ _ hne, upd_same, h2])
    simp only [upd_back _ _ _ hb, upd_back _ _ _ hw]
    exact .signal (s := s.sc) (sc_th' hb h1) (sc_th' hw h2)
  | @signalNone i t b h1 h2 =>
    have hb := key i (by simp [upd_same, h1])
    simp only [upd_back _ _ _ hb]
    exact .signalNone (s := s.sc) (sc_th' hb h1) (nw h2)
  | @enqUnlock i t b h1 h2 =>
    have hne : upd s.pool.th i b.th i ≠ s.pool.th i := by
      rw [upd_same, h1]; cases b <;> simp [Back.th]
    have hb := key i hne
    simp only [upd_back _ _ _ hb]
    exact .enqUnlock (s := s.sc) (sc_th' hb h1) h2
  | @finUnlock i t u j y h1 h2 h3 =>
    have hb := key i (by simp [upd_same, h1])
    simp only [upd_back _ _ _ hb]
    exact .finUnlock (s := s.sc) (sc_th' hb h1) h2 h3
  | @finLast i t j h1 h2 =>
    have hb := key i (by simp [upd_same, h1])
    simp only [upd_back _ _ _ hb]
    exact .finLast (s := s.sc) (sc_th' hb h1) h2
  | @touch i t b h1 h2 =>
    have hne : upd s.pool.th i (.touch t b) i ≠ s.pool.th i := by
      rw [upd_same]; intro e; rw [← e] at h1; cases b <;> simp [CanCall] at h1
    have hb := key i hne
    simp only [upd_back _ _ _ hb]
    exact .touch (s := s.sc) (by rw [sc_th hb]; exact h1) h2
  | @touchEnd i t b x h1 h2 h3 =>
    have hb := key i (by simp [upd_same, h1])
    simp only [upd_back _ _ _ hb]
    exact .touchEnd (s := s.sc) (sc_th' hb h1) h2 h3
  | @touchRead i t b x h1 h2 =>
    have hb := key i (by simp [upd_same, h1])
    simp only [upd_back _ _ _ hb]
    exact .touchRead (s := s.sc) (sc_th' hb h1) h2
  | @touchRet i t v b h1 =>
    have hne : upd s.pool.th i b.th i ≠ s.pool.th i := by
      rw [upd_same, h1]; cases b <;> simp [Back.th]
    have hb := key i hne
    simp only [upd_back _ _ _ hb]
    exact .touchRet (s := s.sc) (sc_th' hb h1)
  | @finStart i u y h1 h2 h3 h4 h5 =>
    have hb := key i (by simp [upd_same, h1])
    simp only [upd_back _ _ _ hb]
    exact .finStart (s := s.sc) (sc_th' hb h1) h2 h3 (nc h4) h5
  | @join i j h1 h2 h3 =>
    have hb := key i (by simp [upd_same, h1])
    have hj : s.buf j = [] := hB.free (by rw [h3]; rfl) (by rw [h3]; intro e; cases e)
    simp only [upd_back _ _ _ hb]
    exact .join (s := s.sc) (sc_th' hb h1) h2 (sc_th' hj h3)
  | @joined i j h1 h2 =>
    have hb := key i (by simp [upd_same, h1])
    simp only [upd_back _ _ _ hb]
    exact .joined (s := s.sc) (sc_th' hb h1) h2
  | @alloc t x h1 => exact .alloc (s := s.sc) x h1
  | @free t h1 h2 => exact .free (s := s.sc) h1 (nt h2)

theorem bufInv_step {fifo : Bool} (hf : fifo = true) (hB : BufInv s) (hs : BStep fifo n s (.ok s')) : BufInv s' := by
  cases hs with
  | @store i t k r h1 =>
    intro j
    by_cases e : j = i
    · subst e
      rcases hB j with h | ⟨_, _, _, -, h⟩ | ⟨_, _, _, -, h⟩ | ⟨_, _, -, h⟩
      · right; left; exact ⟨t, k, r, by simp [upd_same, h], by simp [upd_same]⟩
      all_goals rw [h1] at h; cases h
    · simp only [upd_ne _ _ e]; exact hB j
  | @finished i t k h1 =>
    intro j
    by_cases e : j = i
    · subst e
      rcases hB j with h | ⟨t', k', r, h', h⟩ | ⟨_, _, _, -, h⟩ | ⟨_, _, -, h⟩
      · right; right; right; exact ⟨t, k, by simp [upd_same, h], by simp [upd_same]⟩
      · rw [h1] at h; cases h
        right; right; left; exact ⟨t, k, r, by simp [upd_same, h'], by simp [upd_same]⟩
      all_goals rw [h1] at h; cases h
    · simp only [upd_ne _ _ e]; exact hB j
  | @drain i a b w p h1 h2 h3 =>
    have ha : a = [] := by
      rcases a with _ | ⟨u, a⟩
      · rfl
      · have := (h2 u (by simp)).1; rw [hf] at this; cases this
    subst ha
    have hth : p.th = s.pool.th := by
      cases w <;> simp only [FutureStore.apply] at h3 <;> split at h3 <;> cases h3 <;> rfl
    intro j
    by_cases e : j = i
    · subst e
      simp only [upd_same, hth, List.nil_append]
      rcases hB j with h | ⟨t', k', r, h', h⟩ | ⟨t', k', r, h', h⟩ | ⟨t', k', h', h⟩
      · rw [h] at h1; cases h1
      · rw [h'] at h1; cases h1; exact .inl rfl
      · rw [h'] at h1; cases h1; exact .inr (.inr (.inr ⟨t', k', rfl, h⟩))
      · rw [h'] at h1; cases h1; exact .inl rfl
    · simp only [upd_ne _ _ e, hth]; exact hB j
  | @other p h1 h2 =>
    intro j
    by_cases e : p.th j = s.pool.th j
    · simp only [e]; exact hB j
    · exact .inl (hB.free (h2 j e).1 (h2 j e).2)

/-- Each step is a step without buffers or changes nothing. -/
theorem sc_step {fifo : Bool} (hf : fifo = true) (hB : BufInv s) (hs : BStep fifo n s (.ok s')) :
    s'.sc = s.sc ∨ Step n s.sc (.ok s'.sc) := by
  cases hs with
  | @store i t k r h1 =>
    left
    have hb : s.buf i = [] := by
      rcases hB i with h | ⟨_, _, _, -, h⟩ | ⟨_, _, _, -, h⟩ | ⟨_, _, -, h⟩
      · exact h
      all_goals rw [h1] at h; cases h
    simp only [Buffered.sc, Pool.mk.injEq, true_and, and_true]
    funext j
    by_cases e : j = i
    · subst e; simp [upd_same, hb, backTh, h1]
    · simp [upd_ne _ _ e]
  | @finished i t k h1 =>
    left
    simp only [Buffered.sc, Pool.mk.injEq, true_and, and_true]
    funext j
    by_cases e : j = i
    · subst e
      rcases hB j with h | ⟨t', k', r, h', h⟩ | ⟨_, _, _, -, h⟩ | ⟨_, _, -, h⟩
      · simp [upd_same, h, backTh, h1]
      · simp [upd_same, h', backTh]
      all_goals rw [h1] at h; cases h
    · simp [upd_ne _ _ e]
  | @drain i a b w p h1 h2 h3 =>
    right
    have ha : a = [] := by
      rcases a with _ | ⟨u, a⟩
      · rfl
      · have := (h2 u (by simp)).1; rw [hf] at this; cases this
    subst ha
    rw [List.nil_append] at h1
    cases w with
    | data t k r =>
      simp only [FutureStore.apply] at h3
      split at h3
      · cases h3
      · rename_i x hx
        cases h3
        have hth : s.sc.th i = .ret t k r := by simp [Buffered.sc, h1, backTh]
        have hst := Step.store (n := n) (s := s.sc) hth hx
        convert hst using 2
        simp only [Buffered.sc, Pool.mk.injEq, true_and, and_true, List.nil_append]
        funext j
        by_cases e : j = i
        · subst e
          rcases hB j with h | ⟨t', k', r', h', h⟩ | ⟨t', k', r', h', h⟩ | ⟨t', k', h', h⟩ <;> first | rw [h] at h1 | rw [h'] at h1
          · cases h1
          · cases h1; simp [upd_same, backTh, h]
          · cases h1; simp [upd_same, backTh]
          · cases h1
        · simp [upd_ne _ _ e]
    | finished t k =>
      simp only [FutureStore.apply] at h3
      split at h3
      · cases h3
      · rename_i x hx
        cases h3
        have hth : s.sc.th i = .stored t k := by simp [Buffered.sc, h1, backTh]
        have hst := Step.finished (n := n) (s := s.sc) hth hx
        convert hst using 2
        simp only [Buffered.sc, Pool.mk.injEq, true_and, and_true, List.nil_append]
        funext j
        by_cases e : j = i
        · subst e
          rcases hB j with h | ⟨t', k', r', h', h⟩ | ⟨t', k', r', h', h⟩ | ⟨t', k', h', h⟩ <;> first | rw [h] at h1 | rw [h'] at h1
          · cases h1
          · cases h1
          · cases h1
          · cases h1; simp [upd_same, backTh, h]
        · simp [upd_ne _ _ e]
  | @other p h1 h2 => exact .inr (other_sim hB h1 h2)

theorem BReach.both (h : BReach true n s) : BufInv s ∧ PoolReach n s.sc := by
  induction h with
  | init mem =>
    refine ⟨fun i => .inl rfl, mem, ?_⟩
    have : Buffered.sc (V := V) { pool := Pool.init n mem, buf := fun _ => [] } = Pool.init n mem := rfl
    rw [this]
    exact .refl
  | @step s s' _ hs ih =>
    obtain ⟨hB, mem, hr⟩ := ih
    refine ⟨bufInv_step rfl hB hs, mem, ?_⟩
    rcases sc_step rfl hB hs with e | h1
    · rw [e]; exact hr
    · exact hr.tail h1

theorem BReach.no_fault (h : BReach true n s) {e : Fault} (hs : BStep true n s (.error e)) : False := by
  obtain ⟨hB, hr⟩ := h.both
  have hi := hr.inv
  cases hs with
  | @drainFault i a b w e h1 h2 h3 =>
    have ha : a = [] := by
      rcases a with _ | ⟨u, a⟩
      · rfl
      · have := (h2 u (by simp)).1; cases this
    subst ha
    rw [List.nil_append] at h1
    cases w with
    | data t k r =>
      simp only [FutureStore.apply] at h3
      split at h3
      · rename_i hx
        exact hi.no_fault (.storeFault (s := s.sc) (i := i) (t := t) (k := k) (r := r) (by simp [Buffered.sc, h1, backTh]) hx)
      · cases h3
    | finished t k =>
      simp only [FutureStore.apply] at h3
      split at h3
      · rename_i hx
        exact hi.no_fault (.finishedFault (s := s.sc) (i := i) (t := t) (k := k) (by simp [Buffered.sc, h1, backTh]) hx)
      · cases h3
  | otherFault hst =>
    have free : ∀ i, (s.pool.th i).stores = false → s.pool.th i ≠ .getTask → s.buf i = [] := by
      intro i h1 h2
      rcases hB i with e | ⟨t, k, r, -, e⟩ | ⟨t, k, r, -, e⟩ | ⟨t, k, -, e⟩
      · exact e
      · rw [e] at h1; cases h1
      · exact absurd e h2
      · exact absurd e h2
    cases hst with
    | @lockFault i h1 h2 =>
      refine h2 (hi.alive (i := i) ?_ ?_) <;>
      · rcases hB i with e | ⟨t, k, r, e, -⟩ | ⟨t, k, r, e, -⟩ | ⟨t, k, e, -⟩ <;> simp [Buffered.sc, e, backTh, h1, Th.isWorker, Th.proc]
    | @takeFault i e h1 h2 h3 => exact hi.no_fault (.takeFault (s := s.sc) (sc_th' (free i (by rw [h1]; rfl) (by rw [h1]; simp)) h1) h2 h3)
    | @relockFault i h1 h2 => exact hi.no_fault (.relockFault (s := s.sc) (sc_th' (free i (by rw [h1]; rfl) (by rw [h1]; simp)) h1) h2)
    | @runFault i t k h1 h2 => exact hi.no_fault (.runFault (s := s.sc) (sc_th' (free i (by rw [h1]; rfl) (by rw [h1]; simp)) h1) h2)
    | @storeFault i t k r h1 h2 =>
      have hb : s.buf i = [] := by
        rcases hB i with h | ⟨_, _, _, -, h⟩ | ⟨_, _, _, -, h⟩ | ⟨_, _, -, h⟩
        · exact h
        all_goals rw [h1] at h; cases h
      exact hi.no_fault (.storeFault (s := s.sc) (sc_th' hb h1) h2)
    | @finishedFault i t k h1 h2 =>
      rcases hB i with h | ⟨t', k', r, h', h⟩ | ⟨_, _, _, -, h⟩ | ⟨_, _, -, h⟩
      · exact hi.no_fault (.finishedFault (s := s.sc) (sc_th' h h1) h2)
      · rw [h1] at h; cases h
        exact hi.no_fault (.storeFault (s := s.sc) (i := i) (t := t) (k := k) (r := r) (by simp [Buffered.sc, h', backTh]) h2)
      all_goals rw [h1] at h; cases h
    | @enqLockFault i t b h1 h2 => exact hi.no_fault (.enqLockFault (s := s.sc) (sc_th' (free i (by rw [h1]; rfl) (by rw [h1]; simp)) h1) h2)
    | @enqPutFault i t b e h1 h2 h3 => exact hi.no_fault (.enqPutFault (s := s.sc) (sc_th' (free i (by rw [h1]; rfl) (by rw [h1]; simp)) h1) h2 h3)
    | @touchFault i t b h1 h2 => exact hi.no_fault (.touchFault (s := s.sc) (sc_th' (free i (by rw [h1]; rfl) (by rw [h1]; simp)) h1) h2)
    | @touchReadFault i t b h1 h2 => exact hi.no_fault (.touchReadFault (s := s.sc) (sc_th' (free i (by rw [h1]; rfl) (by rw [h1]; simp)) h1) h2)

end Sp
