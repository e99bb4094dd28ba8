import Verif.Lemmas.ThreadPoolDeadlock

/-! # C29, C36 to C38: the thread pool and futures -/

set_option linter.unusedSectionVars false

namespace Sp
variable {V : Type} {n : Nat} {s : Pool V}

/-- C36, C38: no schedule leads to a use of freed memory, a null pointer or a destroyed mutex. -/
theorem C36_no_fault (h : PoolReach n s) {r : C (Pool V)} (hs : Step n s r) : ∃ s', r = .ok s' := by
  cases r with
  | ok s' => exact ⟨s', rfl⟩
  | error e => exact (h.inv.no_fault hs).elim

/-- C36: tasks are taken in the order in which they were enqueued, each one once: the list of taken tasks is always
a beginning of the list of enqueued tasks. The rest is what the queue contains. -/
theorem C36_order (h : PoolReach n s) :
    ∃ rest, s.gEnqueued = s.gTaken.map Prod.snd ++ rest ∧ s.queue.size = rest.length := by
  have hi := h.inv
  refine ⟨s.gEnqueued.drop s.gTaken.length, ?_, hi.place.repr.size⟩
  have : s.gTaken.map Prod.snd = s.gEnqueued.take s.gTaken.length := by
    refine List.ext_getElem? fun k => ?_
    by_cases hk : k < s.gTaken.length
    · obtain ⟨⟨i, t⟩, hp⟩ : ∃ p, s.gTaken[k]? = some p := ⟨_, List.getElem?_eq_getElem hk⟩
      rw [List.getElem?_map, hp, List.getElem?_take_of_lt hk, hi.serial.order i t k hp]
      rfl
    · rw [List.getElem?_eq_none (by rw [List.length_map]; omega),
        List.getElem?_eq_none (by rw [List.length_take]; omega)]
  rw [this, List.take_append_drop]

/-- C36: the function of a task is never called twice, and only called if a worker has taken the task. Of a task that
has been taken, the function has been called or it is the next action of the worker to call it. -/
theorem C36_exactly_once (h : PoolReach n s) :
    s.gCalled.Nodup ∧ (∀ k ∈ s.gCalled, k < s.gTaken.length) ∧
    ∀ (i : Nat) (t : Addr) (k : Nat), s.gTaken[k]? = some (i, t) →
      k ∈ s.gCalled ∨ (k ∉ s.gCalled ∧ (s.th i = .took t k ∨ s.th i = .run t k)) := by
  have hi := h.inv
  refine ⟨hi.serial.calledNodup, hi.serial.called, fun i t k hp => ?_⟩
  rcases hi.serial.cover i t k hp with h1 | h1
  · exact .inl (hi.serial.done k h1).2
  · rcases hi.serial.isCalled i t k h1 with h2 | h2
    · exact .inl h2
    · exact .inr ⟨hi.serial.notCalled i t k h2, h2⟩

/-- C36: a completed task has been called. Each is completed once. -/
theorem C36_done (h : PoolReach n s) : s.gDone.Nodup ∧ ∀ k ∈ s.gDone, k ∈ s.gCalled :=
  ⟨h.inv.serial.nodup, fun k hk => (h.inv.serial.done k hk).2⟩

/-- C36: only workers take tasks, and only while the queue is not empty, also after spurious wakeups. -/
theorem C36_takes_from_nonempty (h : PoolReach n s) {s' : Pool V} (hs : Step n s (.ok s'))
    (ht : s'.gTaken ≠ s.gTaken) :
    ∃ i t, i < n ∧ s'.gTaken = s.gTaken ++ [(i, t)] ∧ s.mutex = some i ∧ s.gTaken.length < s.gEnqueued.length := by
  have hi := h.inv
  cases hs with
  | @take i t q h1 h2 h3 =>
    obtain ⟨_, _, _, e2, _⟩ := hi.place.take_ok h2
    exact ⟨i, t, (hi.kind i).1 (by rw [h1]; rfl), rfl, (hi.mutex i).2 (by rw [h1]; rfl),
      (List.getElem?_eq_some_iff.1 e2).1⟩
  | _ => exact absurd rfl ht

/-- The worker will look at the queue without being woken. -/
def WillLook (x : Th V) : Prop := x = .getTask ∨ x = .check ∨ x = .woken

/-- C36: no wakeup is lost. While tasks are in the queue and a worker sleeps, another worker is about to look at the
queue or a thread is about to give a signal. -/
theorem C36_no_lost_wakeup (h : PoolReach n s) {w : Nat} (hw : s.th w = .waiting)
    (hq : s.gTaken.length < s.gEnqueued.length) :
    (∃ i, i < n ∧ WillLook (s.th i)) ∨ ∃ i t b, s.th i = .enq .signal t b := by
  by_cases hc : awakeCount n s.th = 0
  · rcases h.inv.wake ⟨w, hw⟩ with h1 | ⟨_, h1⟩
    · omega
    · exact .inr h1
  · left
    rw [awakeCount, List.countP_eq_zero] at hc
    push Not at hc
    obtain ⟨i, h1, h2⟩ := hc
    refine ⟨i, List.mem_range.1 h1, ?_⟩
    cases e : s.th i <;> rw [e] at h2 <;> simp [Th.awake, WillLook] at h2 ⊢

/-- C36: from every reachable state the workers can run all enqueued tasks to completion without the help of other
threads, as long as no worker is waiting for a future: at the end, all tasks have been completed. Clients that do not own the
mutex have not moved. -/
theorem C36_completable [Inhabited V] (hn : 0 < n) (h : PoolReach n s) (hf : s.gFinishAt = none)
    (hnt : ∀ i, i < n → ∀ t b, s.th i ≠ .touch t b)
    (hroom : n < 4294967296 / 36 - 1 ∧ s.gEnqueued.length - s.gTaken.length < 4294967296 / 16) :
    ∃ s', Steps n s s' ∧ (∀ k, k < s'.gEnqueued.length → k ∈ s'.gDone) ∧ s.gEnqueued <+: s'.gEnqueued ∧
      (∀ i, n ≤ i → s.mutex ≠ some i → s'.th i = s.th i) := by
  have hw := Pool.weight_le (n := n) s
  have hle := h.inv.place.le
  obtain ⟨s', h1, h2, h3, _, _, h6, _⟩ := completable hn h.inv hf hnt (by omega)
  exact ⟨s', h1, h2, h3, h6⟩

/-- C37: when `sph_thread_pool_finish` has returned, all workers have ended, the mutex has been destroyed once, and all
tasks that had been enqueued when it was called have been completed. -/
theorem C37_finish (h : PoolReach n s) {i : Nat} (hj : s.th i = .joined) :
    ∃ F, s.gFinishAt = some F ∧ (∀ w, w < n → s.th w = .ended) ∧ s.destroyed = 1 ∧ ∀ k, k < F → k ∈ s.gDone := by
  have hi := h.inv
  obtain ⟨_, h2, h3⟩ := hi.size.joined i hj
  cases hF : s.gFinishAt with
  | none => have := (hi.size.before hF).2; omega
  | some F =>
    refine ⟨F, rfl, h3, h2, fun k hk => ?_⟩
    have hpos := hi.size.pos (by rw [hF]; simp)
    have hlt := hi.fin.ended F 0 hF (h3 0 hpos)
    obtain ⟨⟨w, t⟩, hp⟩ : ∃ p, s.gTaken[k]? = some p := ⟨_, List.getElem?_eq_getElem (by omega)⟩
    rcases hi.serial.cover w t k hp with h4 | h4
    · exact h4
    · exfalso
      have hwk : w < n := (hi.kind w).1 (by
        cases hth : s.th w <;> simp only [hth, Th.proc] at h4 <;> first | rfl | (cases h4; done) | skip
        all_goals (rename_i b; cases b <;> first | rfl | cases h4))
      simp only [h3 w hwk] at h4
      cases h4

/-- C38: when `sph_future_touch` returns `v` for the future at `t`, the function of the future has returned, and what it
returned is `v`. -/
theorem C38_touch (h : PoolReach n s) {i : Nat} {t : Addr} {v : V} {b : Back} (ht : s.th i = .touched t v b) :
    s.gResult t = some v :=
  (h.inv.value.touched i t v b ht).2

/-- C38: what is recorded as the result of the future at `t` is what its function returned since the future was last made:
it changes only by the making of the future, to nothing, and by the return of its function. -/
theorem C38_result {s' : Pool V} (hs : Step n s (.ok s')) {t : Addr} (hr : s'.gResult t ≠ s.gResult t) :
    (∃ i b, CanCall (s.th i) b ∧ s'.th i = .enq .lock t b ∧ s'.gResult t = none) ∨
    (∃ i k r, s.th i = .inF t k ∧ s'.th i = .ret t k r ∧ s'.gResult t = some r) := by
  cases hs with
  | @new i u b x d h1 h2 h3 h4 h5 =>
    simp only at hr ⊢
    by_cases e : t = u
    · subst e
      exact .inl ⟨i, b, h1, upd_same _ _ _, upd_same _ _ _⟩
    · rw [upd_ne _ _ e] at hr; exact absurd rfl hr
  | @ret i u k r h1 =>
    simp only at hr ⊢
    by_cases e : t = u
    · subst e
      exact .inr ⟨i, k, r, h1, upd_same _ _ _, upd_same _ _ _⟩
    · rw [upd_ne _ _ e] at hr; exact absurd rfl hr
  | _ => exact absurd rfl hr

/-! ## C29: nested futures -/

/-- The loop of phase 1: clients make futures, workers `0 .. m-1` are in their functions. -/
theorem nested_phase1 [Inhabited V] (n : Nat) (mem : QMem (TaskRest V)) (hmem : ∀ a, mem a ≠ none) (m : Nat) (hm : m ≤ n) :
    ∃ s, Steps n (Pool.init n mem) s ∧ s.mutex = none ∧ s.gFinishAt = none ∧
      s.th = (fun i => if i < m then .inF i i else if i < n then .getTask else .client) ∧
      (∀ t, m ≤ t → s.gPlace t = .idle) ∧ s.gTaken.length = m ∧ s.gEnqueued.length = m ∧ ∀ a, s.mem a ≠ none := by
  induction m with
  | zero => exact ⟨_, .refl, rfl, rfl, by funext i; simp [Pool.init], fun t _ => rfl, rfl, rfl, hmem⟩
  | succ m ih =>
    obtain ⟨s, h1, h2, h3, h4, h5, h6, h7, h8⟩ := ih (by omega)
    have hinv := (PoolInv.init (n := n) mem).steps h1
    have hnw : ∀ w, s.th w ≠ .waiting := by
      intro w; rw [h4]; simp only; split <;> [simp; split <;> simp]
    have hnt : ∀ t j, ¬ (s.th j).touches t := by
      intro t j; rw [h4]; simp only; split <;> [exact id; split <;> exact id]
    have hcl : CanCall (s.th n) .client := by
      rw [h4]; simp only; rw [if_neg (by omega), if_neg (by omega)]; rfl
    obtain ⟨s1, a1, a2, a3, a4, a5, a6, a7, a8, a9⟩ := enqueue_steps hinv h3 h2 hnw hcl h8 (h5 m (Nat.le_refl _)) (hnt m)
      (by omega)
    have hth : s1.th m = .getTask := by
      rw [a4, h4]; simp only; rw [if_neg (by omega), if_pos (by omega)]
    have he : s1.gEnqueued[s1.gTaken.length]? = some m := by
      rw [a6, a7, h6, List.getElem?_append_right (by omega), h7]
      simp
    obtain ⟨s2, b1, b2, b3, b4, b5, b6, b7, b8, b9⟩ := takeRun_steps (hinv.steps a1) a3 a2 hth he
    refine ⟨s2, (h1.trans a1).trans b1, b2, b3, ?_, ?_, ?_, ?_, ?_⟩
    · rw [b4, a4, h4, a7, h6]
      funext i
      by_cases e : i = m
      · subst e; rw [upd_same, if_pos (by omega)]
      · rw [upd_ne _ _ e]
        by_cases e2 : i < m
        · rw [if_pos e2, if_pos (by omega)]
        · rw [if_neg e2, if_neg (show ¬ i < m + 1 by omega)]
    · intro t ht
      rw [b5, a5, upd_ne _ _ (by omega), upd_ne _ _ (by omega)]
      exact h5 t (by omega)
    · rw [b7, a7, List.length_append, h6]; rfl
    · rw [b6, a6, List.length_append, h7]; rfl
    · rw [b9]; exact a9

/-- The loop of phase 2: workers `0 .. m-1` have made another future each, and wait for it. -/
theorem nested_phase2 [Inhabited V] (n : Nat) (hn : n < 4294967295) (mem : QMem (TaskRest V)) (hmem : ∀ a, mem a ≠ none)
    (m : Nat) (hm : m ≤ n) :
    ∃ s, Steps n (Pool.init n mem) s ∧ s.mutex = none ∧ s.gFinishAt = none ∧
      s.th = (fun i => if i < m then .touch (n + i) (.inF i i) else if i < n then .inF i i else .client) ∧
      (∀ t, n + m ≤ t → s.gPlace t = .idle) ∧ (∀ i, i < m → s.gPlace (n + i) = .queued) ∧
      s.gTaken.length = n ∧ s.gEnqueued.length = n + m ∧ ∀ a, s.mem a ≠ none := by
  induction m with
  | zero =>
    obtain ⟨s, h1, h2, h3, h4, h5, h6, h7, h8⟩ := nested_phase1 n mem hmem n (Nat.le_refl _)
    refine ⟨s, h1, h2, h3, ?_, h5, fun i hi => absurd hi (by omega), h6, h7, h8⟩
    rw [h4]
    funext i
    by_cases e : i < n <;> simp [e]
  | succ m ih =>
    obtain ⟨s, h1, h2, h3, h4, h5, h6, h7, h8, h9⟩ := ih (by omega)
    have hinv := (PoolInv.init (n := n) mem).steps h1
    have hnw : ∀ w, s.th w ≠ .waiting := by
      intro w; rw [h4]; simp only; split <;> [simp; split <;> simp]
    have hnt : ∀ j, ¬ (s.th j).touches (n + m) := by
      intro j; rw [h4]; simp only
      split
      · intro e
        have : j = m := Nat.add_left_cancel e
        omega
      · split <;> exact id
    have hcl : CanCall (s.th m) (.inF m m) := by
      rw [h4]; simp only; rw [if_neg (by omega), if_pos (by omega)]; rfl
    obtain ⟨s1, a1, a2, a3, a4, a5, a6, a7, a8, a9⟩ := enqueue_steps hinv h3 h2 hnw hcl h9 (h5 (n + m) (Nat.le_refl _)) hnt
      (by omega)
    have st : Step n s1 (.ok _) := .touch (i := m) (t := n + m) (b := .inF m m) (by rw [a4]; exact hcl)
      (by rw [a8]; exact upd_same _ _ _)
    refine ⟨_, (h1.trans a1).tail st, a2, a3, ?_, ?_, ?_, ?_, ?_, a9⟩
    · rw [a4, h4]
      funext i
      simp only
      by_cases e : i = m
      · subst e; rw [upd_same, if_pos (by omega)]
      · rw [upd_ne _ _ e]
        by_cases e2 : i < m
        · rw [if_pos e2, if_pos (by omega)]
        · rw [if_neg e2, if_neg (show ¬ i < m + 1 by omega)]
    · intro t ht
      simp only
      rw [a5, upd_ne _ _ (by omega)]
      exact h5 t (by omega)
    · intro i hi
      simp only
      rw [a5]
      by_cases e : i = m
      · subst e; rw [upd_same]
      · rw [upd_ne _ _ (by omega)]
        exact h6 i (by omega)
    · simp only; rw [a7, h7]
    · simp only; rw [a6, List.length_append, h8]; rfl

/-- C29 is false for futures whose functions wait for futures, as the ones of nested parallel groups do: for every number of
workers a state can be reached in which the workers are in the functions of the futures `0` to `n - 1` and each waits for a future
it made, and whatever happens afterwards, none of these calls of `sph_future_touch` ever returns and none of the
futures waited for is ever taken from the queue. -/
theorem C29_nested_false [Inhabited V] (n : Nat) (hn : n < 4294967295) :
    ∃ s : Pool V, PoolReach n s ∧ ∀ s', Steps n s s' → ∀ i, i < n →
      s'.th i = .touch (n + i) (.inF i i) ∧ s'.gPlace (n + i) = .queued := by
  obtain ⟨s, h1, _, _, h4, _, h6, _⟩ := nested_phase2 (V := V) n hn
    (fun _ => some ⟨none, ⟨.eval, default, false⟩⟩) (by simp) n (Nat.le_refl _)
  have hr : PoolReach n s := ⟨_, h1⟩
  refine ⟨s, hr, fun s' hs => ?_⟩
  refine stuck_steps hr.inv (t := fun i => n + i) (b := fun i => .inF i i) ?_ hs
  intro i hi
  rw [h4]
  simp only
  rw [if_pos hi]
  exact ⟨rfl, h6 i hi⟩

/-- C29 for futures that do not wait for others: if no worker is waiting, then every future that some client waits for can
be completed by the workers, after which the call can return: the future is finished and the client is where it was.
Missing for the full statement: functions that wait for futures, see `C29_nested_false`. -/
theorem C29_flat_partial [Inhabited V] (hn : 0 < n) (h : PoolReach n s) (hf : s.gFinishAt = none)
    (hnt : ∀ i, i < n → ∀ t b, s.th i ≠ .touch t b)
    (hroom : n < 4294967296 / 36 - 1 ∧ s.gEnqueued.length - s.gTaken.length < 4294967296 / 16)
    {i : Nat} (hi : n ≤ i) {t : Addr} {b : Back} (ht : s.th i = .touch t b) (hp : ∀ j, s.gPlace t ≠ .pending j) :
    ∃ s' v, Steps n s s' ∧ s'.th i = .touched t v b ∧ s'.gResult t = some v := by
  have hw := Pool.weight_le (n := n) s
  have hle := h.inv.place.le
  obtain ⟨s1, h1, h2, h3, h4, h5, h6, h7⟩ := completable hn h.inv hf hnt (by omega)
  have hinv := h.inv.steps h1
  have hth : s1.th i = .touch t b := by
    rw [h6 i hi ?_, ht]
    intro e
    have := (h.inv.mutex i).1 e
    rw [ht] at this
    cases this
  have hmade : s1.gMade t = true := hinv.value.touches i t (by rw [hth]; rfl)
  obtain ⟨x, hx⟩ := Option.ne_none_iff_exists'.1 (hinv.value.made t hmade)
  have hidle : s1.gPlace t = .idle := by
    cases e : s1.gPlace t with
    | idle => rfl
    | pending j => exact absurd e (h5 t hp j)
    | queued =>
      exfalso
      have h8 := hinv.place2.queued t e
      rw [Pool.waitingTasks] at h8
      have hlen := List.length_pos_of_mem h8
      rw [List.length_drop] at hlen
      have := (hinv.serial.done _ (h2 s1.gTaken.length (by omega))).1
      omega
    | proc j =>
      exfalso
      obtain ⟨k, h8⟩ := hinv.place2.proc j t e
      obtain ⟨h9, h10⟩ := hinv.serial.proc j t k h8
      exact h10 (h2 k (by
        have := (List.getElem?_eq_some_iff.1 h9).1
        have := hinv.place.le
        omega))
  have hfin := hinv.place2.idle t x hidle hmade hx
  have st1 : Step n s1 (.ok _) := .touchEnd hth hx hfin
  have st2 := Step.touchRead (n := n) (s := { s1 with th := upd s1.th i (.touchRead t b) }) (i := i) (t := t) (b := b)
    (upd_same _ _ _) hx
  have hs2 := (h1.tail st1).tail st2
  have hth2 : (upd (upd s1.th i (.touchRead t b)) i (.touched t x.rest.data b)) i = .touched t x.rest.data b := upd_same _ _ _
  refine ⟨_, x.rest.data, hs2, hth2, ?_⟩
  exact ((h.inv.steps hs2).value.touched i t _ b hth2).2

/-! ## Examples -/

/-- The states of the example: one worker, and the client 1 makes the future at address 5, whose function
returns 7, waits for it, and finishes the pool. -/
example : ∃ s : Pool Nat, PoolReach 1 s ∧ s.th 1 = .touched 5 7 .client ∧ s.gCalled = [0] ∧
    s.gTaken = [(0, 5)] ∧ s.gEnqueued = [5] := by
  refine ⟨_, ⟨fun a => if a = 5 then some ⟨none, ⟨.eval, 0, false⟩⟩ else none,
    .tail (.tail (.tail (.tail (.tail (.tail (.tail (.tail (.tail (.tail (.tail (.tail (.tail (.tail (.tail .refl
    (.new (i := 1) (t := 5) (b := .client) 3 rfl rfl rfl (fun j => ?_) (.inr rfl)))
    (.enqLock (i := 1) (t := 5) (b := .client) rfl rfl rfl))
    (.enqPut (i := 1) (t := 5) (b := .client) rfl (by decide) rfl))
    (.signalNone (i := 1) (t := 5) (b := .client) rfl (fun w => ?_)))
    (.enqUnlock (i := 1) (t := 5) (b := .client) rfl (by simp)))
    (.touch (i := 1) (t := 5) (b := .client) rfl rfl))
    (.lock (i := 0) rfl rfl rfl))
    (.take (i := 0) (t := 5) rfl (by decide) rfl))
    (.unlock (i := 0) (t := 5) (k := 0) rfl))
    (.eval (i := 0) (t := 5) (k := 0) rfl rfl rfl))
    (.ret (i := 0) (t := 5) (k := 0) 7 rfl))
    (.store (i := 0) (t := 5) (k := 0) (r := 7) rfl rfl))
    (.finished (i := 0) (t := 5) (k := 0) rfl rfl))
    (.touchEnd (i := 1) (t := 5) (b := .client) rfl rfl rfl))
    (.touchRead (i := 1) (t := 5) (b := .client) rfl rfl)⟩, rfl, rfl, rfl, rfl⟩
  · simp only [Pool.init]; split <;> exact id
  · simp only [Pool.init, upd]; split <;> [simp; (split <;> simp)]

example : ∃ s : Pool Nat, PoolReach 1 s ∧ s.th 1 = .joined ∧ s.gFinishAt = some 0 := by
  refine ⟨_, ⟨fun a => none,
    .tail (.tail (.tail (.tail (.tail (.tail (.tail (.tail (.tail (.tail (.tail .refl
    (.finStart (i := 1) (u := 5) (y := 0) rfl rfl (by decide) (fun j => ?_) rfl))
    (.enqLock (i := 1) (t := 5) (b := .fin 0) rfl rfl rfl))
    (.enqPut (i := 1) (t := 5) (b := .fin 0) rfl (by decide) rfl))
    (.signalNone (i := 1) (t := 5) (b := .fin 0) rfl (fun w => ?_)))
    (.finLast (i := 1) (t := 5) (j := 0) rfl (by decide)))
    (.lock (i := 0) rfl rfl rfl))
    (.take (i := 0) (t := 5) rfl (by decide) rfl))
    (.unlock (i := 0) (t := 5) (k := 0) rfl))
    (.finish (i := 0) (t := 5) (k := 0) rfl rfl rfl))
    (.join (i := 1) (j := 0) rfl (by decide) rfl))
    (.joined (i := 1) (j := 1) rfl (by decide))⟩, rfl, rfl⟩
  · simp only [Pool.init]; split <;> exact id
  · simp only [Pool.init, upd]; split <;> [simp; (split <;> simp)]

/-- A worker sleeps and a task is in the queue: the hypotheses of `C36_no_lost_wakeup`. -/
example : ∃ s : Pool Nat, PoolReach 1 s ∧ s.th 0 = .waiting ∧ s.gTaken.length < s.gEnqueued.length := by
  refine ⟨_, ⟨fun a => if a = 5 then some ⟨none, ⟨.eval, 0, false⟩⟩ else none,
    .tail (.tail (.tail (.tail (.tail .refl
    (.lock (i := 0) rfl rfl rfl))
    (.wait (i := 0) rfl rfl))
    (.new (i := 1) (t := 5) (b := .client) 3 rfl rfl rfl (fun j => ?_) (.inr rfl)))
    (.enqLock (i := 1) (t := 5) (b := .client) rfl rfl rfl))
    (.enqPut (i := 1) (t := 5) (b := .client) rfl (by decide) rfl)⟩, rfl, by decide⟩
  simp only [Pool.init, upd]; split <;> [exact id; (split <;> exact id)]

/-- A client waits for a future in the queue: the hypotheses of `C36_completable` and `C29_flat_partial`. -/
example : ∃ s : Pool Nat, PoolReach 2 s ∧ s.gFinishAt = none ∧ s.th 2 = .touch 5 .client ∧ s.gPlace 5 = .queued ∧
    (∀ i, i < 2 → ∀ t b, s.th i ≠ .touch t b) := by
  refine ⟨_, ⟨fun a => if a = 5 then some ⟨none, ⟨.eval, 0, false⟩⟩ else none,
    .tail (.tail (.tail (.tail (.tail (.tail .refl
    (.new (i := 2) (t := 5) (b := .client) 3 rfl rfl rfl (fun j => ?_) (.inr rfl)))
    (.enqLock (i := 2) (t := 5) (b := .client) rfl rfl rfl))
    (.enqPut (i := 2) (t := 5) (b := .client) rfl (by decide) rfl))
    (.signalNone (i := 2) (t := 5) (b := .client) rfl (fun w => ?_)))
    (.enqUnlock (i := 2) (t := 5) (b := .client) rfl (by simp)))
    (.touch (i := 2) (t := 5) (b := .client) rfl rfl)⟩, rfl, rfl, rfl, ?_⟩
  · simp only [Pool.init]; split <;> exact id
  · simp only [Pool.init, upd]; split <;> [simp; (split <;> simp)]
  · intro i hi t b
    have : i ≠ 2 := by omega
    simp [Pool.init, upd, this, hi]

end Sp
