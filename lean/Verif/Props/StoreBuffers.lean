import Verif.Lemmas.StoreBuffers
import Verif.Spec.Race
import Verif.Props.ThreadPool

/-! # C154: the thread pool and futures on machines with store buffers, data races -/

set_option linter.unusedSectionVars false

namespace Sp
variable {V : Type} {n : Nat}

/-! ## Total store order -/

/-- C154: with buffers that keep the order of stores, every reachable state is, apart from the stores in the buffers, one that is reachable without
buffers: there is such a state with the same memory and history, in which all threads with empty buffers are at the same place. -/
theorem C154_total_store_order {s : Buffered V} (h : BReach true n s) :
    ∃ p : Pool V, PoolReach n p ∧ { p with th := s.pool.th } = s.pool ∧ ∀ i, s.buf i = [] → p.th i = s.pool.th i :=
  ⟨s.sc, h.both.2, rfl, fun _ hb => sc_th hb⟩

/-- C154: only a worker that has just evaluated a future has stores in its buffer, and they are of this future. -/
theorem C154_buffers {s : Buffered V} (h : BReach true n s) {i : Nat} (hb : s.buf i ≠ []) :
    i < n ∧ ((∃ t k, s.pool.th i = .stored t k) ∨ s.pool.th i = .getTask) ∧
      ∃ t k r, s.buf i <:+ [.data t k r, .finished t k] ∨ s.buf i = [.data t k r] := by
  obtain ⟨hB, hr⟩ := h.both
  have hk := (hr.inv.kind i).1
  rcases hB i with e | ⟨t, k, r, e, e2⟩ | ⟨t, k, r, e, e2⟩ | ⟨t, k, e, e2⟩
  · exact absurd e hb
  · exact ⟨hk (by simp [Buffered.sc, e, backTh, Th.isWorker, Th.proc]), .inl ⟨t, k, e2⟩, t, k, r, .inr e⟩
  · exact ⟨hk (by simp [Buffered.sc, e, backTh, Th.isWorker, Th.proc]), .inr e2, t, k, r, .inl (by rw [e])⟩
  · have hth : s.sc.th i = .stored t k := by simp [Buffered.sc, e, backTh]
    have hi := hk (by rw [hth]; rfl)
    obtain ⟨x, hx⟩ := hr.inv.procMem (i := i) (t := t) (k := k) (by rw [hth]; rfl)
    exact ⟨hi, .inr e2, t, k, x.rest.data, .inl (by rw [e]; exact ⟨[_], rfl⟩)⟩

/-- C154: with buffers that keep the order of stores, no freed memory and no destroyed mutex is used. -/
theorem C154_no_fault {s : Buffered V} (h : BReach true n s) {r : C (Buffered V)} (hs : BStep true n s r) : ∃ s', r = .ok s' := by
  cases r with
  | ok s' => exact ⟨s', rfl⟩
  | error e => exact (h.no_fault hs).elim

/-- C154, partial (not for buffers that change the order of stores, see `C154_reordered_stores_false`): with buffers that keep it, `sph_future_touch` returns what the function of the future has returned. -/
theorem C154_touch_partial {s : Buffered V} (h : BReach true n s) {i : Nat} {t : Addr} {v : V} {b : Back} (ht : s.pool.th i = .touched t v b) :
    s.pool.gResult t = some v := by
  obtain ⟨hB, hr⟩ := h.both
  have hb : s.buf i = [] := hB.free (by rw [ht]; rfl) (by rw [ht]; intro e; cases e)
  exact C38_touch hr (sc_th' hb ht)

/-- C154: with buffers that keep the order of stores, tasks are taken in order and called at most once, and when
`sph_thread_pool_finish` has returned, all workers have ended and the tasks enqueued before are completed. -/
theorem C154_pool {s : Buffered V} (h : BReach true n s) :
    (∃ rest, s.pool.gEnqueued = s.pool.gTaken.map Prod.snd ++ rest ∧ s.pool.queue.size = rest.length) ∧ s.pool.gCalled.Nodup ∧
    ∀ i, s.pool.th i = .joined → ∃ F, s.pool.gFinishAt = some F ∧ (∀ w, w < n → s.pool.th w = .ended) ∧ ∀ k, k < F → k ∈ s.pool.gDone := by
  obtain ⟨hB, hr⟩ := h.both
  have hO := C36_order hr
  refine ⟨hO, (C36_exactly_once hr).1, fun i hi => ?_⟩
  have hb : s.buf i = [] := hB.free (by rw [hi]; rfl) (by rw [hi]; intro e; cases e)
  obtain ⟨F, h1, h2, -, h4⟩ := C37_finish hr (sc_th' hb hi)
  refine ⟨F, h1, fun w hw => ?_, h4⟩
  have h3 := h2 w hw
  rcases hB w with e | ⟨t, k, r, e, -⟩ | ⟨t, k, r, e, -⟩ | ⟨t, k, e, -⟩
  · rw [← sc_th e]; exact h3
  all_goals simp [Buffered.sc, e, backTh] at h3

/-- C154 is false for buffers that do not keep the order of stores to different locations: `sph_future_touch` can return the argument 3 of
the function although the function has returned 7. -/
theorem C154_reordered_stores_false : ∃ s : Buffered Nat, BReach false 1 s ∧ s.pool.th 1 = .touched 5 3 .client ∧ s.pool.gResult 5 = some 7 := by
  have mv : ∀ {s p : Pool Nat} {i : Nat} {buf : Nat → List (FutureStore Nat)} (x : Th Nat), p.th = upd s.th i x → (s.th i).stores = false →
      ((s.th i).fence = true → buf i = []) →
      ∀ j, p.th j ≠ s.th j → (s.th j).stores = false ∧ ((s.th j).fence = true → buf j = []) := by
    intro s p i buf x h1 h2 h3 j hj
    by_cases e : j = i
    · subst e; exact ⟨h2, h3⟩
    · rw [h1, upd_ne _ _ e] at hj; exact absurd rfl hj
  have h0 := BReach.init (V := Nat) (fifo := false) (n := 1) (fun a => if a = 5 then some ⟨none, ⟨.eval, 0, false⟩⟩ else none)
  have h1 := h0.step (.other (.new (i := 1) (t := 5) (b := .client) 3 rfl rfl rfl
    (fun j => by simp only [Pool.init]; split <;> exact id) (.inr rfl)) (mv _ rfl rfl (fun _ => rfl)))
  have h2 := h1.step (.other (.enqLock (i := 1) (t := 5) (b := .client) rfl rfl rfl) (mv _ rfl rfl (fun _ => rfl)))
  have h3 := h2.step (.other (.enqPut (i := 1) (t := 5) (b := .client) rfl (by decide) rfl) (mv _ rfl rfl (fun _ => rfl)))
  have h4 := h3.step (.other (.signalNone (i := 1) (t := 5) (b := .client) rfl
    (fun w => by simp only [Pool.init, upd]; split <;> [simp; (split <;> simp)])) (mv _ rfl rfl (fun _ => rfl)))
  have h5 := h4.step (.other (.enqUnlock (i := 1) (t := 5) (b := .client) rfl (by simp)) (mv _ rfl rfl (fun _ => rfl)))
  have h6 := h5.step (.other (.touch (i := 1) (t := 5) (b := .client) rfl rfl) (mv _ rfl rfl (fun _ => rfl)))
  have h7 := h6.step (.other (.lock (i := 0) rfl rfl rfl) (mv _ rfl rfl (fun _ => rfl)))
  have h8 := h7.step (.other (.take (i := 0) (t := 5) rfl (by decide) rfl) (mv _ rfl rfl (fun _ => rfl)))
  have h9 := h8.step (.other (.unlock (i := 0) (t := 5) (k := 0) rfl) (mv _ rfl rfl (fun _ => rfl)))
  have h10 := h9.step (.other (.eval (i := 0) (t := 5) (k := 0) rfl rfl rfl) (mv _ rfl rfl (fun _ => rfl)))
  have h11 := h10.step (.other (.ret (i := 0) (t := 5) (k := 0) 7 rfl) (mv _ rfl rfl (fun _ => rfl)))
  have h12 := h11.step (.store (i := 0) (t := 5) (k := 0) (r := 7) rfl)
  have h13 := h12.step (.finished (i := 0) (t := 5) (k := 0) rfl)
  have h14 := h13.step (.drain (i := 0) (a := [.data 5 0 7]) (b := []) (w := .finished 5 0) rfl
    (fun u hu => by rw [List.mem_singleton] at hu; subst hu; exact ⟨rfl, id⟩) rfl)
  have h15 := h14.step (.other (.touchEnd (i := 1) (t := 5) (b := .client) rfl rfl rfl) (mv _ rfl rfl (fun _ => rfl)))
  have h16 := h15.step (.other (.touchRead (i := 1) (t := 5) (b := .client) rfl rfl) (mv _ rfl rfl (fun _ => rfl)))
  exact ⟨_, h16, rfl, rfl⟩

/-! ## Data races -/

/-- Which threads access what. -/
theorem access_cases {s : Pool V} (h : PoolInv n s) {j : Nat} {l : Loc} {w : Bool} (ha : Access s j l w) :
    (s.mutex = some j ∧ (l = .queue ∨ ∃ t, l = .link t ∧ (s.gPlace t = .queued ∨ s.gPlace t = .pending j))) ∨
    (∃ t, s.gPlace t = .proc j ∧ (l = .link t ∨ l = .f t ∨ l = .data t ∨ l = .finished t)) ∨
    (w = false ∧ ∃ t b, l = .data t ∧ s.gPlace t = .idle ∧ s.th j = .touchRead t b) ∨
    (w = false ∧ ∃ t b, l = .finished t ∧ s.th j = .touch t b) := by
  have hq : ∀ t, t ∈ s.waitingTasks → s.gPlace t = .queued := h.place.queued
  cases ha with
  | checkQueue h1 => exact .inl ⟨(h.mutex j).2 (by rw [h1]; rfl), .inl rfl⟩
  | @checkLink t h1 h2 =>
    refine .inl ⟨(h.mutex j).2 (by rw [h1]; rfl), .inr ⟨t, rfl, .inl (hq t ?_)⟩⟩
    rw [h.place.repr.first] at h2
    exact List.mem_of_getElem? h2
  | putQueue h1 => exact .inl ⟨(h.mutex j).2 (by rw [h1]; rfl), .inl rfl⟩
  | @putLink t b h1 => exact .inl ⟨(h.mutex j).2 (by rw [h1]; rfl), .inr ⟨t, rfl, .inr (h.place.pend j t (by rw [h1]; rfl))⟩⟩
  | @putLast t u b h1 h2 h3 =>
    refine .inl ⟨(h.mutex j).2 (by rw [h1]; rfl), .inr ⟨u, rfl, .inl (hq u ?_)⟩⟩
    rw [h.place.repr.last] at h3
    exact List.mem_of_getLast? h3
  | @runF t k h1 => exact .inr (.inl ⟨t, h.place.proc j t k (by rw [h1]; rfl), by simp⟩)
  | @runData t k h1 => exact .inr (.inl ⟨t, h.place.proc j t k (by rw [h1]; rfl), by simp⟩)
  | @freeLink t k x h1 => exact .inr (.inl ⟨t, h.place.proc j t k (by rw [h1]; rfl), by simp⟩)
  | @freeF t k x h1 => exact .inr (.inl ⟨t, h.place.proc j t k (by rw [h1]; rfl), by simp⟩)
  | @freeData t k x h1 => exact .inr (.inl ⟨t, h.place.proc j t k (by rw [h1]; rfl), by simp⟩)
  | @store t k r h1 => exact .inr (.inl ⟨t, h.place.proc j t k (by rw [h1]; rfl), by simp⟩)
  | @finished t k h1 => exact .inr (.inl ⟨t, h.place.proc j t k (by rw [h1]; rfl), by simp⟩)
  | @touch t b h1 => exact .inr (.inr (.inr ⟨rfl, t, b, rfl, h1⟩))
  | @touchRead t b h1 =>
    obtain ⟨x, h2, h3⟩ := h.value.read j t b h1
    have hm := h.value.touches j t (by rw [h1]; rfl)
    exact .inr (.inr (.inl ⟨rfl, t, b, rfl, (h.value.fin t x hm h2 h3).1, h1⟩))

/-- C154, partial (the race of `C154_race_false` is left): the only data race is on `finished`, between the worker that sets it and a thread that waits for the future. -/
theorem C154_races_partial {s : Pool V} (h : PoolReach n s) {l : Loc} (hr : Race s l) :
    ∃ t i j k b, l = .finished t ∧ s.th i = .stored t k ∧ s.th j = .touch t b := by
  obtain ⟨i, j, w, hne, h1, h2⟩ := hr
  have hi := h.inv
  have h3 := access_cases hi h1
  have h4 := access_cases hi h2
  rcases h3 with ⟨a1, a2⟩ | ⟨t, a1, a2⟩ | ⟨a1, -⟩ | ⟨a1, -⟩
  · rcases h4 with ⟨b1, -⟩ | ⟨u, b1, b2⟩ | ⟨-, u, b, b1, -⟩ | ⟨-, u, b, b1, -⟩
    · rw [a1] at b1; exact absurd (Option.some.inj b1) hne
    · rcases a2 with rfl | ⟨t, rfl, a2⟩
      · simp at b2
      · simp only [Loc.link.injEq, reduceCtorEq, or_false] at b2
        subst b2
        rw [b1] at a2
        simp at a2
    · subst b1; simp at a2
    · subst b1; simp at a2
  · rcases h4 with ⟨b1, b2⟩ | ⟨u, b1, b2⟩ | ⟨-, u, b, b1, b2, -⟩ | ⟨-, u, b, b1, b2⟩
    · rcases b2 with rfl | ⟨u, rfl, b2⟩
      · simp at a2
      · simp only [Loc.link.injEq, reduceCtorEq, or_false] at a2
        subst a2
        rw [a1] at b2
        simp at b2
    · have : u = t := by rcases a2 with rfl | rfl | rfl | rfl <;> simpa [eq_comm] using b2
      subst this
      rw [a1] at b1
      exact absurd (Place.proc.inj b1) hne
    · subst b1
      simp only [Loc.data.injEq, reduceCtorEq, or_false, false_or] at a2
      subst a2
      rw [a1] at b2
      cases b2
    · subst b1
      cases h1 with
      | @finished _ k h5 => exact ⟨u, i, j, k, b, rfl, h5, b2⟩
  · cases a1
  · cases a1

/-- C154: making and freeing a future races with nothing, if the future is not in use and no thread is waiting for it. -/
theorem C154_new_races_not {s : Pool V} (h : PoolReach n s) {t : Addr} (hp : s.gPlace t = .idle) (ht : ∀ j, ¬ (s.th j).touches t)
    {j : Nat} {l : Loc} {w : Bool} (ha : Access s j l w) : l ≠ .link t ∧ l ≠ .f t ∧ l ≠ .data t ∧ l ≠ .finished t := by
  have htt := ht j
  rcases access_cases h.inv ha with ⟨-, a2⟩ | ⟨u, a1, a2⟩ | ⟨-, u, b, rfl, -, a3⟩ | ⟨-, u, b, rfl, a3⟩
  · rcases a2 with rfl | ⟨u, rfl, a2⟩
    · simp
    · refine ⟨fun e => ?_, by simp, by simp, by simp⟩
      cases e
      rw [hp] at a2
      simp at a2
  · have hne : u ≠ t := by intro e; rw [e, hp] at a1; cases a1
    rcases a2 with rfl | rfl | rfl | rfl <;> simp [hne]
  · refine ⟨by simp, by simp, fun e => ?_, by simp⟩
    cases e
    exact htt (by rw [a3]; rfl)
  · refine ⟨by simp, by simp, by simp, fun e => ?_⟩
    cases e
    exact htt (by rw [a3]; rfl)

/-- C154: this race does happen, so that the behaviour is not defined by the C standard. -/
theorem C154_race_false : ∃ s : Pool Nat, PoolReach 1 s ∧ Race s (.finished 5) := by
  refine ⟨_, ⟨fun a => if a = 5 then some ⟨none, ⟨.eval, 0, false⟩⟩ else none,
    .tail (.tail (.tail (.tail (.tail (.tail (.tail (.tail (.tail (.tail (.tail (.tail .refl
    (.new (i := 1) (t := 5) (b := .client) 3 rfl rfl rfl (fun j => ?_) (.inr rfl)))
    (.enqLock (i := 1) (t := 5) (b := .client) rfl rfl rfl))
    (.enqPut (i := 1) (t := 5) (b := .client) rfl (by decide) rfl))
    (.signalNone (i := 1) (t := 5) (b := .client) rfl (fun w => ?_)))
    (.enqUnlock (i := 1) (t := 5) (b := .client) rfl (by simp)))
    (.touch (i := 1) (t := 5) (b := .client) rfl rfl))
    (.lock (i := 0) rfl rfl rfl))
    (.take (i := 0) (t := 5) rfl (by decide) rfl))
    (.unlock (i := 0) (t := 5) (k := 0) rfl))
    (.eval (i := 0) (t := 5) (k := 0) rfl rfl rfl))
    (.ret (i := 0) (t := 5) (k := 0) 7 rfl))
    (.store (i := 0) (t := 5) (k := 0) (r := 7) rfl rfl)⟩,
    0, 1, false, by decide, .finished (k := 0) rfl, .touch (b := .client) rfl⟩
  · simp only [Pool.init]; split <;> exact id
  · simp only [Pool.init, upd]; split <;> [simp; (split <;> simp)]

/-! ## Examples -/

/-- A state with two stores in a buffer and a client that waits, and one, after both stores have reached the memory in order, in which the client
has the result. -/
example : (∃ s : Buffered Nat, BReach true 1 s ∧ s.buf 0 = [.data 5 0 7, .finished 5 0] ∧ s.pool.th 0 = .getTask ∧
      s.pool.th 1 = .touch 5 .client ∧ s.pool.gPlace 5 = .proc 0) ∧
    ∃ s : Buffered Nat, BReach true 1 s ∧ s.buf 0 = [] ∧ s.pool.th 1 = .touched 5 7 .client := by
  have mv : ∀ {s p : Pool Nat} {i : Nat} {buf : Nat → List (FutureStore Nat)} (x : Th Nat), p.th = upd s.th i x → (s.th i).stores = false →
      ((s.th i).fence = true → buf i = []) →
      ∀ j, p.th j ≠ s.th j → (s.th j).stores = false ∧ ((s.th j).fence = true → buf j = []) := by
    intro s p i buf x h1 h2 h3 j hj
    by_cases e : j = i
    · subst e; exact ⟨h2, h3⟩
    · rw [h1, upd_ne _ _ e] at hj; exact absurd rfl hj
  have h0 := BReach.init (V := Nat) (fifo := true) (n := 1) (fun a => if a = 5 then some ⟨none, ⟨.eval, 0, false⟩⟩ else none)
  have h1 := h0.step (.other (.new (i := 1) (t := 5) (b := .client) 3 rfl rfl rfl
    (fun j => by simp only [Pool.init]; split <;> exact id) (.inr rfl)) (mv _ rfl rfl (fun _ => rfl)))
  have h2 := h1.step (.other (.enqLock (i := 1) (t := 5) (b := .client) rfl rfl rfl) (mv _ rfl rfl (fun _ => rfl)))
  have h3 := h2.step (.other (.enqPut (i := 1) (t := 5) (b := .client) rfl (by decide) rfl) (mv _ rfl rfl (fun _ => rfl)))
  have h4 := h3.step (.other (.signalNone (i := 1) (t := 5) (b := .client) rfl
    (fun w => by simp only [Pool.init, upd]; split <;> [simp; (split <;> simp)])) (mv _ rfl rfl (fun _ => rfl)))
  have h5 := h4.step (.other (.enqUnlock (i := 1) (t := 5) (b := .client) rfl (by simp)) (mv _ rfl rfl (fun _ => rfl)))
  have h6 := h5.step (.other (.touch (i := 1) (t := 5) (b := .client) rfl rfl) (mv _ rfl rfl (fun _ => rfl)))
  have h7 := h6.step (.other (.lock (i := 0) rfl rfl rfl) (mv _ rfl rfl (fun _ => rfl)))
  have h8 := h7.step (.other (.take (i := 0) (t := 5) rfl (by decide) rfl) (mv _ rfl rfl (fun _ => rfl)))
  have h9 := h8.step (.other (.unlock (i := 0) (t := 5) (k := 0) rfl) (mv _ rfl rfl (fun _ => rfl)))
  have h10 := h9.step (.other (.eval (i := 0) (t := 5) (k := 0) rfl rfl rfl) (mv _ rfl rfl (fun _ => rfl)))
  have h11 := h10.step (.other (.ret (i := 0) (t := 5) (k := 0) 7 rfl) (mv _ rfl rfl (fun _ => rfl)))
  have h12 := h11.step (.store (i := 0) (t := 5) (k := 0) (r := 7) rfl)
  have h13 := h12.step (.finished (i := 0) (t := 5) (k := 0) rfl)
  have h14 := h13.step (.drain (i := 0) (a := []) (b := [.finished 5 0]) (w := .data 5 0 7) rfl (by simp) rfl)
  have h15 := h14.step (.drain (i := 0) (a := []) (b := []) (w := .finished 5 0) rfl (by simp) rfl)
  have h16 := h15.step (.other (.touchEnd (i := 1) (t := 5) (b := .client) rfl rfl rfl) (mv _ rfl rfl (fun _ => rfl)))
  have h17 := h16.step (.other (.touchRead (i := 1) (t := 5) (b := .client) rfl rfl) (mv _ rfl rfl (fun _ => rfl)))
  exact ⟨⟨_, h13, rfl, rfl, rfl, rfl⟩, _, h17, rfl, rfl⟩

end Sp
