import Verif.Lemmas.ThreadPoolFair
import Verif.Props.ThreadPool

/-! # C153: under fair schedules tasks are run, waiting for futures returns, finishing the pool returns -/

set_option linter.unusedSectionVars false

namespace Sp
variable {V : Type} [Inhabited V] {n : Nat} {σ : Nat → Pool V}

/-- C153: in every fair execution in which the functions of futures return, each task that is in the queue, and was enqueued before
`sph_thread_pool_finish` was called if it is called, is at some time completed. Its function has then been called. -/
theorem C153_tasks_run (hn : 0 < n) (hE : Execution n σ) (hF : FairRun n σ) (hR : FunctionsReturn σ) (hQ : QueueRoom σ)
    (hM : MemoryRoom n σ) {m k : Nat} (hk : k < (σ m).gEnqueued.length) (hfin : ∀ m' F, (σ m').gFinishAt = some F → k < F) :
    ∃ m' ≥ m, k ∈ (σ m').gDone ∧ k ∈ (σ m').gCalled := by
  have h : GoodRun n σ := ⟨hE, hF, hQ, hM⟩
  suffices hs : ∃ m' ≥ m, k ∈ (σ m').gDone by
    obtain ⟨m', h1, h2⟩ := hs
    exact ⟨m', h1, h2, ((hE.inv m').serial.done k h2).2⟩
  obtain ⟨m₁, h1, h2⟩ := h.taken hR hk
  have h3 : k < (σ m₁).gTaken.length := by
    rcases h2 with h2 | h2
    · exact h2
    · cases hf : (σ m₁).gFinishAt with
      | none => exact absurd (h2 0 hn) ((hE.inv m₁).fin.noEnded hf 0)
      | some F =>
        have a1 := (hE.inv m₁).fin.ended F 0 hf (h2 0 hn)
        have a2 := hfin m₁ F hf
        omega
  obtain ⟨⟨i, t⟩, hp⟩ : ∃ p, (σ m₁).gTaken[k]? = some p := ⟨_, List.getElem?_eq_getElem h3⟩
  rcases (hE.inv m₁).serial.cover i t k hp with h4 | h4
  · exact ⟨m₁, h1, h4⟩
  · obtain ⟨m₂, h5, -, h6, -⟩ := h.completes hR h4
    exact ⟨m₂, by omega, h6⟩

/-- C153: in every fair execution in which the functions of futures return and the pool is not finished, each call of
`sph_future_touch` returns, with what the function of the future has returned. -/
theorem C153_touch_returns (hn : 0 < n) (hE : Execution n σ) (hF : FairRun n σ) (hR : FunctionsReturn σ) (hQ : QueueRoom σ)
    (hM : MemoryRoom n σ) (hfin : ∀ m, (σ m).gFinishAt = none) {m i : Nat} {t : Addr} {b : Back} (ht : (σ m).th i = .touch t b) :
    ∃ m' ≥ m, ∃ v, (σ m').th i = .touched t v b ∧ (σ m').gResult t = some v := by
  have h : GoodRun n σ := ⟨hE, hF, hQ, hM⟩
  obtain ⟨m₁, h1, h2, h3, h4, -⟩ := leave hE hF ht (fun m' _ _ => by
    obtain ⟨m₁, a1, a2⟩ := h.idle hR hn hfin m' t
    refine ⟨m₁, a1, fun e => ?_⟩
    have hmade := (hE.inv m₁).value.touches i t (by rw [e]; rfl)
    obtain ⟨x, hx⟩ := Option.ne_none_iff_exists'.1 ((hE.inv m₁).value.made t hmade)
    exact canGo_touch e hx ((hE.inv m₁).place2.idle t x a2 hmade hx))
  have hr := th_touch h4 h2 (by rw [h2]; exact h3)
  obtain ⟨m₂, g1, g2, g3, g4⟩ := leave_always hE hF hr (fun m' _ e => canGo_touchRead (hE.inv m') e)
  obtain ⟨v, hv⟩ := th_touchRead g4 g2 g3
  exact ⟨m₂ + 1, by omega, v, hv, ((hE.inv (m₂ + 1)).value.touched i t v b hv).2⟩

/-- C153: in every fair execution in which the functions of futures return, a call of `sph_thread_pool_finish` returns. The call has been
made by the thread `i` between `m` and `m + 1`. -/
theorem C153_finish_returns (hE : Execution n σ) (hF : FairRun n σ) (hR : FunctionsReturn σ) (hQ : QueueRoom σ)
    (hM : MemoryRoom n σ) {m i : Nat} (hc : (σ m).th i = .client) {u : Addr} (ht : (σ (m + 1)).th i = .enq .lock u (.fin 0)) :
    ∃ m' > m, (σ m').th i = .joined ∧ ∀ w < n, (σ m').th w = .ended := by
  have h : GoodRun n σ := ⟨hE, hF, hQ, hM⟩
  have hstep : 0 < n ∧ (σ (m + 1)).gMade u = false := by
    rcases hE.next m with e | hs
    · rw [e, hc] at ht; cases ht
    · generalize hs' : σ (m + 1) = s' at hs ht
      cases hs <;> simp only at ht ⊢ <;> grind [upd, canCall_iff, back_cases]
  obtain ⟨m₁, h1, h2, ks, h3, h4⟩ := h.finLoop n 0 (m + 1) u (by omega) hstep.1 ht hstep.2
  obtain ⟨M, h5⟩ := h.allEnd hR ks (by omega) (fun k hk => (h4 k hk).2)
  suffices hs : ∃ m' > m, (σ m').th i = .joined by
    obtain ⟨m', a1, a2⟩ := hs
    exact ⟨m', a1, a2, ((hE.inv m').size.joined i a2).2.2⟩
  have hjoin : ∀ d m₂, m₁ ≤ m₂ → m₂ ≤ m₁ + d → (∃ j, (σ m₂).th i = .join j) ∨ ∃ m' ≥ m₁, (σ m').th i = .joined := by
    intro d
    induction d with
    | zero =>
      intro m₂ a1 a2
      rw [show m₂ = m₁ by omega]
      exact .inl ⟨0, h2⟩
    | succ d ih =>
      intro m₂ a1 a2
      by_cases hd : m₂ ≤ m₁ + d
      · exact ih m₂ a1 hd
      · rw [show m₂ = m₁ + d + 1 by omega]
        rcases ih (m₁ + d) (by omega) (by omega) with ⟨j, hj⟩ | hj
        · rcases hE.next (m₁ + d) with e | hs
          · rw [e]; exact .inl ⟨j, hj⟩
          · by_cases hch : (σ (m₁ + d + 1)).th i = (σ (m₁ + d)).th i
            · rw [hch]; exact .inl ⟨j, hj⟩
            · rcases th_join hs hj hch with ⟨-, a3⟩ | ⟨-, a3⟩
              · exact .inl ⟨_, a3⟩
              · exact .inr ⟨_, by omega, a3⟩
        · exact .inr hj
  rcases hjoin (max M m₁ - m₁) (max M m₁) (by omega) (by omega) with ⟨j, hj⟩ | ⟨m', a1, a2⟩
  · obtain ⟨m', a1, a2⟩ := h.joins n j (max M m₁) (by omega) hj (fun w hw => hE.ended_stays (by omega) (h5 w hw))
    exact ⟨m', by omega, a2⟩
  · exact ⟨m', by omega, a2⟩

/-- C153: that the functions of futures return is only up to them if they do not wait for futures: in every fair execution in
which no worker waits for a future, they can fail to return only by not ending themselves. -/
theorem C153_functions_return (hE : Execution n σ) (hF : FairRun n σ) (hQ : QueueRoom σ) (hM : MemoryRoom n σ) (hend : FunctionsEnd σ)
    (hflat : ∀ m i, i < n → ∀ t b, (σ m).th i ≠ .touch t b) : FunctionsReturn σ :=
  GoodRun.functionsReturn ⟨hE, hF, hQ, hM⟩ hend hflat

/-- C153 is false for functions that wait for futures: for every number of workers there is a fair execution, in which all functions
would end and the pool is not finished, but each worker waits from some time on for ever for a future that is in the queue. -/
theorem C153_waiting_false (n : Nat) (hn : n < 2147483647) :
    ∃ σ : Nat → Pool V, Execution n σ ∧ FairRun n σ ∧ FunctionsEnd σ ∧ QueueRoom σ ∧ MemoryRoom n σ ∧ (∀ m, (σ m).gFinishAt = none) ∧
      ∃ M, ∀ m ≥ M, ∀ i < n, (σ m).th i = .touch (n + i) (.inF i i) ∧ (σ m).gPlace (n + i) = .queued := by
  obtain ⟨s, h1, h2, h3, h4, -, h6, h7, h8, -⟩ := nested_phase2 (V := V) n (by omega)
    (fun _ => some ⟨none, ⟨.eval, default, false⟩⟩) (by simp) n (Nat.le_refl _)
  obtain ⟨σ, M, hE, hM⟩ := runTo h1
  have hnone : ∀ m, (σ m).gFinishAt = none := hE.noFinish (fun m hm => by rw [hM m hm]; exact h3)
  have hth : ∀ i, (i < n ∧ s.th i = .touch (n + i) (.inF i i)) ∨ s.th i = .client := by
    intro i
    rw [h4]
    by_cases hi : i < n <;> simp [hi]
  refine ⟨σ, hE, fairRun_of_quiet (M := M) ?_, ?_, queueRoom_of_few (M := M) (L := n + n) hE ?_ (by omega), ?_, hnone, M, ?_⟩
  · intro m hm i hgo
    rw [hM m hm] at hgo
    obtain ⟨-, g2, -, s', g3, g4⟩ := hgo
    rcases hth i with ⟨hi, e⟩ | e
    · have hinv : PoolInv n s := (PoolInv.init (n := n) _).steps h1
      generalize hr : (Except.ok s' : C (Pool V)) = r at g3
      have hs : Steps n s s' := .tail .refl (hr ▸ g3)
      have := (stuck_steps hinv (t := fun i => n + i) (b := fun i => .inF i i) (fun j hj => ⟨by rw [h4]; simp [hj], h6 j hj⟩) hs i hi).1
      exact g4 (this.trans e.symm)
    · exact g2 e
  · intro m i t k _
    refine ⟨M, fun m' hm => ?_⟩
    rw [hM m' hm]
    rcases hth i with ⟨-, e⟩ | e <;> rw [e] <;> simp
  · intro m hm
    rw [hM m hm, h8]
  · intro m i t j e
    have := (hE.inv m).fin.noFin (hnone m) i
    rw [e] at this
    cases this
  · intro m hm i hi
    rw [hM m hm]
    exact ⟨by rw [h4]; simp [hi], h6 i hi⟩

/-! ## Examples -/

/-- The hypotheses of `C153_tasks_run` and `C153_touch_returns`: with one worker, the client 1 makes a future and calls
`sph_future_touch` while it is in the queue. -/
example : ∃ σ : Nat → Pool Nat, Execution 1 σ ∧ FairRun 1 σ ∧ FunctionsReturn σ ∧ QueueRoom σ ∧ MemoryRoom 1 σ ∧
    (∀ m, (σ m).gFinishAt = none) ∧ ∃ m, (σ m).th 1 = .touch 5 .client ∧ (σ m).gPlace 5 = .queued ∧ 0 < (σ m).gEnqueued.length := by
  obtain ⟨σ, m, M, h1, h2, h3, h4, h5, h6, h7, h8⟩ := quietRun (V := Nat) (mem := fun a => if a = 5 then some ⟨none, ⟨.eval, 0, false⟩⟩ else none)
    (.tail (.tail (.tail (.tail (.tail .refl
    (.new (i := 1) (t := 5) (b := .client) 3 rfl rfl rfl (fun j => by simp only [Pool.init]; split <;> exact id) (.inr rfl)))
    (.enqLock (i := 1) (t := 5) (b := .client) rfl rfl rfl))
    (.enqPut (i := 1) (t := 5) (b := .client) rfl (by decide) rfl))
    (.signalNone (i := 1) (t := 5) (b := .client) rfl (fun w => by simp only [Pool.init, upd]; split <;> [simp; (split <;> simp)])))
    (.enqUnlock (i := 1) (t := 5) (b := .client) rfl (by simp)))
    (.touch (i := 1) (t := 5) (b := .client) rfl rfl)
    (.tail (.tail (.tail (.tail (.tail (.tail (.tail (.tail (.tail (.tail (.tail (.tail .refl
    (.lock (i := 0) rfl rfl rfl))
    (.take (i := 0) (t := 5) rfl (by decide) rfl))
    (.unlock (i := 0) (t := 5) (k := 0) rfl))
    (.eval (i := 0) (t := 5) (k := 0) rfl rfl rfl))
    (.ret (i := 0) (t := 5) (k := 0) 7 rfl))
    (.store (i := 0) (t := 5) (k := 0) (r := 7) rfl rfl))
    (.finished (i := 0) (t := 5) (k := 0) rfl rfl))
    (.touchEnd (i := 1) (t := 5) (b := .client) rfl rfl rfl))
    (.touchRead (i := 1) (t := 5) (b := .client) rfl rfl))
    (.touchRet (i := 1) (t := 5) (b := .client) rfl))
    (.lock (i := 0) rfl rfl rfl))
    (.wait (i := 0) rfl (by decide)))
    (fun i => by
      by_cases e0 : i = 0
      · subst e0; exact .inl rfl
      · by_cases e1 : i = 1
        · subst e1; exact .inr (.inl rfl)
        · have e2 : ¬ i < 1 := by omega
          simp [upd, Pool.init, e0, e1])
    (by decide)
  refine ⟨σ, h1, h2, h3, h4, h5, h1.noFinish (M := M) (fun m' hm => by rw [h8 m' hm]; rfl), m + 1, ?_⟩
  rw [h7]
  exact ⟨rfl, rfl, by decide⟩

/-- The hypotheses of `C153_finish_returns`: the worker sleeps when the client 1 calls `sph_thread_pool_finish`. -/
example : ∃ σ : Nat → Pool Nat, Execution 1 σ ∧ FairRun 1 σ ∧ FunctionsReturn σ ∧ QueueRoom σ ∧ MemoryRoom 1 σ ∧
    ∃ m, (σ m).th 0 = .waiting ∧ (σ m).th 1 = .client ∧ (σ (m + 1)).th 1 = .enq .lock 5 (.fin 0) := by
  obtain ⟨σ, m, M, h1, h2, h3, h4, h5, h6, h7, h8⟩ := quietRun (V := Nat) (mem := fun _ => none)
    (.tail (.tail .refl
    (.lock (i := 0) rfl rfl rfl))
    (.wait (i := 0) rfl rfl))
    (.finStart (i := 1) (u := 5) (y := 0) rfl rfl (by decide) (fun j => by
      simp only [Pool.init, upd]; split <;> [exact id; (split <;> exact id)]) rfl)
    (.tail (.tail (.tail (.tail (.tail (.tail (.tail (.tail (.tail (.tail .refl
    (.enqLock (i := 1) (t := 5) (b := .fin 0) rfl rfl rfl))
    (.enqPut (i := 1) (t := 5) (b := .fin 0) rfl (by decide) rfl))
    (.signal (i := 1) (w := 0) (t := 5) (b := .fin 0) rfl rfl))
    (.finLast (i := 1) (t := 5) (j := 0) rfl (by decide)))
    (.relock (i := 0) rfl rfl rfl))
    (.take (i := 0) (t := 5) rfl (by decide) rfl))
    (.unlock (i := 0) (t := 5) (k := 0) rfl))
    (.finish (i := 0) (t := 5) (k := 0) rfl rfl rfl))
    (.join (i := 1) (j := 0) rfl (by decide) rfl))
    (.joined (i := 1) (j := 1) rfl (by decide)))
    (fun i => by
      by_cases e0 : i = 0
      · subst e0; exact .inr (.inr (.inl rfl))
      · by_cases e1 : i = 1
        · subst e1; exact .inr (.inr (.inr rfl))
        · simp [upd, Pool.init, e0, e1])
    (by decide)
  exact ⟨σ, h1, h2, h3, h4, h5, m, by rw [h6]; rfl, by rw [h6]; rfl, by rw [h7]; rfl⟩

/-- The hypotheses of `C153_functions_return`: a worker that runs a function, which makes no other futures and returns. -/
example : ∃ σ : Nat → Pool Nat, Execution 1 σ ∧ FairRun 1 σ ∧ QueueRoom σ ∧ MemoryRoom 1 σ ∧ FunctionsEnd σ ∧
    ∃ m, ((σ m).th 0).calls 5 0 := by
  obtain ⟨σ, m, M, h1, h2, h3, h4, h5, h6, h7, h8⟩ := quietRun (V := Nat) (mem := fun a => if a = 5 then some ⟨none, ⟨.eval, 0, false⟩⟩ else none)
    (.tail (.tail (.tail (.tail (.tail (.tail (.tail (.tail .refl
    (.new (i := 1) (t := 5) (b := .client) 3 rfl rfl rfl (fun j => by simp only [Pool.init]; split <;> exact id) (.inr rfl)))
    (.enqLock (i := 1) (t := 5) (b := .client) rfl rfl rfl))
    (.enqPut (i := 1) (t := 5) (b := .client) rfl (by decide) rfl))
    (.signalNone (i := 1) (t := 5) (b := .client) rfl (fun w => by simp only [Pool.init, upd]; split <;> [simp; (split <;> simp)])))
    (.enqUnlock (i := 1) (t := 5) (b := .client) rfl (by simp)))
    (.lock (i := 0) rfl rfl rfl))
    (.take (i := 0) (t := 5) rfl (by decide) rfl))
    (.unlock (i := 0) (t := 5) (k := 0) rfl))
    (.eval (i := 0) (t := 5) (k := 0) rfl rfl rfl)
    (.tail (.tail (.tail (.tail (.tail .refl
    (.ret (i := 0) (t := 5) (k := 0) 7 rfl))
    (.store (i := 0) (t := 5) (k := 0) (r := 7) rfl rfl))
    (.finished (i := 0) (t := 5) (k := 0) rfl rfl))
    (.lock (i := 0) rfl rfl rfl))
    (.wait (i := 0) rfl (by decide)))
    (fun i => by
      by_cases e0 : i = 0
      · subst e0; exact .inl rfl
      · by_cases e1 : i = 1
        · subst e1; exact .inr (.inl rfl)
        · simp [upd, Pool.init, e0, e1])
    (by decide)
  refine ⟨σ, h1, h2, h4, h5, fun m' i t k hc => ?_, m + 1, by rw [h7]; exact ⟨rfl, rfl⟩⟩
  exfalso
  obtain ⟨m₁, g1, r, g2⟩ := h3 m' i t k (hc m' (Nat.le_refl _))
  have := hc m₁ g1
  rw [g2] at this
  exact this

end Sp
