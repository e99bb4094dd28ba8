import Verif.Lemmas.ThreadPoolNested
import Verif.Props.ThreadPoolFair

/-! # C29, C153: functions of futures that wait for other futures return if there are enough workers -/

set_option linter.unusedSectionVars false

namespace Sp
variable {V : Type} [Inhabited V] {n : Nat} {σ : Nat → Pool V}

/-- C153 for functions that wait for futures: in every fair execution in which the pool is not finished, in which functions only wait for
futures that are enqueued after them, for example the ones that they have made, and in which there is at each time a worker that does not wait,
functions can fail to return only by not ending themselves. -/
theorem C153_nested_return (hE : Execution n σ) (hF : FairRun n σ) (hQ : QueueRoom σ) (hM : MemoryRoom n σ) (hend : FunctionsEnd σ)
    (hfin : ∀ m, (σ m).gFinishAt = none)
    (hlater : ∀ m i u t k, (σ m).th i = .touch u (.inF t k) → ∃ j > k, (σ m).gEnqueued[j]? = some u)
    (hfree : ∀ m, ∃ i < n, ∀ u b, (σ m).th i ≠ .touch u b) : FunctionsReturn σ :=
  GoodRun.functionsReturn_nested ⟨hE, hF, hQ, hM⟩ hend hfin hlater hfree

/-- C29, without bound on the nesting: in every fair execution in which the pool is not finished and functions end and only wait for
futures that are enqueued after them, if fewer futures than there are workers, the ones in `W`, have functions that wait, then each call of
`sph_future_touch`, of a client or of a function, returns what the function of the future has returned. Partial because with as many waiting
functions as workers it is false, `C29_nested_false`. -/
theorem C29_enough_workers_partial (hE : Execution n σ) (hF : FairRun n σ) (hQ : QueueRoom σ) (hM : MemoryRoom n σ) (hend : FunctionsEnd σ)
    (hfin : ∀ m, (σ m).gFinishAt = none)
    (hlater : ∀ m i u t k, (σ m).th i = .touch u (.inF t k) → ∃ j > k, (σ m).gEnqueued[j]? = some u)
    (W : Finset Addr) (hW : W.card < n) (hwait : ∀ m i u t k, (σ m).th i = .touch u (.inF t k) → t ∈ W)
    {m i : Nat} {t : Addr} {b : Back} (ht : (σ m).th i = .touch t b) :
    ∃ m' ≥ m, ∃ v, (σ m').th i = .touched t v b ∧ (σ m').gResult t = some v := by
  refine C153_touch_returns (by omega) hE hF (C153_nested_return hE hF hQ hM hend hfin hlater fun m => ?_) hQ hM hfin ht
  by_contra hcon
  push Not at hcon
  have hto : ∀ i < n, ∃ u t k, (σ m).th i = .touch u (.inF t k) := by
    intro i hi
    obtain ⟨u, b, e⟩ := hcon i hi
    have hk := ((hE.inv m).kind i).2 hi
    rw [e] at hk
    cases b with
    | inF t k => exact ⟨u, t, k, e⟩
    | _ => cases hk
  choose! fu ft fk hf using hto
  have hinj : Set.InjOn ft (Finset.range n : Set Nat) := by
    intro i hi j hj hij
    have hi := Finset.mem_range.1 hi
    have hj := Finset.mem_range.1 hj
    have e1 := (hE.inv m).place.proc i (ft i) (fk i) (by rw [hf i hi]; rfl)
    have e2 := (hE.inv m).place.proc j (ft j) (fk j) (by rw [hf j hj]; rfl)
    have hij : ft i = ft j := hij
    rw [hij, e2] at e1
    cases e1
    rfl
  have := Finset.card_le_card_of_injOn ft (s := Finset.range n) (t := W)
    (fun i hi => hwait m i _ _ _ (hf i (Finset.mem_range.1 hi))) hinj
  rw [Finset.card_range] at this
  omega

/-! ## Example

Two workers. The client 2 makes the future 5. Its function, in worker 0, makes the future 6 and waits for it. Worker 1 runs the function of
that one. -/

/-- Worker 1 does not wait, worker 0 waits only in the task 0 at 5 for the task 1, and the pool is not finished. -/
def exampleNestedCheck (s : Pool Nat) : Bool :=
  (match s.th 1 with | .touch _ _ => false | _ => true) && s.gFinishAt.isNone &&
  match s.th 0 with | .touch u (.inF t k) => decide (t = 5 ∧ k = 0 ∧ s.gEnqueued[1]? = some u) | _ => true

theorem exampleNestedCheck_iff {s : Pool Nat} (h : exampleNestedCheck s = true) : (∀ u b, s.th 1 ≠ .touch u b) ∧ s.gFinishAt = none ∧
    ∀ u t k, s.th 0 = .touch u (.inF t k) → t = 5 ∧ k = 0 ∧ s.gEnqueued[1]? = some u := by
  rw [exampleNestedCheck, Bool.and_eq_true, Bool.and_eq_true] at h
  obtain ⟨⟨h1, h2⟩, h3⟩ := h
  refine ⟨fun u b e => ?_, by simpa using h2, fun u t k e => ?_⟩
  · rw [e] at h1
    cases h1
  · rw [e] at h3
    exact of_decide_eq_true h3

/-- The memory has space for two futures. -/
def exampleNestedMem : QMem (TaskRest Nat) := fun a => if a = 5 ∨ a = 6 then some ⟨none, ⟨.eval, 0, false⟩⟩ else none

theorem exampleNested_run : ∃ σ : Nat → Pool Nat, ∃ m M, Execution 2 σ ∧ (∀ m, exampleNestedCheck (σ m) = true) ∧
    (σ m).th 0 = .touch 6 (.inF 5 0) ∧ (σ m).gPlace 6 = .queued ∧
    ∃ s, (∀ m ≥ M, σ m = s) ∧ (∀ i, s.th i = .waiting ∨ s.th i = .client) ∧ s.gEnqueued = [5, 6] := by
  obtain ⟨σ, m, M, h1, h2, h3, h4⟩ := StepsIn.run_through (V := Nat) (n := 2) (P := fun s => exampleNestedCheck s = true) (mem := exampleNestedMem)
    (.tail (.tail (.tail (.tail (.tail (.tail (.tail (.tail (.tail (.tail (.tail (.tail (.tail (.tail (.tail (.refl rfl)
    (.new (i := 2) (t := 5) (b := .client) 3 rfl rfl rfl (fun j => by simp only [Pool.init]; split <;> exact id) (.inr rfl)) rfl)
    (.enqLock (i := 2) (t := 5) (b := .client) rfl rfl rfl) rfl)
    (.enqPut (i := 2) (t := 5) (b := .client) rfl (by decide) rfl) rfl)
    (.signalNone (i := 2) (t := 5) (b := .client) rfl (fun w => by simp only [Pool.init, upd]; split <;> [simp; (split <;> simp)])) rfl)
    (.enqUnlock (i := 2) (t := 5) (b := .client) rfl (by simp)) rfl)
    (.lock (i := 0) rfl rfl rfl) rfl)
    (.take (i := 0) (t := 5) rfl (by decide) rfl) rfl)
    (.unlock (i := 0) (t := 5) (k := 0) rfl) rfl)
    (.eval (i := 0) (t := 5) (k := 0) rfl rfl rfl) rfl)
    (.new (i := 0) (t := 6) (b := .inF 5 0) 4 rfl rfl rfl (fun j => by
      simp only [Pool.init, upd, Back.th]; repeat' split
      all_goals exact id) (.inl (by decide))) rfl)
    (.enqLock (i := 0) (t := 6) (b := .inF 5 0) rfl rfl rfl) rfl)
    (.enqPut (i := 0) (t := 6) (b := .inF 5 0) rfl (by decide) rfl) rfl)
    (.signalNone (i := 0) (t := 6) (b := .inF 5 0) rfl (fun w => by
      simp only [Pool.init, upd, Back.th]; repeat' split
      all_goals simp)) rfl)
    (.enqUnlock (i := 0) (t := 6) (b := .inF 5 0) rfl (by simp)) rfl)
    (.touch (i := 0) (t := 6) (b := .inF 5 0) rfl rfl) rfl)
    (.tail (.tail (.tail (.tail (.tail (.tail (.tail (.tail (.tail (.tail (.tail (.tail (.tail (.tail (.tail (.tail (.tail (.refl rfl)
    (.lock (i := 1) rfl rfl rfl) rfl)
    (.take (i := 1) (t := 6) rfl (by decide) rfl) rfl)
    (.unlock (i := 1) (t := 6) (k := 1) rfl) rfl)
    (.eval (i := 1) (t := 6) (k := 1) rfl rfl rfl) rfl)
    (.ret (i := 1) (t := 6) (k := 1) 7 rfl) rfl)
    (.store (i := 1) (t := 6) (k := 1) (r := 7) rfl rfl) rfl)
    (.finished (i := 1) (t := 6) (k := 1) rfl rfl) rfl)
    (.touchEnd (i := 0) (t := 6) (b := .inF 5 0) rfl rfl rfl) rfl)
    (.touchRead (i := 0) (t := 6) (b := .inF 5 0) rfl rfl) rfl)
    (.touchRet (i := 0) (t := 6) (b := .inF 5 0) rfl) rfl)
    (.ret (i := 0) (t := 5) (k := 0) 8 rfl) rfl)
    (.store (i := 0) (t := 5) (k := 0) (r := 8) rfl rfl) rfl)
    (.finished (i := 0) (t := 5) (k := 0) rfl rfl) rfl)
    (.lock (i := 0) rfl rfl rfl) rfl)
    (.wait (i := 0) rfl (by decide)) rfl)
    (.lock (i := 1) rfl rfl rfl) rfl)
    (.wait (i := 1) rfl (by decide)) rfl)
  refine ⟨σ, m, M, h1, h2, by rw [h3]; rfl, by rw [h3]; rfl, _, h4, fun i => ?_, rfl⟩
  by_cases e0 : i = 0
  · subst e0; exact .inl rfl
  · by_cases e1 : i = 1
    · subst e1; exact .inl rfl
    · right
      by_cases e2 : i = 2
      · subst e2; rfl
      · have e3 : ¬ i < 2 := by omega
        simp [upd, Pool.init, e0, e1, e2, e3]

/-- The hypotheses of `C153_nested_return` and `C29_enough_workers_partial`, while a function waits for a future in the queue. -/
example : ∃ σ : Nat → Pool Nat, Execution 2 σ ∧ FairRun 2 σ ∧ QueueRoom σ ∧ MemoryRoom 2 σ ∧ FunctionsEnd σ ∧
    (∀ m, (σ m).gFinishAt = none) ∧
    (∀ m i u t k, (σ m).th i = .touch u (.inF t k) → ∃ j > k, (σ m).gEnqueued[j]? = some u) ∧
    (∀ m, ∃ i < 2, ∀ u b, (σ m).th i ≠ .touch u b) ∧
    ({5} : Finset Addr).card < 2 ∧ (∀ m i u t k, (σ m).th i = .touch u (.inF t k) → t ∈ ({5} : Finset Addr)) ∧
    ∃ m, (σ m).th 0 = .touch 6 (.inF 5 0) ∧ (σ m).gPlace 6 = .queued := by
  obtain ⟨σ, m, M, hE, h1, h2, h3, s, h4, h5, h6⟩ := exampleNested_run
  have hnone : ∀ m, (σ m).gFinishAt = none := fun m => (exampleNestedCheck_iff (h1 m)).2.1
  have hzero : ∀ m i u t k, (σ m).th i = .touch u (.inF t k) → i = 0 := by
    intro m i u t k e
    have hi : i < 2 := ((hE.inv m).kind i).1 (by rw [e]; rfl)
    have : i ≠ 1 := by rintro rfl; exact (exampleNestedCheck_iff (h1 m)).1 _ _ e
    omega
  refine ⟨σ, hE, fairRun_of_quiet (M := M) ?_, queueRoom_of_few (M := M) (L := 2) hE ?_ (by omega), ?_, ?_, hnone, ?_, ?_, by decide, ?_, m, h2, h3⟩
  · intro m' hm i hgo
    rw [h4 m' hm] at hgo
    rcases h5 i with e | e
    · exact hgo.1 e
    · exact hgo.2.1 e
  · intro m' hm
    rw [h4 m' hm, h6]
    exact Nat.le_refl _
  · intro m i t j e
    have := (hE.inv m).fin.noFin (hnone m) i
    rw [e] at this
    cases this
  · intro m i t k _
    refine ⟨M, fun m' hm => ?_⟩
    rw [h4 m' hm]
    rcases h5 i with e | e <;> rw [e] <;> simp
  · intro m i u t k e
    obtain rfl := hzero m i u t k e
    obtain ⟨-, rfl, h⟩ := (exampleNestedCheck_iff (h1 m)).2.2 u t k e
    exact ⟨1, by decide, h⟩
  · exact fun m => ⟨1, by decide, (exampleNestedCheck_iff (h1 m)).1⟩
  · intro m i u t k e
    obtain rfl := hzero m i u t k e
    rw [((exampleNestedCheck_iff (h1 m)).2.2 u t k e).1]
    exact Finset.mem_singleton_self _

end Sp
