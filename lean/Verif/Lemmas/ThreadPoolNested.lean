import Verif.Lemmas.ThreadPoolFair
import Mathlib.Data.Finset.Max
import Mathlib.Data.Finset.Lattice.Fold

/-! # Functions of futures that wait for other futures, with enough workers -/

set_option linter.unusedSectionVars false

namespace Sp
variable {V : Type} {n : Nat} {s s' : Pool V} {σ : Nat → Pool V}

/-- While a task at an address is processed, no later task is enqueued at the same address. -/
def LastInv (s : Pool V) : Prop := ∀ i t k j, (s.th i).proc = some (t, k) → s.gEnqueued[j]? = some t → j ≤ k

theorem lastInv_step (hs : Step n s (.ok s')) (hP : PlaceInv s) (h : LastInv s) : LastInv s' := by
  have h0 : ∀ t q, s.queue.size ≠ 0 → queueDeq s.queue s.mem = .ok (t, q) → ∀ j, s.gEnqueued[j]? = some t → j ≤ s.gTaken.length := by
    intro t q hq hd j hj
    have h1 := hP.take_eq hq hd
    by_contra hlt
    have hn := hP.repr.nodup
    have e1 : s.waitingTasks[0]? = some t := by rw [Pool.waitingTasks, List.getElem?_drop]; exact h1
    have e2 : s.waitingTasks[j - s.gTaken.length]? = some t := by
      rw [Pool.waitingTasks, List.getElem?_drop, show s.gTaken.length + (j - s.gTaken.length) = j by omega]; exact hj
    have h3 := (List.nodup_iff_injective_get.1 hn)
    obtain ⟨l1, l2⟩ := List.getElem?_eq_some_iff.1 e1
    obtain ⟨l3, l4⟩ := List.getElem?_eq_some_iff.1 e2
    have := @h3 ⟨0, l1⟩ ⟨_, l3⟩ (by simp only [List.get_eq_getElem]; rw [l2, l4])
    simp only [Fin.mk.injEq] at this
    omega
  have h1 : ∀ i t b, s.th i = .enq .put t b → ∀ j k, (s.th j).proc ≠ some (t, k) := by
    intro i t b hi j k hj
    have a := hP.pend i t (by rw [hi]; rfl)
    rw [hP.proc j t k hj] at a
    cases a
  intro i t k j
  have h' := h i t k j
  clear h hP
  cases hs <;> simp only <;> grind [upd, Th.proc, Back.proc, canCall_iff, back_proc]

theorem PoolReach.last (h : PoolReach n s) : LastInv s := by
  obtain ⟨mem, hs⟩ := h
  induction hs with
  | refl =>
    intro i t k j hp
    simp only [Pool.init] at hp
    split at hp <;> cases hp
  | tail h1 h2 ih => exact lastInv_step h2 (PoolReach.inv ⟨mem, h1⟩).place ih

variable [Inhabited V]

/-- Functions return if they only wait for futures that were enqueued after their own task and there is always a worker that does not wait. -/
theorem GoodRun.functionsReturn_nested (h : GoodRun n σ) (hend : FunctionsEnd σ) (hfin : ∀ m, (σ m).gFinishAt = none)
    (hlater : ∀ m i u t k, (σ m).th i = .touch u (.inF t k) → ∃ j > k, (σ m).gEnqueued[j]? = some u)
    (hfree : ∀ m, ∃ i < n, ∀ u b, (σ m).th i ≠ .touch u b) : FunctionsReturn σ := by
  classical
  have hret := h.returns hend
  by_cases hnone : ∀ i, ¬ WaitsForever σ i
  · exact fun m i t k => (hret i).resolve_right (hnone i) m t k
  exfalso
  push Not at hnone
  obtain ⟨i₀, hi₀⟩ := hnone
  have hlt : ∀ i, WaitsForever σ i → i < n := by
    rintro i ⟨M, u, t, k, hs⟩
    exact ((h.exec.inv M).kind i).1 (by rw [hs M (Nat.le_refl _)]; rfl)
  choose! fM fu ft fk hf using fun i (hi : WaitsForever σ i) => hi
  obtain ⟨M, hM⟩ : ∃ M, ∀ i < n, fM i ≤ M :=
    ⟨(Finset.range n).sup fM, fun i hi => Finset.le_sup (f := fM) (Finset.mem_range.2 hi)⟩
  have hfree' : ∃ i < n, ¬ WaitsForever σ i := by
    by_contra hcon
    push Not at hcon
    obtain ⟨i, hi, hi2⟩ := hfree M
    exact hi2 _ _ (hf i (hcon i hi) M (hM i hi))
  obtain ⟨i, hi, hmaxk⟩ := Finset.exists_max_image ((Finset.range n).filter fun i => WaitsForever σ i) fk
    ⟨i₀, Finset.mem_filter.2 ⟨Finset.mem_range.2 (hlt i₀ hi₀), hi₀⟩⟩
  have hi := (Finset.mem_filter.1 hi).2
  have hw := hf i hi
  have hMi := hM i (hlt i hi)
  obtain ⟨m₁, hm₁⟩ := h.fair i (fM i) (fun m' hm => by rw [hw m' hm, hw _ (Nat.le_refl _)])
  obtain ⟨m', hm', hcase⟩ := h.idle' (fun i _ => hret i) hfree' hfin (max M m₁) (fu i)
  have hth := hw m' (by omega)
  rcases hcase with hidle | ⟨i', k', hp, hs'⟩
  · refine hm₁ m' (by omega) ?_
    have hmade := (h.exec.inv m').value.touches i (fu i) (by rw [hth]; rfl)
    obtain ⟨x, hx⟩ := Option.ne_none_iff_exists'.1 ((h.exec.inv m').value.made _ hmade)
    exact canGo_touch hth hx ((h.exec.inv m').place2.idle _ x hidle hmade hx)
  · have h1 : fk i' ≤ fk i := hmaxk i' (Finset.mem_filter.2 ⟨Finset.mem_range.2 (hlt i' hs'), hs'⟩)
    obtain ⟨j, hj, hj2⟩ := hlater m' i _ _ _ hth
    have h2 : j ≤ k' := (h.exec.reach m').last i' _ k' j hp hj2
    have h3 : k' = fk i' := by
      rw [hf i' hs' m' (by have := hM i' (hlt i' hs'); omega)] at hp
      simp only [Th.proc, Back.proc, Option.some.injEq, Prod.mk.injEq] at hp
      exact hp.2.symm
    omega

/-! ## Executions in which all states have a property -/

omit [Inhabited V]

/-- Steps through states with the property `P`. -/
inductive StepsIn (n : Nat) (P : Pool V → Prop) : Pool V → Pool V → Prop
  | refl {s : Pool V} : P s → StepsIn n P s s
  | tail {s t u : Pool V} : StepsIn n P s t → Step n t (.ok u) → P u → StepsIn n P s u

/-- Steps through states with a property are part of an execution in which all states have it. -/
theorem StepsIn.run {P : Pool V → Prop} {mem : QMem (TaskRest V)} {s : Pool V} (h : StepsIn n P (Pool.init n mem) s) :
    ∃ σ M, Execution n σ ∧ (∀ m, P (σ m)) ∧ ∀ m ≥ M, σ m = s := by
  generalize hi : Pool.init n mem = s₀ at h
  induction h with
  | refl h0 => exact ⟨fun _ => s₀, 0, ⟨⟨mem, hi.symm⟩, fun _ => .inl rfl⟩, fun _ => hi ▸ h0, fun _ _ => rfl⟩
  | tail h1 h2 h3 ih =>
    obtain ⟨σ, M, a1, a2, a3⟩ := ih
    obtain ⟨σ', b1, b2, b3⟩ := extendStep a1 a3 h2
    refine ⟨σ', M + 1, b1, fun m => ?_, b3⟩
    by_cases hm : m ≤ M
    · rw [b2 m hm]; exact a2 m
    · rw [b3 m (by omega)]; exact h3

/-- The same, with a state in between. -/
theorem StepsIn.run_through {P : Pool V → Prop} {mem : QMem (TaskRest V)} {s s₂ : Pool V} (h : StepsIn n P (Pool.init n mem) s)
    (h2 : StepsIn n P s s₂) : ∃ σ m M, Execution n σ ∧ (∀ m, P (σ m)) ∧ σ m = s ∧ ∀ m ≥ M, σ m = s₂ := by
  obtain ⟨σ, M, a1, a2, a3⟩ := h.run
  suffices hs : ∃ σ' M', Execution n σ' ∧ (∀ m, P (σ' m)) ∧ σ' M = s ∧ M ≤ M' ∧ ∀ m ≥ M', σ' m = s₂ by
    obtain ⟨σ', M', b1, b2, b3, -, b4⟩ := hs
    exact ⟨σ', M, M', b1, b2, b3, b4⟩
  induction h2 with
  | refl => exact ⟨σ, M, a1, a2, a3 M (Nat.le_refl _), Nat.le_refl _, a3⟩
  | tail h3 h4 h5 ih =>
    obtain ⟨σ', M', b1, b2, b3, b4, b5⟩ := ih
    obtain ⟨σ'', c1, c2, c3⟩ := extendStep b1 b5 h4
    refine ⟨σ'', M' + 1, c1, fun m => ?_, by rw [c2 M b4]; exact b3, by omega, c3⟩
    by_cases hm : m ≤ M'
    · rw [c2 m hm]; exact b2 m
    · rw [c3 m (by omega)]; exact h5

end Sp
