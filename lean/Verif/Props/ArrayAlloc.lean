import Verif.Model.ArrayAlloc
import Verif.Props.ArrayHeapMore
import Verif.Props.CompositionsAlloc

/-!
# C186: functions with one new array, when the allocation fails
-/

set_option linter.unusedSectionVars false

namespace Sp
variable {S : Type}

private theorem new_times (h : ArrayHeap S) (b : Buf Nat) : ((h.alloc (.times b)).2).times (h.alloc (.times b)).1 = .ok b := by
  simp [ArrayHeap.times, ArrayHeap.alloc]

/-- **C186 is false for the functions that use the allocation helpers**: whatever the arguments and the memory are, if the allocation fails, then no
status is returned; the pointer that was not set is used. -/
theorem C186_false {σ : Type} (next : σ → Nat × σ) (p q count factor fuel : Nat) (s : σ) (h : ArrayHeap S) (g : ArrayHeap ℚ) :
    timesDuplicateAlloc false p count h = .error .uninitialized ∧ timesConstantAlloc false count factor h = .error .uninitialized ∧
      timesRandomBinaryAlloc false next count fuel q s h = .error .uninitialized ∧ timesScaleAlloc false p count factor q h = .error .uninitialized ∧
      timesToSamplesReplaceAlloc false p count g = .error .uninitialized ∧ samplesToTimesReplaceAlloc false p count g = .error .uninitialized :=
  ⟨rfl, rfl, rfl, rfl, rfl, rfl⟩

/-- **C186, what holds of `sp_times_duplicate`**: if the allocation succeeds, then the status is success and the rest is as in C142. -/
theorem C186_duplicate_partial {h : ArrayHeap S} (hf : h.Fresh) {p count : Nat} {a : Buf Nat} (hp : h.cell p = some (.times a)) (hc : count ≤ a.length) :
    ∃ q h', timesDuplicateAlloc true p count h = .ok (0, some q, h') ∧ h.cell q = none ∧ h'.cell q = some (.times (a.take count)) ∧
      ∀ b, b ≠ q → h'.cell b = h.cell b := by
  obtain ⟨q, h', e, hs⟩ := C142_duplicate hf hp hc
  refine ⟨q, h', ?_, hs⟩
  have : timesDuplicateAlloc true p count h = (timesDuplicateHeap p count h).map fun r => (0, some r.1, r.2) := by
    rw [timesDuplicateAlloc, timesDuplicateHeap]
    simp only [arrayMalloc, if_true, ne_eq, not_true_eq_false, if_false, hasBeenSet, ok_bind', new_times]
    exact bind_map fun a => bind_map fun c => bind_map fun h => rfl
  rw [this, e]
  rfl

/-- **C186, what holds of `sp_times_constant`**. -/
theorem C186_constant_partial {h : ArrayHeap S} (hf : h.Fresh) (count value : Nat) :
    ∃ q h', timesConstantAlloc true count value h = .ok (0, some q, h') ∧ h.cell q = none ∧
      h'.cell q = some (.times (List.replicate count value)) ∧ ∀ b, b ≠ q → h'.cell b = h.cell b := by
  obtain ⟨q, h', e, hs⟩ := C142_constant hf count value
  refine ⟨q, h', ?_, hs⟩
  have : timesConstantAlloc true count value h = (timesConstantHeap count value h).map fun r => (0, some r.1, r.2) := by
    rw [timesConstantAlloc, timesConstantHeap]
    simp only [arrayMalloc, if_true, ne_eq, not_true_eq_false, if_false, hasBeenSet, ok_bind']
    exact bind_map fun b => bind_map fun b => bind_map fun h => rfl
  rw [this, e]
  rfl

/-- **C186, what holds of `sp_times_random_binary`**: with the allocation the elements are 0 or 1, and the temporary array is freed. -/
theorem C186_random_binary_partial {σ : Type} (next : σ → Nat × σ) {h : ArrayHeap S} (hf : h.Fresh) {size fuel pout : Nat} {out : Buf Nat} (s : σ)
    (hp : h.cell pout = some (.times out)) (hs : size < 4294967296) (ho : size ≤ out.length) (hfuel : size + 32 ≤ 32 * fuel) :
    ∃ h' s' out', timesRandomBinaryAlloc true next size fuel pout s h = .ok (0, h', s') ∧
      (∀ i, i < size → out'[i]? = some 0 ∨ out'[i]? = some 1) ∧ (∀ i, size ≤ i → out'[i]? = out[i]?) ∧
      h'.cell pout = some (.times out') ∧ ∀ b, b ≠ pout → h'.cell b = h.cell b := by
  obtain ⟨h', s', out', e, -, hs⟩ := C142_random_binary next hf s hp hs ho hfuel
  refine ⟨h', s', out', ?_, hs⟩
  have : timesRandomBinaryAlloc true next size fuel pout s h = (timesRandomBinaryHeap next size fuel pout s h).map fun r => (0, r.1, r.2) := by
    rw [timesRandomBinaryAlloc, timesRandomBinaryHeap]
    simp only [arrayMalloc, if_true, ne_eq, not_true_eq_false, if_false, hasBeenSet, ok_bind']
    exact bind_map fun b => bind_map fun r => bind_map fun h => bind_map fun b => bind_map fun o => bind_map fun o => bind_map fun h =>
      bind_map fun h => rfl
  rw [this, e]
  rfl

/-- **C186, what holds of `sp_times_scale`**: with the allocation the values are those of C84, and the temporary array is freed. -/
theorem C186_scale_partial {h : ArrayHeap S} (hf : h.Fresh) {pin pout count factor : Nat} {inp out : Buf Nat} (hi : h.cell pin = some (.times inp))
    (hp : h.cell pout = some (.times out)) (hc : count ≤ inp.length) (hc32 : count < 4294967296) (ho : (count - 1) * factor ≤ out.length)
    (h32 : (count - 1) * factor < 4294967296) (hv : ∀ k, k < count → inp.getD k 0 * factor < 4294967296) :
    ∃ h' out', timesScaleAlloc true pin count factor pout h = .ok (0, h') ∧ h'.cell pout = some (.times out') ∧ out'.length = out.length ∧
      (∀ k j, k + 1 < count → j < factor → ∃ v : Nat, out'[k * factor + j]? = some v ∧
        (v : ℚ) = factor * (inp.getD k 0 + (j : ℚ) / factor * ((inp.getD (k + 1) 0 : ℚ) - inp.getD k 0))) ∧
      (∀ i, (count - 1) * factor ≤ i → out'[i]? = out[i]?) ∧ ∀ b, b ≠ pout → h'.cell b = h.cell b := by
  obtain ⟨h', out', e, hs⟩ := C142_scale hf hi hp hc hc32 ho h32 hv
  refine ⟨h', out', ?_, hs⟩
  have : timesScaleAlloc true pin count factor pout h = (timesScaleHeap pin count factor pout h).map fun r => (0, r) := by
    rw [timesScaleAlloc, timesScaleHeap]
    simp only [arrayMalloc, if_true, ne_eq, not_true_eq_false, if_false, hasBeenSet, ok_bind']
    refine bind_map fun a => bind_map fun b => bind_map fun b => bind_map fun b => bind_map fun h => bind_map fun b => bind_map fun o => bind_map fun o =>
      bind_map fun h => ?_
    cases h.free _ <;> rfl
  rw [this, e]
  rfl

/-- **C186, what holds of `sp_times_to_samples_replace`**: with the allocation the given array is freed and a new one has the values. -/
theorem C186_to_samples_replace_partial {h : ArrayHeap ℚ} (hf : h.Fresh) {pin count : Nat} {inp : Buf Nat} (hi : h.cell pin = some (.times inp))
    (hc : count ≤ inp.length) (h32 : ∀ x ∈ inp, x < 4294967296) :
    ∃ q h', timesToSamplesReplaceAlloc true pin count h = .ok (0, some q, h') ∧ h.cell q = none ∧
      h'.cell q = some (.samples ((inp.take count).map fun (x : Nat) => (x : ℚ))) ∧ h'.cell pin = none ∧
      ∀ b, b ≠ q → b ≠ pin → h'.cell b = h.cell b := by
  obtain ⟨q, h', e, hs⟩ := C142_to_samples_replace hf hi hc h32
  refine ⟨q, h', ?_, hs⟩
  have : timesToSamplesReplaceAlloc true pin count h = (timesToSamplesReplaceHeap pin count h).map fun r => (0, some r.1, r.2) := by
    rw [timesToSamplesReplaceAlloc, timesToSamplesReplaceHeap]
    simp only [arrayMalloc, if_true, ne_eq, not_true_eq_false, if_false, hasBeenSet, ok_bind']
    exact bind_map fun a => bind_map fun b => bind_map fun b => bind_map fun h => bind_map fun h => rfl
  rw [this, e]
  rfl

/-- **C186, what holds of `sp_samples_to_times_replace`**. -/
theorem C186_to_times_replace_partial {h : ArrayHeap ℚ} (hf : h.Fresh) {pin count : Nat} {inp : Buf ℚ} {b : Buf Nat}
    (hi : h.cell pin = some (.samples inp)) (hr : samplesToTimes inp count (List.replicate count 0) = .ok b) :
    ∃ q h', samplesToTimesReplaceAlloc true pin count h = .ok (0, some q, h') ∧ h.cell q = none ∧ h'.cell q = some (.times b) ∧ h'.cell pin = none ∧
      ∀ c, c ≠ q → c ≠ pin → h'.cell c = h.cell c := by
  obtain ⟨q, h', e, hs⟩ := C142_to_times_replace hf hi hr
  refine ⟨q, h', ?_, hs⟩
  have : samplesToTimesReplaceAlloc true pin count h = (samplesToTimesReplaceHeap pin count h).map fun r => (0, some r.1, r.2) := by
    rw [samplesToTimesReplaceAlloc, samplesToTimesReplaceHeap]
    simp only [arrayMalloc, if_true, ne_eq, not_true_eq_false, if_false, hasBeenSet, ok_bind']
    exact bind_map fun a => bind_map fun b => bind_map fun b => bind_map fun h => bind_map fun h => rfl
  rw [this, e]
  rfl

/-- **C186 for `sp_stat_times_median`**: if the allocation fails, then 1 is returned, no median is written and the memory is as before. If it succeeds,
then 0 is returned with the median (C47), and no array that was allocated before changes. That its copy stays allocated is C143. -/
theorem C186_median {h : ArrayHeap S} (hf : h.Fresh) {n depth pin size : Nat} {inp : Buf Nat} {r : ℝ}
    (hi : h.cell pin = some (.times inp)) (hr : statTimesMedian n depth inp size = .ok r) :
    statTimesMedianAlloc false n depth pin size h = .ok (1, none, h) ∧
      ∃ h', statTimesMedianAlloc true n depth pin size h = .ok (0, some r, h') ∧ ∀ p, h.cell p ≠ none → h'.cell p = h.cell p := by
  obtain ⟨h', e, hs⟩ := C143_median_partial hf hi hr
  refine ⟨rfl, h', ?_, hs⟩
  have : statTimesMedianAlloc true n depth pin size h = (statTimesMedianHeap n depth pin size h).map fun r => (0, some r.1, r.2) := by
    rw [statTimesMedianAlloc, statTimesMedianHeap]
    simp only [if_true, new_times, ok_bind']
    refine bind_map fun a => bind_map fun b => bind_map fun b => bind_map fun h => ?_
    split
    · exact bind_map fun x => rfl
    · exact bind_map fun x => bind_map fun y => rfl
  rw [this, e]
  rfl

/-! ### Cases -/

private def oneArray : ArrayHeap ℚ := ⟨1, fun a => if a = 0 then some (.times [7, 8, 9]) else none⟩

private theorem oneArray_fresh : oneArray.Fresh := fun a ha => by
  have : 1 ≤ a := ha
  simp only [oneArray]
  rw [if_neg (by omega)]

example : timesDuplicateAlloc false 0 2 oneArray = .error .uninitialized := (C186_false (fun s : Nat => (s, s)) 0 0 2 0 0 0 oneArray oneArray).1

example : ∃ q h', timesDuplicateAlloc true 0 2 oneArray = .ok (0, some q, h') ∧ h'.cell q = some (.times [7, 8]) ∧ h'.cell 0 = some (.times [7, 8, 9]) := by
  obtain ⟨q, h', e, h1, h2, h3⟩ := C186_duplicate_partial oneArray_fresh (p := 0) (count := 2) rfl (by simp)
  refine ⟨q, h', e, h2, ?_⟩
  rw [h3 0 (by rintro rfl; exact nomatch h1)]
  rfl

example : ∃ q h', timesToSamplesReplaceAlloc true 0 3 oneArray = .ok (0, some q, h') ∧ h'.cell q = some (.samples [7, 8, 9]) ∧ h'.cell 0 = none := by
  obtain ⟨q, h', e, -, h2, h3, -⟩ := C186_to_samples_replace_partial oneArray_fresh (pin := 0) (count := 3) rfl (by simp) (by simp)
  exact ⟨q, h', e, by simpa using h2, h3⟩

end Sp
