import Verif.Props.ArrayHeap
import Verif.Props.ArraysSelect
import Verif.Props.Scaling
import Verif.Props.Statistics

/-!
# C142 and C143: temporary memory and new arrays
-/

set_option linter.unusedSectionVars false

namespace Sp
variable {S : Type}

theorem ArrayHeap.times_of {h : ArrayHeap S} {p : Nat} {b : Buf Nat} (hp : h.cell p = some (.times b)) : h.times p = .ok b := by
  rw [ArrayHeap.times, hp]

theorem ArrayHeap.samples_of {h : ArrayHeap S} {p : Nat} {b : Buf S} (hp : h.cell p = some (.samples b)) : h.samples p = .ok b := by
  rw [ArrayHeap.samples, hp]

theorem ArrayHeap.setTimes_of {h : ArrayHeap S} {p : Nat} {b : Buf Nat} (hp : h.cell p = some (.times b)) (b' : Buf Nat) :
    h.setTimes p b' = .ok (h.put p (some (.times b'))) := by rw [ArrayHeap.setTimes, hp]

/-- C142, `sp_times_duplicate`: the result is a new array with the same elements, and nothing else changes. Changes of one of the two arrays
do not affect the other. -/
theorem C142_duplicate {h : ArrayHeap S} (hf : h.Fresh) {p count : Nat} {a : Buf Nat} (hp : h.cell p = some (.times a)) (hc : count ≤ a.length) :
    ∃ q h', timesDuplicateHeap p count h = .ok (q, h') ∧ h.cell q = none ∧ h'.cell q = some (.times (a.take count)) ∧
      ∀ b, b ≠ q → h'.cell b = h.cell b := by
  have g1 := (Owns.refl h).alloc (.times (List.replicate count 0))
  rcases f1 : h.alloc (.times (List.replicate count 0)) with ⟨q, h1⟩
  rw [f1] at g1
  obtain ⟨h2, e2, g2⟩ := Owns.setTimes [] g1 (a.take count)
  refine ⟨q, h2, ?_, hf _ (g1.new (q, .times (List.replicate count 0)) (by simp)).1, g2.here (q, .times (a.take count)) (by simp),
    fun b hb => g2.frame b (by simpa using hb)⟩
  unfold timesDuplicateHeap
  simp only [f1]
  rw [ArrayHeap.times_of ((g1.old hf (by rw [hp]; simp)).trans hp), ok_bind', memcpy_all (by simp) hc, ok_bind', e2, ok_bind']
  rfl

example : ∃ q h', timesDuplicateHeap (S := ℚ) 0 2 ⟨1, fun p => if p = 0 then some (.times [4, 5, 6]) else none⟩ = .ok (q, h') ∧
    h'.cell q = some (.times [4, 5]) ∧ h'.cell 0 = some (.times [4, 5, 6]) := by
  refine ⟨1, _, rfl, rfl, rfl⟩

/-- C142, `sp_times_constant`. -/
theorem C142_constant {h : ArrayHeap S} (hf : h.Fresh) (count value : Nat) :
    ∃ q h', timesConstantHeap count value h = .ok (q, h') ∧ h.cell q = none ∧ h'.cell q = some (.times (List.replicate count value)) ∧
      ∀ b, b ≠ q → h'.cell b = h.cell b := by
  have g1 := (Owns.refl h).alloc (.times (List.replicate count 0))
  rcases f1 : h.alloc (.times (List.replicate count 0)) with ⟨q, h1⟩
  rw [f1] at g1
  obtain ⟨h2, e2, g2⟩ := Owns.setTimes [] g1 (List.replicate count value)
  refine ⟨q, h2, ?_, hf _ (g1.new (q, .times (List.replicate count 0)) (by simp)).1, g2.here (q, .times (List.replicate count value)) (by simp),
    fun b hb => g2.frame b (by simpa using hb)⟩
  unfold timesConstantHeap
  simp only [f1]
  have := C97_constant 0 count value
  rw [timesConstant] at this
  rw [g1.times (p := q) (b := List.replicate count 0) (by simp), ok_bind', this, ok_bind', e2, ok_bind']
  rfl

/-- C142, `sp_times_random_binary`: only the given array changes, the temporary one is freed. -/
theorem C142_random_binary {σ : Type} (next : σ → Nat × σ) {h : ArrayHeap S} (hf : h.Fresh) {size fuel pout : Nat} {out : Buf Nat} (s : σ)
    (hp : h.cell pout = some (.times out)) (hs : size < 4294967296) (ho : size ≤ out.length) (hfuel : size + 32 ≤ 32 * fuel) :
    ∃ h' s' out', timesRandomBinaryHeap next size fuel pout s h = .ok (h', s') ∧ timesRandomBinary next size fuel out s = .ok (out', s') ∧
      (∀ i, i < size → out'[i]? = some 0 ∨ out'[i]? = some 1) ∧ (∀ i, size ≤ i → out'[i]? = out[i]?) ∧
      h'.cell pout = some (.times out') ∧ ∀ b, b ≠ pout → h'.cell b = h.cell b := by
  obtain ⟨f, s', hf01, hr⟩ := C57_random_binary next size fuel out s hs ho hfuel
  have hr' := hr
  unfold timesRandomBinary at hr
  obtain ⟨⟨temp, s1⟩, h1, hr⟩ := bind_eq_ok.1 hr
  dsimp only at hr
  obtain ⟨out', h2, hr⟩ := bind_eq_ok.1 hr
  simp only [pure_eq_ok, Except.ok.injEq, Prod.mk.injEq] at hr
  obtain ⟨rfl, rfl⟩ := hr
  have hp' : h.cell pout ≠ none := by rw [hp]; simp
  have g1 := (Owns.refl h).alloc (.times (List.replicate (randomBinarySize size) 0))
  rcases f1 : h.alloc (.times (List.replicate (randomBinarySize size) 0)) with ⟨q, h3⟩
  rw [f1] at g1
  obtain ⟨h4, e4, g4⟩ := Owns.setTimes [] g1 temp
  have g5 := g4.putOld hf hp' (some (.times (tab size f ++ out.drop size)))
  obtain ⟨h6, e6, g6⟩ := Owns.free (hf.put hp' _) g5
  have htl : (tab size f).length = size := by simp
  refine ⟨h6, s1, _, ?_, hr', fun i hi => ?_, fun i hi => ?_, ?_, fun b hb => ?_⟩
  · unfold timesRandomBinaryHeap
    simp only [f1]
    rw [g1.times (p := q) (b := List.replicate (randomBinarySize size) 0) (by simp), ok_bind', h1, ok_bind']
    dsimp only
    rw [e4, ok_bind', g4.times (p := q) (b := temp) (by simp), ok_bind', ArrayHeap.times_of ((g4.old hf hp').trans hp), ok_bind', h2, ok_bind',
      ArrayHeap.setTimes_of ((g4.old hf hp').trans hp), ok_bind', e6, ok_bind']
    rfl
  · rw [List.getElem?_append_left (by omega), tab_getElem?, if_pos hi]
    rcases hf01 i with e | e
    · exact .inl (by rw [e])
    · exact .inr (by rw [e])
  · rw [List.getElem?_append_right (by omega), htl, List.getElem?_drop]
    congr 1
    omega
  · rw [g6.frame pout (by simp)]
    simp [ArrayHeap.put]
  · rw [g6.frame b (by simp)]
    simp [ArrayHeap.put, hb]

/-- C142, `sp_times_scale`: the values of C84 are in the array `out`, which may be the array `in`, nothing else changes and the temporary array is
freed. -/
theorem C142_scale {h : ArrayHeap S} (hf : h.Fresh) {pin pout count factor : Nat} {inp out : Buf Nat} (hi : h.cell pin = some (.times inp))
    (hp : h.cell pout = some (.times out)) (hc : count ≤ inp.length) (hc32 : count < 4294967296) (ho : (count - 1) * factor ≤ out.length)
    (h32 : (count - 1) * factor < 4294967296) (hv : ∀ k, k < count → inp.getD k 0 * factor < 4294967296) :
    ∃ h' out', timesScaleHeap pin count factor pout h = .ok h' ∧ h'.cell pout = some (.times out') ∧ out'.length = out.length ∧
      (∀ k j, k + 1 < count → j < factor → ∃ v : Nat, out'[k * factor + j]? = some v ∧
        (v : ℚ) = factor * (inp.getD k 0 + (j : ℚ) / factor * ((inp.getD (k + 1) 0 : ℚ) - inp.getD k 0))) ∧
      (∀ i, (count - 1) * factor ≤ i → out'[i]? = out[i]?) ∧ ∀ b, b ≠ pout → h'.cell b = h.cell b := by
  obtain ⟨out', hr, hspec⟩ := C84_scale (junk := 0) hc hc32 ho h32 hv
  unfold timesScale at hr
  obtain ⟨t1, ht1, hr⟩ := bind_eq_ok.1 hr
  obtain ⟨t2, ht2, hr⟩ := bind_eq_ok.1 hr
  have hp' : h.cell pout ≠ none := by rw [hp]; simp
  have hi' : h.cell pin ≠ none := by rw [hi]; simp
  have g1 := (Owns.refl h).alloc (.times (List.replicate count 0))
  rcases f1 : h.alloc (.times (List.replicate count 0)) with ⟨q, h3⟩
  rw [f1] at g1
  obtain ⟨h4, e4, g4⟩ := Owns.setTimes [] g1 t2
  have g5 := g4.putOld hf hp' (some (.times out'))
  obtain ⟨h6, e6, g6⟩ := Owns.free (hf.put hp' _) g5
  refine ⟨h6, out', ?_, ?_, hspec.1, hspec.2.1, hspec.2.2, fun b hb => ?_⟩
  · unfold timesScaleHeap
    simp only [f1]
    rw [ArrayHeap.times_of ((g1.old hf hi').trans hi), ok_bind', g1.times (p := q) (b := List.replicate count 0) (by simp), ok_bind', ht1, ok_bind',
      ht2, ok_bind', e4, ok_bind', g4.times (p := q) (b := t2) (by simp), ok_bind', ArrayHeap.times_of ((g4.old hf hp').trans hp), ok_bind', hr,
      ok_bind', ArrayHeap.setTimes_of ((g4.old hf hp').trans hp), ok_bind', e6]
  · rw [g6.frame pout (by simp)]
    simp [ArrayHeap.put]
  · rw [g6.frame b (by simp)]
    simp [ArrayHeap.put, hb]

/-- Scaling in place: the array `in` is the array `out`. -/
example : ∃ h', timesScaleHeap (S := ℚ) 0 3 2 0 ⟨1, fun p => if p = 0 then some (.times [1, 3, 4, 9]) else none⟩ = .ok h' ∧
    h'.cell 0 = some (.times [2, 4, 6, 7]) ∧ h'.cell 1 = none := by
  have : (do
    let h ← timesScaleHeap (S := ℚ) 0 3 2 0 ⟨1, fun p => if p = 0 then some (.times [1, 3, 4, 9]) else none⟩
    h.times 0) = .ok [2, 4, 6, 7] := by decide +kernel
  obtain ⟨h', e, e2⟩ := bind_eq_ok.1 this
  obtain ⟨h'', out', e', ho, _, _, _, hframe⟩ := C142_scale (S := ℚ) (pin := 0) (pout := 0) (count := 3) (factor := 2) (inp := [1, 3, 4, 9])
    (h := ⟨1, fun p => if p = 0 then some (.times [1, 3, 4, 9]) else none⟩) (fun a ha => by
      have : 1 ≤ a := ha
      simp only
      rw [if_neg (by omega)]) rfl rfl (by decide) (by decide) (by decide) (by decide) (by decide)
  rw [e, Except.ok.injEq] at e'
  subst e'
  refine ⟨h', e, ?_, by rw [hframe 1 (by decide)]; rfl⟩
  rw [ArrayHeap.times, ho, Except.ok.injEq] at e2
  rw [ho, e2]

/-- C142, `sp_times_to_samples_replace`: the given array is freed, the result is a new array with the same values, nothing else changes. -/
theorem C142_to_samples_replace {h : ArrayHeap ℚ} (hf : h.Fresh) {pin count : Nat} {inp : Buf Nat} (hi : h.cell pin = some (.times inp))
    (hc : count ≤ inp.length) (h32 : ∀ x ∈ inp, x < 4294967296) :
    ∃ q h', timesToSamplesReplaceHeap pin count h = .ok (q, h') ∧ h.cell q = none ∧
      h'.cell q = some (.samples ((inp.take count).map fun (x : Nat) => (x : ℚ))) ∧ h'.cell pin = none ∧
      ∀ b, b ≠ q → b ≠ pin → h'.cell b = h.cell b := by
  obtain ⟨s, hr, hs, _⟩ := C97_times_round_trip (out := List.replicate count 0) (back := List.replicate count 0) hc (by simp) (by simp) h32
  rw [List.drop_eq_nil_of_le (by simp), List.append_nil] at hs
  have hi' : h.cell pin ≠ none := by rw [hi]; simp
  have g1 := (Owns.refl h).alloc (.samples (List.replicate count 0))
  rcases f1 : h.alloc (.samples (List.replicate count 0)) with ⟨q, h3⟩
  rw [f1] at g1
  obtain ⟨h4, e4, g4⟩ := Owns.setSamples [] g1 s
  have g5 := g4.putOld hf hi' none
  refine ⟨q, h4.put pin none, ?_, hf _ (g1.new (q, .samples (List.replicate count 0)) (by simp)).1, ?_, by simp [ArrayHeap.put], fun b hb hb' => ?_⟩
  · unfold timesToSamplesReplaceHeap
    simp only [f1]
    rw [ArrayHeap.times_of ((g1.old hf hi').trans hi), ok_bind', g1.samples (p := q) (b := List.replicate count 0) (by simp), ok_bind', hr, ok_bind',
      e4, ok_bind', ArrayHeap.free, g4.old hf hi', hi]
    rfl
  · rw [g5.here (q, .samples s) (by simp), hs]
  · rw [g5.frame b (by simpa using hb)]
    simp [ArrayHeap.put, hb']

/-- C142, `sp_samples_to_times_replace`, for values that are converted to `b` by `sp_samples_to_times` (C97). -/
theorem C142_to_times_replace {h : ArrayHeap ℚ} (hf : h.Fresh) {pin count : Nat} {inp : Buf ℚ} {b : Buf Nat}
    (hi : h.cell pin = some (.samples inp)) (hr : samplesToTimes inp count (List.replicate count 0) = .ok b) :
    ∃ q h', samplesToTimesReplaceHeap pin count h = .ok (q, h') ∧ h.cell q = none ∧ h'.cell q = some (.times b) ∧ h'.cell pin = none ∧
      ∀ c, c ≠ q → c ≠ pin → h'.cell c = h.cell c := by
  have hi' : h.cell pin ≠ none := by rw [hi]; simp
  have g1 := (Owns.refl h).alloc (.times (List.replicate count 0))
  rcases f1 : h.alloc (.times (List.replicate count 0)) with ⟨q, h3⟩
  rw [f1] at g1
  obtain ⟨h4, e4, g4⟩ := Owns.setTimes [] g1 b
  have g5 := g4.putOld hf hi' none
  refine ⟨q, h4.put pin none, ?_, hf _ (g1.new (q, .times (List.replicate count 0)) (by simp)).1, ?_, by simp [ArrayHeap.put], fun c hb hb' => ?_⟩
  · unfold samplesToTimesReplaceHeap
    simp only [f1]
    rw [ArrayHeap.samples_of ((g1.old hf hi').trans hi), ok_bind', g1.times (p := q) (b := List.replicate count 0) (by simp), ok_bind', hr, ok_bind',
      e4, ok_bind', ArrayHeap.free, g4.old hf hi', hi]
    rfl
  · exact g5.here (q, .times b) (by simp)
  · rw [g5.frame c (by simpa using hb)]
    simp [ArrayHeap.put, hb']

/-- Two samples. -/
example : ∃ q h', samplesToTimesReplaceHeap 0 2 ⟨1, fun p => if p = 0 then some (.samples [4, 7 / 4]) else none⟩ = .ok (q, h') ∧
    h'.cell q = some (.times [4, 2]) ∧ h'.cell 0 = none := by
  obtain ⟨q, h', e, _, h1, h2, _⟩ := C142_to_times_replace (h := ⟨1, fun p => if p = 0 then some (.samples [4, 7 / 4]) else none⟩) (pin := 0) (count := 2)
    (inp := [4, 7 / 4]) (b := [4, 2]) (fun a ha => by
      have : 1 ≤ a := ha
      simp only
      rw [if_neg (by omega)]) rfl (by decide +kernel)
  exact ⟨q, h', e, h1, h2⟩

theorem statTimesMedianHeap_run {h : ArrayHeap S} (hf : h.Fresh) {n depth pin size : Nat} {inp : Buf Nat} {r : ℝ}
    (hi : h.cell pin = some (.times inp)) (hr : statTimesMedian n depth inp size = .ok r) :
    ∃ h' q t, statTimesMedianHeap n depth pin size h = .ok (r, h') ∧ Owns h h' [(q, .times t)] := by
  unfold statTimesMedian statMedian at hr
  split at hr
  · simp at hr
  rename_i hl
  obtain ⟨t, ht, hr⟩ := bind_eq_ok.1 hr
  have hi' : h.cell pin ≠ none := by rw [hi]; simp
  have g1 := (Owns.refl h).alloc (.times (List.replicate size 0))
  rcases f1 : h.alloc (.times (List.replicate size 0)) with ⟨q, h1⟩
  rw [f1] at g1
  obtain ⟨h2, e2, g2⟩ := Owns.setTimes [] g1 t
  refine ⟨h2, q, t, ?_, g2⟩
  unfold statTimesMedianHeap
  simp only [f1]
  rw [ArrayHeap.times_of ((g1.old hf hi').trans hi), ok_bind', memcpy_all (by simp) (by omega), ok_bind', ht, ok_bind', e2, ok_bind']
  split at hr
  · rename_i hodd
    rw [if_pos hodd]
    obtain ⟨x, hx, hr⟩ := bind_eq_ok.1 hr
    simp only [pure_eq_ok, Except.ok.injEq] at hr
    rw [hx, ok_bind', ← hr]
    rfl
  · rename_i hodd
    rw [if_neg hodd]
    obtain ⟨x, hx, hr⟩ := bind_eq_ok.1 hr
    obtain ⟨y, hy, hr⟩ := bind_eq_ok.1 hr
    simp only [pure_eq_ok, Except.ok.injEq] at hr
    rw [hx, ok_bind', hy, ok_bind', ← hr]
    rfl

/-- C143, the part that holds of `sp_stat_times_median`: the value is that of the model without memory (C47) and no array that was allocated before
changes. Missing: the copy that is sorted is not freed. -/
theorem C143_median_partial {h : ArrayHeap S} (hf : h.Fresh) {n depth pin size : Nat} {inp : Buf Nat} {r : ℝ}
    (hi : h.cell pin = some (.times inp)) (hr : statTimesMedian n depth inp size = .ok r) :
    ∃ h', statTimesMedianHeap n depth pin size h = .ok (r, h') ∧ ∀ p, h.cell p ≠ none → h'.cell p = h.cell p := by
  obtain ⟨h', q, t, e, g⟩ := statTimesMedianHeap_run hf hi hr
  exact ⟨h', e, fun p hp => g.old hf hp⟩

/-- C143 is false of `sp_stat_times_median`: after each call that succeeds one more array is allocated than before, which the caller has no pointer to. -/
theorem C143_median_leak {h : ArrayHeap S} (hf : h.Fresh) {n depth pin size : Nat} {inp : Buf Nat} {r : ℝ}
    (hi : h.cell pin = some (.times inp)) (hr : statTimesMedian n depth inp size = .ok r) :
    ∃ h' q, statTimesMedianHeap n depth pin size h = .ok (r, h') ∧ h.cell q = none ∧ h'.cell q ≠ none ∧
      ∀ p, p ≠ q → h'.cell p = h.cell p := by
  obtain ⟨h', q, t, e, g⟩ := statTimesMedianHeap_run hf hi hr
  refine ⟨h', q, e, hf _ (g.new (q, .times t) (by simp)).1, ?_, fun p hp => g.frame p (by simpa using hp)⟩
  rw [g.here (q, .times t) (by simp)]
  simp

/-- Two elements; the call leaves an allocation. -/
example : ∃ h' q, statTimesMedianHeap (S := ℚ) 20 20 0 2 ⟨1, fun p => if p = 0 then some (.times [4, 3]) else none⟩ = .ok (7 / 2, h') ∧
    h'.cell q ≠ none ∧ h'.cell 0 = some (.times [4, 3]) ∧ q ≠ 0 := by
  have hq : quicksort (fun x y : Nat => decide (x < y)) 20 20 [4, 3] 0 1 = .ok [3, 4] := by decide +kernel
  have hr : statTimesMedian 20 20 [4, 3] 2 = .ok (7 / 2) := by
    unfold statTimesMedian statMedian
    rw [if_neg (by simp)]
    show (quicksort _ 20 20 [4, 3] 0 1 >>= _) = _
    rw [hq, ok_bind', if_neg (by decide)]
    show Except.ok ((((7 : Nat) : ℝ)) / 2) = _
    norm_num
  obtain ⟨h', q, e, h1, h2, h3⟩ := C143_median_leak (S := ℚ) (h := ⟨1, fun p => if p = 0 then some (.times [4, 3]) else none⟩) (pin := 0)
    (fun a ha => by
      have : 1 ≤ a := ha
      simp only
      rw [if_neg (by omega)]) rfl hr
  have hq0 : q ≠ 0 := by
    rintro rfl
    simp at h1
  exact ⟨h', q, e, h2, by rw [h3 0 hq0.symm]; rfl, hq0⟩

end Sp
