import Verif.Lemmas.Arrays

/-!
# C51 to C54, C60: element-wise functions, reverse, and/or/xor, series, limiting

In the statements `b.take count` is the first `count` elements and `b.drop count` what follows, which
stays as it was. An operand `none` is the output array itself, `Src.get` the array that is meant.
-/

set_option linter.unusedSectionVars false

namespace Sp
variable {S : Type}

/-- **C51 for times**: each function applies its operation to each of the first `count` elements and
changes nothing else; sums and products are modulo 2^32 and differences stop at zero. -/
theorem C51_times (b : Buf Nat) (count value : Nat) (hc : count ≤ b.length) (hb : ∀ x ∈ b, x < 4294967296) :
    timesSquare b count = .ok ((b.take count).map (fun x => x * x % 4294967296) ++ b.drop count) ∧
    timesAdd b count value = .ok ((b.take count).map (fun x => (x + value) % 4294967296) ++ b.drop count) ∧
    timesMultiply b count value = .ok ((b.take count).map (fun x => x * value % 4294967296) ++ b.drop count) ∧
    (value ≠ 0 → timesDivide b count value = .ok ((b.take count).map (fun x => x / value) ++ b.drop count)) ∧
    timesSet b count value = .ok (List.replicate count value ++ b.drop count) ∧
    timesSubtract b count value = .ok ((b.take count).map (fun x => x - value) ++ b.drop count) := by
  refine ⟨mapLoop_eq hc (Src.has_none _) (fun x _ => rfl), mapLoop_eq hc (Src.has_none _) (fun x _ => rfl),
    mapLoop_eq hc (Src.has_none _) (fun x _ => rfl), ?_, ?_, ?_⟩
  · intro hv
    exact mapLoop_eq hc (Src.has_none _) (fun x _ => by unfold divTime; rw [if_neg hv])
  · unfold timesSet
    rw [mapLoop_eq hc (Src.has_none _) (fun x _ => rfl)]
    congr 2
    apply List.ext_getElem?
    intro i
    simp only [List.getElem?_map, List.getElem?_take, List.getElem?_replicate]
    split
    · next h => rw [show Src.get none b = b from rfl, List.getElem?_eq_getElem (by omega)]; rfl
    · rfl
  · refine mapLoop_eq hc (Src.has_none _) (fun x hx => ?_)
    have : x < 4294967296 := hb x (List.mem_of_mem_take hx)
    unfold noUnderflowSubtract
    split
    · rw [sub32_of_le (by omega) (by omega)]
    · congr 1; omega

/-- **C51 for pairs of times arrays**; the second array may be the first. -/
theorem C51_times_arrays (b : Buf Nat) (a : Src Nat) (count : Nat) (hc : count ≤ b.length) (ha : a.Has count)
    (hb : ∀ x ∈ b, x < 4294967296) :
    timesMultiplyTimes b count a =
      .ok (List.zipWith (fun x y => x * y % 4294967296) (b.take count) ((a.get b).take count) ++ b.drop count) ∧
    timesAddTimes b count a =
      .ok (List.zipWith (fun x y => (x + y) % 4294967296) (b.take count) ((a.get b).take count) ++ b.drop count) ∧
    ((∀ y ∈ (a.get b).take count, y ≠ 0) → timesDivideTimes b count a =
      .ok (List.zipWith (fun x y => x / y) (b.take count) ((a.get b).take count) ++ b.drop count)) ∧
    timesSubtractTimes b count a =
      .ok (List.zipWith (fun x y => x - y) (b.take count) ((a.get b).take count) ++ b.drop count) := by
  refine ⟨zipLoop_eq hc (Src.has_none _) ha (fun x _ y _ => rfl),
    zipLoop_eq hc (Src.has_none _) ha (fun x _ y _ => rfl), ?_, ?_⟩
  · intro hy
    exact zipLoop_eq hc (Src.has_none _) ha (fun x _ y h => by unfold divTime; rw [if_neg (hy y h)])
  · refine zipLoop_eq hc (Src.has_none _) ha (fun x hx y _ => ?_)
    have : x < 4294967296 := hb x (List.mem_of_mem_take hx)
    unfold noUnderflowSubtract
    split
    · rw [sub32_of_le (by omega) (by omega)]
    · congr 1; omega

/-- **C51 for samples**, for any arithmetic of samples. -/
theorem C51_samples [Add S] [Mul S] [Sub S] [Div S] (b : Buf S) (count : Nat) (value : S)
    (hc : count ≤ b.length) :
    samplesSquare b count = .ok ((b.take count).map (fun x => x * x) ++ b.drop count) ∧
    samplesAdd b count value = .ok ((b.take count).map (fun x => x + value) ++ b.drop count) ∧
    samplesMultiply b count value = .ok ((b.take count).map (fun x => x * value) ++ b.drop count) ∧
    samplesDivide b count value = .ok ((b.take count).map (fun x => x / value) ++ b.drop count) ∧
    samplesSet b count value = .ok ((b.take count).map (fun _ => value) ++ b.drop count) ∧
    samplesSubtract b count value = .ok ((b.take count).map (fun x => x - value) ++ b.drop count) :=
  ⟨mapLoop_eq hc (Src.has_none _) (fun _ _ => rfl), mapLoop_eq hc (Src.has_none _) (fun _ _ => rfl),
    mapLoop_eq hc (Src.has_none _) (fun _ _ => rfl), mapLoop_eq hc (Src.has_none _) (fun _ _ => rfl),
    mapLoop_eq hc (Src.has_none _) (fun _ _ => rfl), mapLoop_eq hc (Src.has_none _) (fun _ _ => rfl)⟩

/-- **C51 for pairs of sample arrays**; the second array may be the first. -/
theorem C51_samples_arrays [Add S] [Mul S] [Sub S] [Div S] (b : Buf S) (a : Src S) (count : Nat)
    (hc : count ≤ b.length) (ha : a.Has count) :
    samplesMultiplySamples b count a =
      .ok (List.zipWith (fun x y => x * y) (b.take count) ((a.get b).take count) ++ b.drop count) ∧
    samplesDivideSamples b count a =
      .ok (List.zipWith (fun x y => x / y) (b.take count) ((a.get b).take count) ++ b.drop count) ∧
    samplesAddSamples b count a =
      .ok (List.zipWith (fun x y => x + y) (b.take count) ((a.get b).take count) ++ b.drop count) ∧
    samplesSubtractSamples b count a =
      .ok (List.zipWith (fun x y => x - y) (b.take count) ((a.get b).take count) ++ b.drop count) :=
  ⟨zipLoop_eq hc (Src.has_none _) ha (fun _ _ _ _ => rfl), zipLoop_eq hc (Src.has_none _) ha (fun _ _ _ _ => rfl),
    zipLoop_eq hc (Src.has_none _) ha (fun _ _ _ _ => rfl), zipLoop_eq hc (Src.has_none _) ha (fun _ _ _ _ => rfl)⟩

/-- **C51, copy**: the first `count` elements are copied and the rest of `out` stays. -/
theorem C51_copy (a out : Buf S) (count : Nat) (hc : count ≤ out.length) (ha : count ≤ a.length) :
    arrayCopy (some a) count out = .ok (a.take count ++ out.drop count) := by
  unfold arrayCopy
  rw [mapLoop_eq hc (Src.has_some.2 ha) (g := fun x => x) (fun _ _ => rfl), List.map_id']
  rfl

/-- **C51, range**: the elements from `start` (inclusive) to `stop` (exclusive) are copied. -/
theorem C51_range (a out : Buf S) (start stop : Nat) (h1 : start ≤ stop) (h2 : stop ≤ a.length)
    (h3 : stop - start ≤ out.length) (h4 : stop < 4294967296) :
    arrayRange a start stop out = .ok ((a.drop start).take (stop - start) ++ out.drop (stop - start)) := by
  unfold arrayRange
  rw [sub32_of_le h1 h4]
  have h := forRange_states (lo := 0) (hi := stop - start) (body := fun i out => do
      let x ← rd a (u32 (start + i))
      wr out i x)
    (fun i => (a.drop start).take i ++ out.drop i) (Nat.zero_le _) (by
      intro i _ hi
      have hl : ((a.drop start).take i).length = i := by
        rw [List.length_take, List.length_drop]; omega
      rw [u32_of_lt (by omega), rd_eq_ok (by omega), ok_bind', 
        List.drop_eq_getElem_cons (l := out) (by omega),
        wr_append hl.symm, List.take_succ_eq_append_getElem (by rw [List.length_drop]; omega),
        List.getElem_drop, List.append_assoc]
      rfl)
  simpa using h

/-- Non-vacuity. -/
example : timesSubtract [5, 1, 7] 2 3 = .ok [2, 0, 7] := rfl
example : timesAdd [4294967295, 1, 7] 2 3 = .ok [2, 4, 7] := rfl
example : timesAddTimes [5, 1, 7] 2 none = .ok [10, 2, 7] := rfl
example : arrayRange [5, 1, 7, 9] 1 3 [0, 0, 8] = .ok [1, 7, 8] := rfl

/-- **C52 is false**: with arrays of `count` elements reverse writes behind the end of `out`. -/
theorem C52_reverse_out_of_bounds (a out : Buf S) (count : Nat) (h0 : 0 < count) (ha : count ≤ a.length)
    (ho : out.length = count) : arrayReverse a count out = .error .outOfBounds := by
  unfold arrayReverse
  rw [forRange_head h0]
  simp only [Nat.sub_zero]
  rw [rd_eq_ok (by omega), ok_bind']
  unfold wr
  rw [if_neg (by omega)]
  rfl

/-- **C52, what is true**: with one more element in `out`, the input is written in reverse order, but from
index one on, and `out[0]` is not written. The claim asks for indices from zero. -/
theorem C52_reverse_shifted_partial (a out : Buf S) (count : Nat) (ha : count ≤ a.length)
    (ho : count < out.length) :
    arrayReverse a count out = .ok (out.take 1 ++ (a.take count).reverse ++ out.drop (count + 1)) := by
  unfold arrayReverse
  have h := forRange_states (lo := 0) (hi := count) (body := fun i out => do
      let x ← rd a i
      wr out (count - i) x)
    (fun i => out.take (count + 1 - i) ++ (a.take i).reverse ++ out.drop (count + 1)) (Nat.zero_le _) (by
      intro i _ hi
      have e1 : count + 1 - i = (count - i) + 1 := by omega
      rw [rd_eq_ok (by omega), ok_bind', e1, List.take_succ_eq_append_getElem (by omega),
        List.append_assoc, List.append_assoc, List.singleton_append, wr_append (by rw [List.length_take]; omega),
        List.take_succ_eq_append_getElem (by omega), List.reverse_append,
        show count + 1 - (i + 1) = count - i by omega]
      simp)
  simp only [Nat.sub_zero, List.take_zero, List.reverse_nil, List.append_nil, List.take_append_drop] at h
  rw [h, show count + 1 - count = 1 by omega]

example : arrayReverse [1, 2, 3] 3 [0, 0, 0] = .error .outOfBounds := rfl
example : arrayReverse [1, 2, 3] 3 [0, 0, 0, 0] = .ok [0, 3, 2, 1] := rfl

section Order
variable [LinearOrder S] [Zero S]

/-- **C53, or**: b[i] where only b is set, else a[i]. -/
theorem C53_or (a b : Src S) (out : Buf S) (count : Nat) (limit : S) (hc : count ≤ out.length)
    (ha : a.Has count) (hb : b.Has count) :
    arrayOr a b count limit out = .ok (List.zipWith (fun x y => if ¬ limit ≤ x ∧ limit ≤ y then y else x)
      ((a.get out).take count) ((b.get out).take count) ++ out.drop count) := by
  refine zipLoop_eq hc ha hb (fun x _ y _ => ?_)
  by_cases h1 : x < limit
  · rw [if_pos h1]
    by_cases h2 : y < limit
    · rw [if_pos h2, if_neg (fun h => absurd h.2 (not_le.2 h2))]
    · rw [if_neg h2, if_pos ⟨not_le.2 h1, not_lt.1 h2⟩]
  · rw [if_neg h1, if_neg (fun h => h.1 (not_lt.1 h1))]

/-- **C53, xor**: zero where both are set, else the set one, and a[i] if none is. -/
theorem C53_xor (a b : Src S) (out : Buf S) (count : Nat) (limit : S) (hc : count ≤ out.length)
    (ha : a.Has count) (hb : b.Has count) :
    arrayXor a b count limit out = .ok (List.zipWith (fun x y =>
        if limit ≤ x ∧ limit ≤ y then 0 else if limit ≤ y then y else x)
      ((a.get out).take count) ((b.get out).take count) ++ out.drop count) := by
  refine zipLoop_eq hc ha hb (fun x _ y _ => ?_)
  by_cases h : limit ≤ x ∧ limit ≤ y
  · rw [if_pos h, if_pos h]
  · rw [if_neg h, if_neg h]
    by_cases h1 : x < limit
    · rw [if_pos h1]
      by_cases h2 : y < limit
      · rw [if_pos h2, if_neg (not_le.2 h2)]
      · rw [if_neg h2, if_pos (not_lt.1 h2)]
    · rw [if_neg h1, if_neg (fun h2 => h ⟨not_lt.1 h1, h2⟩)]

/-- **C53, and, where it is right**: b[i] where both are set and zero elsewhere, if no element of b that is
not set meets an element of a that is. -/
theorem C53_and_partial (a b : Src S) (out : Buf S) (count : Nat) (limit : S) (hc : count ≤ out.length)
    (ha : a.Has count) (hb : b.Has count)
    (hset : ∀ i x y, i < count → (a.get out)[i]? = some x → (b.get out)[i]? = some y → limit ≤ x → limit ≤ y) :
    arrayAnd a b count limit out = .ok (List.zipWith (fun x y => if limit ≤ x ∧ limit ≤ y then y else 0)
      ((a.get out).take count) ((b.get out).take count) ++ out.drop count) := by
  unfold arrayAnd
  rw [zipLoop_eq (g := fun x y => if limit ≤ x then y else 0) hc ha hb (fun x _ y _ => by
    by_cases h : limit ≤ x
    · rw [if_pos ⟨h, h⟩, if_pos h]
    · rw [if_neg (fun h2 => h h2.1), if_neg h])]
  congr 2
  apply List.ext_getElem?
  intro i
  rw [List.getElem?_zipWith, List.getElem?_zipWith]
  by_cases hi : i < count
  · rw [List.getElem?_take, List.getElem?_take, if_pos hi, if_pos hi]
    cases hx : (a.get out)[i]? with
    | none => rfl
    | some x =>
      cases hy : (b.get out)[i]? with
      | none => rfl
      | some y =>
        simp only
        by_cases h : limit ≤ x
        · rw [if_pos h, if_pos ⟨h, hset i x y hi hx hy h⟩]
        · rw [if_neg h, if_neg (fun h2 => h h2.1)]
  · rw [List.getElem?_take, if_neg hi]

/-- **C53, and, is false**: wherever a is set and b is not, the result is b[i] instead of zero; the result of
the function does not depend on whether b is set. -/
theorem C53_and_ignores_b (a b out : Buf S) (count : Nat) (limit : S) (hc : count ≤ out.length)
    (ha : count ≤ a.length) (hb : count ≤ b.length) :
    arrayAnd (some a) (some b) count limit out = .ok (List.zipWith (fun x y => if limit ≤ x then y else 0)
      (a.take count) (b.take count) ++ out.drop count) :=
  zipLoop_eq hc (Src.has_some.2 ha) (Src.has_some.2 hb) (fun x _ y _ => by
    by_cases h : limit ≤ x
    · rw [if_pos ⟨h, h⟩, if_pos h]
    · rw [if_neg (fun h2 => h h2.1), if_neg h])

end Order

/-- The disagreement on one element: a = 5 and b = 1 with limit 3 give 1, the documentation says 0. -/
theorem C53_and_false : arrayAnd (some [5]) (some [1]) 1 3 [9] = .ok [1] := rfl

example : arrayAnd (some [5, 1, 4]) (some [7, 8, 3]) 3 3 [0, 0, 0] = .ok [7, 0, 3] := rfl
example : arrayOr (some [5, 1, 0]) (some [7, 8, 2]) 3 3 [0, 0, 0] = .ok [5, 8, 0] := rfl
example : arrayXor (some [5, 1, 0]) none 3 3 [7, 8, 2] = .ok [0, 8, 0] := rfl

/-- The loop of cusum. -/
theorem arrayCusum_eq (add : S → S → S) (P : Nat → S) (a : Src S) (out : Buf S) (count : Nat) (h0 : 0 < count)
    (hc : count ≤ out.length) (ha : a.Has count) (hP0 : (a.get out)[0]? = some (P 0))
    (hP : ∀ i x, (a.get out)[i + 1]? = some x → P (i + 1) = add (P i) x) :
    arrayCusum add a count out = .ok (tab count P ++ out.drop count) := by
  have hla := ha.le hc
  have e0 : rdSrc a out 0 = .ok (P 0) := rd_ok_iff.2 hP0
  have e1 : wr out 0 (P 0) = .ok (tab 1 P ++ out.drop 1) := by
    cases out with
    | nil => simp at hc; omega
    | cons x l => rfl
  unfold arrayCusum
  rw [e0, ok_bind', e1, ok_bind']
  have h := forRange_states (lo := 1) (hi := count) (body := cusumBody add a)
    (fun i => (tab i P ++ out.drop i, P (i - 1))) (by omega) (by
      intro i h1 hi
      obtain ⟨k, rfl⟩ : ∃ k, i = k + 1 := ⟨i - 1, by omega⟩
      unfold cusumBody
      simp only
      rw [rdSrc_at (by simp) (by omega) (by omega), ok_bind', List.drop_eq_getElem_cons (by omega),
        wr_append (by simp), ok_bind', pure_eq_ok]
      have := hP k _ (List.getElem?_eq_getElem (show k + 1 < (a.get out).length by omega))
      simp only [Nat.add_sub_cancel]
      rw [← this]
      congr 2
      unfold tab
      rw [List.range_succ (n := k + 1)]
      simp)
  rw [show tab 1 P ++ out.drop 1 = tab 1 P ++ out.drop 1 from rfl, h]
  rfl

/-- **C54, cumulative sums of times**: `out[i]` is the sum of the first `i + 1` elements modulo 2^32. -/
theorem C54_times_cusum (a : Src Nat) (out : Buf Nat) (count : Nat) (h0 : 0 < count) (hc : count ≤ out.length)
    (ha : a.Has count) (hb : ∀ x ∈ a.get out, x < 4294967296) :
    timesCusum a count out =
      .ok (tab count (fun i => ((a.get out).take (i + 1)).sum % 4294967296) ++ out.drop count) := by
  have hla := ha.le hc
  refine arrayCusum_eq _ _ a out count h0 hc ha ?_ ?_
  · rw [List.getElem?_eq_getElem (by omega), List.take_succ_eq_append_getElem (by omega)]
    simp only [List.take_zero, List.nil_append, List.sum_singleton]
    rw [Nat.mod_eq_of_lt (hb _ (List.getElem_mem _))]
  · intro i x hx
    obtain ⟨hi, rfl⟩ := List.getElem?_eq_some_iff.1 hx
    rw [List.take_succ_eq_append_getElem hi, List.sum_append, List.sum_singleton]
    unfold u32
    rw [Nat.mod_add_mod]

/-- **C54, cumulative sums of samples**, for any arithmetic: the elements are added from the left. -/
theorem C54_samples_cusum [Add S] (a : Src S) (out : Buf S) (count : Nat) (h0 : 0 < count)
    (hc : count ≤ out.length) (ha : a.Has count) (x : S) (l : Buf S) (hx : a.get out = x :: l) :
    samplesCusum a count out = .ok (tab count (fun i => (l.take i).foldl (· + ·) x) ++ out.drop count) := by
  refine arrayCusum_eq _ _ a out count h0 hc ha ?_ ?_
  · rw [hx]; rfl
  · intro i y hy
    rw [hx, List.getElem?_cons_succ] at hy
    obtain ⟨hi, rfl⟩ := List.getElem?_eq_some_iff.1 hy
    rw [List.take_succ_eq_append_getElem hi, List.foldl_append]
    rfl

theorem seriesLoop_eq (next : S → S) (P : Nat → S) (out : Buf S) (count : Nat) (hc : count ≤ out.length)
    (hP : ∀ i, P (i + 1) = next (P i)) :
    seriesLoop next (P 0) count out = .ok (tab count P ++ out.drop count) := by
  unfold seriesLoop
  have h := forRange_states (lo := 0) (hi := count) (body := seriesBody next)
    (fun i => (tab i P ++ out.drop i, P i)) (Nat.zero_le _) (by
      intro i _ hi
      unfold seriesBody
      simp only
      rw [List.drop_eq_getElem_cons (by omega), wr_append (by simp), ok_bind', pure_eq_ok, ← hP]
      congr 2
      unfold tab
      rw [List.range_succ]
      simp)
  have e : (tab 0 P ++ out.drop 0, P 0) = (out, P 0) := rfl
  simp only [e] at h
  rw [h]
  rfl

/-- **C54, additions of times**: `out[i] = start + i * summand` modulo 2^32. -/
theorem C54_times_additions (start summand count : Nat) (out : Buf Nat) (hc : count ≤ out.length)
    (hs : start < 4294967296) :
    timesAdditions start summand count out =
      .ok (tab count (fun i => (start + i * summand) % 4294967296) ++ out.drop count) := by
  have h := seriesLoop_eq (fun x => u32 (x + summand)) (fun i => (start + i * summand) % 4294967296) out count hc
    (by intro i; unfold u32; rw [Nat.mod_add_mod]; congr 1; ring)
  simp only [Nat.zero_mul, Nat.add_zero, Nat.mod_eq_of_lt hs] at h
  exact h

/-- **C54, multiplications of times**: `out[i] = start * factor ^ i` modulo 2^32. -/
theorem C54_times_multiplications (start factor count : Nat) (out : Buf Nat) (hc : count ≤ out.length)
    (hs : start < 4294967296) :
    timesMultiplications start factor count out =
      .ok (tab count (fun i => (start * factor ^ i) % 4294967296) ++ out.drop count) := by
  have h := seriesLoop_eq (fun x => u32 (x * factor)) (fun i => (start * factor ^ i) % 4294967296) out count hc
    (by intro i; unfold u32; rw [Nat.mod_mul_mod]; congr 1; ring)
  simp only [pow_zero, Nat.mul_one, Nat.mod_eq_of_lt hs] at h
  exact h

/-- **C54, additions of samples**, exact arithmetic. -/
theorem C54_samples_additions (start summand : ℚ) (count : Nat) (out : Buf ℚ) (hc : count ≤ out.length) :
    samplesAdditions start summand count out =
      .ok (tab count (fun i => start + i * summand) ++ out.drop count) := by
  have h := seriesLoop_eq (fun x => x + summand) (fun i : Nat => start + i * summand) out count hc
    (by intro i; push_cast; ring)
  simp only [Nat.cast_zero, zero_mul, add_zero] at h
  exact h

/-- **C54, divisions of samples**, exact arithmetic. -/
theorem C54_samples_divisions (start divisor : ℚ) (count : Nat) (out : Buf ℚ) (hc : count ≤ out.length) :
    samplesDivisions start divisor count out =
      .ok (tab count (fun i => start / divisor ^ i) ++ out.drop count) := by
  have h := seriesLoop_eq (fun x => x / divisor) (fun i : Nat => start / divisor ^ i) out count hc
    (by intro i; rw [pow_succ, div_div])
  simp only [pow_zero, div_one] at h
  exact h

/-- The cumulative sum functions read and write element zero even for a count of zero. -/
theorem C54_cusum_zero_count (add : S → S → S) (a : Buf S) : arrayCusum add (some a) 0 [] = .error .outOfBounds := by
  unfold arrayCusum rdSrc
  cases a <;> rfl

example : timesCusum none 3 [1, 4294967295, 3, 9] = .ok [1, 0, 3, 9] := rfl
example : timesCusum (some [1, 2, 3]) 3 [0, 0, 0] = .ok [1, 3, 6] := rfl
example : timesAdditions 5 3 3 [0, 0, 0, 9] = .ok [5, 8, 11, 9] := rfl
example : timesMultiplications 5 3 3 [0, 0, 0, 9] = .ok [5, 15, 45, 9] := rfl

/-- **C60, times**: every result is at most `n`, elements not above `n` are kept, others become `n`. -/
theorem C60_times_limit (a : Src Nat) (count n : Nat) (out : Buf Nat) (hc : count ≤ out.length) (ha : a.Has count) :
    timesLimit a count n out = .ok (((a.get out).take count).map (fun x => min x n) ++ out.drop count) := by
  refine mapLoop_eq hc ha (fun x _ => ?_)
  rcases Nat.lt_or_ge n x with h | h
  · rw [if_pos h, Nat.min_eq_right (by omega)]
  · rw [if_neg (by omega), Nat.min_eq_left h]

/-- **C60, samples**. -/
theorem C60_samples_limit (b : Buf ℚ) (count : Nat) (limit : ℚ) (hc : count ≤ b.length) :
    samplesLimit b count limit = .ok ((b.take count).map (fun x => min x limit) ++ b.drop count) := by
  refine mapLoop_eq hc (Src.has_none _) (fun x _ => ?_)
  rcases lt_or_ge limit x with h | h
  · rw [if_pos h, min_eq_right h.le]
  · rw [if_neg (not_lt.2 h), min_eq_left h]

/-- What limiting to an absolute value is: between `-limit` and `limit`, nothing done inside, and outside of
the same sign and of the absolute value `limit`. -/
def LimitedAbs (limit x y : ℚ) : Prop :=
  |y| ≤ limit ∧ (|x| ≤ limit → y = x) ∧ (limit < |x| → |y| = limit ∧ 0 ≤ y * x)

/-- **C60, absolute limit**, for limits that are not negative. -/
theorem C60_samples_limit_abs (a : Src ℚ) (count : Nat) (limit : ℚ) (out : Buf ℚ) (hl : 0 ≤ limit)
    (hc : count ≤ out.length) (ha : a.Has count) :
    ∃ g : ℚ → ℚ, (∀ x, LimitedAbs limit x (g x)) ∧
      samplesLimitAbs a count limit out = .ok (((a.get out).take count).map g ++ out.drop count) := by
  refine ⟨fun x => max (-limit) (min x limit), ?_, ?_⟩
  · intro x
    refine ⟨?_, ?_, ?_⟩
    · rw [abs_le]
      exact ⟨le_max_left _ _, max_le (by linarith) (min_le_right _ _)⟩
    · intro h
      rw [abs_le] at h
      show max (-limit) (min x limit) = x
      rw [min_eq_left h.2, max_eq_right h.1]
    · intro h
      rw [lt_abs] at h
      show |max (-limit) (min x limit)| = limit ∧ 0 ≤ max (-limit) (min x limit) * x
      rcases h with h | h
      · rw [min_eq_right h.le, max_eq_right (by linarith), abs_of_nonneg hl]
        exact ⟨rfl, mul_nonneg hl (by linarith)⟩
      · rw [min_eq_left (by linarith), max_eq_left (by linarith), abs_neg, abs_of_nonneg hl]
        exact ⟨rfl, by nlinarith⟩
  · refine mapLoop_eq hc ha (fun x _ => ?_)
    simp only [neg_mul, one_mul]
    by_cases h : 0 > x
    · rw [if_pos h, min_eq_left (by linarith)]
      by_cases h2 : -limit > x
      · rw [if_pos h2, max_eq_left h2.le]
      · rw [if_neg h2, max_eq_right (not_lt.1 h2)]
    · rw [if_neg h]
      have h' : 0 ≤ x := not_lt.1 h
      rw [max_eq_right (le_min (by linarith) (by linarith))]
      by_cases h2 : limit < x
      · rw [if_pos h2, min_eq_right h2.le]
      · rw [if_neg h2, min_eq_left (not_lt.1 h2)]

example : samplesLimitAbs none 3 2 [-5, 1, 7, 9] = .ok [-2, 1, 2, 9] := by
  norm_num [samplesLimitAbs, mapLoop, forRange, iter, mapBody, rdSrc, rd, wr]

end Sp
