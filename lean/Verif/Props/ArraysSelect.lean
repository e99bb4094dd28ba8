import Verif.Lemmas.Arrays
import Mathlib.Data.Nat.Bitwise
import Mathlib.Tactic.FieldSimp
import Mathlib.Tactic.Positivity
import Mathlib.Algebra.Order.Field.Basic

/-!
# C55 to C59, C61: removing, selecting, bits, extracting, gain and blending
-/

set_option linter.unusedSectionVars false

namespace Sp
variable {S : Type}

theorem memcpy_at (pre mid post src : Buf S) {d s n : Nat} (hd : d = pre.length) (hn : n = mid.length)
    (hs : s + n ≤ src.length) :
    memcpy (pre ++ mid ++ post) d src s n = .ok (pre ++ (src.drop s).take n ++ post) := by
  unfold memcpy
  subst hd hn
  rw [if_pos (by simp; omega)]
  congr 1
  rw [← List.length_append, List.drop_left, List.append_assoc pre mid post, List.take_left]

theorem memcpy_start {out src : Buf S} {s n : Nat} (hn : n ≤ out.length) (hs : s + n ≤ src.length) :
    memcpy out 0 src s n = .ok ((src.drop s).take n ++ out.drop n) := by
  unfold memcpy
  rw [if_pos (by omega)]
  simp

/-- **C55, remove**: the elements from `index` to `index + count - 1` are left out. -/
theorem C55_remove (a out : Buf S) (size index count : Nat) (hs : size ≤ a.length) (h : index + count ≤ size)
    (ho : size - count ≤ out.length) (h32 : size < 4294967296) :
    timesRemove a size index count out = .ok ((a.take index ++ (a.take size).drop (index + count)) ++
      out.drop (size - count)) := by
  unfold timesRemove
  by_cases h0 : index = 0
  · subst h0
    rw [if_pos rfl, sub32_of_le (by omega) h32, memcpy_start ho (by omega)]
    congr 1
    simp only [List.take_zero, List.nil_append, Nat.zero_add]
    rw [List.drop_take]
  · rw [if_neg h0]
    by_cases h1 : sub32 size 1 = index
    · rw [if_pos h1, sub32_of_le (by omega) h32, memcpy_start ho (by omega)]
      rw [sub32_of_le (by omega) h32] at h1
      have hc : count = 0 ∨ count = 1 := by omega
      congr 2
      rw [List.drop_zero]
      rcases hc with rfl | rfl
      · rw [Nat.add_zero, Nat.sub_zero]
        conv_lhs => rw [← List.take_append_drop index (a.take size)]
        rw [List.take_take, Nat.min_eq_left (by omega)]
      · rw [List.drop_eq_nil_of_le (by rw [List.length_take]; omega), List.append_nil, h1]
    · rw [if_neg h1, memcpy_start (by omega) (by omega), ok_bind']
      rw [sub32_of_le (a := size) (by omega) h32, sub32_of_le (by omega) (by omega)]
      have e : out.drop index = (out.drop index).take (size - index - count) ++ out.drop (size - count) := by
        conv_lhs => rw [← List.take_append_drop (size - index - count) (out.drop index)]
        rw [List.drop_drop, show index + (size - index - count) = size - count by omega]
      rw [e, ← List.append_assoc, memcpy_at _ _ _ _ (by simp; omega) (by rw [List.length_take, List.length_drop]; omega)
        (by omega), List.drop_zero, List.drop_take]
      congr 4
      omega

/-- **C55, insert space**: the elements before `index`, then `count` elements of `out` that stay as they
were, then the other elements. -/
theorem C55_insert_space (a out : Buf S) (size index count : Nat) (hs : size ≤ a.length) (h : index ≤ size)
    (ho : size + count ≤ out.length) (h32 : size < 4294967296) :
    timesInsertSpace a size index count out = .ok (a.take index ++ (out.drop index).take count ++
      (a.take size).drop index ++ out.drop (size + count)) := by
  unfold timesInsertSpace
  have e1 : out = out.take (index + count) ++ ((out.drop (index + count)).take (size - index) ++ out.drop (size + count)) := by
    conv_lhs => rw [← List.take_append_drop (index + count) out,
      ← List.take_append_drop (size - index) (out.drop (index + count))]
    rw [List.drop_drop, show index + count + (size - index) = size + count by omega]
  by_cases h0 : index = 0
  · subst h0
    rw [if_pos rfl]
    conv_lhs => rw [e1]
    rw [← List.append_assoc, memcpy_at _ _ _ _ (by rw [List.length_take]; omega)
      (by rw [List.length_take, List.length_drop]; omega) (by omega)]
    simp
  · rw [if_neg h0, memcpy_start (by omega) (by omega), ok_bind', sub32_of_le h h32]
    have e2 : out.drop index = (out.drop index).take count ++
        ((out.drop (index + count)).take (size - index) ++ out.drop (size + count)) := by
      conv_lhs => rw [← List.take_append_drop count (out.drop index), List.drop_drop,
        ← List.take_append_drop (size - index) (out.drop (index + count))]
      rw [List.drop_drop, show index + count + (size - index) = size + count by omega]
    rw [e2, ← List.append_assoc, ← List.append_assoc, memcpy_at _ _ _ _
      (by simp only [List.length_append, List.length_take, List.length_drop]; omega)
      (by rw [List.length_take, List.length_drop]; omega) (by omega), List.drop_zero, List.drop_take]
    congr 5

/-- **C55, subdivide**: `count` values are inserted between the elements at `index` and `index + 1`, each
greater than the one before by the same integer, the rounded down quotient of the difference and
`count + 1`; the other elements stay. -/
theorem C55_subdivide (a out : Buf Nat) (size index count x0 x1 : Nat) (hs : size ≤ a.length)
    (h : index + 1 < size) (ho : size + count ≤ out.length) (h32 : size + count < 4294967296)
    (h0 : a[index]? = some x0) (h1 : a[index + 1]? = some x1) (hx : x0 ≤ x1) (hx1 : x1 < 4294967296) :
    timesSubdivideDifference a size index count out =
      .ok (a.take (index + 1) ++ tab count (fun k => x0 + (k + 1) * ((x1 - x0) / (count + 1))) ++
        (a.take size).drop (index + 1) ++ out.drop (size + count)) := by
  unfold timesSubdivideDifference
  rw [u32_of_lt (by omega), C55_insert_space a out size (index + 1) count hs (by omega) ho (by omega), ok_bind',
    rd_ok_iff.2 h1, ok_bind', rd_ok_iff.2 h0, ok_bind', sub32_of_le hx hx1]
  unfold divTime
  rw [u32_of_lt (by omega : count + 1 < 4294967296), if_neg (by omega), ok_bind', u32_of_lt (by omega)]
  set V := (x1 - x0) / (count + 1) with hV
  have hVle : ∀ k, k ≤ count → x0 + (k + 1) * V ≤ x1 := by
    intro k hk
    have : (count + 1) * V ≤ x1 - x0 := by rw [hV]; exact Nat.mul_div_le _ _
    have : (k + 1) * V ≤ (count + 1) * V := Nat.mul_le_mul_right _ (by omega)
    omega
  have hal : (a.take (index + 1)).length = index + 1 := by rw [List.length_take]; omega
  set g := (out.drop (index + 1)).take count with hg
  have hgl : g.length = count := by rw [hg, List.length_take, List.length_drop]; omega
  set rest := (a.take size).drop (index + 1) ++ out.drop (size + count) with hrest
  have h := forRange_states (lo := index + 1) (hi := index + (count + 1)) (body := fun i out => do
      let x ← rd out (i - 1)
      wr out i (u32 (x + V)))
    (fun i => a.take (index + 1) ++ tab (i - (index + 1)) (fun k => x0 + (k + 1) * V) ++
      (g.drop (i - (index + 1)) ++ rest)) (by omega) (by
      intro i hi1 hi2
      obtain ⟨k, rfl⟩ : ∃ k, i = index + 1 + k := ⟨i - (index + 1), by omega⟩
      rw [show index + 1 + k - (index + 1) = k by omega, show index + 1 + k - 1 = index + k by omega,
        show index + 1 + k + 1 - (index + 1) = k + 1 by omega]
      have e1 : rd (a.take (index + 1) ++ tab k (fun k => x0 + (k + 1) * V) ++ (g.drop k ++ rest)) (index + k) =
          .ok (x0 + k * V) := by
        rw [rd_ok_iff, List.getElem?_append_left (by simp; omega)]
        cases k with
        | zero => rw [List.getElem?_append_left (by omega), List.getElem?_take, if_pos (by omega), Nat.add_zero, h0]; simp
        | succ k =>
          rw [List.getElem?_append_right (by omega), hal, tab_getElem?, if_pos (by omega),
            show index + (k + 1) - (index + 1) = k by omega]
      have hle := hVle k (by omega)
      have he : x0 + k * V + V = x0 + (k + 1) * V := by ring
      rw [e1, ok_bind', List.drop_eq_getElem_cons (by omega), List.cons_append, wr_append (by simp; omega), he,
        u32_of_lt (by omega)]
      congr 1
      unfold tab
      rw [List.range_succ, List.map_append]
      simp)
  simp only [Nat.sub_self, List.drop_zero] at h
  have e2 : a.take (index + 1) ++ g ++ (a.take size).drop (index + 1) ++ out.drop (size + count) =
      a.take (index + 1) ++ tab 0 (fun k => x0 + (k + 1) * V) ++ (g ++ rest) := by
    rw [hrest]
    simp [tab]
  rw [e2, h, show index + (count + 1) - (index + 1) = count by omega,
    List.drop_eq_nil_of_le (by omega), List.nil_append, hrest, List.append_assoc]
  simp only [List.append_assoc]

example : timesSubdivideDifference [4, 16, 9] 3 0 3 [0, 0, 0, 0, 0, 0] = .ok [4, 7, 10, 13, 16, 9] := rfl
example : timesRemove [1, 2, 3, 4] 4 1 2 [0, 0, 0] = .ok [1, 4, 0] := rfl
example : timesInsertSpace [1, 2, 3] 3 1 2 [7, 7, 7, 7, 7] = .ok [1, 7, 7, 2, 3] := rfl

/-- **C56, select into another array**: the elements at the given indices. The indices may be the output
array. -/
theorem C56_select (a out : Buf Nat) (indices : Src Nat) (count : Nat) (hc : count ≤ out.length)
    (hi : indices.Has count) (hin : ∀ k ∈ (indices.get out).take count, k < a.length) :
    timesSelect (some a) indices count out =
      .ok (((indices.get out).take count).map (fun k => a.getD k 0) ++ out.drop count) := by
  have e : timesSelect (some a) indices count out = mapLoop (fun k => rd a k) indices count out := by
    unfold timesSelect mapLoop
    refine forRange_congr (fun i s _ _ => ?_)
    unfold selectBody mapBody
    rfl
  rw [e]
  refine mapLoop_eq hc hi (fun k hk => ?_)
  rw [rd_eq_ok (hin k hk)]
  congr 1
  rw [getD_of_lt (hin k hk)]

/-- **C56, select in place**: right when no index is below its position, which holds for ascending
distinct indices. -/
theorem C56_select_in_place (indices out : Buf Nat) (count : Nat) (hc : count ≤ out.length)
    (hi : count ≤ indices.length) (hin : ∀ k ∈ indices.take count, k < out.length)
    (hasc : (indices.take count).Pairwise (· < ·)) :
    timesSelect none (some indices) count out =
      .ok ((indices.take count).map (fun k => out.getD k 0) ++ out.drop count) := by
  have hge : ∀ i, (h : i < count) → i ≤ indices[i] := by
    intro i
    induction i with
    | zero => intro _; omega
    | succ i ih =>
      intro h
      have h1 := ih (by omega)
      have h2 := List.pairwise_iff_getElem.1 hasc i (i + 1) (by rw [List.length_take]; omega)
        (by rw [List.length_take]; omega) (by omega)
      rw [List.getElem_take, List.getElem_take] at h2
      omega
  have h := forRange_states (lo := 0) (hi := count) (body := selectBody none (some indices))
    (fun i => (indices.take i).map (fun k => out.getD k 0) ++ out.drop i) (Nat.zero_le _) (by
      intro i _ h
      have hl : ((indices.take i).map (fun k => out.getD k 0)).length = i := by
        rw [List.length_map, List.length_take]; omega
      have hk : indices[i] < out.length := hin _ (by rw [List.mem_take_iff_getElem]; exact ⟨i, by omega, rfl⟩)
      have hg := hge i h
      unfold selectBody rdSrc
      rw [Option.getD_some, Option.getD_none, rd_eq_ok (by omega), ok_bind']
      have e : rd ((indices.take i).map (fun k => out.getD k 0) ++ out.drop i) indices[i] = .ok out[indices[i]] := by
        rw [rd_ok_iff, List.getElem?_append_right (by omega), hl, List.getElem?_drop,
          show i + (indices[i] - i) = indices[i] by omega, List.getElem?_eq_getElem hk]
      rw [e, ok_bind', List.drop_eq_getElem_cons (by omega), wr_append hl.symm,
        List.take_succ_eq_append_getElem (by omega), List.map_append, List.append_assoc]
      simp only [List.map_cons, List.map_nil]
      rw [getD_of_lt hk]
      rfl)
  simpa [timesSelect] using h

/-- **C56, indices above a threshold**: exactly the indices of elements greater than `n`, ascending, and their
number; input and output may be the same array. -/
theorem C56_gt_indices (a : Src Nat) (size n : Nat) (out : Buf Nat) (hc : size ≤ out.length) (ha : a.Has size)
    (h32 : size < 4294967296) :
    timesGtIndices a size n out =
      .ok ((List.range size).filter (fun i => n < (a.get out).getD i 0) ++
          out.drop ((List.range size).filter (fun i => n < (a.get out).getD i 0)).length,
        ((List.range size).filter (fun i => n < (a.get out).getD i 0)).length) := by
  have hla := ha.le hc
  have h := forRange_states (lo := 0) (hi := size) (body := gtBody a n)
    (fun m => ((List.range m).filter (fun i => n < (a.get out).getD i 0) ++
          out.drop ((List.range m).filter (fun i => n < (a.get out).getD i 0)).length,
        ((List.range m).filter (fun i => n < (a.get out).getD i 0)).length)) (Nat.zero_le _) (by
      intro i _ hi
      set F := (List.range i).filter (fun i => n < (a.get out).getD i 0) with hF
      have hFl : F.length ≤ i := by
        have := List.length_filter_le (fun i => decide (n < (a.get out).getD i 0)) (List.range i)
        rwa [List.length_range] at this
      have e1 : rdSrc a (F ++ out.drop F.length) i = .ok ((a.get out)[i]) := by
        cases a with
        | none =>
          unfold rdSrc
          rw [Option.getD_none, rd_ok_iff, List.getElem?_append_right hFl, List.getElem?_drop,
            show F.length + (i - F.length) = i by omega]
          exact List.getElem?_eq_getElem (by omega)
        | some s => exact rd_eq_ok (show i < s.length from lt_of_lt_of_le hi (ha s rfl))
      unfold gtBody
      simp only
      rw [e1, ok_bind', List.range_succ, List.filter_append, ← hF]
      by_cases hx : n < (a.get out)[i]
      · rw [if_pos hx, List.drop_eq_getElem_cons (by omega), wr_append rfl, ok_bind', pure_eq_ok,
          u32_of_lt (by omega), List.filter_cons, if_pos (by rw [getD_of_lt (by omega)]; simpa using hx)]
        simp
      · rw [if_neg hx, pure_eq_ok, List.filter_cons,
          if_neg (by rw [getD_of_lt (by omega)]; simpa using hx)]
        simp)
  simpa [timesGtIndices] using h

example : timesSelect none (some [1, 3]) 2 [5, 6, 7, 8] = .ok [6, 8, 7, 8] := rfl
example : timesGtIndices none 4 2 [5, 1, 7, 2] = .ok ([0, 2, 7, 2], 2) := rfl

/-! ### C57 -/

theorem and_pow_ne_zero (x k : Nat) : (x &&& 2 ^ k ≠ 0) ↔ x.testBit k = true := by
  rw [Nat.and_two_pow]
  cases x.testBit k <;> simp

/-- Bit `i` of the input, counted over all words. -/
def bitAt (a : Buf Nat) (i : Nat) : Nat := if (a.getD (i / 32) 0).testBit (i % 32) then 1 else 0

theorem bitsInner_eq (a : Buf Nat) (size aI : Nat) (out : Buf Nat) (hs : size < 4294967296) (ho : size ≤ out.length)
    (ha : aI < a.length) :
    ∀ (fuel k : Nat), k ≤ 32 → 32 * aI + k ≤ size → 32 - k < fuel →
      ∃ m, bitsInner (some a) size aI fuel ⟨32 * aI + k, k, u32 (2 ^ k), tab (32 * aI + k) (bitAt a) ++
          out.drop (32 * aI + k)⟩ =
        .ok ⟨min (32 * aI + 32) size, min 32 (size - 32 * aI), m, tab (min (32 * aI + 32) size) (bitAt a) ++
          out.drop (min (32 * aI + 32) size)⟩ := by
  intro fuel
  induction fuel with
  | zero => intro k _ _ h; omega
  | succ fuel ih =>
    intro k hk hks hf
    unfold bitsInner
    simp only
    by_cases hc : k < 32 ∧ 32 * aI + k < size
    · rw [if_pos hc]
      have e1 : rdSrc (some a) (tab (32 * aI + k) (bitAt a) ++ out.drop (32 * aI + k)) aI = .ok a[aI] := rd_eq_ok ha
      have hp : (2 : Nat) ^ k < 4294967296 := by
        calc (2 : Nat) ^ k < 2 ^ 32 := Nat.pow_lt_pow_right (by omega) hc.1
          _ = 4294967296 := by norm_num
      have ebit : (if a[aI] &&& u32 (2 ^ k) ≠ 0 then 1 else 0) = bitAt a (32 * aI + k) := by
        rw [u32_of_lt hp]
        unfold bitAt
        rw [show (32 * aI + k) / 32 = aI by omega, show (32 * aI + k) % 32 = k by omega, getD_of_lt ha]
        by_cases hb : a[aI].testBit k = true
        · rw [if_pos ((and_pow_ne_zero _ _).2 hb), if_pos hb]
        · rw [if_neg (fun h => hb ((and_pow_ne_zero _ _).1 h)), if_neg hb]
      rw [e1, ok_bind', ebit, List.drop_eq_getElem_cons (by omega), wr_append (by simp), ok_bind']
      have e2 : tab (32 * aI + k) (bitAt a) ++ bitAt a (32 * aI + k) :: out.drop (32 * aI + k + 1) =
          tab (32 * aI + (k + 1)) (bitAt a) ++ out.drop (32 * aI + (k + 1)) := by
        rw [← Nat.add_assoc]
        unfold tab
        rw [List.range_succ, List.map_append]
        simp
      have e3 : u32 (u32 (2 ^ k) * 2) = u32 (2 ^ (k + 1)) := by
        rw [u32_of_lt hp, pow_succ]
      rw [e2, e3, u32_of_lt (by omega), Nat.add_assoc]
      exact ih (k + 1) (by omega) (by omega) (by omega)
    · rw [if_neg hc]
      refine ⟨u32 (2 ^ k), ?_⟩
      rw [show min (32 * aI + 32) size = 32 * aI + k by omega, show min 32 (size - 32 * aI) = k by omega]

theorem bitsOuter_eq (a : Buf Nat) (size : Nat) (out : Buf Nat) (hs : size < 4294967296) (ho : size ≤ out.length)
    (ha : size ≤ 32 * a.length) :
    ∀ (fuel aI : Nat), 0 < fuel → size + 32 ≤ 32 * aI + 32 * fuel →
      bitsOuter (some a) size fuel (min (32 * aI) size) (u32 aI) (tab (min (32 * aI) size) (bitAt a) ++
        out.drop (min (32 * aI) size)) = .ok (tab size (bitAt a) ++ out.drop size) := by
  intro fuel
  induction fuel with
  | zero => intro aI h; omega
  | succ fuel ih =>
    intro aI _ hf
    unfold bitsOuter
    by_cases hc : 32 * aI < size
    · rw [show min (32 * aI) size = 32 * aI by omega, if_pos hc, u32_of_lt (by omega)]
      obtain ⟨m, hm⟩ := bitsInner_eq a size aI out hs ho (by omega) 33 0 (by omega) (by omega) (by omega)
      rw [show u32 (2 ^ 0) = 1 from rfl, Nat.add_zero] at hm
      rw [hm, ok_bind']
      exact ih (aI + 1) (by omega) (by omega)
    · rw [show min (32 * aI) size = size by omega, if_neg (by omega)]

/-- **C57**: `out[i]` is bit `i % 32` of `a[i / 32]`, for all `i` below size; only needed elements are read. -/
theorem C57_bits (a out : Buf Nat) (size fuel : Nat) (hs : size < 4294967296) (ho : size ≤ out.length)
    (ha : size ≤ 32 * a.length) (hf : size + 32 ≤ 32 * fuel) :
    timesBitsToTimes (some a) size fuel out =
      .ok (tab size (fun i => if (a.getD (i / 32) 0).testBit (i % 32) then 1 else 0) ++ out.drop size) := by
  have h := bitsOuter_eq a size out hs ho ha fuel 0 (by omega) (by omega)
  rw [show min (32 * 0) size = 0 by omega] at h
  exact h

/-- The documentation allows the same pointer for both arrays, but then bits are overwritten before they are
read: two bits of 2 (binary 10) come out as 0 and 0. -/
theorem C57_same_pointer_wrong : timesBitsToTimes none 2 3 [2, 9] = .ok [0, 0] ∧
    timesBitsToTimes (some [2, 9]) 2 3 [0, 0] = .ok [0, 1] := ⟨rfl, rfl⟩

/-- **C57**: the number of words allocated by random binary is enough. -/
theorem C57_random_size (size : Nat) (hs : size < 4294967296) : size ≤ 32 * randomBinarySize size := by
  unfold randomBinarySize u32
  split <;> omega

/-- The state of a random source after `k` numbers were taken. -/
def sourceAfter {σ : Type} (next : σ → Nat × σ) (k : Nat) (s : σ) : σ := (fun s => (next s).2)^[k] s

/-- The number with index `k` that a random source gives. -/
def sourceNumber {σ : Type} (next : σ → Nat × σ) (k : Nat) (s : σ) : Nat := (next (sourceAfter next k s)).1

/-- Bit `i` of the numbers that a random source gives, 32 bits from each. -/
def sourceBit {σ : Type} (next : σ → Nat × σ) (s : σ) (i : Nat) : Bool := (sourceNumber next (i / 32) s).testBit (i % 32)

theorem timesRandom_eq {σ : Type} (next : σ → Nat × σ) (n : Nat) (out : Buf Nat) (ho : out.length = n) (s : σ) :
    timesRandom next n out s = .ok (tab n (fun k => sourceNumber next k s), sourceAfter next n s) := by
  unfold timesRandom
  have h := forRange_states (lo := 0) (hi := n) (body := fun i (os : Buf Nat × σ) => do
      let (v, s) := next os.2
      let out ← wr os.1 i v
      return (out, s))
    (fun i => (tab n (fun k => if k < i then sourceNumber next k s else out.getD k 0), sourceAfter next i s)) (Nat.zero_le _) (by
      intro i _ hi
      dsimp only
      rw [wr_tab _ hi, ok_bind', pure_eq_ok]
      congr 2
      · refine tab_congr fun k hk => ?_
        by_cases h1 : k = i
        · subst h1
          rw [if_pos rfl, if_pos (by omega)]
          rfl
        · rw [if_neg h1]
          by_cases h2 : k < i
          · rw [if_pos h2, if_pos (by omega)]
          · rw [if_neg h2, if_neg (by omega)]
      · exact (Function.iterate_succ_apply' (fun s => (next s).2) i s).symm)
  have h0 : tab n (fun k => if k < 0 then sourceNumber next k s else out.getD k 0) = out := by
    conv_rhs => rw [eq_tab out 0, ho]
    exact tab_congr fun k _ => by rw [if_neg (by omega)]
  rw [h0] at h
  refine (h : _).trans ?_
  congr 2
  exact tab_congr fun k hk => by rw [if_pos hk]

theorem randomBinarySize_eq {size : Nat} (hs : size < 4294967296) : randomBinarySize size = size / 32 + 1 := by
  unfold randomBinarySize u32
  split <;> omega

/-- **C57**: random binary writes the bits of the numbers of the random source, 32 of each, the lowest first, and takes one number for
each begun 32 elements and one more if `size` is a multiple of 32. -/
theorem C57_random_bits {σ : Type} (next : σ → Nat × σ) (size fuel : Nat) (out : Buf Nat) (s : σ)
    (hs : size < 4294967296) (ho : size ≤ out.length) (hf : size + 32 ≤ 32 * fuel) :
    timesRandomBinary next size fuel out s =
      .ok (tab size (fun i => if sourceBit next s i then 1 else 0) ++ out.drop size, sourceAfter next (size / 32 + 1) s) := by
  unfold timesRandomBinary
  rw [timesRandom_eq next _ _ (by simp) s, ok_bind']
  dsimp only
  rw [C57_bits _ out size fuel hs ho (by have := C57_random_size size hs; rw [tab_length]; exact this) hf, ok_bind', pure_eq_ok,
    randomBinarySize_eq hs]
  congr 3
  refine tab_congr fun i hi => ?_
  have : (tab (size / 32 + 1) (fun k => sourceNumber next k s)).getD (i / 32) 0 = sourceNumber next (i / 32) s := by
    rw [List.getD_eq_getElem?_getD, tab_getElem?, if_pos (by omega)]
    rfl
  rw [this]
  rfl

/-- **C57**: random binary writes `size` zeros and ones, for every random source. -/
theorem C57_random_binary {σ : Type} (next : σ → Nat × σ) (size fuel : Nat) (out : Buf Nat) (s : σ)
    (hs : size < 4294967296) (ho : size ≤ out.length) (hf : size + 32 ≤ 32 * fuel) :
    ∃ (f : Nat → Nat) (s' : σ), (∀ i, f i = 0 ∨ f i = 1) ∧
      timesRandomBinary next size fuel out s = .ok (tab size f ++ out.drop size, s') := by
  refine ⟨fun i => if sourceBit next s i then 1 else 0, _, ?_, C57_random_bits next size fuel out s hs ho hf⟩
  intro i
  dsimp only
  split
  · exact Or.inr rfl
  · exact Or.inl rfl

/-- A source that counts, from 5: the bits of 5 and then of 6. -/
example : timesRandomBinary (fun s : Nat => (s, s + 1)) 34 3 (List.replicate 35 9) 5 =
    .ok ([1, 0, 1] ++ List.replicate 29 0 ++ [0, 1, 9], 7) := rfl

example : timesBitsToTimes (some [5, 1]) 34 3 (List.replicate 35 9) =
    .ok ([1, 0, 1] ++ List.replicate 29 0 ++ [1, 0, 9]) := rfl

/-- **C56, random selection**: for every random source the result is a subsequence of the input: the elements
at the indices whose bit of the random source is set, and `out_size` their number. -/
theorem C56_select_random {σ : Type} (next : σ → Nat × σ) (a out : Buf Nat) (size fuel : Nat) (s : σ)
    (hs : size < 4294967296) (ho : size ≤ out.length) (ha : a.length = size) (hf : size + 32 ≤ 32 * fuel) :
    ∃ (sel rest : Buf Nat), timesSelectRandom next a size fuel out s =
        .ok (sel ++ rest, sel.length, sourceAfter next (size / 32 + 1) s) ∧
      sel = ((List.range size).filter (fun i => sourceBit next s i)).map (fun i => a.getD i 0) ∧ sel.Sublist a := by
  have h1 := C57_random_bits next size fuel out s hs ho hf
  unfold timesSelectRandom
  rw [h1, ok_bind']
  simp only
  set f : Nat → Nat := fun i => if sourceBit next s i then 1 else 0 with hfdef
  set o1 := tab size f ++ out.drop size with ho1
  have ho1l : o1.length = out.length := by rw [ho1, List.length_append, tab_length, List.length_drop]; omega
  rw [C56_gt_indices none size 0 o1 (by omega) (Src.has_none _) hs, ok_bind']
  simp only
  set F := (List.range size).filter (fun i => 0 < (Src.get none o1).getD i 0) with hF
  have hsub : F.Sublist (List.range size) := List.filter_sublist
  have hFl : F.length ≤ size := by simpa using hsub.length_le
  have ht : (Src.get none (F ++ o1.drop F.length)).take F.length = F := by
    show (F ++ o1.drop F.length).take F.length = F
    simp
  rw [C56_select a (F ++ o1.drop F.length) none F.length (by simp) (Src.has_none _) (by
    rw [ht]
    intro k hk
    have := List.mem_range.1 (hsub.subset hk)
    omega), ok_bind', ht]
  refine ⟨F.map (fun k => a.getD k 0), _, by simp only [List.length_map]; rfl, ?_, ?_⟩
  · congr 1
    rw [hF]
    refine List.filter_congr fun i hi => ?_
    have hi' := List.mem_range.1 hi
    have : (Src.get none o1).getD i 0 = f i := by
      show o1.getD i 0 = f i
      rw [List.getD_eq_getElem?_getD, ho1, List.getElem?_append_left (by rw [tab_length]; exact hi'), tab_getElem?, if_pos hi']
      rfl
    rw [this, hfdef]
    dsimp only
    by_cases hb : sourceBit next s i = true
    · simp [hb]
    · simp [hb]
  have : (List.range size).map (fun k => a.getD k 0) = a := by
    conv_rhs => rw [eq_tab a 0, ha]
    rfl
  have h2 := hsub.map (fun k => a.getD k 0)
  rwa [this] at h2

/-- **C58 is false**: with `min ≤ max` all elements are taken. -/
theorem C58_extract_takes_all (a out : Buf Nat) (size min max : Nat) (hm : min ≤ max) (hs : size < 4294967296)
    (ha : size ≤ a.length) (ho : size ≤ out.length) :
    timesExtractInRange (some a) size min max out = .ok (a.take size ++ out.drop size, size) := by
  have h := forRange_states (lo := 0) (hi := size) (body := extractBody (some a) min max)
    (fun i => (a.take i ++ out.drop i, i)) (Nat.zero_le _) (by
      intro i _ hi
      unfold extractBody rdSrc
      simp only [Option.getD_some]
      rw [rd_eq_ok (by omega), ok_bind', if_pos (by omega), List.drop_eq_getElem_cons (l := out) (by omega),
        wr_append (by rw [List.length_take]; omega), ok_bind', pure_eq_ok, u32_of_lt (by omega),
        List.take_succ_eq_append_getElem (by omega), List.append_assoc]
      rfl)
  simpa [timesExtractInRange] using h

/-- **C58, the case in which it is right**: all elements are in the range. The claim is about all arrays. -/
theorem C58_extract_all_in_range_partial (a out : Buf Nat) (size min max : Nat) (hm : min ≤ max)
    (hs : size < 4294967296) (ha : size ≤ a.length) (ho : size ≤ out.length)
    (hall : ∀ x ∈ a.take size, min ≤ x ∧ x ≤ max) :
    timesExtractInRange (some a) size min max out =
      .ok ((a.take size).filter (fun x => min ≤ x ∧ x ≤ max) ++
        out.drop ((a.take size).filter (fun x => min ≤ x ∧ x ≤ max)).length,
        ((a.take size).filter (fun x => min ≤ x ∧ x ≤ max)).length) := by
  have e : (a.take size).filter (fun x => min ≤ x ∧ x ≤ max) = a.take size := by
    rw [List.filter_eq_self]
    intro x hx
    simpa using hall x hx
  rw [e, C58_extract_takes_all a out size min max hm hs ha ho, List.length_take, Nat.min_eq_left ha]

/-- The disagreement: 9 is not in 2 to 4. -/
theorem C58_extract_false : timesExtractInRange (some [1, 3, 9]) 3 2 4 [0, 0, 0] = .ok ([1, 3, 9], 3) := rfl

/-! ### C59 -/

/-- **C59, times**: the result bounds all elements and is one of them, or zero for an empty array. -/
theorem C59_times_absolute_max (a : Buf Nat) (count : Nat) (hc : count ≤ a.length) :
    ∃ m, timesAbsoluteMax a count = .ok m ∧ (∀ x ∈ a.take count, x ≤ m) ∧ (m ∈ a.take count ∨ m = 0) := by
  unfold timesAbsoluteMax
  obtain ⟨m, h1, h2⟩ := forRange_rule (lo := 0) (hi := count) (s := 0) (body := fun i max => do
      let temp ← rd a i
      if temp > max then return temp else return max)
    (P := fun i m => (∀ x ∈ a.take i, x ≤ m) ∧ (m ∈ a.take i ∨ m = 0)) (hle := Nat.zero_le _)
    (h0 := by simp) (hstep := by
      intro i m _ hi ⟨p1, p2⟩
      rw [rd_eq_ok (by omega), ok_bind', List.take_succ_eq_append_getElem (by omega)]
      by_cases h : a[i] > m
      · rw [if_pos h]
        refine ⟨_, rfl, ?_, .inl (List.mem_append_right _ (List.mem_singleton.2 rfl))⟩
        intro x hx
        simp only [List.mem_append, List.mem_singleton] at hx
        rcases hx with hx | rfl
        · have := p1 x hx; omega
        · exact le_refl _
      · rw [if_neg h]
        refine ⟨m, rfl, ?_, ?_⟩
        · intro x hx
          simp only [List.mem_append, List.mem_singleton] at hx
          rcases hx with hx | rfl
          · exact p1 x hx
          · omega
        · rcases p2 with p2 | p2
          · left; exact List.mem_append_left _ p2
          · right; exact p2)
  exact ⟨m, h1, h2⟩

theorem toTime_of {x : ℚ} (h0 : 0 ≤ x) (h1 : x < 4294967296) : toTime x = .ok ⌊x⌋₊ := by
  unfold toTime
  rw [if_neg (by rintro (h | h) <;> linarith)]
  rfl

/-- **C59, samples, what is true**: the result is the largest of the absolute values rounded down to an
integer; it is the largest absolute value if that is an integer. -/
theorem C59_samples_absolute_max_partial (a : Buf ℚ) (count : Nat) (hc : count ≤ a.length)
    (hr : ∀ x ∈ a.take count, |x| < 4294967296) :
    ∃ m, samplesAbsoluteMax a count = .ok m ∧ (∀ x ∈ a.take count, ⌊|x|⌋₊ ≤ m) ∧
      ((∃ x ∈ a.take count, m = ⌊|x|⌋₊) ∨ m = 0) ∧
      ∀ M : Nat, (∀ x ∈ a.take count, |x| ≤ M) → (∃ x ∈ a.take count, |x| = M) → m = M := by
  unfold samplesAbsoluteMax
  obtain ⟨m, h1, h2, h3⟩ := forRange_rule (lo := 0) (hi := count) (s := 0) (body := fun i max => do
      let x ← rd a i
      let temp ← toTime (if 0 > x then -1 * x else x)
      if temp > max then return temp else return max)
    (P := fun i m => (∀ x ∈ a.take i, ⌊|x|⌋₊ ≤ m) ∧ ((∃ x ∈ a.take i, m = ⌊|x|⌋₊) ∨ m = 0)) (hle := Nat.zero_le _)
    (h0 := by simp) (hstep := by
      intro i m _ hi ⟨p1, p2⟩
      have hm : a[i] ∈ a.take count := by rw [List.mem_take_iff_getElem]; exact ⟨i, by omega, rfl⟩
      have habs : (if 0 > a[i] then -1 * a[i] else a[i]) = |a[i]| := by
        by_cases h : 0 > a[i]
        · rw [if_pos h, abs_of_neg h]; ring
        · rw [if_neg h, abs_of_nonneg (not_lt.1 h)]
      rw [rd_eq_ok (by omega), ok_bind', habs, toTime_of (abs_nonneg _) (hr _ hm), ok_bind',
        List.take_succ_eq_append_getElem (by omega)]
      by_cases h : ⌊|a[i]|⌋₊ > m
      · rw [if_pos h]
        refine ⟨_, rfl, ?_, .inl ⟨a[i], List.mem_append_right _ (List.mem_singleton.2 rfl), rfl⟩⟩
        intro x hx
        simp only [List.mem_append, List.mem_singleton] at hx
        rcases hx with hx | rfl
        · have := p1 x hx; omega
        · exact le_refl _
      · rw [if_neg h]
        refine ⟨m, rfl, ?_, ?_⟩
        · intro x hx
          simp only [List.mem_append, List.mem_singleton] at hx
          rcases hx with hx | rfl
          · exact p1 x hx
          · omega
        · rcases p2 with ⟨x, p2, p3⟩ | p2
          · left; exact ⟨x, List.mem_append_left _ p2, p3⟩
          · right; exact p2)
  refine ⟨m, h1, h2, h3, ?_⟩
  intro M hM ⟨x, hx, hxM⟩
  have g1 := h2 x hx
  rw [hxM, Nat.floor_natCast] at g1
  rcases h3 with ⟨y, hy, rfl⟩ | rfl
  · have := Nat.floor_le_floor (hM y hy)
    rw [Nat.floor_natCast] at this
    omega
  · omega

/-- **C59 is false for samples**: for every signal below one in absolute value (all usual ones) the absolute
maximum comes out as zero and setting the gain does nothing. -/
theorem C59_samples_below_one (a : Buf ℚ) (count : Nat) (amp : ℚ) (hc : count ≤ a.length)
    (hr : ∀ x ∈ a.take count, |x| < 1) :
    samplesAbsoluteMax a count = .ok 0 ∧ samplesSetGain a count amp = .ok a := by
  obtain ⟨m, h1, _, h3, _⟩ := C59_samples_absolute_max_partial a count hc
    (fun x hx => lt_trans (hr x hx) (by norm_num))
  have hm : m = 0 := by
    rcases h3 with ⟨x, hx, rfl⟩ | h
    · rw [Nat.floor_eq_zero]; exact hr x hx
    · exact h
  subst hm
  refine ⟨h1, ?_⟩
  unfold samplesSetGain
  rw [h1, ok_bind', if_pos (Or.inr rfl)]
  rfl

/-- The largest absolute value of the first `count` elements of `b` is `m`. -/
def IsAbsMax (b : Buf ℚ) (count : Nat) (m : ℚ) : Prop :=
  (∀ x ∈ b.take count, |x| ≤ m) ∧ ∃ x ∈ b.take count, |x| = m

/-- **C59, gain, what is true**: if the largest absolute value is a positive integer then it becomes `amp`;
the claim is for all signals. -/
theorem C59_set_gain_partial (b : Buf ℚ) (count M : Nat) (amp : ℚ) (hc : count ≤ b.length) (hM : 0 < M)
    (hM2 : M < 4294967296) (hmax : IsAbsMax b count M) (ha : 0 < amp) :
    ∃ b', samplesSetGain b count amp = .ok b' ∧ IsAbsMax b' count amp ∧
      b' = (b.take count).map (fun x => x * (amp / M)) ++ b.drop count := by
  have hMq : (0 : ℚ) < M := by exact_mod_cast hM
  obtain ⟨m, h1, _, _, h4⟩ := C59_samples_absolute_max_partial b count hc
    (fun x hx => lt_of_le_of_lt (hmax.1 x hx) (by exact_mod_cast hM2))
  have hm : m = M := h4 M hmax.1 hmax.2
  subst hm
  refine ⟨(b.take count).map (fun x => x * (amp / m)) ++ b.drop count, ?_, ?_, rfl⟩
  · unfold samplesSetGain
    rw [h1, ok_bind', if_neg (by rintro (h | h) <;> [linarith; omega])]
    have hcor : 1 + (1 - (m : ℚ) / amp) / ((m : ℚ) / amp) = amp / m := by
      field_simp
      ring
    simp only [hcor]
    exact mapLoop_eq hc (Src.has_none _) (fun x _ => rfl)
  · have ht : ((b.take count).map (fun x => x * (amp / m)) ++ b.drop count).take count =
        (b.take count).map (fun x => x * (amp / m)) := by
      rw [List.take_append_of_le_length (by rw [List.length_map, List.length_take]; omega)]
      rw [List.take_of_length_le (by rw [List.length_map, List.length_take]; omega)]
    have hpos : 0 < amp / m := div_pos ha hMq
    refine ⟨?_, ?_⟩
    · intro y hy
      rw [ht] at hy
      obtain ⟨x, hx, rfl⟩ := List.mem_map.1 hy
      rw [abs_mul, abs_of_pos hpos]
      have := mul_le_mul_of_nonneg_right (hmax.1 x hx) hpos.le
      calc |x| * (amp / m) ≤ m * (amp / m) := this
        _ = amp := by field_simp
    · obtain ⟨x, hx, hxm⟩ := hmax.2
      refine ⟨x * (amp / m), by rw [ht]; exact List.mem_map_of_mem hx, ?_⟩
      rw [abs_mul, abs_of_pos hpos, hxm]
      field_simp

/-- Non-vacuity: an integer maximum, and one that is not. -/
example : IsAbsMax [2, -4, 1] 3 (4 : Nat) := by
  refine ⟨?_, -4, by simp, by norm_num⟩
  intro x hx
  simp at hx
  rcases hx with rfl | rfl | rfl <;> norm_num
theorem C59_samples_false : samplesAbsoluteMax [1 / 2, -3 / 4] 2 = .ok 0 :=
  (C59_samples_below_one [1 / 2, -3 / 4] 2 1 (by simp) (by
    intro x hx
    simp at hx
    rcases hx with rfl | rfl <;> norm_num [abs_lt])).1

/-! ### C61 -/

/-- `x` is between `a` and `b`. -/
def Between (a b x : ℚ) : Prop := min a b ≤ x ∧ x ≤ max a b

theorem between_interpolate {a b t : ℚ} (h0 : 0 ≤ t) (h1 : t ≤ 1) : Between a b ((1 - t) * a + t * b) := by
  constructor
  · have h2 : min a b ≤ a := min_le_left _ _
    have h3 : min a b ≤ b := min_le_right _ _
    nlinarith [mul_le_mul_of_nonneg_left h2 (show (0 : ℚ) ≤ 1 - t by linarith), mul_le_mul_of_nonneg_left h3 h0]
  · have h2 : a ≤ max a b := le_max_left _ _
    have h3 : b ≤ max a b := le_max_right _ _
    nlinarith [mul_le_mul_of_nonneg_left h2 (show (0 : ℚ) ≤ 1 - t by linarith), mul_le_mul_of_nonneg_left h3 h0]

/-- **C61, samples**: `out[i]` is the interpolation of `a[i]` and `b[i]`; it is between them, and is `a[i]` at 0 and
`b[i]` at 1. -/
theorem C61_samples_blend (a b : Src ℚ) (t : ℚ) (size : Nat) (out : Buf ℚ) (hc : size ≤ out.length)
    (ha : a.Has size) (hb : b.Has size) :
    samplesBlend a b t size out = .ok (List.zipWith (fun x y => (1 - t) * x + t * y)
      ((a.get out).take size) ((b.get out).take size) ++ out.drop size) ∧
    (0 ≤ t → t ≤ 1 → ∀ x y : ℚ, Between x y ((1 - t) * x + t * y)) ∧
    (t = 0 → ∀ x y : ℚ, (1 - t) * x + t * y = x) ∧ (t = 1 → ∀ x y : ℚ, (1 - t) * x + t * y = y) :=
  ⟨zipLoop_eq hc ha hb (fun _ _ _ _ => rfl), fun h0 h1 _ _ => between_interpolate h0 h1,
    fun h x y => by rw [h]; ring, fun h x y => by rw [h]; ring⟩

/-- `n` is the integer nearest to `x`, the upper one for halves. -/
def IsNearest (x : ℚ) (n : Nat) : Prop := (n : ℚ) - 1 / 2 ≤ x ∧ x < n + 1 / 2

theorem interpolate_round {x y : Nat} {t : ℚ} (h0 : 0 ≤ t) (h1 : t ≤ 1) (hx : x < 4294967296)
    (hy : y < 4294967296) :
    ∃ n : Nat, timeInterpolate x y t = .ok n ∧ cheapRound n = .ok n ∧ IsNearest ((1 - t) * x + t * y) n ∧
      min x y ≤ n ∧ n ≤ max x y := by
  have hb := between_interpolate (a := (x : ℚ)) (b := y) h0 h1
  set v := (1 - t) * (x : ℚ) + t * y with hv
  have hmin : ((min x y : Nat) : ℚ) ≤ v := by rw [Nat.cast_min]; exact hb.1
  have hmax : v ≤ ((max x y : Nat) : ℚ) := by rw [Nat.cast_max]; exact hb.2
  have hM : max x y < 4294967296 := by omega
  have hMq : ((max x y : Nat) : ℚ) ≤ 4294967295 := by exact_mod_cast (by omega : max x y ≤ 4294967295)
  have hv0 : 0 ≤ v := le_trans (Nat.cast_nonneg _) hmin
  have hfl := Nat.floor_le (show 0 ≤ 1 / 2 + v by linarith)
  have hlt := Nat.lt_floor_add_one (1 / 2 + v)
  have hn2 : ⌊1 / 2 + v⌋₊ ≤ max x y := by
    rw [← Nat.lt_add_one_iff, Nat.floor_lt (by linarith)]
    push_cast
    rw [← Nat.cast_max]
    linarith
  have hn1 : min x y ≤ ⌊1 / 2 + v⌋₊ := by
    rw [Nat.le_floor_iff (by linarith)]
    linarith
  refine ⟨⌊1 / 2 + v⌋₊, ?_, ?_, ⟨by linarith, by linarith⟩, hn1, hn2⟩
  · unfold timeInterpolate cheapRound
    rw [← hv, toTime_of (by linarith) (by linarith)]
  · unfold cheapRound
    have hnq : ((⌊1 / 2 + v⌋₊ : Nat) : ℚ) ≤ 4294967295 := by exact_mod_cast (by omega : ⌊1 / 2 + v⌋₊ ≤ 4294967295)
    have hnn : (0 : ℚ) ≤ (⌊1 / 2 + v⌋₊ : Nat) := Nat.cast_nonneg _
    rw [toTime_of (by linarith) (by linarith)]
    congr 1
    rw [Nat.floor_eq_iff (by linarith)]
    constructor <;> linarith

/-- **C61, times**: for every pair of values, blending yields the integer nearest to the interpolated value,
which is between the two. -/
theorem C61_times_blend (a b : Src Nat) (t : ℚ) (size : Nat) (out : Buf Nat) (h0 : 0 ≤ t) (h1 : t ≤ 1)
    (hc : size ≤ out.length) (ha : a.Has size) (hb : b.Has size)
    (ha2 : ∀ x ∈ a.get out, x < 4294967296) (hb2 : ∀ x ∈ b.get out, x < 4294967296) :
    ∃ g : Nat → Nat → Nat,
      timesBlend a b t size out =
        .ok (List.zipWith g ((a.get out).take size) ((b.get out).take size) ++ out.drop size) ∧
      ∀ x y : Nat, x < 4294967296 → y < 4294967296 →
        IsNearest ((1 - t) * x + t * y) (g x y) ∧ min x y ≤ g x y ∧ g x y ≤ max x y := by
  classical
  have hr : ∀ x y : Nat, ∃ n : Nat, x < 4294967296 → y < 4294967296 →
      timeInterpolate x y t = .ok n ∧ cheapRound n = .ok n ∧
        IsNearest ((1 - t) * x + t * y) n ∧ min x y ≤ n ∧ n ≤ max x y := by
    intro x y
    by_cases h : x < 4294967296 ∧ y < 4294967296
    · obtain ⟨n, hn⟩ := interpolate_round h0 h1 h.1 h.2
      exact ⟨n, fun _ _ => hn⟩
    · exact ⟨0, fun hx hy => absurd ⟨hx, hy⟩ h⟩
  choose g hg using hr
  refine ⟨g, zipLoop_eq hc ha hb (fun x hx y hy => ?_), fun x y hx hy => (hg x y hx hy).2.2⟩
  obtain ⟨e1, e2, _⟩ := hg x y (ha2 x (List.mem_of_mem_take hx)) (hb2 y (List.mem_of_mem_take hy))
  rw [e1, ok_bind', e2]

/-- **C61, mask**: like blending, with a fraction for each element. -/
theorem C61_times_mask (a b : Src Nat) (coefficients : Buf ℚ) (size : Nat) (out : Buf Nat)
    (hco : size ≤ coefficients.length) (hr : ∀ t ∈ coefficients, 0 ≤ t ∧ t ≤ 1)
    (hc : size ≤ out.length) (ha : a.Has size) (hb : b.Has size)
    (ha2 : ∀ x ∈ a.get out, x < 4294967296) (hb2 : ∀ x ∈ b.get out, x < 4294967296) :
    ∃ out', timesMask a b coefficients size out = .ok out' ∧ out'.length = out.length ∧
      (∀ i, size ≤ i → out'[i]? = out[i]?) ∧
      ∀ i, i < size → ∃ x y t n, (a.get out)[i]? = some x ∧ (b.get out)[i]? = some y ∧ coefficients[i]? = some t ∧
        out'[i]? = some n ∧ IsNearest ((1 - t) * x + t * y) n ∧ min x y ≤ n ∧ n ≤ max x y := by
  have hla := ha.le hc
  have hlb := hb.le hc
  unfold timesMask
  obtain ⟨o, g1, g2, g3, g4⟩ := forRange_rule (lo := 0) (hi := size) (s := out) (body := maskBody a b coefficients)
    (P := fun m o => o.length = out.length ∧ (∀ i, m ≤ i → o[i]? = out[i]?) ∧
      ∀ i, i < m → ∃ x y t n, (a.get out)[i]? = some x ∧ (b.get out)[i]? = some y ∧ coefficients[i]? = some t ∧
        o[i]? = some n ∧ IsNearest ((1 - t) * x + t * y) n ∧ min x y ≤ n ∧ n ≤ max x y)
    (hle := Nat.zero_le _) (h0 := ⟨rfl, fun _ _ => rfl, fun i h => absurd h (Nat.not_lt_zero _)⟩)
    (hstep := by
      intro m o _ hm ⟨p1, p2, p3⟩
      have hsrc : ∀ c : Src Nat, (h : m < (c.get out).length) → rdSrc c o m = .ok ((c.get out)[m]) := by
        intro c h
        cases c with
        | none =>
          unfold rdSrc
          rw [Option.getD_none, rd_ok_iff, p2 m (le_refl _)]
          exact List.getElem?_eq_getElem h
        | some s => exact rd_eq_ok h
      obtain ⟨n, e1, e2, e3, e4, e5⟩ := interpolate_round (t := coefficients[m])
        (hr _ (List.getElem_mem _)).1 (hr _ (List.getElem_mem _)).2
        (ha2 _ (List.getElem_mem (show m < (a.get out).length by omega)))
        (hb2 _ (List.getElem_mem (show m < (b.get out).length by omega)))
      refine ⟨o.set m n, ?_, by simpa using p1, ?_, ?_⟩
      · unfold maskBody
        rw [hsrc a (by omega), ok_bind', hsrc b (by omega), ok_bind', rd_eq_ok (by omega), ok_bind', e1, ok_bind',
          e2, ok_bind', wr_eq_ok _ (by omega)]
      · intro i hi
        rw [List.getElem?_set_ne (by omega), p2 i (by omega)]
      · intro i hi
        by_cases h : i = m
        · subst h
          exact ⟨_, _, _, n, List.getElem?_eq_getElem (by omega), List.getElem?_eq_getElem (by omega),
            List.getElem?_eq_getElem (by omega), by rw [List.getElem?_set_self (by omega)], e3, e4, e5⟩
        · obtain ⟨x, y, t, n', q1, q2, q3, q4, q5⟩ := p3 i (by omega)
          exact ⟨x, y, t, n', q1, q2, q3, by rw [List.getElem?_set_ne (by omega)]; exact q4, q5⟩)
  exact ⟨o, g1, g2, g3, g4⟩

example : IsNearest (5 / 2) 3 ∧ Between 2 3 (5 / 2) := by
  unfold IsNearest Between; norm_num

end Sp
