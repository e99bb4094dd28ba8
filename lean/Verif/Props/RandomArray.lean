import Verif.Model.RandomArray
import Verif.Props.RandomPeriod
import Verif.Props.FloatRandom
import Mathlib.Data.Int.Interval
import Mathlib.Algebra.BigOperators.Ring.Finset
import Mathlib.Algebra.BigOperators.Field

/-! # C170: arrays of random numbers and noise -/

set_option linter.unusedSectionVars false

namespace Sp

section
variable {σ α : Type} {draw : σ → C (α × σ)}

/-- What an array holds is what calls of the function for one number give, one after the other. -/
inductive DrawnList (draw : σ → C (α × σ)) : σ → List α → σ → Prop
  | none (g) : DrawnList draw g [] g
  | more {g x g' xs g''} : draw g = .ok (x, g') → DrawnList draw g' xs g'' → DrawnList draw g (x :: xs) g''

theorem DrawnList.append {g : σ} {xs : List α} {g' : σ} {ys : List α} {g'' : σ} (h : DrawnList draw g xs g') (h2 : DrawnList draw g' ys g'') :
    DrawnList draw g (xs ++ ys) g'' := by
  induction h with
  | none => exact h2
  | more h1 _ ih => exact .more h1 (ih h2)

private theorem loop_drawn (n : Nat) : ∀ (i : Nat) (g : σ) (out : Buf α) (g' : σ) (out' : Buf α), i + n ≤ out.length →
    (iter (drawBody draw) n i (g, out) = .ok (g', out') ↔ ∃ xs, xs.length = n ∧ DrawnList draw g xs g' ∧ out' = out.take i ++ xs ++ out.drop (i + n)) := by
  induction n with
  | zero =>
    intro i g out g' out' hi
    simp only [iter, Except.ok.injEq, Prod.mk.injEq, Nat.add_zero, List.length_eq_zero_iff]
    constructor
    · rintro ⟨rfl, rfl⟩
      exact ⟨[], rfl, .none _, by simp⟩
    · rintro ⟨xs, rfl, h1, h2⟩
      cases h1
      exact ⟨rfl, by simpa using h2.symm⟩
  | succ n ih =>
    intro i g out g' out' hi
    show (drawBody draw i (g, out)).bind _ = _ ↔ _
    unfold drawBody
    cases h : draw g with
    | error e =>
      constructor
      · intro h'
        cases h'
      · rintro ⟨xs, h1, h2, -⟩
        cases h2 with
        | none => simp at h1
        | more h3 _ =>
          rw [h] at h3
          cases h3
    | ok p =>
      obtain ⟨x, g1⟩ := p
      show ((wr out i x).bind fun out => Except.ok (g1, out)).bind _ = _ ↔ _
      rw [wr_eq_ok x (by omega)]
      show iter (drawBody draw) n (i + 1) (g1, out.set i x) = _ ↔ _
      rw [ih (i + 1) g1 (out.set i x) g' out' (by rw [List.length_set]; omega)]
      have e1 : (out.set i x).take (i + 1) = out.take i ++ [x] := by
        refine List.ext_getElem? fun k => ?_
        rw [List.getElem?_take, List.getElem?_append, List.length_take, Nat.min_eq_left (by omega), List.getElem?_take, List.getElem?_set]
        rcases Nat.lt_trichotomy k i with hk | hk | hk
        · rw [if_pos (by omega), if_neg (by omega), if_pos hk, if_pos hk]
        · rw [if_pos (by omega), if_pos (by omega), if_pos (by omega), if_neg (by omega)]
          simp [hk]
        · rw [if_neg (by omega), if_neg (by omega)]
          rw [List.getElem?_eq_none (by simp; omega)]
      have e2 : (out.set i x).drop (i + 1 + n) = out.drop (i + (n + 1)) := by
        rw [List.drop_set, if_pos (by omega)]
        congr 1
        omega
      rw [e1, e2]
      constructor
      · rintro ⟨xs, rfl, h1, rfl⟩
        exact ⟨x :: xs, rfl, .more h h1, by simp⟩
      · rintro ⟨xs, h0, h1, rfl⟩
        cases h1 with
        | none => simp at h0
        | more h3 h4 =>
          rw [h] at h3
          cases h3
          exact ⟨_, by simpa using h0, h4, by simp⟩

/-- **C170, what arrays hold**, for every way to draw numbers: if the array is large enough, exactly the first `size` elements are set, to the numbers
that are drawn one after the other, and this is the only result. -/
theorem C170_array {g g' : σ} {size : Nat} {out out' : Buf α} (h : size ≤ out.length) :
    drawArray draw g size out = .ok (g', out') ↔ ∃ xs, xs.length = size ∧ DrawnList draw g xs g' ∧ out' = xs ++ out.drop size := by
  have := loop_drawn (draw := draw) size 0 g out g' out' (by omega)
  simp only [Nat.zero_add, List.take_zero, List.nil_append] at this
  exact this

/-- **C170, in pieces**: filling an array in two pieces gives the same as filling it at once. -/
theorem C170_pieces {g g1 g2 : σ} {n m : Nat} {out out1 rest : Buf α} (h : n + m ≤ out.length) (h1 : drawArray draw g n out = .ok (g1, out1))
    (h2 : drawArray draw g1 m (out1.drop n) = .ok (g2, rest)) : drawArray draw g (n + m) out = .ok (g2, out1.take n ++ rest) := by
  rw [C170_array (by omega)] at h1
  obtain ⟨xs, rfl, h3, rfl⟩ := h1
  rw [List.drop_left, C170_array (by rw [List.length_drop]; omega)] at h2
  obtain ⟨ys, rfl, h4, rfl⟩ := h2
  rw [C170_array h]
  exact ⟨xs ++ ys, by simp, h3.append h4, by rw [List.take_left, List.append_assoc, List.drop_drop]⟩

private theorem drawn_total {σ α : Type} {f : σ → α × σ} (n : Nat) : ∀ g : σ,
    DrawnList (fun g => .ok (f g)) g (tab n fun k => (f ((fun g => (f g).2)^[k] g)).1) ((fun g => (f g).2)^[n] g) := by
  induction n with
  | zero => exact fun g => .none g
  | succ n ih =>
    intro g
    have h := ih (f g).2
    have e : tab (n + 1) (fun k => (f ((fun g => (f g).2)^[k] g)).1) = (f g).1 :: tab n fun k => (f ((fun g => (f g).2)^[k] (f g).2)).1 := by
      rw [tab, List.range_succ_eq_map, List.map_cons, List.map_map]
      rfl
    rw [e]
    exact .more rfl h

/-- Numbers that are drawn without failure: element `k` is what call number `k` gives. -/
private theorem array_total {σ α : Type} {f : σ → α × σ} (g : σ) {size : Nat} {out : Buf α} (h : size ≤ out.length) :
    drawArray (fun g => .ok (f g)) g size out =
      .ok ((fun g => (f g).2)^[size] g, (tab size fun k => (f ((fun g => (f g).2)^[k] g)).1) ++ out.drop size) := by
  rw [C170_array h]
  exact ⟨_, tab_length .., drawn_total size g, rfl⟩

end

variable {rnd : ℚ → ℚ}

/-- **C170, noise**: `sp_noise` (`sp_samples_random`) sets the first `size` elements to multiples of 2^-52 from -1 up to but not including 1, as they come in the
sequence of the generator (C152), and advances the generator by one step for each. -/
theorem C170_noise (hr : Rounding rnd) (s : RandomState) {size : Nat} {out : Buf ℚ} (h : size ≤ out.length) :
    samplesRandom rnd s size out = .ok (RandomState.next^[size] s, (tab size (drawnNoise rnd s)) ++ out.drop size) ∧
    ∀ k, ∃ m : ℤ, -2 ^ 52 ≤ m ∧ m < 2 ^ 52 ∧ drawnNoise rnd s k = m / 2 ^ 52 := by
  refine ⟨array_total s h, fun k => ?_⟩
  obtain ⟨j, hj, -, hv, -⟩ := C42_f64_1to1 hr (RandomState.next^[k] s)
  exact ⟨(j : ℤ) - 2 ^ 52, by omega, by omega, hv⟩

/-- **C170, units**: `sp_units_random` sets the first `size` elements to multiples of 2^-53 from 0 up to but not including 1. -/
theorem C170_units (hr : Rounding rnd) (s : RandomState) {size : Nat} {out : Buf ℚ} (h : size ≤ out.length) :
    unitsRandom rnd s size out =
      .ok (RandomState.next^[size] s, (tab size fun k => (randomF64_0to1 rnd (RandomState.next^[k] s)).1) ++ out.drop size) ∧
    ∀ k, ∃ m : Nat, m < 2 ^ 53 ∧ (randomF64_0to1 rnd (RandomState.next^[k] s)).1 = m / 2 ^ 53 := by
  refine ⟨array_total s h, fun k => ?_⟩
  obtain ⟨j, hj, -, hv, -⟩ := C42_f64_0to1 hr (RandomState.next^[k] s)
  exact ⟨j, hj, hv⟩

/-- **C170, the same for `sph_random_f64_array`**, which uses the other raw numbers. -/
theorem C170_f64_array (hr : Rounding rnd) (s : RandomState) {size : Nat} {out : Buf ℚ} (h : size ≤ out.length) :
    randomF64Array rnd s size out = .ok (RandomState.next^[size] s, (tab size fun k => (((drawnU64 s k).toNat / 2 ^ 11 : Nat) : ℚ) / 2 ^ 53) ++ out.drop size) := by
  have h1 : randomF64Array rnd s size out = _ := array_total (f := randomF64 rnd) s h
  rw [h1]
  have e : (fun k => (randomF64 rnd ((fun g => (randomF64 rnd g).2)^[k] s)).1) = fun k => (((drawnU64 s k).toNat / 2 ^ 11 : Nat) : ℚ) / 2 ^ 53 := by
    funext k
    obtain ⟨j, -, hj, hv, -⟩ := C42_f64 hr (RandomState.next^[k] s)
    have : (randomU64 (RandomState.next^[k] s)).1 = drawnU64 s k := rfl
    rw [this] at hj
    rw [← hj]
    exact hv
  rw [e]
  rfl

/-- **C170, `sph_random_u64_array`**: the numbers in the sequence of the generator. -/
theorem C170_u64_array (s : RandomState) {size : Nat} {out : Buf U64} (h : size ≤ out.length) :
    randomU64Array s size out = .ok (RandomState.next^[size] s, (tab size (drawnU64 s)) ++ out.drop size) := array_total s h

/-- **C170, times**: `sp_times_random` sets the first `size` elements to the upper halves of the numbers in the sequence of the generator. -/
theorem C170_times (s : RandomState) {size : Nat} {out : Buf Nat} (h : size ≤ out.length) :
    timesDraw s size out = .ok (RandomState.next^[size] s, (tab size fun k => (drawnU64 s k).toNat / 4294967296) ++ out.drop size) := by
  have := array_total (f := randomU32) s h
  unfold timesDraw
  rw [this]
  have e : (fun k => (randomU32 ((fun g => (randomU32 g).2)^[k] s)).1) = fun k => (drawnU64 s k).toNat / 4294967296 := by
    funext k
    show ((drawnU64 s k) >>> 32).toNat = _
    rw [BitVec.toNat_ushiftRight, Nat.shiftRight_eq_div_pow]
  rw [e]
  rfl

/-- **C170, bounded samples**: for a range that is a double from 2^-1021 on, the first `size` elements are set to doubles from 0 up to but not including the
range. -/
theorem C170_samples_bounded (hr : RoundsToNearest rnd) (s : RandomState) {range : ℚ} (hd : IsDouble range) (hp : (2 : ℚ) ^ (-1021 : ℤ) ≤ range) {size : Nat}
    {out : Buf ℚ} (h : size ≤ out.length) :
    samplesRandomBounded rnd s range size out =
      .ok (RandomState.next^[size] s, (tab size fun k => (randomF64Bounded rnd range (RandomState.next^[k] s)).1) ++ out.drop size) ∧
    ∀ k, IsDouble (randomF64Bounded rnd range (RandomState.next^[k] s)).1 ∧ 0 ≤ (randomF64Bounded rnd range (RandomState.next^[k] s)).1 ∧
      (randomF64Bounded rnd range (RandomState.next^[k] s)).1 < range := by
  refine ⟨array_total s h, fun k => ?_⟩
  obtain ⟨h1, h2, h3, -⟩ := C127_bounded_partial hr hd hp (RandomState.next^[k] s)
  exact ⟨h1, h2, h3⟩

/-! ## Bounded numbers are always found -/

private theorem raw_eq (s : RandomState) (n : Nat) :
    rawDraw (fun s => ((randomU64 s).1.toNat, (randomU64 s).2)) s n = (drawnU64 s n).toNat := rfl

/-- **C170, bounded numbers end**: from every state other than zero, so for every seed (C40), `sph_random_u64_bounded` returns a number less than the range, and
leaves a state other than zero. -/
theorem C170_bounded_returns (s : RandomState) (hs : s ≠ zeroState) {range : Nat} (h0 : 0 < range) (h2 : range < 2 ^ 64) :
    ∃ fuel0 r s', r < range ∧ s' ≠ zeroState ∧ ∀ fuel, fuel0 ≤ fuel → randomU64Bounded fuel range s = .ok (r, s') := by
  obtain ⟨k, hk⟩ : ∃ k, (drawnU64 s k).toNat = 2 ^ 64 - 1 := by
    have := C152_four_in_a_row s hs (BitVec.ofNat 64 (2 ^ 64 - 1)) 0 0 0 (fun h => absurd h.1 (by decide))
    obtain ⟨k, ⟨-, h, -⟩, -⟩ := this
    exact ⟨k, by rw [h]; decide⟩
  have hnot : ¬ Redrawn range (rawDraw (fun s => ((randomU64 s).1.toNat, (randomU64 s).2)) s k) := by
    rw [raw_eq, hk]
    unfold Redrawn
    have e : (2 ^ 64 - 1) * range = (range - 1) * 2 ^ 64 + (2 ^ 64 - range) := by
      obtain ⟨r, rfl⟩ : ∃ r, range = r + 1 := ⟨range - 1, by omega⟩
      simp only [Nat.add_sub_cancel]
      omega
    rw [e, Nat.mul_comm, Nat.mul_add_mod, Nat.mod_eq_of_lt (by omega)]
    rcases Nat.lt_or_ge (2 ^ 64 - range) range with hlt | hge
    · have : 2 ^ 64 % range = 2 ^ 64 - range := by
        rw [Nat.mod_eq_sub_mod (by omega), Nat.mod_eq_of_lt hlt]
      omega
    · have := Nat.mod_lt (2 ^ 64) h0
      omega
  obtain ⟨r, s', hr⟩ := C41_returns h0 h2 hnot (Nat.lt_succ_self k)
  obtain ⟨h3, n, n1, n2, n3, n4⟩ := C41_bounded (fun s => BitVec.isLt _) h0 h2 hr
  refine ⟨k + 1, r, s', h3, ?_, fun fuel hf => ?_⟩
  · rw [n4]
    exact next_iterate_ne_zero hs (n + 1)
  · obtain ⟨r', t', hr'⟩ := C41_returns h0 h2 hnot (show k < fuel by omega)
    obtain ⟨h3', n', n1', n2', n3', n4'⟩ := C41_bounded (fun s => BitVec.isLt _) h0 h2 hr'
    have hn : n' = n := by
      rcases Nat.lt_trichotomy n' n with h | h | h
      · exact absurd (n1 n' h) n2'
      · exact h
      · exact absurd (n1' n h) n2
    subst hn
    rw [← n3] at n3'
    rw [← n4] at n4'
    subst n3' n4'
    exact hr'

private theorem drawn_bounded {draw : Nat → RandomState → C (Nat × RandomState)} {range : Nat}
    (h : ∀ s : RandomState, s ≠ zeroState → ∃ fuel0 r s', r < range ∧ s' ≠ zeroState ∧ ∀ fuel, fuel0 ≤ fuel → draw fuel s = .ok (r, s'))
    (n : Nat) : ∀ s : RandomState, s ≠ zeroState →
    ∃ fuel0 xs s', xs.length = n ∧ (∀ x ∈ xs, x < range) ∧ ∀ fuel, fuel0 ≤ fuel → DrawnList (draw fuel) s xs s' := by
  induction n with
  | zero => exact fun s _ => ⟨0, [], s, rfl, by simp, fun _ _ => .none s⟩
  | succ n ih =>
    intro s hs
    obtain ⟨f1, r, s1, h1, h2, h3⟩ := h s hs
    obtain ⟨f2, xs, s2, h4, h5, h6⟩ := ih s1 h2
    refine ⟨max f1 f2, r :: xs, s2, by simp [h4], ?_, fun fuel hf => .more (h3 fuel (by omega)) (h6 fuel (by omega))⟩
    intro x hx
    rcases List.mem_cons.1 hx with rfl | hx
    · exact h1
    · exact h5 x hx

/-- **C170, bounded times**: `sp_times_random_bounded` returns for every seed, and sets the first `size` elements to numbers less than the range, those which
`sp_time_random_bounded` gives one after the other. -/
theorem C170_times_bounded (s : RandomState) (hs : s ≠ zeroState) {range size : Nat} (h0 : 0 < range) (h2 : range < 4294967296) {out : Buf Nat}
    (h : size ≤ out.length) :
    ∃ fuel0 xs s', xs.length = size ∧ (∀ x ∈ xs, x < range) ∧ ∀ fuel, fuel0 ≤ fuel →
      DrawnList (randomU32Bounded fuel range) s xs s' ∧ timesDrawBounded fuel s range size out = .ok (s', xs ++ out.drop size) := by
  obtain ⟨f, xs, s', h3, h4, h5⟩ := drawn_bounded (draw := fun fuel => randomU32Bounded fuel range) (range := range) (fun s hs => by
    obtain ⟨f, r, s', r1, r2, r3⟩ := C170_bounded_returns s hs h0 (by omega)
    refine ⟨f, r, s', r1, r2, fun fuel hf => ?_⟩
    unfold randomU32Bounded
    rw [r3 fuel hf]
    show Except.ok (u32 r, s') = _
    rw [u32_of_lt (by omega)]) size s hs
  exact ⟨f, xs, s', h3, h4, fun fuel hf => ⟨h5 fuel hf, (C170_array h).2 ⟨xs, h3, h5 fuel hf, rfl⟩⟩⟩

/-- **C170, `sph_random_u64_bounded_array`** likewise. -/
theorem C170_u64_bounded (s : RandomState) (hs : s ≠ zeroState) {range size : Nat} (h0 : 0 < range) (h2 : range < 2 ^ 64) {out : Buf Nat}
    (h : size ≤ out.length) :
    ∃ fuel0 xs s', xs.length = size ∧ (∀ x ∈ xs, x < range) ∧ ∀ fuel, fuel0 ≤ fuel →
      DrawnList (randomU64Bounded fuel range) s xs s' ∧ randomU64BoundedArray fuel s range size out = .ok (s', xs ++ out.drop size) := by
  obtain ⟨f, xs, s', h3, h4, h5⟩ := drawn_bounded (draw := fun fuel => randomU64Bounded fuel range) (fun s hs => C170_bounded_returns s hs h0 h2) size s hs
  exact ⟨f, xs, s', h3, h4, fun fuel hf => ⟨h5 fuel hf, (C170_array h).2 ⟨xs, h3, h5 fuel hf, rfl⟩⟩⟩

/-! ## Offset and power of noise -/

private theorem sum_values (hr : Rounding rnd) (s : RandomState) (hs : s ≠ zeroState) (F : ℚ → ℚ) :
    ∑ k ∈ Finset.range (2 ^ 256 - 1), F (drawnNoise rnd s k) = 2 ^ 203 * ∑ m ∈ Finset.Ico (-2 ^ 52 : ℤ) (2 ^ 52), F (m / 2 ^ 52) - F (-1) := by
  classical
  obtain ⟨N, hN⟩ : ∃ N : Nat, N = 2 ^ 256 - 1 := ⟨_, rfl⟩
  obtain ⟨c, hc⟩ : ∃ c : ℤ, c = 2 ^ 52 := ⟨_, rfl⟩
  obtain ⟨d, hd⟩ : ∃ d : Nat, d = 2 ^ 203 := ⟨_, rfl⟩
  have hcq : (2 : ℚ) ^ 52 = c := by rw [hc]; norm_num
  have hdq : (2 : ℚ) ^ 203 = d := by rw [hd]; norm_num
  have hc0 : 0 < c := by rw [hc]; norm_num
  have hd0 : 1 ≤ d := by rw [hd]; norm_num
  have hcount : ∀ m : ℤ, -c ≤ m → m < c → ((Finset.range N).filter fun k => drawnNoise rnd s k = m / c).card = if m = -c then d - 1 else d := by
    intro m h1 h2
    have h := C152_noise_values hr s hs m (by rw [← hc]; exact h1) (by rw [← hc]; exact h2)
    rw [← hN, ← hc, ← hd, hcq] at h
    rw [← h, ← Set.ncard_coe_finset]
    congr 1
    ext k
    simp [Finset.mem_filter]
  have hval : ∀ k, ∃ m : ℤ, m ∈ Finset.Ico (-c) c ∧ drawnNoise rnd s k = m / c := by
    intro k
    obtain ⟨m, h1, h2, h3⟩ := (C170_noise hr s (size := 0) (out := []) (by simp)).2 k
    rw [← hc] at h1 h2
    rw [hcq] at h3
    exact ⟨m, Finset.mem_Ico.2 ⟨h1, h2⟩, h3⟩
  choose f hf1 hf2 using hval
  have hcne : (c : ℚ) ≠ 0 := by exact_mod_cast hc0.ne'
  have hinj : ∀ k (m : ℤ), f k = m ↔ drawnNoise rnd s k = m / c := by
    intro k m
    rw [hf2 k, div_left_inj' hcne, Int.cast_inj]
  rw [← hN, ← hc, hcq, hdq, ← Finset.sum_fiberwise_of_maps_to (fun k _ => hf1 k)]
  have hstep : ∀ m ∈ Finset.Ico (-c) c, ∑ k ∈ (Finset.range N).filter (fun k => f k = m), F (drawnNoise rnd s k) =
      d * F (m / c) - if m = -c then F (-1) else 0 := by
    intro m hm
    rw [Finset.mem_Ico] at hm
    have e : (Finset.range N).filter (fun k => f k = m) = (Finset.range N).filter fun k => drawnNoise rnd s k = m / c :=
      Finset.filter_congr fun k _ => hinj k m
    rw [e, Finset.sum_congr rfl (g := fun _ => F (m / c)) (fun k hk => by rw [(Finset.mem_filter.1 hk).2]), Finset.sum_const, hcount m hm.1 hm.2,
      nsmul_eq_mul]
    split
    · next h =>
      rw [h, Int.cast_neg, neg_div, div_self hcne, Nat.cast_sub hd0]
      ring
    · ring
  rw [Finset.sum_congr rfl hstep, Finset.sum_sub_distrib, ← Finset.mul_sum, Finset.sum_ite_eq' (Finset.Ico (-c) c) (-c), if_pos (Finset.mem_Ico.2 ⟨le_refl _, by omega⟩)]

private theorem sum_symm (n : Nat) : ∑ m ∈ Finset.Ico (-n : ℤ) n, (m : ℚ) = -n ∧ ∑ m ∈ Finset.Ico (-n : ℤ) n, (m : ℚ) ^ 2 = n * (2 * n ^ 2 + 1) / 3 := by
  induction n with
  | zero => simp
  | succ n ih =>
    have e : Finset.Ico (-((n + 1 : Nat) : ℤ)) ((n + 1 : Nat) : ℤ) = insert (-(n + 1 : ℤ)) (insert (n : ℤ) (Finset.Ico (-n : ℤ) n)) := by
      ext m
      simp only [Finset.mem_insert, Finset.mem_Ico]
      push_cast
      omega
    have h1 : (n : ℤ) ∉ Finset.Ico (-n : ℤ) n := by simp
    have h2 : -(n + 1 : ℤ) ∉ insert (n : ℤ) (Finset.Ico (-n : ℤ) n) := by
      simp only [Finset.mem_insert, Finset.mem_Ico]
      omega
    rw [e, Finset.sum_insert h2, Finset.sum_insert h1, Finset.sum_insert h2, Finset.sum_insert h1, ih.1, ih.2]
    push_cast
    constructor <;> ring

/-- **C170, no offset**: the sum of the noise samples of a period, for every seed. The mean is less than 2^-53 away from zero. -/
theorem C170_noise_offset (hr : Rounding rnd) (s : RandomState) (hs : s ≠ zeroState) :
    ∑ k ∈ Finset.range (2 ^ 256 - 1), drawnNoise rnd s k = 1 - 2 ^ 203 ∧
    |(∑ k ∈ Finset.range (2 ^ 256 - 1), drawnNoise rnd s k) / (2 ^ 256 - 1)| < 1 / 2 ^ 53 := by
  have h := sum_values hr s hs id
  simp only [id] at h
  have h2 := (sum_symm (2 ^ 52)).1
  have e : ((2 ^ 52 : Nat) : ℤ) = 2 ^ 52 := by norm_num
  rw [e] at h2
  rw [← Finset.sum_div, h2] at h
  have h3 : ∑ k ∈ Finset.range (2 ^ 256 - 1), drawnNoise rnd s k = 1 - 2 ^ 203 := by
    rw [h]
    norm_num
  refine ⟨h3, ?_⟩
  rw [h3]
  norm_num [abs_div]

/-- **C170, power**: the mean of the squares of the noise samples of a period is one third up to 2^-104. -/
theorem C170_noise_power (hr : Rounding rnd) (s : RandomState) (hs : s ≠ zeroState) :
    |(∑ k ∈ Finset.range (2 ^ 256 - 1), drawnNoise rnd s k ^ 2) / (2 ^ 256 - 1) - 1 / 3| < 1 / 2 ^ 104 := by
  have h := sum_values hr s hs (fun x => x ^ 2)
  have h2 := (sum_symm (2 ^ 52)).2
  have e : ((2 ^ 52 : Nat) : ℤ) = 2 ^ 52 := by norm_num
  rw [e] at h2
  simp only [div_pow] at h
  rw [← Finset.sum_div, h2] at h
  rw [h]
  norm_num [abs_lt]

/-- **C170, times equally often**: from every state other than zero, each 32 bit number comes 2^224 times in a period of `sp_time_random`, zero once less. -/
theorem C170_times_equally_often (s : RandomState) (hs : s ≠ zeroState) {v : Nat} (hv : v < 4294967296) :
    {k | k < 2 ^ 256 - 1 ∧ (randomU32 ((fun t => (randomU32 t).2)^[k] s)).1 = v}.ncard = if v = 0 then 2 ^ 224 - 1 else 2 ^ 224 := by
  classical
  have h := count_draws hs (fun t => (randomU64 t).1) _ u64_bijective (by decide) {a | a.toNat / 2 ^ 32 = v}
  have hset : {k | k < 2 ^ 256 - 1 ∧ (randomU32 ((fun t => (randomU32 t).2)^[k] s)).1 = v} =
      {k | k < 2 ^ 256 - 1 ∧ (randomU64 (RandomState.next^[k] s)).1 ∈ {a : U64 | a.toNat / 2 ^ 32 = v}} := by
    ext k
    simp only [Set.mem_ofPred_eq]
    refine and_congr_right fun _ => ?_
    show ((randomU64 (RandomState.next^[k] s)).1 >>> 32).toNat = v ↔ _
    rw [BitVec.toNat_ushiftRight, Nat.shiftRight_eq_div_pow]
  have hcard : {a : U64 | a.toNat / 2 ^ 32 = v}.ncard = 2 ^ 32 := by
    have hinj : Function.Injective fun a : U64 => a.toNat := fun _ _ h => BitVec.eq_of_toNat_eq h
    rw [← Set.ncard_image_of_injective _ hinj]
    have : (fun a : U64 => a.toNat) '' {a : U64 | a.toNat / 2 ^ 32 = v} = ↑(Finset.Ico (v * 2 ^ 32) (v * 2 ^ 32 + 2 ^ 32)) := by
      ext x
      simp only [Set.mem_image, Set.mem_ofPred_eq, Finset.coe_Ico, Set.mem_Ico]
      constructor
      · rintro ⟨a, ha, rfl⟩
        omega
      · intro hx
        refine ⟨BitVec.ofNat 64 x, ?_, ?_⟩ <;> rw [BitVec.toNat_ofNat, Nat.mod_eq_of_lt (by omega)] <;> omega
    rw [this, Set.ncard_coe_finset, Nat.card_Ico]
    omega
  rw [hset]
  rw [hcard] at h
  have hz : (0 : U64) ∈ {a : U64 | a.toNat / 2 ^ 32 = v} ↔ v = 0 := by
    show (0 : U64).toNat / 2 ^ 32 = v ↔ _
    rw [show (0 : U64).toNat = 0 from rfl]
    omega
  by_cases hm : v = 0
  · rw [if_pos (hz.2 hm)] at h
    rw [if_pos hm]
    omega
  · rw [if_neg (fun hc => hm (hz.1 hc))] at h
    rw [if_neg hm]
    omega

/-! ## Instances -/

example : nearestDouble 3 = 3 ∧ Rounding nearestDouble ∧ spRandomStateNew 1557083953 ≠ zeroState :=
  ⟨nearestDouble_rounds.exact (by exact ⟨3, 0, by norm_num, by norm_num, by norm_num, by norm_num⟩), nearestDouble_rounds.rounding, seed_ne_zero _⟩

/-- A die thrown a thousand times. -/
example : ∃ fuel xs s', xs.length = 1000 ∧ (∀ x ∈ xs, x < 6) ∧
    timesDrawBounded fuel (spRandomStateNew 1557083953) 6 1000 (List.replicate 1001 7) = .ok (s', xs ++ [7]) := by
  obtain ⟨f, xs, s', h1, h2, h3⟩ := C170_times_bounded (spRandomStateNew 1557083953) (seed_ne_zero _) (range := 6) (size := 1000) (by omega) (by omega)
    (out := List.replicate 1001 7) (by rw [List.length_replicate]; omega)
  rw [List.drop_replicate] at h3
  exact ⟨f, xs, s', h1, h2, (h3 f (Nat.le_refl f)).2⟩

/-- Three numbers of a generator that counts, in an array of four. -/
example : drawArray (fun g : Nat => .ok (g * 2, g + 1)) 5 3 [0, 0, 0, 9] = .ok (8, [10, 12, 14, 9]) := by decide +kernel

end Sp
