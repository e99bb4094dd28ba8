import Verif.Lemmas.RandomPeriod

/-!
# C152: the period of the random generator
-/

set_option linter.unusedSectionVars false

namespace Sp
open Finset

/-- The number of states other than zero. -/
abbrev periodLength : Nat := 2 ^ 256 - 1

theorem one_lt_two_pow_256 : 1 < 2 ^ 256 := by decide

theorem polyEnd_powX (e : Nat) (he : e < 2 ^ 256) : polyEnd (powX e 256 1) = stepEnd ^ e := by
  have := (powX_spec polyEnd_charPoly e 256 (r := 1) (k := 0) one_lt_two_pow_256 (by rw [polyEnd_one, pow_zero])).2
  rwa [Nat.zero_mul, Nat.zero_add, Nat.mod_eq_of_lt he] at this

theorem powMoves_spec {e : Nat} (he : e < 2 ^ 256) (h : powMoves e = false) : stepEnd ^ e ≠ 1 := by
  intro h1
  rw [powMoves, forceNat_eq, forceNat_eq, hornerN_zero (s := ⟨1, 0, 0, 0⟩) (by rfl) (by rfl) (by rfl) (by rfl), decide_eq_false_iff_not] at h
  apply h
  have hx : polyEnd (Nat.xor (powX e 256 1) 1) = 0 := by
    show polyEnd (powX e 256 1 ^^^ 1) = 0
    rw [polyEnd_xor, polyEnd_powX e he, polyEnd_one, h1, end_add_self]
  rw [hx]
  rfl

theorem stepEnd_order : orderOf stepEnd = periodLength := by
  refine orderOf_eq_of_pow_and_pow_div_prime (by decide) ?_ ?_
  · have h := polyEnd_powX periodLength (by decide)
    have h2 : powX periodLength 256 1 = 1 := powX_period
    rw [h2, polyEnd_one] at h
    exact h.symm
  · intro p hp hd
    have hm := mem_mersennePrimes hp hd
    have hlt : periodLength / p < 2 ^ 256 := lt_of_le_of_lt (Nat.div_le_self _ _) (by decide)
    refine powMoves_spec hlt ?_
    simp only [mersennePrimes, List.mem_cons, List.not_mem_nil, or_false] at hm
    rcases hm with rfl | rfl | rfl | rfl | rfl | rfl | rfl | rfl | rfl | rfl | rfl
    · exact powMoves_3
    · exact powMoves_5
    · exact powMoves_17
    · exact powMoves_257
    · exact powMoves_641
    · exact powMoves_65537
    · exact powMoves_274177
    · exact powMoves_6700417
    · exact powMoves_67280421310721
    · exact powMoves_59649589127497217
    · exact powMoves_5704689200685129054721

theorem pow_has_poly (k : Nat) : ∃ b < 2 ^ 256, polyEnd b = stepEnd ^ k := by
  induction k with
  | zero => exact ⟨1, one_lt_two_pow_256, by rw [polyEnd_one, pow_zero]⟩
  | succ k ih =>
    obtain ⟨b, hb, he⟩ := ih
    exact ⟨mulX b, mulX_lt hb, by rw [polyEnd_mulX polyEnd_charPoly hb, he, pow_succ']⟩

theorem stepEnd_pow_injective (k : Nat) : Function.Injective (stepEnd ^ k) := by
  intro a b h
  rw [stepEnd_pow, stepEnd_pow] at h
  exact next_injective.iterate k h

theorem stepEnd_pow_ne_zero (k : Nat) : stepEnd ^ k ≠ 0 := by
  intro h
  have h1 : (stepEnd ^ k) ⟨1, 0, 0, 0⟩ = (stepEnd ^ k) 0 := by
    rw [map_zero, h]
    rfl
  exact absurd (stepEnd_pow_injective k h1) (by decide)

/-- Counting: two more values than powers do not fit. -/
theorem no_two_more {α : Type} (f : Nat → α) (x y : α) (code : α → Nat → Prop) (hcode : ∀ a b n, code a n → code b n → a = b)
    (hf : ∀ k, ∃ n < 2 ^ 256, code (f k) n) (hx : ∃ n < 2 ^ 256, code x n) (hy : ∃ n < 2 ^ 256, code y n)
    (hinj : ∀ i < periodLength, ∀ j < periodLength, f i = f j → i = j) (hxy : x ≠ y) (hxf : ∀ k, f k ≠ x) (hyf : ∀ k, f k ≠ y) : False := by
  let g : Nat → α := fun k => if k < periodLength then f k else if k = periodLength then x else y
  have hg : ∀ k, ∃ n < 2 ^ 256, code (g k) n := by
    intro k
    by_cases h : k < periodLength
    · simpa only [g, if_pos h] using hf k
    · by_cases h2 : k = periodLength
      · simpa only [g, if_neg h, if_pos h2] using hx
      · simpa only [g, if_neg h, if_neg h2] using hy
  choose c hc hcg using hg
  have ginj : ∀ i < periodLength + 2, ∀ j < periodLength + 2, g i = g j → i = j := by
    intro i hi j hj h
    by_cases h1 : i < periodLength <;> by_cases h2 : j < periodLength
    · simp only [g, if_pos h1, if_pos h2] at h
      exact hinj i h1 j h2 h
    · simp only [g, if_pos h1, if_neg h2] at h
      split at h
      · exact absurd h (hxf i)
      · exact absurd h (hyf i)
    · simp only [g, if_neg h1, if_pos h2] at h
      split at h
      · exact absurd h.symm (hxf j)
      · exact absurd h.symm (hyf j)
    · simp only [g, if_neg h1, if_neg h2] at h
      by_cases e1 : i = periodLength <;> by_cases e2 : j = periodLength
      · rw [e1, e2]
      · rw [if_pos e1, if_neg e2] at h
        exact absurd h hxy
      · rw [if_neg e1, if_pos e2] at h
        exact absurd h.symm hxy
      · omega
  have hcard := card_le_card_of_injOn (s := range (periodLength + 2)) (t := range (2 ^ 256)) c
    (fun k _ => by simpa using hc k) (by
      intro i hi j hj h
      rw [mem_coe, mem_range] at hi hj
      refine ginj i hi j hj (hcode _ _ (c i) (hcg i) ?_)
      rw [h]
      exact hcg j)
  rw [card_range, card_range] at hcard
  exact absurd hcard (by decide)

/-- All polynomials of the transition are zero or powers. -/
theorem poly_zero_or_pow {a : Nat} (ha : a < 2 ^ 256) : polyEnd a = 0 ∨ ∃ k, polyEnd a = stepEnd ^ k := by
  by_contra hcon
  rw [not_or, not_exists] at hcon
  refine no_two_more (fun k => stepEnd ^ k) 0 (polyEnd a) (fun f n => f = polyEnd n) ?_ ?_ ⟨0, by decide, polyEnd_zero.symm⟩ ⟨a, ha, rfl⟩ ?_
    (fun h => hcon.1 h.symm) stepEnd_pow_ne_zero (fun k h => hcon.2 k h.symm)
  · intro f g n h1 h2
    rw [h1, h2]
  · intro k
    obtain ⟨b, hb, he⟩ := pow_has_poly k
    exact ⟨b, hb, he.symm⟩
  · intro i hi j hj h
    exact pow_injOn_Iio_orderOf (by rw [stepEnd_order]; exact hi) (by rw [stepEnd_order]; exact hj) h

/-- **C152, the period**: from every state other than zero, the state is the same again exactly after each 2^256 - 1 draws. -/
theorem C152_period (s : RandomState) (hs : s ≠ zeroState) (k : Nat) : RandomState.next^[k] s = s ↔ 2 ^ 256 - 1 ∣ k := by
  rw [← stepEnd_pow]
  constructor
  · intro h
    by_cases h1 : stepEnd ^ k = 1
    · have := orderOf_dvd_of_pow_eq_one h1
      rwa [stepEnd_order] at this
    · exfalso
      obtain ⟨b, hb, he⟩ := pow_has_poly k
      have hx : polyEnd (b ^^^ 1) = stepEnd ^ k + 1 := by rw [polyEnd_xor, he, polyEnd_one]
      rcases poly_zero_or_pow (Nat.xor_lt_two_pow hb one_lt_two_pow_256) with h0 | ⟨j, hj⟩
      · apply h1
        rw [hx] at h0
        have h2 : stepEnd ^ k + 1 + 1 = 1 := by rw [h0, zero_add]
        rwa [add_assoc, end_add_self, add_zero] at h2
      · rw [hx] at hj
        have h3 : (stepEnd ^ j) s = (stepEnd ^ j) 0 := by
          rw [← hj, end_add_apply, h, map_zero]
          exact RandomState.add_self s
        exact hs (stepEnd_pow_injective j h3)
  · rintro ⟨m, rfl⟩
    have h1 : stepEnd ^ (2 ^ 256 - 1) = 1 := by
      have := pow_orderOf_eq_one stepEnd
      rwa [stepEnd_order] at this
    rw [pow_mul, h1, one_pow]
    rfl

theorem next_iterate_ne_zero {s : RandomState} (hs : s ≠ zeroState) (k : Nat) : RandomState.next^[k] s ≠ zeroState := by
  have hz : RandomState.next zeroState = zeroState := by decide
  have hzn : RandomState.next^[k] zeroState = zeroState := Function.iterate_fixed hz k
  intro h
  rw [← hzn] at h
  exact hs (next_injective.iterate k h)

theorem next_iterate_inj {s : RandomState} (hs : s ≠ zeroState) : ∀ i < periodLength, ∀ j < periodLength,
    RandomState.next^[i] s = RandomState.next^[j] s → i = j := by
  have key : ∀ i j, i ≤ j → j < periodLength → RandomState.next^[i] s = RandomState.next^[j] s → i = j := by
    intro i j hij hj h
    obtain ⟨d, rfl⟩ := Nat.exists_eq_add_of_le hij
    rw [Function.iterate_add_apply] at h
    have h2 := (C152_period s hs d).1 (next_injective.iterate i h).symm
    have h3 := Nat.eq_zero_of_dvd_of_lt h2 (lt_of_le_of_lt (Nat.le_add_left d i) hj)
    omega
  intro i hi j hj h
  rcases le_total i j with hij | hij
  · exact key i j hij hj h
  · exact (key j i hij hi h.symm).symm

/-- A state as one number. -/
def stateCode (s : RandomState) : Nat :=
  s.s0.toNat + 2 ^ 64 * (s.s1.toNat + 2 ^ 64 * (s.s2.toNat + 2 ^ 64 * s.s3.toNat))

theorem stateCode_lt (s : RandomState) : stateCode s < 2 ^ 256 := by
  have h0 := s.s0.isLt
  have h1 := s.s1.isLt
  have h2 := s.s2.isLt
  have h3 := s.s3.isLt
  unfold stateCode
  omega

theorem stateCode_inj {s t : RandomState} (h : stateCode s = stateCode t) : s = t := by
  obtain ⟨a, b, c, d⟩ := s
  obtain ⟨a', b', c', d'⟩ := t
  have h0 := a.isLt
  have h1 := b.isLt
  have h2 := c.isLt
  have h3 := d.isLt
  have h0' := a'.isLt
  have h1' := b'.isLt
  have h2' := c'.isLt
  have h3' := d'.isLt
  unfold stateCode at h
  simp only at h
  rw [RandomState.mk.injEq]
  refine ⟨BitVec.eq_of_toNat_eq ?_, BitVec.eq_of_toNat_eq ?_, BitVec.eq_of_toNat_eq ?_, BitVec.eq_of_toNat_eq ?_⟩ <;> omega

/-- **C152, all states**: from every state other than zero, each state other than zero comes exactly once in each
period. -/
theorem C152_all_states (s t : RandomState) (hs : s ≠ zeroState) (ht : t ≠ zeroState) :
    ∃! k : Nat, k < 2 ^ 256 - 1 ∧ RandomState.next^[k] s = t := by
  have hex : ∃ k, RandomState.next^[k] s = t := by
    by_contra hcon
    rw [not_exists] at hcon
    refine no_two_more (fun k => RandomState.next^[k] s) zeroState t (fun a n => n = stateCode a) ?_
      (fun k => ⟨_, stateCode_lt _, rfl⟩) ⟨_, stateCode_lt _, rfl⟩ ⟨_, stateCode_lt _, rfl⟩ (next_iterate_inj hs)
      (fun h => ht h.symm) (next_iterate_ne_zero hs) hcon
    intro a b n h1 h2
    exact stateCode_inj (h1.symm.trans h2)
  obtain ⟨k, hk⟩ := hex
  have hp : RandomState.next^[periodLength] s = s := (C152_period s hs _).2 dvd_rfl
  have hmod : RandomState.next^[k % periodLength] s = t := by
    have hm : ∀ m, RandomState.next^[periodLength * m] s = s := fun m => (C152_period s hs _).2 ⟨m, rfl⟩
    rw [← hk]
    conv_rhs => rw [← Nat.mod_add_div k periodLength, Function.iterate_add_apply, hm]
  have hlt : k % periodLength < periodLength := Nat.mod_lt _ (by decide)
  exact ⟨_, ⟨hlt, hmod⟩, fun j hj => next_iterate_inj hs j hj.1 _ hlt (hj.2.trans hmod.symm)⟩

/-! ## The numbers drawn -/

/-- The number that draw `k` gives, counted from zero: `sph_random_u64` called `k + 1` times. -/
def drawnU64 (s : RandomState) (k : Nat) : U64 := (randomU64 ((fun t => (randomU64 t).2)^[k] s)).1

theorem drawnU64_eq (s : RandomState) (k : Nat) : drawnU64 s k = 9 * rotl (5 * (RandomState.next^[k] s).s1) 7 := rfl

theorem scramble_injective : Function.Injective fun x : U64 => 9 * rotl (5 * x) 7 := by
  intro x y h
  simp only at h
  rw [BitVec.mul_comm 9, BitVec.mul_comm 9] at h
  have h := mul_injective (d := 10248191152060862009#64) (by decide) h
  have h := rotl_injective (by decide) h
  rw [BitVec.mul_comm 5, BitVec.mul_comm 5] at h
  exact mul_injective (d := 14757395258967641293#64) (by decide) h

theorem u64_finite : Finite U64 := Finite.of_injective (fun x : U64 => x.toFin) (fun _ _ h => BitVec.toFin_inj.1 h)

theorem scramble_surjective : Function.Surjective fun x : U64 => 9 * rotl (5 * x) 7 :=
  haveI := u64_finite
  Finite.injective_iff_surjective.1 scramble_injective

/-- The states as four words. -/
def stateEquiv : RandomState ≃ U64 × U64 × U64 × U64 where
  toFun s := (s.s0, s.s1, s.s2, s.s3)
  invFun v := ⟨v.1, v.2.1, v.2.2.1, v.2.2.2⟩
  left_inv _ := rfl
  right_inv _ := rfl

theorem state_finite : Finite RandomState := by
  have := u64_finite
  exact Finite.of_equiv _ stateEquiv.symm

/-- The second word at four successive draws. -/
def fourWords (s : RandomState) : U64 × U64 × U64 × U64 :=
  (s.s1, s.next.s1, s.next.next.s1, s.next.next.next.s1)

theorem word_one (s : RandomState) : s.next.s1 = s.s1 ^^^ (s.s2 ^^^ s.s0) := rfl

theorem word_two (s : RandomState) : s.next.next.s1 = (s.s0 ^^^ s.s3) ^^^ (s.s1 <<< 17) := by
  show (s.s1 ^^^ (s.s2 ^^^ s.s0)) ^^^ (((s.s2 ^^^ s.s0) ^^^ (s.s1 <<< 17)) ^^^ (s.s0 ^^^ (s.s3 ^^^ s.s1))) = _
  generalize s.s1 <<< 17 = t
  apply BitVec.eq_of_getLsbD_eq
  intro i hi
  simp only [BitVec.getLsbD_xor]
  cases s.s0.getLsbD i <;> cases s.s1.getLsbD i <;> cases s.s2.getLsbD i <;> cases s.s3.getLsbD i <;> cases t.getLsbD i <;> rfl

theorem fourWords_injective : Function.Injective fourWords := by
  intro s t h
  simp only [fourWords, Prod.mk.injEq] at h
  obtain ⟨h0, h1, h2, h3⟩ := h
  have h3' := h3
  rw [word_two s.next, word_two t.next, h1, BitVec.xor_left_inj] at h3'
  rw [word_two, word_two, h0, BitVec.xor_left_inj] at h2
  rw [word_one, word_one, h0, BitVec.xor_right_inj] at h1
  have e0 : s.next.s0 = t.next.s0 := by
    show s.s0 ^^^ (s.s3 ^^^ s.s1) = t.s0 ^^^ (t.s3 ^^^ t.s1)
    rw [← BitVec.xor_assoc, ← BitVec.xor_assoc, h2, h0]
  rw [e0, BitVec.xor_right_inj] at h3'
  have h4 : rotl (s.s3 ^^^ s.s1) 45 = rotl (t.s3 ^^^ t.s1) 45 := h3'
  have h5 := rotl_injective (by decide) h4
  rw [h0, BitVec.xor_left_inj] at h5
  rw [h5, BitVec.xor_left_inj] at h2
  rw [h2, BitVec.xor_left_inj] at h1
  obtain ⟨a, b, c, d⟩ := s
  obtain ⟨a', b', c', d'⟩ := t
  simp only at h0 h1 h2 h5
  rw [h0, h1, h2, h5]

theorem fourWords_surjective : Function.Surjective fourWords :=
  haveI := state_finite
  (Finite.injective_iff_surjective_of_equiv stateEquiv).1 fourWords_injective

/-- **C152, four in a row**: from every state other than zero, every four 64 bit numbers that are not all zero are drawn
one after the other at exactly one place in each period. -/
theorem C152_four_in_a_row (s : RandomState) (hs : s ≠ zeroState) (v0 v1 v2 v3 : U64)
    (hv : ¬(v0 = 0 ∧ v1 = 0 ∧ v2 = 0 ∧ v3 = 0)) :
    ∃! k : Nat, k < 2 ^ 256 - 1 ∧ drawnU64 s k = v0 ∧ drawnU64 s (k + 1) = v1 ∧ drawnU64 s (k + 2) = v2 ∧
      drawnU64 s (k + 3) = v3 := by
  obtain ⟨w0, rfl⟩ := scramble_surjective v0
  obtain ⟨w1, rfl⟩ := scramble_surjective v1
  obtain ⟨w2, rfl⟩ := scramble_surjective v2
  obtain ⟨w3, rfl⟩ := scramble_surjective v3
  obtain ⟨t, ht⟩ := fourWords_surjective (w0, w1, w2, w3)
  have ht0 : t ≠ zeroState := by
    rintro rfl
    apply hv
    have hz : fourWords zeroState = (0, 0, 0, 0) := by decide
    rw [hz] at ht
    simp only [Prod.mk.injEq] at ht
    obtain ⟨rfl, rfl, rfl, rfl⟩ := ht
    decide
  have hiff : ∀ k, (drawnU64 s k = 9 * rotl (5 * w0) 7 ∧ drawnU64 s (k + 1) = 9 * rotl (5 * w1) 7 ∧
      drawnU64 s (k + 2) = 9 * rotl (5 * w2) 7 ∧ drawnU64 s (k + 3) = 9 * rotl (5 * w3) 7) ↔ RandomState.next^[k] s = t := by
    intro k
    have hstep : ∀ w (u : RandomState), 9 * rotl (5 * u.s1) 7 = 9 * rotl (5 * w) 7 ↔ u.s1 = w :=
      fun w u => scramble_injective.eq_iff
    simp only [drawnU64_eq, hstep, Function.iterate_succ_apply']
    rw [← fourWords_injective.eq_iff, ht]
    simp only [fourWords, Prod.mk.injEq]
  simp only at hv ⊢
  obtain ⟨k, hk, hu⟩ := C152_all_states s t hs ht0
  exact ⟨k, ⟨hk.1, (hiff k).2 hk.2⟩, fun j hj => hu j ⟨hj.1, (hiff j).1 hj.2⟩⟩

/-! ## How often each number is drawn -/

theorem u64_card : Nat.card U64 = 2 ^ 64 := by
  rw [Nat.card_congr (Equiv.ofBijective (fun x : U64 => x.toFin)
    ⟨fun _ _ h => BitVec.toFin_inj.1 h, fun y => ⟨BitVec.ofFin y, rfl⟩⟩), Nat.card_fin]

theorem count_draws {s : RandomState} (hs : s ≠ zeroState) (out : RandomState → U64) (rest : RandomState → U64 × U64 × U64)
    (hbij : Function.Bijective fun t => (out t, rest t)) (h0 : out zeroState = 0) (A : Set U64) [DecidablePred (· ∈ A)] :
    {k | k < 2 ^ 256 - 1 ∧ out (RandomState.next^[k] s) ∈ A}.ncard + (if (0 : U64) ∈ A then 1 else 0) = A.ncard * 2 ^ 192 := by
  have := u64_finite
  have := state_finite
  have hall : {t : RandomState | out t ∈ A}.ncard = A.ncard * 2 ^ 192 := by
    rw [← Set.ncard_image_of_injective _ hbij.1]
    have : (fun t => (out t, rest t)) '' {t | out t ∈ A} = A ×ˢ (Set.univ : Set (U64 × U64 × U64)) := by
      ext ⟨x, y⟩
      constructor
      · rintro ⟨t, ht, he⟩
        simp only [Prod.mk.injEq] at he
        obtain ⟨rfl, rfl⟩ := he
        exact ⟨ht, trivial⟩
      · rintro ⟨hx, _⟩
        obtain ⟨t, ht⟩ := hbij.2 (x, y)
        simp only [Prod.mk.injEq] at ht
        exact ⟨t, by simpa only [Set.mem_ofPred_eq, ht.1] using hx, by simp only [ht.1, ht.2]⟩
    rw [this, Set.ncard_prod, Set.ncard_univ, Nat.card_prod, Nat.card_prod, u64_card]
    norm_num
  have himg : (fun k => RandomState.next^[k] s) '' {k | k < 2 ^ 256 - 1 ∧ out (RandomState.next^[k] s) ∈ A} =
      {t | out t ∈ A} \ {zeroState} := by
    ext t
    constructor
    · rintro ⟨k, hk, rfl⟩
      exact ⟨hk.2, next_iterate_ne_zero hs k⟩
    · rintro ⟨ht, h1⟩
      obtain ⟨k, hk, -⟩ := C152_all_states s t hs h1
      refine ⟨k, ⟨hk.1, ?_⟩, hk.2⟩
      rw [hk.2]
      exact ht
  have hinj : Set.InjOn (fun k => RandomState.next^[k] s) {k | k < 2 ^ 256 - 1 ∧ out (RandomState.next^[k] s) ∈ A} :=
    fun i hi j hj h => next_iterate_inj hs i hi.1 j hj.1 h
  rw [← Set.InjOn.ncard_image hinj, himg, ← hall]
  split
  · next hA =>
    exact Set.ncard_sdiff_singleton_add_one (by rw [Set.mem_ofPred_eq, h0]; exact hA) (Set.toFinite _)
  · next hA =>
    rw [Nat.add_zero, Set.sdiff_singleton_eq_self]
    rw [Set.mem_ofPred_eq, h0]
    exact hA

theorem u64_bijective : Function.Bijective fun t : RandomState => ((randomU64 t).1, (t.s0, t.s2, t.s3)) := by
  constructor
  · rintro ⟨a, b, c, d⟩ ⟨a', b', c', d'⟩ h
    simp only [Prod.mk.injEq] at h
    obtain ⟨h1, rfl, rfl, rfl⟩ := h
    have : b = b' := scramble_injective h1
    rw [this]
  · rintro ⟨x, a, c, d⟩
    obtain ⟨b, hb⟩ := scramble_surjective x
    exact ⟨⟨a, b, c, d⟩, by simp only [randomU64]; rw [← hb]⟩

theorem u64Plus_bijective : Function.Bijective fun t : RandomState => ((randomU64Plus t).1, (t.s1, t.s2, t.s3)) := by
  constructor
  · rintro ⟨a, b, c, d⟩ ⟨a', b', c', d'⟩ h
    simp only [Prod.mk.injEq, randomU64Plus] at h
    obtain ⟨h1, rfl, rfl, rfl⟩ := h
    rw [(BitVec.add_left_inj _).1 h1]
  · rintro ⟨x, b, c, d⟩
    exact ⟨⟨x - d, b, c, d⟩, by simp only [randomU64Plus, BitVec.sub_add_cancel]⟩

/-- **C152, each number equally often**: from every state other than zero, each 64 bit number is drawn 2^192 times in a
period, except zero, which is drawn once less. -/
theorem C152_equally_often (s : RandomState) (hs : s ≠ zeroState) (v : U64) :
    {k | k < 2 ^ 256 - 1 ∧ drawnU64 s k = v}.ncard = if v = 0 then 2 ^ 192 - 1 else 2 ^ 192 := by
  classical
  have h := count_draws hs (fun t => (randomU64 t).1) _ u64_bijective (by decide) {v}
  rw [Set.ncard_singleton, Nat.one_mul] at h
  have he : {k | k < 2 ^ 256 - 1 ∧ drawnU64 s k = v} = {k | k < 2 ^ 256 - 1 ∧ (randomU64 (RandomState.next^[k] s)).1 ∈ ({v} : Set U64)} := rfl
  rw [he]
  by_cases hv : v = 0
  · rw [if_pos (by rw [hv]; rfl)] at h
    rw [if_pos hv]
    omega
  · rw [if_neg (fun h0 => hv h0.symm)] at h
    rw [if_neg hv]
    omega

/-- Sample number `k` of noise, counted from zero: `sph_random_f64_1to1` called `k + 1` times. -/
def drawnNoise (rnd : ℚ → ℚ) (s : RandomState) (k : Nat) : ℚ := (randomF64_1to1 rnd ((fun t => (randomF64_1to1 rnd t).2)^[k] s)).1

/-- **C152, noise samples equally often**: each of the 2^53 multiples of 2^-52 from -1 up to 1 is drawn 2^203 times in a
period, except -1, which is drawn once less. -/
theorem C152_noise_values {rnd : ℚ → ℚ} (hr : Rounding rnd) (s : RandomState) (hs : s ≠ zeroState) (m : ℤ)
    (h1 : -2 ^ 52 ≤ m) (h2 : m < 2 ^ 52) :
    {k | k < 2 ^ 256 - 1 ∧ drawnNoise rnd s k = m / 2 ^ 52}.ncard = if m = -2 ^ 52 then 2 ^ 203 - 1 else 2 ^ 203 := by
  classical
  obtain ⟨q, hq⟩ : ∃ q : Nat, (q : ℤ) = m + 2 ^ 52 := ⟨(m + 2 ^ 52).toNat, by omega⟩
  have h := count_draws hs (fun t => (randomU64Plus t).1) _ u64Plus_bijective (by decide) {a | a.toNat / 2 ^ 11 = q}
  have hset : {k | k < 2 ^ 256 - 1 ∧ drawnNoise rnd s k = m / 2 ^ 52} =
      {k | k < 2 ^ 256 - 1 ∧ (randomU64Plus (RandomState.next^[k] s)).1 ∈ {a : U64 | a.toNat / 2 ^ 11 = q}} := by
    ext k
    simp only [Set.mem_ofPred_eq]
    refine and_congr_right fun _ => ?_
    obtain ⟨j, -, hj, hv, -⟩ := C42_f64_1to1 hr (RandomState.next^[k] s)
    have hd : drawnNoise rnd s k = (randomF64_1to1 rnd (RandomState.next^[k] s)).1 := rfl
    rw [hd, hv, ← hj]
    constructor
    · intro he
      rw [div_left_inj' (by positivity)] at he
      have : (j : ℤ) - 2 ^ 52 = m := by exact_mod_cast he
      omega
    · intro he
      have : (j : ℤ) - 2 ^ 52 = m := by omega
      rw [this]
  have hcard : {a : U64 | a.toNat / 2 ^ 11 = q}.ncard = 2 ^ 11 := by
    have hinj : Function.Injective fun a : U64 => a.toNat := fun _ _ h => BitVec.eq_of_toNat_eq h
    rw [← Set.ncard_image_of_injective _ hinj]
    have : (fun a : U64 => a.toNat) '' {a : U64 | a.toNat / 2 ^ 11 = q} = ↑(Finset.Ico (q * 2 ^ 11) (q * 2 ^ 11 + 2 ^ 11)) := by
      ext x
      simp only [Set.mem_image, Set.mem_ofPred_eq, Finset.coe_Ico, Set.mem_Ico]
      constructor
      · rintro ⟨a, ha, rfl⟩
        omega
      · intro hx
        refine ⟨BitVec.ofNat 64 x, ?_, ?_⟩ <;> rw [BitVec.toNat_ofNat, Nat.mod_eq_of_lt (by omega)] <;> omega
    rw [this, Set.ncard_coe_finset, Nat.card_Ico]
    omega
  rw [hset]
  rw [hcard] at h
  have hz : (0 : U64) ∈ {a : U64 | a.toNat / 2 ^ 11 = q} ↔ m = -2 ^ 52 := by
    show (0 : U64).toNat / 2 ^ 11 = q ↔ _
    rw [show (0 : U64).toNat = 0 from rfl]
    omega
  by_cases hm : m = -2 ^ 52
  · rw [if_pos (hz.2 hm)] at h
    rw [if_pos hm]
    omega
  · rw [if_neg (fun hc => hm (hz.1 hc))] at h
    rw [if_neg hm]
    omega

theorem seed_ne_zero (seed : Nat) : spRandomStateNew seed ≠ zeroState := C40_never_zero_sp seed 0

theorem words_again {s : RandomState} {p : Nat} (h : ∀ k, drawnU64 s (k + p) = drawnU64 s k) : RandomState.next^[p] s = s := by
  have hw : ∀ k, (RandomState.next^[k] (RandomState.next^[p] s)).s1 = (RandomState.next^[k] s).s1 := by
    intro k
    have := h k
    rw [drawnU64_eq, drawnU64_eq, Function.iterate_add_apply] at this
    exact scramble_injective this
  refine fourWords_injective ?_
  simp only [fourWords, Prod.mk.injEq]
  exact ⟨hw 0, hw 1, hw 2, hw 3⟩

/-- **C152, the numbers**: from every state other than zero, the numbers drawn repeat after 2^256 - 1 draws, and after no
other number of draws than the multiples of it. -/
theorem C152_numbers_repeat (s : RandomState) (hs : s ≠ zeroState) (p : Nat) :
    (∀ k, drawnU64 s (k + p) = drawnU64 s k) ↔ 2 ^ 256 - 1 ∣ p := by
  refine ⟨fun h => (C152_period _ hs p).1 (words_again h), fun h k => ?_⟩
  rw [drawnU64_eq, drawnU64_eq, Function.iterate_add_apply, (C152_period _ hs p).2 h]

/-- **C152 for every seed**: the states made from a seed, with and without the draws that the library drops, are not the
zero state, so all of the above holds from them. -/
theorem C152_seed (seed : Nat) (seed64 : U64) (p : Nat) : ((∀ k, drawnU64 (spRandomStateNew seed) (k + p) = drawnU64 (spRandomStateNew seed) k) ↔ 2 ^ 256 - 1 ∣ p) ∧
    ((∀ k, drawnU64 (randomStateNew seed64) (k + p) = drawnU64 (randomStateNew seed64) k) ↔ 2 ^ 256 - 1 ∣ p) :=
  ⟨C152_numbers_repeat _ (seed_ne_zero seed) p, C152_numbers_repeat _ (C40_never_zero seed64 0) p⟩

/-! ## Instances -/

example : RandomState.next^[1000000] (spRandomStateNew 1) ≠ spRandomStateNew 1 := by
  intro h
  exact absurd (Nat.le_of_dvd (by decide) ((C152_period _ (seed_ne_zero 1) 1000000).1 h)) (by decide)

/-- A place where the numbers 1, 2, 3, 4 are drawn in a row. -/
example : ∃ k, drawnU64 (spRandomStateNew 1) k = 1 ∧ drawnU64 (spRandomStateNew 1) (k + 1) = 2 ∧
    drawnU64 (spRandomStateNew 1) (k + 2) = 3 ∧ drawnU64 (spRandomStateNew 1) (k + 3) = 4 := by
  obtain ⟨k, hk, -⟩ := C152_four_in_a_row _ (seed_ne_zero 1) 1 2 3 4 (by decide)
  exact ⟨k, hk.2⟩

example : {k | k < 2 ^ 256 - 1 ∧ drawnU64 (spRandomStateNew 7) k = 12345}.ncard = 2 ^ 192 := by
  rw [C152_equally_often _ (seed_ne_zero 7), if_neg (by decide)]

end Sp
