import Verif.Model.Random
import Verif.Lemmas.SeqTrace
import Mathlib.Data.Finset.Card
import Mathlib.Order.Interval.Finset.Nat
import Mathlib.Data.Fintype.EquivFin
import Mathlib.Data.Finite.Prod
import Mathlib.Tactic.FieldSimp
import Mathlib.Tactic.NormNum
import Mathlib.Logic.Function.Iterate
import Mathlib.Algebra.Order.Field.Basic
import Mathlib.Tactic.Positivity
import Mathlib.Tactic.Linarith
import Mathlib.Data.Rat.Cast.Order

/-!
# C40 to C42: random numbers
-/

set_option linter.unusedSectionVars false

namespace Sp

/-! ### C40 -/

theorem xor_shr_injective {k : Nat} (hk : 0 < k) {x y : U64} (h : x ^^^ (x >>> k) = y ^^^ (y >>> k)) : x = y := by
  have key : ∀ n i, 64 ≤ i + n → x.getLsbD i = y.getLsbD i := by
    intro n
    induction n with
    | zero =>
      intro i hi
      rw [BitVec.getLsbD_of_ge _ _ (by omega), BitVec.getLsbD_of_ge _ _ (by omega)]
    | succ n ih =>
      intro i hi
      have h1 := congrArg (fun z : U64 => z.getLsbD i) h
      simp only [BitVec.getLsbD_xor, BitVec.getLsbD_ushiftRight] at h1
      rw [ih (k + i) (by omega)] at h1
      exact Bool.xor_right_inj.1 (by rw [Bool.xor_comm _ (x.getLsbD i), h1, Bool.xor_comm])
  exact BitVec.eq_of_getLsbD_eq (fun i hi => key 64 i (by omega))

theorem xor_shl_injective {k : Nat} (hk : 0 < k) {x y : U64} (h : x ^^^ (x <<< k) = y ^^^ (y <<< k)) : x = y := by
  have key : ∀ i, i < 64 → x.getLsbD i = y.getLsbD i := by
    intro i
    induction i using Nat.strong_induction_on with
    | _ i ih =>
      intro hi
      have h1 := congrArg (fun z : U64 => z.getLsbD i) h
      simp only [BitVec.getLsbD_xor, BitVec.getLsbD_shiftLeft] at h1
      by_cases hik : i < k
      · simpa [hik] using h1
      · rw [ih (i - k) (by omega) (by omega)] at h1
        exact Bool.xor_right_inj.1 (by rw [Bool.xor_comm _ (x.getLsbD i), h1, Bool.xor_comm])
  exact BitVec.eq_of_getLsbD_eq (fun i hi => key i hi)

theorem rotl_injective {k : Nat} (hk : k ≤ 64) {x y : U64} (h : rotl x k = rotl y k) : x = y := by
  apply BitVec.eq_of_getLsbD_eq
  intro i hi
  unfold rotl at h
  by_cases hc : i + k < 64
  · have h1 := congrArg (fun z : U64 => z.getLsbD (i + k)) h
    simp only [BitVec.getLsbD_or, BitVec.getLsbD_shiftLeft, BitVec.getLsbD_ushiftRight] at h1
    rw [BitVec.getLsbD_of_ge x (64 - k + (i + k)) (by omega), BitVec.getLsbD_of_ge y (64 - k + (i + k)) (by omega)] at h1
    simpa [hc] using h1
  · have h1 := congrArg (fun z : U64 => z.getLsbD (i + k - 64)) h
    simp only [BitVec.getLsbD_or, BitVec.getLsbD_shiftLeft, BitVec.getLsbD_ushiftRight] at h1
    rw [show 64 - k + (i + k - 64) = i by omega] at h1
    simpa [show i + k - 64 < k by omega] using h1

theorem mul_injective {c d : U64} (hcd : c * d = 1#64) {x y : U64} (h : x * c = y * c) : x = y := by
  have := congrArg (· * d) h
  simpa [BitVec.mul_assoc, hcd] using this

theorem splitmix_injective {x y : U64} (h : splitmix x = splitmix y) : x = y := by
  unfold splitmix at h
  have h := xor_shr_injective (by decide) h
  have h := mul_injective (d := 3573116690164977347#64) (by decide) h
  have h := xor_shr_injective (by decide) h
  have h := mul_injective (d := 10871156337175269513#64) (by decide) h
  exact xor_shr_injective (by decide) h

theorem next_injective : Function.Injective RandomState.next := by
  rintro ⟨a0, a1, a2, a3⟩ ⟨b0, b1, b2, b3⟩ h
  simp only [RandomState.next, RandomState.mk.injEq] at h
  obtain ⟨h0, h1, h2, h3⟩ := h
  have h3 := rotl_injective (by decide) h3
  rw [h3] at h0
  have e0 : a0 = b0 := (BitVec.xor_left_inj _).1 h0
  subst e0
  have h4 : a1 ^^^ (a1 <<< 17) = b1 ^^^ (b1 <<< 17) := by
    have : (a1 ^^^ (a2 ^^^ a0)) ^^^ ((a2 ^^^ a0) ^^^ (a1 <<< 17)) =
        (b1 ^^^ (b2 ^^^ a0)) ^^^ ((b2 ^^^ a0) ^^^ (b1 <<< 17)) := by rw [h1, h2]
    have cancel : ∀ x y z : U64, (x ^^^ y) ^^^ (y ^^^ z) = x ^^^ z := by
      intro x y z
      rw [BitVec.xor_assoc, ← BitVec.xor_assoc y y z, BitVec.xor_self, BitVec.zero_xor]
    rwa [cancel, cancel] at this
  have e1 := xor_shl_injective (by decide) h4
  subst e1
  have e2 : a2 = b2 := (BitVec.xor_left_inj _).1 ((BitVec.xor_right_inj _).1 h1)
  have e3 : a3 = b3 := (BitVec.xor_left_inj _).1 h3
  rw [e2, e3]

/-- **C40, the state transition is a bijection.** -/
theorem C40_transition_bijective : Function.Bijective RandomState.next := by
  have : Finite RandomState := Finite.of_injective
    (fun s : RandomState => (s.s0.toFin, s.s1.toFin, s.s2.toFin, s.s3.toFin)) (by
      rintro ⟨a0, a1, a2, a3⟩ ⟨b0, b1, b2, b3⟩ h
      simp only [Prod.mk.injEq, BitVec.toFin_inj] at h
      obtain ⟨rfl, rfl, rfl, rfl⟩ := h
      rfl)
  exact Finite.injective_iff_bijective.1 next_injective

/-- The all zero state, the only absorbing one. -/
def zeroState : RandomState := ⟨0, 0, 0, 0⟩

/-- **C40, the state is never all zeros**: for every seed and after any number of draws. -/
theorem C40_never_zero (seed : U64) (n : Nat) : RandomState.next^[n] (randomStateNew seed) ≠ zeroState := by
  have h0 : randomStateNew seed ≠ zeroState := by
    intro h
    simp only [randomStateNew, zeroState, RandomState.mk.injEq] at h
    have := splitmix_injective (h.1.trans h.2.1.symm)
    have h2 : seed + seedStep + 0#64 = seed + seedStep + seedStep := by simpa using this
    have h3 := BitVec.add_right_inj _ |>.1 h2
    exact absurd h3 (by decide)
  have hz : RandomState.next zeroState = zeroState := by decide
  have hzn : RandomState.next^[n] zeroState = zeroState := Function.iterate_fixed hz n
  intro h
  rw [← hzn] at h
  exact h0 (next_injective.iterate n h)

/-- **C40** for the states that the library makes. -/
theorem C40_never_zero_sp (seed n : Nat) : RandomState.next^[n] (spRandomStateNew seed) ≠ zeroState := by
  have := C40_never_zero (BitVec.ofNat 64 (u32 seed)) (n + 2)
  rwa [Function.iterate_add_apply] at this

/-- **C40, distinct states stay distinct**, after any number of draws. -/
theorem C40_distinct (n : Nat) {s s' : RandomState} (h : s ≠ s') :
    RandomState.next^[n] s ≠ RandomState.next^[n] s' := fun he => h (next_injective.iterate n he)

/-- Every draw of any kind makes one transition. -/
theorem C40_draws (rnd : ℚ → ℚ) (s : RandomState) : (randomU64 s).2 = s.next ∧ (randomU64Plus s).2 = s.next ∧
    (randomF64 rnd s).2 = s.next ∧ (randomF64_0to1 rnd s).2 = s.next ∧ (randomF64_1to1 rnd s).2 = s.next :=
  ⟨rfl, rfl, rfl, rfl, rfl⟩

/-- Non-vacuity: the seed that makes the first word zero. -/
example : (randomStateNew (0 - seedStep)).s0 = 0 ∧ (randomStateNew (0 - seedStep)).s1 ≠ 0 := by decide

/-! ### C41 -/

/-- The raw number `x` is not used, another one is drawn. -/
def Redrawn (range x : Nat) : Prop := x * range % 2 ^ 64 < 2 ^ 64 % range

instance (range x : Nat) : Decidable (Redrawn range x) := inferInstanceAs (Decidable (_ < _))

/-- The `n`-th raw number that the generator gives from state `s`. -/
def rawDraw {σ : Type} (draw : σ → Nat × σ) (s : σ) (n : Nat) : Nat := (draw ((fun s => (draw s).2)^[n] s)).1

theorem boundedThreshold_eq {range : Nat} (h : 0 < range) (h2 : range < 2 ^ 64) :
    boundedThreshold range = 2 ^ 64 % range := by
  unfold boundedThreshold
  simp only [Nat.reducePow] at *
  rw [Nat.mod_eq_of_lt (show 18446744073709551616 - range < 18446744073709551616 by omega)]
  have e1 : 18446744073709551616 % range = (18446744073709551616 - range) % range :=
    Nat.mod_eq_sub_mod (by omega)
  by_cases h3 : 18446744073709551616 - range ≥ range
  · rw [if_pos h3, e1, Nat.mod_eq_sub_mod h3]
    split
    · rfl
    · rw [Nat.mod_eq_of_lt (by omega)]
  · rw [if_neg h3, e1, Nat.mod_eq_of_lt (by omega)]

theorem boundedLoop_ok {σ : Type} {draw : σ → Nat × σ} {range : Nat} (h0 : 0 < range) (h2 : range < 2 ^ 64)
    {fuel x r : Nat} {s s' : σ}
    (h : boundedLoop draw range (boundedThreshold range) fuel (x * range) s = .ok (r, s')) :
    (¬ Redrawn range x ∧ r = x * range / 2 ^ 64 ∧ s' = s) ∨
    (Redrawn range x ∧ ∃ n, (∀ i, i < n → Redrawn range (rawDraw draw s i)) ∧
      ¬ Redrawn range (rawDraw draw s n) ∧ r = rawDraw draw s n * range / 2 ^ 64 ∧
      s' = (fun s => (draw s).2)^[n + 1] s) := by
  induction fuel generalizing x s with
  | zero => simp [boundedLoop] at h
  | succ fuel ih =>
    unfold boundedLoop at h
    rw [boundedThreshold_eq h0 h2] at h
    split at h
    · next hr =>
      right
      refine ⟨hr, ?_⟩
      rw [← boundedThreshold_eq h0 h2] at h
      rcases ih h with ⟨i1, i2, i3⟩ | ⟨i1, n, i2, i3, i4, i5⟩
      · exact ⟨0, by simp, i1, i2, i3⟩
      · refine ⟨n + 1, ?_, i3, i4, i5⟩
        intro i hi
        cases i with
        | zero => exact i1
        | succ i => exact i2 i (by omega)
    · next hr =>
      left
      simp only [Except.ok.injEq, Prod.mk.injEq] at h
      exact ⟨hr, h.1.symm, h.2.symm⟩

/-- **C41, the result** is determined by the first raw number that is not redrawn, and is below
`range`. For an arbitrary generator of 64 bit numbers. -/
theorem C41_bounded {σ : Type} {draw : σ → Nat × σ} (hdraw : ∀ s, (draw s).1 < 2 ^ 64) {fuel range r : Nat}
    (h0 : 0 < range) (h2 : range < 2 ^ 64) {s s' : σ} (h : randomBounded draw fuel range s = .ok (r, s')) :
    r < range ∧ ∃ n, (∀ i, i < n → Redrawn range (rawDraw draw s i)) ∧
      ¬ Redrawn range (rawDraw draw s n) ∧ r = rawDraw draw s n * range / 2 ^ 64 ∧
      s' = (fun s => (draw s).2)^[n + 1] s := by
  have hlt : ∀ n, rawDraw draw s n * range / 2 ^ 64 < range := by
    intro n
    rw [Nat.div_lt_iff_lt_mul (by positivity), Nat.mul_comm range]
    exact Nat.mul_lt_mul_of_pos_right (hdraw _) h0
  have key : ∃ n, (∀ i, i < n → Redrawn range (rawDraw draw s i)) ∧
      ¬ Redrawn range (rawDraw draw s n) ∧ r = rawDraw draw s n * range / 2 ^ 64 ∧
      s' = (fun s => (draw s).2)^[n + 1] s := by
    unfold randomBounded at h
    simp only at h
    split at h
    · rcases boundedLoop_ok h0 h2 h with ⟨i1, i2, i3⟩ | ⟨i1, n, i2, i3, i4, i5⟩
      · exact ⟨0, by simp, i1, i2, i3⟩
      · refine ⟨n + 1, ?_, i3, i4, i5⟩
        intro i hi
        cases i with
        | zero => exact i1
        | succ i => exact i2 i (by omega)
    · next hc =>
      simp only [Except.ok.injEq, Prod.mk.injEq] at h
      refine ⟨0, by simp, ?_, h.1.symm, h.2.symm⟩
      intro hr
      unfold Redrawn rawDraw at hr
      have := Nat.mod_lt (2 ^ 64) h0
      simp only [Function.iterate_zero, id_eq, Nat.reducePow] at hr this
      omega
  refine ⟨?_, key⟩
  obtain ⟨n, _, _, rfl, _⟩ := key
  exact hlt n

/-- **C41, it returns** as soon as a raw number is not redrawn. -/
theorem C41_returns {σ : Type} {draw : σ → Nat × σ} {fuel range : Nat} (h0 : 0 < range) (h2 : range < 2 ^ 64)
    {s : σ} {n : Nat} (hn : ¬ Redrawn range (rawDraw draw s n)) (hf : n < fuel) :
    ∃ r s', randomBounded draw fuel range s = .ok (r, s') := by
  have key : ∀ n fuel x s, (¬ Redrawn range x ∨ ∃ k, k < n ∧ ¬ Redrawn range (rawDraw draw s k)) → n < fuel →
      ∃ r s', boundedLoop draw range (boundedThreshold range) fuel (x * range) s = .ok (r, s') := by
    intro n
    induction n with
    | zero =>
      rintro fuel x s (h | ⟨k, hk, _⟩) hf
      · obtain ⟨f, rfl⟩ : ∃ f, fuel = f + 1 := ⟨fuel - 1, by omega⟩
        unfold boundedLoop
        rw [boundedThreshold_eq h0 h2, if_neg (show ¬ x * range % 18446744073709551616 < 2 ^ 64 % range from h)]
        exact ⟨_, _, rfl⟩
      · omega
    | succ n ih =>
      intro fuel x s h hf
      obtain ⟨f, rfl⟩ : ∃ f, fuel = f + 1 := ⟨fuel - 1, by omega⟩
      by_cases hx : Redrawn range x
      · rcases h with h | ⟨k, hk, hk2⟩
        · exact absurd hx h
        · unfold boundedLoop
          rw [boundedThreshold_eq h0 h2, if_pos (show x * range % 18446744073709551616 < 2 ^ 64 % range from hx),
            ← boundedThreshold_eq h0 h2]
          refine ih f _ _ ?_ (by omega)
          cases k with
          | zero => exact .inl hk2
          | succ k => exact .inr ⟨k, by omega, hk2⟩
      · unfold boundedLoop
        rw [boundedThreshold_eq h0 h2, if_neg (show ¬ x * range % 18446744073709551616 < 2 ^ 64 % range from hx)]
        exact ⟨_, _, rfl⟩
  unfold randomBounded
  simp only
  split
  · refine key n fuel _ _ ?_ hf
    cases n with
    | zero => exact .inl hn
    | succ n => exact .inr ⟨n, by omega, hn⟩
  · exact ⟨_, _, rfl⟩

theorem count_multiples {N n r : Nat} (h0 : 0 < n) (hr : r < n) (hN : 0 < N) :
    ((Finset.range N).filter (fun x => ¬ x * n % N < N % n ∧ x * n / N = r)).card = N / n := by
  have hset : (Finset.range N).filter (fun x => ¬ x * n % N < N % n ∧ x * n / N = r) =
      Finset.Ico ((r * N + N % n + (n - 1)) / n) ((r * N + N % n + (n - 1)) / n + N / n) := by
    ext x
    simp only [Finset.mem_filter, Finset.mem_range, Finset.mem_Ico]
    have hdm := Nat.div_add_mod (x * n) N
    have hdn := Nat.div_add_mod N n
    have hml := Nat.mod_lt (x * n) hN
    have hnl := Nat.mod_lt N h0
    have hceil : ∀ A z, (A + (n - 1)) / n ≤ z ↔ A ≤ z * n := by
      intro A z
      rw [Nat.div_le_iff_le_mul_add_pred h0, Nat.mul_comm n z]
      omega
    rw [hceil]
    have hlt : x < (r * N + N % n + (n - 1)) / n + N / n ↔ x * n < r * N + N := by
      rw [← not_le, ← not_le]
      apply not_congr
      have hc := hceil (r * N + N % n) (x - N / n)
      rw [Nat.mul_comm n] at hdn
      generalize (r * N + N % n + (n - 1)) / n = c at hc ⊢
      have hq : N / n ≤ x → N / n * n ≤ x * n := fun h => Nat.mul_le_mul_right n h
      have hq2 : x < N / n → x * n < N / n * n := fun h => Nat.mul_lt_mul_of_pos_right h h0
      rw [Nat.sub_mul] at hc
      generalize N / n = q at hc hdn hq hq2 ⊢
      generalize N % n = t at *
      generalize r * N = rN at *
      generalize x * n = xn at *
      generalize q * n = qn at *
      constructor
      · intro h
        have := hc.1 (by omega)
        have := hq (by omega)
        omega
      · intro h
        have h2 : q ≤ x := by
          by_contra hcc
          have := hq2 (by omega)
          omega
        have := hc.2 (by omega)
        omega
    rw [hlt]
    constructor
    · rintro ⟨_, h1, rfl⟩
      rw [Nat.mul_comm N] at hdm
      omega
    · rintro ⟨h1, h2⟩
      have hdiv : x * n / N = r := by
        rw [Nat.div_eq_iff hN]
        omega
      refine ⟨?_, ?_, hdiv⟩
      · by_contra hc
        have a1 : N * n ≤ x * n := Nat.mul_le_mul_right n (by omega)
        have a2 : (r + 1) * N ≤ n * N := Nat.mul_le_mul_right N hr
        rw [Nat.add_mul, Nat.one_mul, Nat.mul_comm n N] at a2
        omega
      · rw [hdiv, Nat.mul_comm N] at hdm
        omega
  rw [hset, Nat.card_Ico, Nat.add_sub_cancel_left]

/-- **C41, exactly uniform**: of the 2^64 raw numbers, the same number lead to each result (the others
are redrawn). -/
theorem C41_uniform {range r : Nat} (hr : r < range) :
    ((Finset.range (2 ^ 64)).filter (fun x => ¬ Redrawn range x ∧ x * range / 2 ^ 64 = r)).card =
      2 ^ 64 / range :=
  count_multiples (N := 2 ^ 64) (by omega) hr (by positivity)

/-- **C41 for the generator of the library**, 32 bit version: the result is below the range. -/
theorem C41_time_random_bounded {fuel range r : Nat} (h0 : 0 < range) (h2 : range < 4294967296)
    {s s' : RandomState} (h : randomU32Bounded fuel range s = .ok (r, s')) : r < range := by
  unfold randomU32Bounded at h
  rw [bind_eq_ok] at h
  obtain ⟨⟨r1, s1⟩, h1, h⟩ := h
  simp only [pure_eq_ok, Except.ok.injEq, Prod.mk.injEq] at h
  obtain ⟨rfl, rfl⟩ := h
  have := (C41_bounded (fun s => BitVec.isLt _) h0 (by omega) h1).1
  rw [u32_of_lt (by omega)]
  exact this

/-- Non-vacuity: a raw number that is redrawn, then one that is used. -/
example : Redrawn 3 0 ∧ ¬ Redrawn 3 (2 ^ 63) ∧
    randomBounded (fun n => (n * 2 ^ 63, n + 1)) 5 3 0 = .ok (1, 2) := by decide

example : ∃ r s', randomU32Bounded 9 10 (spRandomStateNew 1557083953) = .ok (r, s') ∧ r < 10 := by
  have h : ∃ r s', randomU32Bounded 9 10 (spRandomStateNew 1557083953) = .ok (r, s') := ⟨_, _, rfl⟩
  obtain ⟨r, s', h⟩ := h
  exact ⟨r, s', h, C41_time_random_bounded (by decide) (by decide) h⟩

/-! ### C42 -/

/-- The rational numbers that are binary64 numbers. -/
def IsF64 (q : ℚ) : Prop :=
  ∃ m e : ℤ, |m| < 2 ^ 53 ∧ -1074 ≤ e ∧ e ≤ 971 ∧ q = m * (2 : ℚ) ^ e

/-- What is needed of a rounding function: numbers that are representable are not changed. -/
def Rounding (rnd : ℚ → ℚ) : Prop := ∀ q, IsF64 q → rnd q = q

theorem isF64_dyadic (k : ℤ) (hk : |k| < 2 ^ 53) (e : Nat) (he : e ≤ 60) : IsF64 (k / 2 ^ e) := by
  refine ⟨k, -(e : ℤ), hk, by omega, by omega, ?_⟩
  rw [zpow_neg, zpow_natCast, div_eq_mul_inv]

theorem shr11_lt (a : U64) : (a >>> 11).toNat < 2 ^ 53 := by
  rw [BitVec.toNat_ushiftRight, Nat.shiftRight_eq_div_pow]
  have := a.isLt
  omega

theorem isF64_nat {k : Nat} (hk : k < 2 ^ 53) (e : Nat) (he : e ≤ 60) : IsF64 ((k : ℚ) / 2 ^ e) := by
  have := isF64_dyadic (k : ℤ) (by rw [abs_of_nonneg (by positivity)]; exact_mod_cast hk) e he
  rwa [Int.cast_natCast] at this

theorem f64FromU64_eq {rnd : ℚ → ℚ} (hr : Rounding rnd) (a : U64) :
    f64FromU64 rnd a = ((a >>> 11).toNat : ℚ) / 2 ^ 53 := by
  have hlt := shr11_lt a
  unfold f64FromU64
  have h1 : rnd ((a >>> 11).toNat : ℚ) = ((a >>> 11).toNat : ℚ) := by
    apply hr
    have := isF64_nat hlt 0 (by decide)
    rwa [pow_zero, div_one] at this
  rw [h1, mul_one_div]
  exact hr _ (isF64_nat hlt 53 (by decide))

/-- **C42, `sph_random_f64`**: all operations are exact, the result is the multiple `k` of 2^-53 where
`k < 2^53` is the upper 53 bits of the raw number, hence in [0,1). -/
theorem C42_f64 {rnd : ℚ → ℚ} (hr : Rounding rnd) (s : RandomState) :
    ∃ k : Nat, k < 2 ^ 53 ∧ k = (randomU64 s).1.toNat / 2 ^ 11 ∧ (randomF64 rnd s).1 = k / 2 ^ 53 ∧
      0 ≤ (randomF64 rnd s).1 ∧ (randomF64 rnd s).1 < 1 := by
  have hlt := shr11_lt (randomU64 s).1
  refine ⟨_, hlt, ?_, f64FromU64_eq hr _, ?_, ?_⟩
  · rw [BitVec.toNat_ushiftRight, Nat.shiftRight_eq_div_pow]
  · unfold randomF64; rw [f64FromU64_eq hr]; positivity
  · unfold randomF64
    rw [f64FromU64_eq hr, div_lt_one (by positivity)]
    exact_mod_cast hlt

/-- **C42, `sph_random_f64_0to1`**: the same with the raw number of xoshiro256+. -/
theorem C42_f64_0to1 {rnd : ℚ → ℚ} (hr : Rounding rnd) (s : RandomState) :
    ∃ k : Nat, k < 2 ^ 53 ∧ k = (randomU64Plus s).1.toNat / 2 ^ 11 ∧ (randomF64_0to1 rnd s).1 = k / 2 ^ 53 ∧
      0 ≤ (randomF64_0to1 rnd s).1 ∧ (randomF64_0to1 rnd s).1 < 1 := by
  have hlt := shr11_lt (randomU64Plus s).1
  have heq : (randomF64_0to1 rnd s).1 = ((randomU64Plus s).1 >>> 11).toNat / 2 ^ 53 := by
    unfold randomF64_0to1 randomF64Bounded
    simp only
    rw [one_mul, f64FromU64_eq hr]
    exact hr _ (isF64_nat hlt 53 (by decide))
  refine ⟨_, hlt, ?_, heq, ?_, ?_⟩
  · rw [BitVec.toNat_ushiftRight, Nat.shiftRight_eq_div_pow]
  · rw [heq]; positivity
  · rw [heq, div_lt_one (by positivity)]
    exact_mod_cast hlt

/-- **C42, `sph_random_f64_1to1`**: all operations are exact, the result is the multiple `k - 2^52` of
2^-52, in [-1,1). -/
theorem C42_f64_1to1 {rnd : ℚ → ℚ} (hr : Rounding rnd) (s : RandomState) :
    ∃ k : Nat, k < 2 ^ 53 ∧ k = (randomU64Plus s).1.toNat / 2 ^ 11 ∧
      (randomF64_1to1 rnd s).1 = ((k : ℤ) - 2 ^ 52 : ℤ) / 2 ^ 52 ∧
      -1 ≤ (randomF64_1to1 rnd s).1 ∧ (randomF64_1to1 rnd s).1 < 1 := by
  have hlt := shr11_lt (randomU64Plus s).1
  have heq : (randomF64_1to1 rnd s).1 = ((((randomU64Plus s).1 >>> 11).toNat : ℤ) - 2 ^ 52 : ℤ) / 2 ^ 52 := by
    unfold randomF64_1to1 randomF64Bounded
    simp only
    generalize hk : ((randomU64Plus s).1 >>> 11).toNat = k at hlt
    rw [f64FromU64_eq hr, hk]
    have h1 : rnd (2 * ((k : ℚ) / 2 ^ 53)) = k / 2 ^ 52 := by
      have e : 2 * ((k : ℚ) / 2 ^ 53) = k / 2 ^ 52 := by ring
      rw [e]
      exact hr _ (isF64_nat hlt 52 (by decide))
    rw [h1]
    have e2 : (k : ℚ) / 2 ^ 52 - 1 = ((k : ℤ) - 2 ^ 52 : ℤ) / 2 ^ 52 := by
      push_cast; ring
    rw [e2]
    apply hr
    apply isF64_dyadic _ _ 52 (by decide)
    rw [abs_lt]
    norm_num at hlt ⊢
    omega
  refine ⟨_, hlt, ?_, heq, ?_, ?_⟩
  · rw [BitVec.toNat_ushiftRight, Nat.shiftRight_eq_div_pow]
  · rw [heq, le_div_iff₀ (by positivity)]
    have : (0 : ℚ) ≤ ((randomU64Plus s).1 >>> 11).toNat := by positivity
    push_cast
    linarith
  · rw [heq, div_lt_one (by positivity)]
    have : ((((randomU64Plus s).1 >>> 11).toNat : ℕ) : ℚ) < 2 ^ 53 := by exact_mod_cast hlt
    push_cast
    linarith

/-- **C42, equally many raw numbers**: each `k < 2^53` is the upper part of exactly 2^11 raw numbers. -/
theorem C42_equally_many {k : Nat} (hk : k < 2 ^ 53) :
    ((Finset.range (2 ^ 64)).filter (fun x => x / 2 ^ 11 = k)).card = 2 ^ 11 := by
  have : (Finset.range (2 ^ 64)).filter (fun x => x / 2 ^ 11 = k) =
      Finset.Ico (k * 2 ^ 11) (k * 2 ^ 11 + 2 ^ 11) := by
    ext x
    simp only [Finset.mem_filter, Finset.mem_range, Finset.mem_Ico]
    omega
  rw [this, Nat.card_Ico]
  omega

/-- Different `k` give different floats, for all three functions. -/
theorem C42_distinct {j k : Nat} (h : j ≠ k) : (j : ℚ) / 2 ^ 53 ≠ k / 2 ^ 53 ∧
    (((j : ℤ) - 2 ^ 52 : ℤ) : ℚ) / 2 ^ 52 ≠ ((k : ℤ) - 2 ^ 52 : ℤ) / 2 ^ 52 := by
  constructor
  · intro he
    rw [div_left_inj' (by positivity)] at he
    exact h (by exact_mod_cast he)
  · intro he
    rw [div_left_inj' (by positivity)] at he
    have : (j : ℤ) - 2 ^ 52 = k - 2 ^ 52 := by exact_mod_cast he
    omega

/-- Non-vacuity: the identity is a rounding function, and 3/4 is representable. -/
example : Rounding id ∧ IsF64 (3 / 4) := ⟨fun _ _ => rfl, by
  have := isF64_dyadic 3 (by norm_num) 2 (by decide)
  norm_num at this
  exact this⟩

end Sp
