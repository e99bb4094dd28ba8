import Verif.Props.Random
import Verif.Spec.Random

/-! # C181: the random number generator is the published one, and seeds give different states -/

set_option linter.unusedSectionVars false

namespace Sp

/-- The words of a state as natural numbers. -/
def RandomState.words (s : RandomState) : Fin 4 → ℕ := ![s.s0.toNat, s.s1.toNat, s.s2.toNat, s.s3.toNat]

private theorem xorShift_toNat (z : U64) (k : Nat) : (z ^^^ (z >>> k)).toNat = xorShiftRight z.toNat k := by
  rw [BitVec.toNat_xor, BitVec.toNat_ushiftRight, Nat.shiftRight_eq_div_pow, xorShiftRight]

private theorem splitmix_eq (x : U64) : splitmix x =
    ((((x ^^^ (x >>> 30)) * 13787848793156543929#64) ^^^ (((x ^^^ (x >>> 30)) * 13787848793156543929#64) >>> 27)) * 10723151780598845931#64) ^^^
      (((((x ^^^ (x >>> 30)) * 13787848793156543929#64) ^^^ (((x ^^^ (x >>> 30)) * 13787848793156543929#64) >>> 27)) * 10723151780598845931#64) >>> 31) := rfl

private theorem splitmix_toNat (x : U64) : (splitmix x).toNat = splitmix64Mix x.toNat := by
  have h1 : (13787848793156543929#64).toNat = 0xbf58476d1ce4e5b9 := by rw [BitVec.toNat_ofNat]
  have h2 : (10723151780598845931#64).toNat = 0x94d049bb133111eb := by rw [BitVec.toNat_ofNat]
  rw [splitmix_eq, xorShift_toNat, BitVec.toNat_mul, xorShift_toNat, BitVec.toNat_mul, xorShift_toNat, h1, h2, splitmix64Mix]

private theorem rotl_toNat (x : U64) {k : Nat} (hk : k ≤ 64) : (rotl x k).toNat = rotateLeft64 x.toNat k := by
  simp only [rotl, rotateLeft64, BitVec.toNat_or, BitVec.toNat_shiftLeft, BitVec.toNat_ushiftRight, Nat.shiftRight_eq_div_pow, Nat.shiftLeft_eq]
  have e : (2 : ℕ) ^ 64 = 2 ^ k * 2 ^ (64 - k) := by rw [← pow_add, Nat.add_sub_cancel' hk]
  have h : x.toNat / 2 ^ (64 - k) < 2 ^ k := by
    rw [Nat.div_lt_iff_lt_mul (by positivity), ← e]
    exact x.isLt
  rw [e, mul_comm x.toNat, Nat.mul_mod_mul_left, Nat.two_pow_add_eq_or_of_lt h]

private theorem seeds (seed : U64) : randomStateNew seed =
    ⟨splitmix (seed + 1 * seedStep), splitmix (seed + 2 * seedStep), splitmix (seed + 3 * seedStep), splitmix (seed + 4 * seedStep)⟩ := by
  have f2 : seedStep + seedStep = 2 * seedStep := by decide
  have f3 : 2 * seedStep + seedStep = 3 * seedStep := by decide
  have f4 : 3 * seedStep + seedStep = 4 * seedStep := by decide
  have f1 : 1 * seedStep = seedStep := by decide
  simp only [randomStateNew]
  rw [BitVec.add_assoc seed, f2, BitVec.add_assoc seed, f3, BitVec.add_assoc seed, f4, f1]

private theorem step_toNat (seed : U64) (p : U64) : (splitmix (seed + p * seedStep)).toNat =
    splitmix64Mix ((seed.toNat + p.toNat * 0x9e3779b97f4a7c15) % 2 ^ 64) := by
  have h : seedStep.toNat = 0x9e3779b97f4a7c15 := by decide
  rw [splitmix_toNat, BitVec.toNat_add, BitVec.toNat_mul, h, Nat.add_mod_mod]

theorem words_next (s : RandomState) : s.next.words = xoshiroNext s.words := by
  funext i
  match i with
  | 0 => simp only [RandomState.next, RandomState.words, xoshiroNext, Matrix.cons_val, BitVec.toNat_xor]
  | 1 => simp only [RandomState.next, RandomState.words, xoshiroNext, Matrix.cons_val, BitVec.toNat_xor]
  | 2 => simp only [RandomState.next, RandomState.words, xoshiroNext, Matrix.cons_val, BitVec.toNat_xor, BitVec.toNat_shiftLeft, Nat.shiftLeft_eq]
  | 3 =>
    have := rotl_toNat (s.s3 ^^^ s.s1) (k := 45) (by decide)
    simp only [RandomState.next, RandomState.words, xoshiroNext, Matrix.cons_val]
    rw [this, BitVec.toNat_xor]

private def stepFactor : Fin 4 → U64 := ![1, 2, 3, 4]

private theorem words_new (seed : U64) (i : Fin 4) : (randomStateNew seed).words i = (splitmix (seed + stepFactor i * seedStep)).toNat := by
  have key : ∀ a b c d : U64, ∀ f : Fin 4 → U64, f 0 = a → f 1 = b → f 2 = c → f 3 = d → RandomState.words ⟨a, b, c, d⟩ i = (f i).toNat := by
    intro a b c d f ha hb hc hd
    subst ha hb hc hd
    match i with
    | 0 => rfl
    | 1 => rfl
    | 2 => rfl
    | 3 => rfl
  have e0 : stepFactor 0 = 1 := rfl
  have e1 : stepFactor 1 = 2 := rfl
  have e2 : stepFactor 2 = 3 := rfl
  have e3 : stepFactor 3 = 4 := rfl
  rw [seeds]
  exact key _ _ _ _ (fun i => splitmix (seed + stepFactor i * seedStep)) (by rw [e0]) (by rw [e1]) (by rw [e2]) (by rw [e3])

/-- **C181, seeding.** The words of the state made from a seed are the first four numbers of splitmix64. -/
theorem C181_seed (seed : U64) : (randomStateNew seed).words = fun i : Fin 4 => splitmix64 seed.toNat i := by
  have h : ∀ i : Fin 4, (stepFactor i).toNat = i + 1 := by decide
  funext i
  rw [words_new, step_toNat, h, splitmix64]

/-- **C181, seeding of the library**: `sp_random_state_new` takes the lower 32 bits of the seed and drops two numbers. -/
theorem C181_seed_sp (seed : Nat) (hs : seed < 4294967296) :
    (spRandomStateNew seed).words = xoshiroNext (xoshiroNext fun i : Fin 4 => splitmix64 seed i) := by
  have e : (BitVec.ofNat 64 (u32 seed)).toNat = seed := by
    rw [u32_of_lt hs, BitVec.toNat_ofNat, Nat.mod_eq_of_lt (by omega)]
  have h := C181_seed (BitVec.ofNat 64 (u32 seed))
  rw [e] at h
  rw [← h, ← words_next, ← words_next]
  rfl

/-- **C181, numbers.** The numbers and the states after them are those of xoshiro256**. -/
theorem C181_numbers (s : RandomState) : (randomU64 s).1.toNat = xoshiroNumber s.words ∧ (randomU64 s).2.words = xoshiroNext s.words := by
  refine ⟨?_, words_next s⟩
  have h9 : (9 : U64).toNat = 9 := by decide
  have h5 : (5 : U64).toNat = 5 := by decide
  simp only [randomU64, xoshiroNumber, RandomState.words, Matrix.cons_val]
  rw [BitVec.toNat_mul, rotl_toNat _ (by decide), BitVec.toNat_mul, h9, h5, Nat.mul_comm 9, Nat.mul_comm 5]

/-- **C181, different seeds give different states** at every later time. -/
theorem C181_different {a b : U64} (n : Nat) (hab : a ≠ b) : RandomState.next^[n] (randomStateNew a) ≠ RandomState.next^[n] (randomStateNew b) := by
  intro h
  have := next_injective.iterate n h
  rw [seeds, seeds] at this
  have h0 := splitmix_injective (RandomState.mk.inj this).1
  exact hab ((BitVec.add_left_inj _).1 h0)

/-- The same for `sp_random_state_new`, whose seeds have 32 bits. -/
theorem C181_different_sp {a b : Nat} (n : Nat) (ha : a < 4294967296) (hb : b < 4294967296) (hab : a ≠ b) :
    RandomState.next^[n] (spRandomStateNew a) ≠ RandomState.next^[n] (spRandomStateNew b) := by
  intro h
  refine C181_different (a := BitVec.ofNat 64 (u32 a)) (b := BitVec.ofNat 64 (u32 b)) (n + 2) (fun e => hab ?_) ?_
  · rw [u32_of_lt ha, u32_of_lt hb] at e
    have := congrArg BitVec.toNat e
    rw [BitVec.toNat_ofNat, BitVec.toNat_ofNat, Nat.mod_eq_of_lt (by omega), Nat.mod_eq_of_lt (by omega)] at this
    exact this
  · rw [Function.iterate_add_apply, Function.iterate_add_apply]
    exact h

/-- **C181, words differ.** The words of the state made from a seed differ from each other, so that at most one of them is zero. -/
theorem C181_words_differ (seed : U64) : Function.Injective (randomStateNew seed).words := by
  intro i j h
  have hd : ∀ i j : Fin 4, stepFactor i * seedStep = stepFactor j * seedStep → i = j := by decide
  rw [words_new, words_new] at h
  exact hd i j ((BitVec.add_right_inj _).1 (splitmix_injective (BitVec.eq_of_toNat_eq h)))

/-- **C181, every word comes from a seed**: for each word of the state and each 64 bit number there is exactly one seed that makes this word. -/
theorem C181_word_from_seed (i : Fin 4) (w : U64) : ∃! seed : U64, (randomStateNew seed).words i = w.toNat := by
  have hw := fun seed => words_new seed i
  have hinj : Function.Injective fun seed : U64 => splitmix (seed + stepFactor i * seedStep) := fun a b h => (BitVec.add_left_inj _).1 (splitmix_injective h)
  have : Finite U64 := Finite.of_injective (fun a : U64 => a.toFin) fun a b h => by
    exact BitVec.eq_of_toFin_eq h
  obtain ⟨seed, hs⟩ := (Finite.injective_iff_surjective.1 hinj) w
  simp only at hs
  refine ⟨seed, by simp only [hw, hs], fun t ht => hinj ?_⟩
  simp only
  rw [hs]
  simp only [hw] at ht
  exact BitVec.eq_of_toNat_eq ht

/-- Non-vacuity: the published numbers for the seed 1234567. -/
example : (randomStateNew 1234567).words = ![6457827717110365317, 3203168211198807973, 9817491932198370423, 4593380528125082431] := by
  decide +kernel

/-- Non-vacuity: the first numbers of xoshiro256** in the state 1, 2, 3, 4. -/
example : (randomU64 ⟨1, 2, 3, 4⟩).1 = 11520 ∧ (randomU64 (randomU64 ⟨1, 2, 3, 4⟩).2).1 = 0 ∧
    (randomU64 (randomU64 (randomU64 ⟨1, 2, 3, 4⟩).2).2).1 = 1509978240 := by decide +kernel

end Sp
