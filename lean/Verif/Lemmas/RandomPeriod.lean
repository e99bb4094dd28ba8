import Verif.Props.Random
import Verif.Lemmas.BigPrimes
import Mathlib.Algebra.Group.Hom.End
import Mathlib.Algebra.BigOperators.Group.Finset.Basic
import Mathlib.Algebra.BigOperators.Ring.Finset
import Mathlib.GroupTheory.OrderOfElement
import Mathlib.Data.Nat.Bitwise

/-!
# The state transition of the random generator as a linear map

The states with exclusive or are a group, and the transition is an endomorphism. Polynomials over the field with two elements are numbers, the bits of which are
the coefficients. The computations are done by the kernel, with functions that are written for that purpose.
-/

set_option linter.unusedSectionVars false

namespace Sp
open Finset

/-! ### the group of states -/

instance : Add RandomState := ⟨fun a b => ⟨a.s0 ^^^ b.s0, a.s1 ^^^ b.s1, a.s2 ^^^ b.s2, a.s3 ^^^ b.s3⟩⟩
instance : Zero RandomState := ⟨⟨0, 0, 0, 0⟩⟩
instance : Neg RandomState := ⟨fun a => a⟩

theorem RandomState.add_def (a b : RandomState) : a + b = ⟨a.s0 ^^^ b.s0, a.s1 ^^^ b.s1, a.s2 ^^^ b.s2, a.s3 ^^^ b.s3⟩ := rfl
theorem RandomState.zero_def : (0 : RandomState) = ⟨0, 0, 0, 0⟩ := rfl

theorem RandomState.add_self (a : RandomState) : a + a = 0 := by simp [RandomState.add_def, RandomState.zero_def]

instance : AddCommGroup RandomState where
  add_assoc a b c := by simp [RandomState.add_def, BitVec.xor_assoc]
  zero_add a := by simp [RandomState.add_def, RandomState.zero_def]
  add_zero a := by simp [RandomState.add_def, RandomState.zero_def]
  nsmul := nsmulRec
  zsmul := zsmulRec
  neg_add_cancel a := RandomState.add_self a
  add_comm a b := by simp [RandomState.add_def, BitVec.xor_comm]

theorem rotl_xor (k : Nat) (hk : k ≤ 64) (x y : U64) : rotl (x ^^^ y) k = rotl x k ^^^ rotl y k := by
  unfold rotl
  apply BitVec.eq_of_getLsbD_eq
  intro i hi
  simp only [BitVec.getLsbD_or, BitVec.getLsbD_xor, BitVec.getLsbD_shiftLeft, BitVec.getLsbD_ushiftRight]
  by_cases h : i < k
  · simp [h]
  · rw [BitVec.getLsbD_of_ge x (64 - k + i) (by omega), BitVec.getLsbD_of_ge y (64 - k + i) (by omega)]
    simp [h, hi]

theorem xor_xor_xor (a b c d : U64) : (a ^^^ b) ^^^ (c ^^^ d) = (a ^^^ c) ^^^ (b ^^^ d) := by
  rw [BitVec.xor_assoc, BitVec.xor_assoc, ← BitVec.xor_assoc b c d, BitVec.xor_comm b c, BitVec.xor_assoc c b d]

/-- The transition. -/
def stepEnd : AddMonoid.End RandomState where
  toFun := RandomState.next
  map_zero' := by decide
  map_add' a b := by
    obtain ⟨a0, a1, a2, a3⟩ := a
    obtain ⟨b0, b1, b2, b3⟩ := b
    simp only [RandomState.next, RandomState.add_def, BitVec.shiftLeft_xor_distrib, RandomState.mk.injEq]
    refine ⟨?_, ?_, ?_, ?_⟩
    · rw [xor_xor_xor a3 b3 a1 b1, xor_xor_xor a0 b0]
    · rw [xor_xor_xor a2 b2 a0 b0, xor_xor_xor a1 b1]
    · rw [xor_xor_xor a2 b2 a0 b0, xor_xor_xor (a2 ^^^ a0)]
    · rw [← rotl_xor _ (by decide), xor_xor_xor a3 b3]

theorem stepEnd_apply (s : RandomState) : stepEnd s = s.next := rfl

theorem stepEnd_pow (k : Nat) (s : RandomState) : (stepEnd ^ k) s = RandomState.next^[k] s := by
  induction k generalizing s with
  | zero => rfl
  | succ k ih =>
    rw [pow_succ, Function.iterate_succ_apply]
    exact ih s.next

theorem end_add_self (f : AddMonoid.End RandomState) : f + f = 0 := by
  ext1 s
  exact RandomState.add_self _

theorem end_add_apply (f g : AddMonoid.End RandomState) (s : RandomState) : (f + g) s = f s + g s := rfl

/-! ### polynomials -/

/-- The endomorphism of a polynomial of degree at most 256. -/
def polyEnd (p : Nat) : AddMonoid.End RandomState := ∑ i ∈ range 257, if p.testBit i then stepEnd ^ i else 0

theorem polyEnd_xor (p q : Nat) : polyEnd (p ^^^ q) = polyEnd p + polyEnd q := by
  unfold polyEnd
  rw [← sum_add_distrib]
  refine sum_congr rfl fun i _ => ?_
  rw [Nat.testBit_xor]
  cases p.testBit i <;> cases q.testBit i <;> simp [end_add_self]

theorem polyEnd_one : polyEnd 1 = 1 := by
  unfold polyEnd
  rw [sum_eq_single 0]
  · simp
  · intro i _ hi
    simp [Nat.testBit_one_eq_true_iff_self_eq_zero, hi]
  · simp

theorem polyEnd_zero : polyEnd 0 = 0 := by simp [polyEnd]

theorem polyEnd_double {a : Nat} (ha : a < 2 ^ 256) : polyEnd (2 * a) = stepEnd * polyEnd a := by
  unfold polyEnd
  rw [sum_range_succ', sum_range_succ (n := 256), mul_add, mul_sum]
  have h0 : (2 * a).testBit 0 = false := by simp
  have h1 : a.testBit 256 = false := Nat.testBit_lt_two_pow ha
  rw [h0, h1]
  simp only [Bool.false_eq_true, if_false, add_zero, mul_zero]
  refine sum_congr rfl fun i _ => ?_
  rw [Nat.testBit_succ, Nat.mul_div_cancel_left _ (by decide), mul_ite, mul_zero, ← pow_succ']

/-! ### computing with polynomials -/

/-- A function of a number, with the number evaluated first. -/
def forceNat {α : Type} (x : Nat) (f : Nat → α) : α := Nat.rec (f 0) (fun n _ => f (Nat.succ n)) x

theorem forceNat_eq {α : Type} (x : Nat) (f : Nat → α) : forceNat x f = f x := by cases x <;> rfl

/-- The characteristic polynomial of the transition. -/
def charPoly : Nat := 115798716538066420455068828734077908777090750648323562404903972173143537152001

/-- A polynomial times the variable, modulo the characteristic polynomial. -/
def mulX (a : Nat) : Nat := Nat.xor (Nat.mul 2 a)
  (Nat.mul 115798716538066420455068828734077908777090750648323562404903972173143537152001 (Nat.shiftRight a 255))

/-- The steps of a multiplication of two polynomials. -/
noncomputable def mulLoop (a b n : Nat) : Nat → Nat :=
  Nat.rec (fun acc => acc)
    (fun n ih acc => forceNat (Nat.xor (mulX acc) (Nat.mul a (Nat.mod (Nat.shiftRight b n) 2))) ih) n

/-- The steps of the computation of a power of the variable. -/
noncomputable def powX (e n : Nat) : Nat → Nat :=
  Nat.rec (fun r => r)
    (fun n ih r => forceNat (mulLoop r r 256 0) fun r2 =>
      forceNat (Nat.xor (Nat.mul (Nat.mod (Nat.shiftRight e n) 2) (mulX r2)) (Nat.mul (Nat.sub 1 (Nat.mod (Nat.shiftRight e n) 2)) r2)) ih) n

theorem mod_two_eq (b n : Nat) : Nat.mod (Nat.shiftRight b n) 2 = if b.testBit n then 1 else 0 := by
  show (b >>> n) % 2 = _
  rw [Nat.testBit_eq_decide_div_mod_eq, Nat.shiftRight_eq_div_pow]
  rcases Nat.mod_two_eq_zero_or_one (b / 2 ^ n) with h | h <;> simp [h]

theorem mulX_small {a : Nat} (ha : a < 2 ^ 255) : mulX a = 2 * a := by
  show (2 * a) ^^^ (_ * (a >>> 255)) = _
  rw [Nat.shiftRight_eq_div_pow, Nat.div_eq_of_lt ha, Nat.mul_zero, Nat.xor_zero]

theorem mulX_large {a : Nat} (h : 2 ^ 255 ≤ a) (ha : a < 2 ^ 256) : mulX a = (2 * a) ^^^ charPoly := by
  show (2 * a) ^^^ (charPoly * (a >>> 255)) = _
  have : a / 2 ^ 255 = 1 := by omega
  rw [Nat.shiftRight_eq_div_pow, this, Nat.mul_one]

theorem mulX_lt {a : Nat} (ha : a < 2 ^ 256) : mulX a < 2 ^ 256 := by
  by_cases h : a < 2 ^ 255
  · rw [mulX_small h]
    omega
  · rw [mulX_large (by omega) ha]
    apply Nat.lt_pow_two_of_testBit
    intro i hi
    rw [Nat.testBit_xor]
    by_cases h2 : i = 256
    · subst h2
      have e1 : charPoly.testBit 256 = true := by decide +kernel
      have e2 : (2 * a).testBit 256 = true := by
        rw [Nat.testBit_eq_decide_div_mod_eq]
        have : 2 * a / 2 ^ 256 % 2 = 1 := by omega
        rw [this]
        rfl
      rw [e1, e2]
      rfl
    · have hp : 2 ^ 257 ≤ 2 ^ i := Nat.pow_le_pow_right (by decide) (by omega)
      have hc : charPoly < 2 ^ 257 := by decide +kernel
      rw [Nat.testBit_lt_two_pow (x := 2 * a) (by omega), Nat.testBit_lt_two_pow (x := charPoly) (by omega)]
      rfl

theorem polyEnd_mulX (hP : polyEnd charPoly = 0) {a : Nat} (ha : a < 2 ^ 256) : polyEnd (mulX a) = stepEnd * polyEnd a := by
  by_cases h : a < 2 ^ 255
  · rw [mulX_small h, polyEnd_double ha]
  · rw [mulX_large (by omega) ha, polyEnd_xor, hP, add_zero, polyEnd_double ha]

/-- The lower part of a polynomial. -/
def lowEnd (n p : Nat) : AddMonoid.End RandomState := ∑ i ∈ range n, if p.testBit i then stepEnd ^ i else 0

theorem lowEnd_eq {p : Nat} (hp : p < 2 ^ 256) : lowEnd 256 p = polyEnd p := by
  unfold lowEnd polyEnd
  rw [sum_range_succ (n := 256), Nat.testBit_lt_two_pow hp]
  simp

theorem mulLoop_succ (a b n acc : Nat) : mulLoop a b (n + 1) acc = mulLoop a b n (mulX acc ^^^ (a * if b.testBit n then 1 else 0)) := by
  rw [← mod_two_eq]
  exact forceNat_eq _ _

theorem mulLoop_spec (hP : polyEnd charPoly = 0) {a b : Nat} (ha : a < 2 ^ 256) (n : Nat) {acc : Nat} (hacc : acc < 2 ^ 256) :
    mulLoop a b n acc < 2 ^ 256 ∧ polyEnd (mulLoop a b n acc) = stepEnd ^ n * polyEnd acc + lowEnd n b * polyEnd a := by
  induction n generalizing acc with
  | zero =>
    refine ⟨hacc, ?_⟩
    simp only [lowEnd, range_zero, sum_empty, zero_mul, add_zero, pow_zero, one_mul]
    rfl
  | succ n ih =>
    rw [mulLoop_succ]
    have hx := mulX_lt hacc
    have hlt : mulX acc ^^^ (a * if b.testBit n then 1 else 0) < 2 ^ 256 := by
      apply Nat.xor_lt_two_pow hx
      split
      · rw [Nat.mul_one]
        exact ha
      · rw [Nat.mul_zero]
        exact Nat.two_pow_pos 256
    obtain ⟨h1, h2⟩ := ih hlt
    refine ⟨h1, ?_⟩
    rw [h2, polyEnd_xor, polyEnd_mulX hP hacc, lowEnd, lowEnd, sum_range_succ, mul_add, ← mul_assoc, ← pow_succ, add_mul, add_assoc]
    congr 1
    rw [add_comm]
    congr 1
    split
    · rw [Nat.mul_one]
    · rw [Nat.mul_zero, polyEnd_zero, mul_zero, zero_mul]

theorem powX_succ (e n r : Nat) : powX e (n + 1) r =
    powX e n (if e.testBit n then mulX (mulLoop r r 256 0) else mulLoop r r 256 0) := by
  have h : powX e (n + 1) r = forceNat (mulLoop r r 256 0) fun r2 =>
      forceNat (Nat.xor (Nat.mul (Nat.mod (Nat.shiftRight e n) 2) (mulX r2)) (Nat.mul (Nat.sub 1 (Nat.mod (Nat.shiftRight e n) 2)) r2)) (powX e n) := rfl
  rw [h, forceNat_eq, forceNat_eq, mod_two_eq]
  congr 1
  cases e.testBit n
  · show Nat.xor (0 * _) (1 * _) = _
    rw [Nat.zero_mul, Nat.one_mul]
    exact Nat.zero_xor _
  · show Nat.xor (1 * _) (0 * _) = _
    rw [Nat.zero_mul, Nat.one_mul]
    exact Nat.xor_zero _

theorem powX_spec (hP : polyEnd charPoly = 0) (e n : Nat) {r k : Nat} (hr : r < 2 ^ 256) (hk : polyEnd r = stepEnd ^ k) :
    powX e n r < 2 ^ 256 ∧ polyEnd (powX e n r) = stepEnd ^ (k * 2 ^ n + e % 2 ^ n) := by
  induction n generalizing r k with
  | zero =>
    refine ⟨hr, ?_⟩
    rw [Nat.pow_zero, Nat.mod_one, Nat.mul_one, Nat.add_zero]
    exact hk
  | succ n ih =>
    rw [powX_succ]
    obtain ⟨h1, h2⟩ := mulLoop_spec hP (b := r) hr 256 (acc := 0) (by decide)
    rw [polyEnd_zero, mul_zero, zero_add, lowEnd_eq hr, hk, ← pow_add] at h2
    have hmod : e % 2 ^ (n + 1) = e % 2 ^ n + 2 ^ n * (if e.testBit n then 1 else 0) := by
      rw [Nat.mod_pow_succ, ← mod_two_eq]
      show _ = _ + 2 ^ n * ((e >>> n) % 2)
      rw [Nat.shiftRight_eq_div_pow]
    by_cases hb : e.testBit n = true
    · rw [if_pos hb]
      obtain ⟨h3, h4⟩ := ih (k := k + k + 1) (mulX_lt h1) (by rw [polyEnd_mulX hP h1, h2, ← pow_succ'])
      refine ⟨h3, ?_⟩
      rw [h4, hmod, if_pos hb]
      congr 1
      ring
    · rw [if_neg hb]
      obtain ⟨h3, h4⟩ := ih (k := k + k) h1 h2
      refine ⟨h3, ?_⟩
      rw [h4, hmod, if_neg hb]
      congr 1
      ring

/-! ### evaluating polynomials -/

/-- Whether a polynomial of the transition gives zero for a state, given as four numbers. -/
noncomputable def hornerN (p sa sb sc sd n : Nat) : Nat → Nat → Nat → Nat → Bool :=
  Nat.rec (fun a b c d => Nat.beq (Nat.lor (Nat.lor a b) (Nat.lor c d)) 0)
    (fun n ih a b c d => forceNat (Nat.mod (Nat.shiftRight p n) 2) fun t =>
      forceNat (Nat.xor (Nat.xor a (Nat.xor d b)) (Nat.mul t sa)) fun a' =>
      forceNat (Nat.xor (Nat.xor b (Nat.xor c a)) (Nat.mul t sb)) fun b' =>
      forceNat (Nat.xor (Nat.xor (Nat.xor c a) (Nat.mod (Nat.shiftLeft b 17) 18446744073709551616)) (Nat.mul t sc)) fun c' =>
      forceNat (Nat.xor (Nat.lor (Nat.mod (Nat.shiftLeft (Nat.xor d b) 45) 18446744073709551616) (Nat.shiftRight (Nat.xor d b) 19)) (Nat.mul t sd)) fun d' =>
      ih a' b' c' d') n

theorem hornerN_succ (p sa sb sc sd n a b c d : Nat) : hornerN p sa sb sc sd (n + 1) a b c d =
    hornerN p sa sb sc sd n ((a ^^^ (d ^^^ b)) ^^^ ((if p.testBit n then 1 else 0) * sa))
      ((b ^^^ (c ^^^ a)) ^^^ ((if p.testBit n then 1 else 0) * sb))
      (((c ^^^ a) ^^^ (b <<< 17 % 18446744073709551616)) ^^^ ((if p.testBit n then 1 else 0) * sc))
      ((((d ^^^ b) <<< 45 % 18446744073709551616) ||| ((d ^^^ b) >>> 19)) ^^^ ((if p.testBit n then 1 else 0) * sd)) := by
  have h : hornerN p sa sb sc sd (n + 1) a b c d = (forceNat (Nat.mod (Nat.shiftRight p n) 2) fun t =>
      forceNat (Nat.xor (Nat.xor a (Nat.xor d b)) (Nat.mul t sa)) fun a' =>
      forceNat (Nat.xor (Nat.xor b (Nat.xor c a)) (Nat.mul t sb)) fun b' =>
      forceNat (Nat.xor (Nat.xor (Nat.xor c a) (Nat.mod (Nat.shiftLeft b 17) 18446744073709551616)) (Nat.mul t sc)) fun c' =>
      forceNat (Nat.xor (Nat.lor (Nat.mod (Nat.shiftLeft (Nat.xor d b) 45) 18446744073709551616) (Nat.shiftRight (Nat.xor d b) 19)) (Nat.mul t sd)) fun d' =>
      hornerN p sa sb sc sd n a' b' c' d') := rfl
  rw [h, forceNat_eq, forceNat_eq, forceNat_eq, forceNat_eq, forceNat_eq, mod_two_eq]
  rfl

theorem hornerN_spec (p : Nat) (s : RandomState) (n : Nat) (acc : RandomState) :
    hornerN p s.s0.toNat s.s1.toNat s.s2.toNat s.s3.toNat n acc.s0.toNat acc.s1.toNat acc.s2.toNat acc.s3.toNat =
      decide ((stepEnd ^ n) acc + lowEnd n p s = 0) := by
  induction n generalizing acc with
  | zero =>
    show Nat.beq ((acc.s0.toNat ||| acc.s1.toNat) ||| (acc.s2.toNat ||| acc.s3.toNat)) 0 = _
    have h : (stepEnd ^ 0) acc + lowEnd 0 p s = acc := by
      simp [lowEnd]
    rw [h, Bool.eq_iff_iff, Nat.beq_eq, decide_eq_true_iff]
    obtain ⟨a, b, c, d⟩ := acc
    simp only [Nat.or_eq_zero_iff, RandomState.zero_def, RandomState.mk.injEq, BitVec.toNat_eq, BitVec.toNat_ofNat, Nat.zero_mod]
    tauto
  | succ n ih =>
    have hstep : (stepEnd ^ (n + 1)) acc + lowEnd (n + 1) p s =
        (stepEnd ^ n) (acc.next + if p.testBit n then s else 0) + lowEnd n p s := by
      rw [pow_succ, map_add]
      show (stepEnd ^ n) acc.next + _ = _
      rw [lowEnd, lowEnd, sum_range_succ, end_add_apply, add_assoc]
      congr 1
      rw [add_comm]
      congr 1
      cases p.testBit n <;> simp
    rw [hstep, ← ih]
    rw [hornerN_succ]
    obtain ⟨a, b, c, d⟩ := acc
    cases p.testBit n
    · simp [RandomState.next, rotl, BitVec.toNat_shiftLeft]
    · simp [RandomState.next, rotl, RandomState.add_def, BitVec.toNat_shiftLeft]

/-! ### all states from states with one bit -/

/-- A state with one word. -/
def wordState (w m : Nat) : RandomState :=
  ⟨if w = 0 then BitVec.ofNat 64 m else 0, if w = 1 then BitVec.ofNat 64 m else 0, if w = 2 then BitVec.ofNat 64 m else 0,
    if w = 3 then BitVec.ofNat 64 m else 0⟩

theorem ofNat_xor (a b : Nat) : BitVec.ofNat 64 (a ^^^ b) = BitVec.ofNat 64 a ^^^ BitVec.ofNat 64 b := by
  apply BitVec.eq_of_getLsbD_eq
  intro i hi
  simp [BitVec.getLsbD_xor, BitVec.getLsbD_ofNat, hi, Nat.testBit_xor]

theorem wordState_xor (w a b : Nat) : wordState w (a ^^^ b) = wordState w a + wordState w b := by
  simp only [wordState, RandomState.add_def, RandomState.mk.injEq, ofNat_xor]
  refine ⟨?_, ?_, ?_, ?_⟩ <;> split <;> simp

theorem wordState_zero (w : Nat) : wordState w 0 = 0 := by
  simp [wordState, RandomState.zero_def]

theorem end_word_zero (f : AddMonoid.End RandomState) (w : Nat) (h : ∀ i < 64, f (wordState w (2 ^ i)) = 0) (n : Nat) (hn : n ≤ 64) (m : Nat)
    (hm : m < 2 ^ n) : f (wordState w m) = 0 := by
  induction n generalizing m with
  | zero =>
    obtain rfl : m = 0 := by simpa using hm
    rw [wordState_zero, map_zero]
  | succ n ih =>
    by_cases hb : m.testBit n = true
    · have hlt : m ^^^ 2 ^ n < 2 ^ n := by
        apply Nat.lt_pow_two_of_testBit
        intro i hi
        rw [Nat.testBit_xor, Nat.testBit_two_pow]
        by_cases hi2 : n = i
        · subst hi2
          simp [hb]
        · rw [Nat.testBit_lt_two_pow (lt_of_lt_of_le hm (Nat.pow_le_pow_right (by decide) (by omega)))]
          simp [hi2]
      have he : m = (m ^^^ 2 ^ n) ^^^ 2 ^ n := by rw [Nat.xor_assoc, Nat.xor_self, Nat.xor_zero]
      rw [he, wordState_xor, map_add, ih (by omega) _ hlt, h n (by omega), add_zero]
    · refine ih (by omega) m (Nat.lt_pow_two_of_testBit _ ?_)
      intro i hi
      by_cases hi2 : n = i
      · subst hi2
        simpa using hb
      · exact Nat.testBit_lt_two_pow (lt_of_lt_of_le hm (Nat.pow_le_pow_right (by decide) (by omega)))

theorem state_eq_words (s : RandomState) :
    s = wordState 0 s.s0.toNat + wordState 1 s.s1.toNat + wordState 2 s.s2.toNat + wordState 3 s.s3.toNat := by
  obtain ⟨a, b, c, d⟩ := s
  simp [wordState, RandomState.add_def]

theorem end_zero (f : AddMonoid.End RandomState) (h : ∀ w < 4, ∀ i < 64, f (wordState w (2 ^ i)) = 0) : f = 0 := by
  ext1 s
  rw [state_eq_words s, map_add, map_add, map_add, end_word_zero f 0 (h 0 (by decide)) 64 (by decide) _ s.s0.isLt,
    end_word_zero f 1 (h 1 (by decide)) 64 (by decide) _ s.s1.isLt, end_word_zero f 2 (h 2 (by decide)) 64 (by decide) _ s.s2.isLt,
    end_word_zero f 3 (h 3 (by decide)) 64 (by decide) _ s.s3.isLt]
  simp

/-- The polynomial gives zero for all states with one bit, of the first bits of each word. -/
noncomputable def basisZero (p n : Nat) : Bool :=
  Nat.rec true (fun i ih => forceNat (Nat.pow 2 i) fun x =>
    (hornerN p x 0 0 0 257 0 0 0 0 && hornerN p 0 x 0 0 257 0 0 0 0) && ((hornerN p 0 0 x 0 257 0 0 0 0 && hornerN p 0 0 0 x 257 0 0 0 0) && ih)) n

theorem hornerN_zero {p : Nat} {s : RandomState} {a b c d : Nat} (ha : s.s0.toNat = a) (hb : s.s1.toNat = b) (hc : s.s2.toNat = c) (hd : s.s3.toNat = d) :
    hornerN p a b c d 257 0 0 0 0 = decide (polyEnd p s = 0) := by
  have := hornerN_spec p s 257 0
  rw [ha, hb, hc, hd, map_zero, zero_add] at this
  exact this

theorem basisZero_spec (p n : Nat) (hn : n ≤ 64) (h : basisZero p n = true) : ∀ w < 4, ∀ i < n, polyEnd p (wordState w (2 ^ i)) = 0 := by
  induction n with
  | zero => intro w _ i hi; omega
  | succ n ih =>
    have hs : basisZero p (n + 1) = forceNat (Nat.pow 2 n) fun x =>
      (hornerN p x 0 0 0 257 0 0 0 0 && hornerN p 0 x 0 0 257 0 0 0 0) &&
        ((hornerN p 0 0 x 0 257 0 0 0 0 && hornerN p 0 0 0 x 257 0 0 0 0) && basisZero p n) := rfl
    rw [hs, forceNat_eq] at h
    simp only [Bool.and_eq_true, Nat.pow_eq] at h
    obtain ⟨⟨h0, h1⟩, ⟨h2, h3⟩, h4⟩ := h
    have hlt : 2 ^ n % 18446744073709551616 = 2 ^ n := Nat.mod_eq_of_lt (lt_of_lt_of_le (Nat.pow_lt_pow_right (by decide) (show n < 64 by omega)) (by decide))
    have e0 := hornerN_zero (p := p) (s := wordState 0 (2 ^ n)) (a := 2 ^ n) (b := 0) (c := 0) (d := 0) (by simp [wordState, hlt]) (by simp [wordState])
      (by simp [wordState]) (by simp [wordState])
    have e1 := hornerN_zero (p := p) (s := wordState 1 (2 ^ n)) (a := 0) (b := 2 ^ n) (c := 0) (d := 0) (by simp [wordState]) (by simp [wordState, hlt])
      (by simp [wordState]) (by simp [wordState])
    have e2 := hornerN_zero (p := p) (s := wordState 2 (2 ^ n)) (a := 0) (b := 0) (c := 2 ^ n) (d := 0) (by simp [wordState]) (by simp [wordState])
      (by simp [wordState, hlt]) (by simp [wordState])
    have e3 := hornerN_zero (p := p) (s := wordState 3 (2 ^ n)) (a := 0) (b := 0) (c := 0) (d := 2 ^ n) (by simp [wordState]) (by simp [wordState])
      (by simp [wordState]) (by simp [wordState, hlt])
    rw [h0] at e0
    rw [h1] at e1
    rw [h2] at e2
    rw [h3] at e3
    intro w hw i hi
    by_cases hin : i < n
    · exact ih (by omega) h4 w hw i hin
    · obtain rfl : i = n := by omega
      obtain rfl | rfl | rfl | rfl : w = 0 ∨ w = 1 ∨ w = 2 ∨ w = 3 := by omega
      · exact of_decide_eq_true e0.symm
      · exact of_decide_eq_true e1.symm
      · exact of_decide_eq_true e2.symm
      · exact of_decide_eq_true e3.symm

/-! ### the computations -/

theorem basisZero_charPoly : basisZero charPoly 64 = true := by decide +kernel

/-- The transition is a root of its characteristic polynomial. -/
theorem polyEnd_charPoly : polyEnd charPoly = 0 :=
  end_zero _ (basisZero_spec charPoly 64 (by decide) basisZero_charPoly)

theorem powX_period : powX 115792089237316195423570985008687907853269984665640564039457584007913129639935 256 1 = 1 := by decide +kernel

/-- Whether the power of the transition with the given exponent moves the state 1 0 0 0. -/
noncomputable def powMoves (e : Nat) : Bool := forceNat (powX e 256 1) fun r => forceNat (Nat.xor r 1) fun r => hornerN r 1 0 0 0 257 0 0 0 0

theorem powMoves_3 : powMoves 38597363079105398474523661669562635951089994888546854679819194669304376546645 = false := by decide +kernel
theorem powMoves_5 : powMoves 23158417847463239084714197001737581570653996933128112807891516801582625927987 = false := by decide +kernel
theorem powMoves_17 : powMoves 6811299366900952671974763824040465167839410862684739061144563765171360567055 = false := by decide +kernel
theorem powMoves_257 : powMoves 450552876409790643671482431940419874915447411150352389258589821042463539455 = false := by decide +kernel
theorem powMoves_641 : powMoves 180642884925610289272341630278764286822574079041560942339247400948382417535 = false := by decide +kernel
theorem powMoves_65537 : powMoves 1766820105243087041267848467410591083712559083657179364930612997358944255 = false := by decide +kernel
theorem powMoves_274177 : powMoves 422326049367073807881663979869529201403728192611490256438204459192102655 = false := by decide +kernel
theorem powMoves_6700417 : powMoves 17281325809619937896935516850471830014948321076977830490170624307101055 = false := by decide +kernel
theorem powMoves_67280421310721 : powMoves 1721036922503113971692907638171526209875755521904893141463060735 = false := by decide +kernel
theorem powMoves_59649589127497217 : powMoves 1941205143757452242770874767385119893385096602219740994029055 = false := by decide +kernel
theorem powMoves_5704689200685129054721 : powMoves 20297703374166229616474325006177763232573806344580020735 = false := by decide +kernel

end Sp
