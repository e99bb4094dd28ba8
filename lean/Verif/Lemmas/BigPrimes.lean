import Mathlib.NumberTheory.LucasPrimality
import Mathlib.Data.List.Prime
import Mathlib.Tactic.NormNum.Prime
import Mathlib.Tactic.NormNum.PowMod
import Mathlib.Tactic.NormNum.DivMod

/-!
# The prime factors of 2^256 - 1
-/

namespace Sp

theorem prime_mem_of_dvd_prod {q n : Nat} (hq : q.Prime) (l : List Nat) (hl : ∀ x ∈ l, x.Prime) (hn : n = l.prod) (h : q ∣ n) : q ∈ l :=
  mem_list_primes_of_dvd_prod hq.prime (fun x hx => (hl x hx).prime) (hn ▸ h)

/-- `a ^ e % m` for `e` of at most the given number of bits. -/
def powMod (a m : Nat) : Nat → Nat → Nat
  | 0, _ => 1 % m
  | n + 1, e =>
    let r := powMod a m n (e / 2)
    if e % 2 = 1 then r * r % m * a % m else r * r % m

theorem powMod_eq (a m n e : Nat) (h : e < 2 ^ n) : powMod a m n e = a ^ e % m := by
  induction n generalizing e with
  | zero =>
    obtain rfl : e = 0 := by simpa using h
    simp [powMod]
  | succ n ih =>
    have hs : 2 ^ (n + 1) = 2 ^ n * 2 := Nat.pow_succ ..
    have h2 := ih (e / 2) (by omega)
    have he : a ^ (e / 2) * a ^ (e / 2) = a ^ (2 * (e / 2)) := by rw [← Nat.pow_add, Nat.two_mul]
    simp only [powMod, h2]
    rw [← Nat.mul_mod, he]
    split
    · next h1 =>
      rw [Nat.mod_mul_mod, ← Nat.pow_succ]
      congr 2
      omega
    · next h1 =>
      congr 2
      omega

theorem prime_of_lucas (p a : Nat) (l : List Nat) (hp : 1 < p) (hp2 : p < 2 ^ 80) (hl : ∀ x ∈ l, x.Prime) (hprod : p - 1 = l.prod)
    (h1' : powMod a p 80 (p - 1) = 1) (h2' : ∀ q ∈ l, powMod a p 80 ((p - 1) / q) ≠ 1) : p.Prime := by
  have h1 : a ^ (p - 1) % p = 1 := by rw [← powMod_eq a p 80 _ (by omega)]; exact h1'
  have h2 : ∀ q ∈ l, a ^ ((p - 1) / q) % p ≠ 1 := by
    intro q hq
    rw [← powMod_eq a p 80 _ (lt_of_le_of_lt (Nat.div_le_self _ _) (by omega))]
    exact h2' q hq
  have cast : ∀ e, ((a : ZMod p) ^ e = 1) ↔ a ^ e % p = 1 := by
    intro e
    have := ZMod.natCast_eq_natCast_iff (a ^ e) 1 p
    rw [Nat.cast_pow, Nat.cast_one] at this
    rw [this, Nat.ModEq, Nat.mod_eq_of_lt hp]
  refine lucas_primality p (a : ZMod p) ((cast _).2 h1) ?_
  intro q hq hd he
  exact h2 q (prime_mem_of_dvd_prod hq l hl hprod hd) ((cast _).1 he)

theorem prime_67280421310721 : Nat.Prime 67280421310721 := by
  apply prime_of_lucas _ 3 [2, 2, 2, 2, 2, 2, 2, 2, 5, 47, 373, 2998279]
  · norm_num
  · norm_num
  · simp only [List.forall_mem_cons, List.not_mem_nil, false_imp_iff, implies_true, and_true]
    norm_num
  · norm_num
  · decide +kernel
  · decide +kernel
theorem prime_18533742247 : Nat.Prime 18533742247 := by
  apply prime_of_lucas _ 6 [2, 3, 3, 3, 181, 1896229]
  · norm_num
  · norm_num
  · simp only [List.forall_mem_cons, List.not_mem_nil, false_imp_iff, implies_true, and_true]
    norm_num
  · norm_num
  · decide +kernel
  · decide +kernel
theorem prime_116503103764643 : Nat.Prime 116503103764643 := by
  apply prime_of_lucas _ 2 [2, 7, 449, 18533742247]
  · norm_num
  · norm_num
  · simp only [List.forall_mem_cons, List.not_mem_nil, false_imp_iff, implies_true, and_true]
    exact ⟨by norm_num, by norm_num, by norm_num, prime_18533742247⟩
  · norm_num
  · decide +kernel
  · decide +kernel
theorem prime_59649589127497217 : Nat.Prime 59649589127497217 := by
  apply prime_of_lucas _ 3 [2, 2, 2, 2, 2, 2, 2, 2, 2, 116503103764643]
  · norm_num
  · norm_num
  · simp only [List.forall_mem_cons, List.not_mem_nil, false_imp_iff, implies_true, and_true]
    simp only [Nat.prime_two, prime_116503103764643, and_self]
  · norm_num
  · decide +kernel
  · decide +kernel
theorem prime_55515497 : Nat.Prime 55515497 := by norm_num
theorem prime_733803839347 : Nat.Prime 733803839347 := by
  apply prime_of_lucas _ 2 [2, 3, 2203, 55515497]
  · norm_num
  · norm_num
  · simp only [List.forall_mem_cons, List.not_mem_nil, false_imp_iff, implies_true, and_true]
    exact ⟨by norm_num, by norm_num, by norm_num, prime_55515497⟩
  · norm_num
  · decide +kernel
  · decide +kernel
theorem prime_5704689200685129054721 : Nat.Prime 5704689200685129054721 := by
  apply prime_of_lucas _ 21 [2, 2, 2, 2, 2, 2, 2, 2, 2, 3, 3, 3, 3, 3, 5, 12497, 733803839347]
  · norm_num
  · norm_num
  · simp only [List.forall_mem_cons, List.not_mem_nil, false_imp_iff, implies_true, and_true]
    simp only [Nat.prime_two, Nat.prime_three, Nat.prime_five, prime_733803839347, true_and, and_true]
    norm_num
  · norm_num
  · decide +kernel
  · decide +kernel

/-- The prime factors of 2^256 - 1. -/
def mersennePrimes : List Nat :=
  [3, 5, 17, 257, 641, 65537, 274177, 6700417, 67280421310721, 59649589127497217, 5704689200685129054721]

theorem mersennePrimes_prime : ∀ x ∈ mersennePrimes, x.Prime := by
  simp only [mersennePrimes, List.forall_mem_cons, List.not_mem_nil, false_imp_iff, implies_true, and_true]
  exact ⟨by norm_num, by norm_num, by norm_num, by norm_num, by norm_num, by norm_num, by norm_num, by norm_num,
    prime_67280421310721, prime_59649589127497217, prime_5704689200685129054721⟩

theorem mersennePrimes_prod : 2 ^ 256 - 1 = mersennePrimes.prod := by
  norm_num [mersennePrimes]

/-- A prime divisor of 2^256 - 1 is one of the list. -/
theorem mem_mersennePrimes {p : Nat} (hp : p.Prime) (h : p ∣ 2 ^ 256 - 1) : p ∈ mersennePrimes :=
  prime_mem_of_dvd_prod hp _ mersennePrimes_prime mersennePrimes_prod h

end Sp
