import Verif.Model.Fft
import Mathlib.Tactic.Linarith
import Mathlib.Tactic.Ring

/-! # Lemmas about the bit reversal -/

set_option linter.unusedSectionVars false

namespace Sp

/-- The number with the lowest `n` bits of `x` in reverse order. -/
def rev : Nat → Nat → Nat
  | 0, _ => 0
  | n + 1, x => (x % 2) * 2 ^ n + rev n (x / 2)

theorem rev_lt (n x : Nat) : rev n x < 2 ^ n := by
  induction n generalizing x with
  | zero => simp [rev]
  | succ n ih =>
    have := ih (x / 2)
    have h2 : x % 2 < 2 := Nat.mod_lt _ (by omega)
    rw [rev, Nat.pow_succ]
    rcases (by omega : x % 2 = 0 ∨ x % 2 = 1) with h | h <;> rw [h] <;> omega

theorem rev_top (n x : Nat) (hx : x < 2 ^ (n + 1)) : rev (n + 1) x = 2 * rev n (x % 2 ^ n) + x / 2 ^ n := by
  induction n generalizing x with
  | zero =>
    simp only [rev]
    simp at hx
    omega
  | succ n ih =>
    rw [rev, ih (x / 2) (by rw [Nat.pow_succ] at hx; omega), rev]
    have e1 : x % 2 ^ (n + 1) % 2 = x % 2 := Nat.mod_mod_of_dvd _ (Dvd.intro_left _ (Nat.pow_succ 2 n).symm)
    have e2 : x % 2 ^ (n + 1) / 2 = x / 2 % 2 ^ n := by
      rw [Nat.pow_succ, Nat.mul_comm]
      exact Nat.mod_mul_right_div_self x 2 (2 ^ n)
    have e3 : x / 2 / 2 ^ n = x / 2 ^ (n + 1) := by rw [Nat.div_div_eq_div_mul, Nat.pow_succ, Nat.mul_comm]
    rw [e1, e2, e3, Nat.pow_succ]
    ring

theorem rev_rev (n x : Nat) (hx : x < 2 ^ n) : rev n (rev n x) = x := by
  induction n generalizing x with
  | zero => simp at hx; simp [rev, hx]
  | succ n ih =>
    have hl := rev_lt n (x / 2)
    have hp : 0 < 2 ^ n := Nat.two_pow_pos n
    rw [rev_top n _ (rev_lt _ _), rev]
    have e1 : (x % 2 * 2 ^ n + rev n (x / 2)) % 2 ^ n = rev n (x / 2) := by
      rw [Nat.mul_comm, Nat.mul_add_mod, Nat.mod_eq_of_lt hl]
    have e2 : (x % 2 * 2 ^ n + rev n (x / 2)) / 2 ^ n = x % 2 := by
      rw [Nat.mul_comm, Nat.mul_add_div hp, Nat.div_eq_of_lt hl, Nat.add_zero]
    rw [e1, e2, ih (x / 2) (by rw [Nat.pow_succ] at hx; omega)]
    omega

theorem shift_or (r x : Nat) (h : r < 9223372036854775808) :
    ((r <<< 1) % 18446744073709551616) ||| (x &&& 1) = 2 * r + x % 2 := by
  have h1 : r <<< 1 = 2 * r := by rw [Nat.shiftLeft_eq]; omega
  rw [Nat.mod_eq_of_lt (by omega), Nat.and_one_is_mod, ← Nat.shiftLeft_add_eq_or_of_lt (by omega), h1]

theorem reverseBits_iter (n i r x : Nat) (h : (r + 1) * 2 ^ n ≤ 18446744073709551616) :
    iter reverseBitsBody n i (r, x) = .ok (r * 2 ^ n + rev n x, x / 2 ^ n) := by
  induction n generalizing i r x with
  | zero => simp [rev]
  | succ n ih =>
    rw [iter_succ, reverseBitsBody]
    have hp : 0 < 2 ^ n := Nat.two_pow_pos n
    have h' : (r + 1) * 2 * 2 ^ n ≤ 18446744073709551616 := by
      rw [Nat.pow_succ] at h
      calc (r + 1) * 2 * 2 ^ n = (r + 1) * (2 ^ n * 2) := by ring
        _ ≤ _ := h
    have hr : (r + 1) * 2 ≤ 18446744073709551616 := by
      calc (r + 1) * 2 = (r + 1) * 2 * 1 := by ring
        _ ≤ (r + 1) * 2 * 2 ^ n := Nat.mul_le_mul_left _ hp
        _ ≤ _ := h'
    rw [shift_or r x (by omega), Nat.shiftRight_one]
    have hx2 : x % 2 < 2 := Nat.mod_lt _ (by omega)
    have := ih (i + 1) (2 * r + x % 2) (x / 2) (le_trans (Nat.mul_le_mul_right _ (by omega)) h')
    refine Eq.trans this ?_
    rw [rev, Nat.div_div_eq_div_mul, Nat.pow_succ, Nat.mul_comm 2 (2 ^ n)]
    congr 2
    ring

theorem reverseBits_eq {n x : Nat} (h : n < 64) : reverseBits x n = .ok (rev n x) := by
  rw [reverseBits, forRange, Nat.sub_zero, reverseBits_iter n 0 0 x (by
    have := Nat.pow_le_pow_right (n := 2) (by omega) (show n ≤ 64 by omega)
    simpa using this)]
  simp

theorem fftLevels_pow (L : Nat) : fftLevels (2 ^ L) = L := by
  induction L with
  | zero => rw [fftLevels]; simp
  | succ L ih =>
    have hp : 0 < 2 ^ L := Nat.two_pow_pos L
    rw [fftLevels, dif_pos (by rw [Nat.pow_succ]; omega), Nat.shiftRight_one]
    rw [show 2 ^ (L + 1) / 2 = 2 ^ L by rw [Nat.pow_succ]; omega, ih]

end Sp
