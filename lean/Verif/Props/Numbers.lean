import Verif.Model.Combinatorics
import Mathlib.Data.Nat.Factorial.Basic
import Mathlib.Data.Nat.ModEq
import Mathlib.Data.Fintype.BigOperators
import Mathlib.Data.Fintype.CardEmbedding
import Mathlib.Combinatorics.Enumerative.Composition
import Mathlib.Tactic.Ring

/-!
# C65 to C67: powers, factorials, counting functions and modulo match
-/

set_option linter.unusedSectionVars false

namespace Sp

theorem exptLoop_spec (fuel : Nat) : ∀ (a base exp : Nat), a < 4294967296 → exp < 2 ^ fuel →
    exptLoop (fuel + 1) a base exp = .ok (a * base ^ exp % 4294967296) := by
  induction fuel with
  | zero =>
    intro a base exp ha h
    obtain rfl : exp = 0 := by simpa using h
    simp [exptLoop, Nat.mod_eq_of_lt ha]
  | succ fuel ih =>
    intro a base exp ha h
    rw [exptLoop]
    have h1 : exp >>> 1 = exp / 2 := by rw [Nat.shiftRight_eq_div_pow]
    have h2 : exp &&& 1 = exp % 2 := Nat.and_one_is_mod exp
    simp only [h1, h2]
    have hd : 2 * (exp / 2) + exp % 2 = exp := Nat.div_add_mod exp 2
    by_cases hz : exp / 2 = 0
    · rw [if_pos hz]
      have hlt : exp % 2 < 2 := Nat.mod_lt _ (by decide)
      rw [hz] at hd
      by_cases ho : exp % 2 = 0
      · rw [ho] at hd
        simp [ho, ← hd, Nat.mod_eq_of_lt ha]
      · have : exp = 1 := by omega
        subst this
        simp [u32]
    · rw [if_neg hz, ih _ _ _ ?_ (by rw [pow_succ] at h; omega)]
      · congr 1
        have hb : u32 (base * base) ^ (exp / 2) ≡ base ^ (2 * (exp / 2)) [MOD 4294967296] := by
          rw [pow_mul, pow_two]
          exact (Nat.mod_modEq _ _).pow _
        by_cases ho : exp % 2 = 0
        · rw [ho] at hd
          simp only [ho]
          rw [if_neg (by simp)]
          have := hb.mul_left a
          rw [show 2 * (exp / 2) = exp from hd] at this
          exact this
        · have ho1 : exp % 2 = 1 := by omega
          rw [if_pos ho]
          rw [ho1] at hd
          have h3 : u32 (a * base) * u32 (base * base) ^ (exp / 2)
              ≡ a * base * base ^ (2 * (exp / 2)) [MOD 4294967296] :=
            (Nat.mod_modEq _ _).mul hb
          have h4 : a * base * base ^ (2 * (exp / 2)) = a * base ^ exp := by
            conv_rhs => rw [← hd]
            rw [pow_succ]; ring
          rw [h4] at h3
          exact h3
      · split
        · exact u32_lt _
        · exact ha

/-- C65: `sp_time_expt` is the power modulo 2^32, for all 32 bit arguments, and terminates. -/
theorem C65_expt (base exp : Nat) (he : exp < 4294967296) :
    timeExpt base exp = .ok (base ^ exp % 4294967296) := by
  have := exptLoop_spec 32 1 base exp (by decide) (by simpa using he)
  simpa [timeExpt] using this

/-- `C65_expt` on a case that wraps around. -/
example : timeExpt 7 13 = .ok 2399729895 := by
  rw [C65_expt 7 13 (by decide)]; norm_num

theorem factorialLoop_spec (n : Nat) : ∀ r, r < 4294967296 →
    factorialLoop n r = r * n.factorial % 4294967296 := by
  induction n with
  | zero => intro r hr; simp [factorialLoop, Nat.mod_eq_of_lt hr]
  | succ n ih =>
    intro r hr
    rw [factorialLoop, ih _ (u32_lt _), Nat.factorial_succ, ← mul_assoc, u32]
    exact (Nat.mod_modEq _ _).mul_right _

/-- C65: `sp_time_factorial` is the factorial modulo 2^32. -/
theorem C65_factorial (n : Nat) : timeFactorial n = n.factorial % 4294967296 := by
  rw [timeFactorial, factorialLoop_spec n 1 (by decide), one_mul]

/-- `C65_factorial` on the first case that wraps around. -/
example : timeFactorial 13 = 1932053504 := by rw [C65_factorial]; rfl

/-- C66: `sp_set_sequence_max` is the number of sequences of `k` elements of a set with `n` elements,
if that fits and the set is not empty or the sequence is not. -/
theorem C66_sequences_partial (n k : Nat) (hk : k < 4294967296)
    (hfit : Fintype.card (Fin k → Fin n) < 4294967296) (hne : n ≠ 0 ∨ k ≠ 0) :
    setSequenceMax n k = .ok (Fintype.card (Fin k → Fin n)) := by
  have hc : Fintype.card (Fin k → Fin n) = n ^ k := by simp
  rw [hc] at hfit ⊢
  unfold setSequenceMax
  split
  · next h =>
    subst h
    rw [zero_pow (hne.resolve_left (by simp))]
  · rw [C65_expt _ _ hk, Nat.mod_eq_of_lt hfit]

/-- `C66_sequences_partial` on sequences of four elements of a set of ten. -/
example : setSequenceMax 10 4 = .ok 10000 := by
  have := C66_sequences_partial 10 4 (by decide) (by simp) (by decide)
  simpa using this

/-- C66 is false for empty sequences of an empty set: there is one, the function returns zero. -/
theorem C66_sequences_empty :
    setSequenceMax 0 0 = .ok 0 ∧ Fintype.card (Fin 0 → Fin 0) = 1 := ⟨rfl, by simp⟩

/-- C66: `sp_compositions_max` is the number of compositions, for all sums from one with a result that fits. -/
theorem C66_compositions (n : Nat) (h1 : 1 ≤ n) (hn : n < 4294967296)
    (hfit : Fintype.card (Composition n) < 4294967296) :
    compositionsMax n = .ok (Fintype.card (Composition n)) := by
  rw [composition_card] at hfit ⊢
  rw [compositionsMax, sub32_of_le h1 hn, C65_expt _ _ (by omega), Nat.mod_eq_of_lt hfit]

/-- `C66_compositions` on a sum. -/
example : compositionsMax 11 = .ok 1024 := by
  have := C66_compositions 11 (by decide) (by decide) (by rw [composition_card]; norm_num)
  rw [composition_card] at this
  simpa using this

/-- C66: what `sp_permutations_max` returns when the factorial fits: the factorial divided by the difference,
not by the factorial of the difference. -/
theorem C66_permutations_value (n k : Nat) (hkn : k < n) (hn : n < 4294967296)
    (hfit : n.factorial < 4294967296) :
    permutationsMax n k = .ok (n.factorial / (n - k)) := by
  have h : sub32 n k = n - k := sub32_of_le hkn.le hn
  simp [permutationsMax, divTime, h, C65_factorial, Nat.mod_eq_of_lt hfit, show n - k ≠ 0 by omega]

/-- C66: the number of ordered selections without repetition is returned when one or two elements are left
over. -/
theorem C66_permutations_partial (n k : Nat) (hn : n < 4294967296) (hfit : n.factorial < 4294967296)
    (hk : k + 1 = n ∨ k + 2 = n) :
    permutationsMax n k = .ok (Fintype.card (Fin k ↪ Fin n)) := by
  rw [C66_permutations_value n k (by omega) hn hfit, Fintype.card_embedding_eq]
  simp only [Fintype.card_fin]
  rw [Nat.descFactorial_eq_div (by omega)]
  rcases hk with rfl | rfl <;> simp

/-- `C66_permutations_partial` on a case. -/
example : permutationsMax 7 5 = .ok 2520 := by
  have := C66_permutations_value 7 5 (by decide) (by decide) (by decide)
  simpa [Nat.factorial] using this

/-- C66 is false for `sp_permutations_max`: all permutations of a set are a division by zero. -/
theorem C66_permutations_all (n : Nat) (hn : n < 4294967296) :
    permutationsMax n n = .error .divByZero := by
  simp [permutationsMax, divTime, sub32_of_le (le_refl n) hn]

/-- C66 is false for `sp_permutations_max`: ordered selections of one of four elements. -/
theorem C66_permutations_false :
    permutationsMax 4 1 = .ok 8 ∧ Fintype.card (Fin 1 ↪ Fin 4) = 4 := by
  refine ⟨rfl, ?_⟩
  rw [Fintype.card_embedding_eq]; rfl

theorem moduloMatchLoop_spec (index : Nat) (divisors : Buf Nat) (hnz : ∀ d ∈ divisors, d ≠ 0) (n : Nat) :
    ∀ i, i + n ≤ divisors.length →
    ∃ r, moduloMatchLoop index divisors n i = .ok r ∧
      (∀ k, r = some k → i ≤ k ∧ k < i + n ∧ divisors.getD k 0 ∣ index ∧
        ∀ j, i ≤ j → j < k → ¬ divisors.getD j 0 ∣ index) ∧
      (r = none → ∀ j, i ≤ j → j < i + n → ¬ divisors.getD j 0 ∣ index) := by
  induction n with
  | zero => intro i h; exact ⟨none, rfl, by simp, by intro _ j h1 h2; omega⟩
  | succ n ih =>
    intro i h
    have hi : i < divisors.length := by omega
    have hd : divisors.getD i 0 = divisors[i] := by simp [List.getD_eq_getElem?_getD, hi]
    have hd0 : divisors[i] ≠ 0 := hnz _ (List.getElem_mem hi)
    rw [moduloMatchLoop, rd_eq_ok hi, ok_bind', if_neg hd0]
    by_cases hm : index % divisors[i] = 0
    · rw [if_pos hm]
      refine ⟨some i, rfl, ?_, by simp⟩
      rintro k hk
      cases hk
      exact ⟨le_refl _, by omega, by rw [hd]; exact Nat.dvd_of_mod_eq_zero hm, by intro j h1 h2; omega⟩
    · rw [if_neg hm]
      have hni : ¬ divisors.getD i 0 ∣ index := by
        rw [hd]; intro hh; exact hm (Nat.mod_eq_zero_of_dvd hh)
      obtain ⟨r, hr, h1, h2⟩ := ih (i + 1) (by omega)
      refine ⟨r, hr, ?_, ?_⟩
      · intro k hk
        obtain ⟨ha, hb, hc, hd'⟩ := h1 k hk
        refine ⟨by omega, by omega, hc, ?_⟩
        intro j hj1 hj2
        by_cases hji : j = i
        · rw [hji]; exact hni
        · exact hd' j (by omega) hj2
      · intro hk j hj1 hj2
        by_cases hji : j = i
        · rw [hji]; exact hni
        · exact h2 hk j (by omega) (by omega)

/-- C67: `sp_modulo_match` returns the first index whose divisor divides the number, or else the last
index. -/
theorem C67_modulo_match (index : Nat) (divisors : Buf Nat) (hne : divisors ≠ [])
    (hnz : ∀ d ∈ divisors, d ≠ 0) (hlen : divisors.length < 18446744073709551616) :
    ∃ k, moduloMatch index divisors divisors.length = .ok k ∧ k < divisors.length ∧
      (∀ j, j < k → ¬ divisors.getD j 0 ∣ index) ∧
      (divisors.getD k 0 ∣ index ∨ k = divisors.length - 1) := by
  obtain ⟨r, hr, h1, h2⟩ := moduloMatchLoop_spec index divisors hnz divisors.length 0 (by omega)
  have hpos : 0 < divisors.length := List.length_pos_of_ne_nil hne
  rw [moduloMatch, hr, ok_bind']
  cases r with
  | some k =>
    obtain ⟨_, hb, hc, hd⟩ := h1 k rfl
    exact ⟨k, rfl, by omega, fun j hj => hd j (Nat.zero_le _) hj, Or.inl hc⟩
  | none =>
    refine ⟨divisors.length - 1, ?_, by omega, fun j hj => h2 rfl j (Nat.zero_le _) (by omega), Or.inr rfl⟩
    have hm : (divisors.length + 18446744073709551616 - 1) % 18446744073709551616 = divisors.length - 1 := by
      omega
    simp only [pure_eq_ok, Option.getD_none, hm]

/-- `C67_modulo_match` on the example of the documentation, every third to 0 and every second to 1. -/
example : (List.range 6).map (fun i => moduloMatch (i + 1) [3, 2] 2)
    = [.ok 1, .ok 1, .ok 0, .ok 1, .ok 1, .ok 0] := rfl

end Sp
