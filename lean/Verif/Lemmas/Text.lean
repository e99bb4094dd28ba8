import Verif.Spec.Text
import Verif.Model.Printf
import Mathlib.Tactic.IntervalCases
import Mathlib.Tactic.Linarith
import Mathlib.Tactic.NormNum
import Mathlib.Tactic.Ring
import Mathlib.Tactic.FieldSimp

/-! # Lemmas about numbers as text -/

set_option linter.unusedSectionVars false

namespace Sp
variable {S : Type}

theorem digitValue_digitChar {d : Nat} (h : d < 10) : digitValue (digitChar d) = some d := by
  interval_cases d <;> decide

theorem digitsValue_snoc (l : List Char) (c : Char) (a : Nat) :
    digitsValue a (l ++ [c]) = (digitsValue a l).bind fun b => (digitValue c).map fun d => 10 * b + d := by
  induction l generalizing a with
  | nil => simp only [List.nil_append, digitsValue, Option.bind_some]; cases digitValue c <;> rfl
  | cons x l ih =>
    simp only [List.cons_append, digitsValue]
    cases digitValue x with
    | none => rfl
    | some d => simp only [Option.bind_some]; exact ih _

theorem digitsValue_decimal (n : Nat) : digitsValue 0 (decimal n) = some n := by
  induction n using Nat.strong_induction_on with
  | _ n ih =>
    rw [decimal]
    split
    · rename_i h
      simp only [digitsValue, digitValue_digitChar h, Option.bind_some]
      simp
    · rw [digitsValue_snoc, ih (n / 10) (by omega), digitValue_digitChar (Nat.mod_lt _ (by decide))]
      simp only [Option.bind_some, Option.map_some]
      congr 1
      omega

theorem decimal_ne_nil (n : Nat) : decimal n ≠ [] := by
  rw [decimal]
  split <;> simp

theorem digitChar_range {d : Nat} (h : d < 10) : 48 ≤ (digitChar d).toNat ∧ (digitChar d).toNat ≤ 57 := by
  interval_cases d <;> decide

theorem decimal_range (n : Nat) : ∀ c ∈ decimal n, 48 ≤ c.toNat ∧ c.toNat ≤ 57 := by
  induction n using Nat.strong_induction_on with
  | _ n ih =>
    rw [decimal]
    split
    · rename_i h
      simp only [List.mem_singleton]
      rintro c rfl
      exact digitChar_range h
    · simp only [List.mem_append, List.mem_singleton]
      rintro c (h | rfl)
      · exact ih (n / 10) (by omega) c h
      · exact digitChar_range (Nat.mod_lt _ (by decide))

theorem not_mem_decimal (n : Nat) {c : Char} (h : c.toNat < 48 ∨ 57 < c.toNat) : c ∉ decimal n := by
  intro hc
  have := decimal_range n c hc
  omega

theorem readNat_decimal (n : Nat) : readNat (decimal n) = some n := by
  rw [readNat, if_neg (decimal_ne_nil n), digitsValue_decimal]

theorem decimal_inj {m n : Nat} (h : decimal m = decimal n) : m = n := by
  have := readNat_decimal m
  rw [h, readNat_decimal] at this
  exact (Option.some.inj this).symm

/-- The number of digits. -/
theorem decimal_length_le {n k : Nat} (h : n < 10 ^ (k + 1)) : (decimal n).length ≤ k + 1 := by
  induction k generalizing n with
  | zero =>
    rw [decimal, dif_pos (by simpa using h)]
    simp
  | succ k ih =>
    rw [decimal]
    split
    · simp
    · have := ih (n := n / 10) (by rw [pow_succ] at h; omega)
      simp only [List.length_append, List.length_singleton]
      omega

/-- `p` digits, with zeros in front. -/
def padded : Nat → Nat → List Char
  | 0, _ => []
  | p + 1, m => padded p (m / 10) ++ [digitChar (m % 10)]

theorem padded_length (p m : Nat) : (padded p m).length = p := by
  induction p generalizing m with
  | zero => rfl
  | succ p ih => simp [padded, ih]

theorem digitsValue_padded (p m : Nat) (h : m < 10 ^ p) : digitsValue 0 (padded p m) = some m := by
  induction p generalizing m with
  | zero => simp only [pow_zero] at h; simp only [padded, digitsValue]; congr 1; omega
  | succ p ih =>
    rw [padded, digitsValue_snoc, ih _ (by rw [pow_succ] at h; omega), digitValue_digitChar (Nat.mod_lt _ (by decide))]
    simp only [Option.bind_some, Option.map_some]
    congr 1
    omega

theorem padded_range (p m : Nat) : ∀ c ∈ padded p m, 48 ≤ c.toNat ∧ c.toNat ≤ 57 := by
  induction p generalizing m with
  | zero => simp [padded]
  | succ p ih =>
    simp only [padded, List.mem_append, List.mem_singleton]
    rintro c (h | rfl)
    · exact ih _ c h
    · exact digitChar_range (Nat.mod_lt _ (by decide))

/-- The text for the number `m / 10 ^ p`, with `p` decimal places. -/
def fixedText (neg : Bool) (m p : Nat) : List Char :=
  (if neg then ['-'] else []) ++ (decimal (m / 10 ^ p) ++ '.' :: padded p (m % 10 ^ p))

theorem takeWhile_no {l r : List Char} {c : Char} (h : c ∉ l) : (l ++ c :: r).takeWhile (· ≠ c) = l := by
  rw [List.takeWhile_append_of_pos (by intro a ha; simp; rintro rfl; exact h ha)]
  simp

theorem dropWhile_no {l r : List Char} {c : Char} (h : c ∉ l) : (l ++ c :: r).dropWhile (· ≠ c) = c :: r := by
  rw [List.dropWhile_append_of_pos (by intro a ha; simp; rintro rfl; exact h ha)]
  simp

theorem readUnsigned_fixed {m p : Nat} (hp : 0 < p) :
    readUnsigned (decimal (m / 10 ^ p) ++ '.' :: padded p (m % 10 ^ p)) = some ((m : ℚ) / 10 ^ p) := by
  have hd : '.' ∉ decimal (m / 10 ^ p) := not_mem_decimal _ (by decide)
  have hne : padded p (m % 10 ^ p) ≠ [] := by
    intro h
    have := padded_length p (m % 10 ^ p)
    rw [h] at this
    simp at this
    omega
  rw [readUnsigned, dropWhile_no hd]
  simp only
  rw [takeWhile_no hd, readNat_decimal, readNat, if_neg hne, digitsValue_padded _ _ (Nat.mod_lt _ (by positivity)), padded_length]
  simp only [Option.bind_some, Option.map_some, Option.some.injEq]
  have h10 : (10 : ℚ) ^ p ≠ 0 := by positivity
  have e : (m : ℚ) = 10 ^ p * ((m / 10 ^ p : Nat) : ℚ) + ((m % 10 ^ p : Nat) : ℚ) := by
    have := Nat.div_add_mod m (10 ^ p)
    exact_mod_cast this.symm
  rw [eq_div_iff h10, add_mul, div_mul_cancel₀ _ h10]
  linarith

theorem readNumber_nonneg {s : List Char} (h : '-' ∉ s) : readNumber s = readUnsigned s := by
  unfold readNumber
  split
  · simp at h
  · rfl

theorem readNumber_fixedText (neg : Bool) {m p : Nat} (hp : 0 < p) :
    readNumber (fixedText neg m p) = some ((if neg then -1 else 1) * ((m : ℚ) / 10 ^ p)) := by
  cases neg with
  | true =>
    simp only [fixedText, if_true, List.singleton_append, readNumber, readUnsigned_fixed hp, Option.map_some]
    simp
  | false =>
    rw [fixedText]
    simp only [Bool.false_eq_true, if_false, List.nil_append, one_mul]
    rw [readNumber_nonneg, readUnsigned_fixed hp]
    simp only [List.mem_append, List.mem_cons, not_or]
    refine ⟨not_mem_decimal _ (by decide), by decide, fun h => ?_⟩
    have := padded_range _ _ _ h
    revert this
    decide

theorem not_mem_fixedText (neg : Bool) (m p : Nat) {c : Char} (h : c.toNat < 45) : c ∉ fixedText neg m p := by
  have h1 : c ≠ '-' := by rintro rfl; revert h; decide
  have h2 : c ≠ '.' := by rintro rfl; revert h; decide
  have h3 : c ∉ padded p (m % 10 ^ p) := by
    intro hc
    have := padded_range _ _ _ hc
    omega
  have h4 : c ∉ decimal (m / 10 ^ p) := not_mem_decimal _ (by omega)
  cases neg <;> simp [fixedText, h1, h2, h3, h4]

theorem readNumber_decimal (n : Nat) : readNumber (decimal n) = some (n : ℚ) := by
  rw [readNumber_nonneg (not_mem_decimal _ (by decide)), readUnsigned]
  have : (decimal n).dropWhile (· ≠ '.') = [] := by
    have h : '.' ∉ decimal n := not_mem_decimal n (by decide)
    generalize decimal n = l at h
    induction l with
    | nil => rfl
    | cons x l ih =>
      simp only [List.mem_cons, not_or] at h
      rw [List.dropWhile_cons_of_pos (by simpa using fun e => h.1 e.symm)]
      exact ih h.2
  rw [this]
  simp [readNat_decimal]

end Sp
