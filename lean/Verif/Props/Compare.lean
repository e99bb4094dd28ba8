import Verif.Model.RandomArrays
import Verif.Lemmas.Arrays

/-!
# C126 Comparing arrays with a value
-/

set_option linter.unusedSectionVars false

namespace Sp
variable {S : Type}

theorem arrayEqual_from [DecidableEq S] (a : Buf S) (value : S) :
    ∀ n i, i + n ≤ a.length → arrayEqual a value n i = .ok (decide (∀ j, i ≤ j → j < i + n → a[j]? = some value)) := by
  intro n
  induction n with
  | zero =>
    intro i _
    rw [arrayEqual, decide_eq_true]
    intro j h1 h2
    omega
  | succ n ih =>
    intro i hi
    rw [arrayEqual, rd_eq_ok (by omega), ok_bind']
    by_cases h : value = a[i]
    · rw [if_neg (by simpa using h), ih (i + 1) (by omega)]
      congr 1
      refine decide_eq_decide.2 ⟨fun h1 j h2 h3 => ?_, fun h1 j h2 h3 => h1 j (by omega) (by omega)⟩
      by_cases hj : j = i
      · subst hj
        rw [List.getElem?_eq_getElem (by omega), ← h]
      · exact h1 j (by omega) (by omega)
    · rw [if_pos h, pure_eq_ok]
      congr 1
      refine (decide_eq_false fun h1 => h ?_).symm
      have := h1 i (le_refl _) (by omega)
      rw [List.getElem?_eq_getElem (by omega)] at this
      exact (Option.some.inj this).symm

/-- **C126, `sp_times_equal`, `sp_samples_equal`**: the result is 1 exactly if all of the first `count` elements are the value. Nothing outside of
the array is read. -/
theorem C126_equal [DecidableEq S] {a : Buf S} {count : Nat} (h : count ≤ a.length) (value : S) :
    ∃ r, arrayEqual a value count 0 = .ok r ∧ (r = true ↔ ∀ x ∈ a.take count, x = value) := by
  refine ⟨_, arrayEqual_from a value count 0 (by omega), ?_⟩
  rw [decide_eq_true_iff, List.forall_mem_iff_forall_getElem]
  simp only [List.length_take, List.getElem_take]
  constructor
  · intro h1 j hj
    have := h1 j (Nat.zero_le _) (by omega)
    rw [List.getElem?_eq_getElem (by omega)] at this
    exact Option.some.inj this
  · intro h1 j _ h3
    rw [List.getElem?_eq_getElem (by omega), h1 j (by omega)]

/-- Equal up to the count, different afterwards; a difference in the last place that counts; no element. -/
example : arrayEqual [7, 7, 7, 1] 7 3 0 = .ok true ∧ arrayEqual [7, 7, 7, 1] 7 4 0 = .ok false ∧ arrayEqual ([] : List Nat) 7 0 0 = .ok true := by
  decide +kernel

open Classical in
theorem timesContains_from (b : List Nat) (value : Nat) :
    ∀ n i, i + n ≤ b.length → timesContains (b.map some) value n i = .ok (decide (∃ j, i ≤ j ∧ j < i + n ∧ b[j]? = some value)) := by
  intro n
  induction n with
  | zero =>
    intro i _
    rw [timesContains, decide_eq_false]
    rintro ⟨j, h1, h2, _⟩
    omega
  | succ n ih =>
    intro i hi
    rw [timesContains, rd_eq_ok (by simp; omega), ok_bind', List.getElem_map]
    dsimp only
    by_cases h : value = b[i]
    · rw [if_pos h, pure_eq_ok]
      congr 1
      refine (decide_eq_true ⟨i, le_refl _, by omega, ?_⟩).symm
      rw [List.getElem?_eq_getElem (by omega), h]
    · rw [if_neg h, ih (i + 1) (by omega)]
      congr 1
      refine decide_eq_decide.2 ⟨fun ⟨j, h1, h2, h3⟩ => ⟨j, by omega, by omega, h3⟩, fun ⟨j, h1, h2, h3⟩ => ?_⟩
      refine ⟨j, ?_, by omega, h3⟩
      by_contra hlt
      have hj : j = i := by omega
      subst hj
      rw [List.getElem?_eq_getElem (by omega)] at h3
      exact h (Option.some.inj h3).symm

/-- **C126, `sp_times_contains`**: the result is 1 exactly if one of the first `size` elements is the value. -/
theorem C126_contains {a : List Nat} {size : Nat} (h : size ≤ a.length) (value : Nat) :
    ∃ r, timesContains (a.map some) value size 0 = .ok r ∧ (r = true ↔ value ∈ a.take size) := by
  classical
  refine ⟨_, timesContains_from a value size 0 (by omega), ?_⟩
  rw [decide_eq_true_iff, List.mem_iff_getElem?]
  constructor
  · rintro ⟨j, _, h2, h3⟩
    exact ⟨j, by rw [List.getElem?_take, if_pos (by omega), h3]⟩
  · rintro ⟨j, h1⟩
    rw [List.getElem?_take] at h1
    split at h1
    · exact ⟨j, Nat.zero_le _, by omega, h1⟩
    · exact absurd h1 (by simp)

/-- The value is outside of the range, or at its end. -/
example : timesContains ([4, 5, 6].map some) 6 2 0 = .ok false ∧ timesContains ([4, 5, 6].map some) 6 3 0 = .ok true := by decide +kernel

end Sp
