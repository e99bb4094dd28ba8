import Verif.Model.Combinatorics
import Mathlib.GroupTheory.Perm.Basic
import Mathlib.Logic.Equiv.Basic
import Mathlib.Data.Nat.Factorial.Basic
import Mathlib.Data.List.Nodup
import Mathlib.Tactic.IntervalCases

/-!
# The permutations of positions that the loop of `sp_times_permutations` goes through

The loop runs with index `m` as the highest one in rounds: a run for the first `m` positions, then an exchange
with position `m`, and again. `heapOuts m` are the permutations of the first `m` positions in order,
`heapEnd m` is the last of them.
-/

set_option linter.unusedSectionVars false

namespace Sp
open Equiv

/-- The position that is exchanged with `m` in round `j`. -/
def heapIndex (m j : Nat) : Nat := if m % 2 = 1 then j else 0

/-- The permutation at the start of round `j`. -/
def heapStart (m : Nat) (r : Perm Nat) : Nat → Perm Nat
  | 0 => 1
  | j + 1 => heapStart m r j * r * swap (heapIndex m j) m

def heapEnd : Nat → Perm Nat
  | 0 => 1
  | m + 1 => heapStart m (heapEnd m) m * heapEnd m

/-- The permutations of round `j`. -/
def heapRound (m : Nat) (outs : List (Perm Nat)) (j : Nat) : List (Perm Nat) :=
  outs.map (fun g => heapStart m (heapEnd m) j * g)

def heapOuts : Nat → List (Perm Nat)
  | 0 => [1]
  | m + 1 => (List.range (m + 1)).flatMap (heapRound m (heapOuts m))

theorem heapOuts_head (m : Nat) : ∃ t, heapOuts m = 1 :: t := by
  induction m with
  | zero => exact ⟨[], rfl⟩
  | succ m ih =>
    obtain ⟨t, ht⟩ := ih
    rw [heapOuts, List.range_succ_eq_map, List.flatMap_cons, heapRound, ht]
    exact ⟨_, by simp [heapStart]; rfl⟩

theorem heapOuts_length (m : Nat) : (heapOuts m).length = m.factorial := by
  induction m with
  | zero => rfl
  | succ m ih =>
    rw [heapOuts, List.length_flatMap]
    simp [heapRound, ih, Nat.factorial_succ]

theorem heapEnd_fix (m : Nat) : ∀ p, m ≤ p → heapEnd m p = p := by
  induction m with
  | zero => intro p _; rfl
  | succ m ih =>
    intro p hp
    have hs : ∀ j, j ≤ m → heapStart m (heapEnd m) j p = p := by
      intro j
      induction j with
      | zero => intro _; rfl
      | succ j ihj =>
        intro hj
        rw [heapStart, Perm.mul_apply, Perm.mul_apply, swap_apply_of_ne_of_ne, ih p (by omega), ihj (by omega)]
        · unfold heapIndex; split <;> omega
        · omega
    rw [heapEnd, Perm.mul_apply, ih p (by omega), hs m (le_refl _)]

theorem heapStart_fix (m : Nat) {p : Nat} (hp : m < p) : ∀ j, j ≤ m → heapStart m (heapEnd m) j p = p := by
  intro j
  induction j with
  | zero => intro _; rfl
  | succ j ihj =>
    intro hj
    rw [heapStart, Perm.mul_apply, Perm.mul_apply, swap_apply_of_ne_of_ne, heapEnd_fix m p (by omega),
      ihj (by omega)]
    · unfold heapIndex; split <;> omega
    · omega

theorem heapOuts_fix (m : Nat) : ∀ g ∈ heapOuts m, ∀ p, m ≤ p → g p = p := by
  induction m with
  | zero => intro g hg p _; simp [heapOuts] at hg; simp [hg]
  | succ m ih =>
    intro g hg p hp
    rw [heapOuts, List.mem_flatMap] at hg
    obtain ⟨j, hj, hg⟩ := hg
    rw [heapRound, List.mem_map] at hg
    obtain ⟨h, hh, rfl⟩ := hg
    rw [Perm.mul_apply, ih h hh p (by omega), heapStart_fix m (by omega) j (by simp at hj; omega)]

/-! ### The end of each run, and the elements that come to the last position -/

theorem apply_swap (g : Perm Nat) (i j p : Nat) : (g * swap i j) p = g (if p = i then j else if p = j then i else p) := by
  rw [Perm.mul_apply, swap_apply_def]

/-- What is known about the end of a run for an even number of positions. -/
def EvenEnd (m : Nat) (r : Perm Nat) : Prop :=
  (m = 2 → r 0 = 1 ∧ r 1 = 0) ∧
  (4 ≤ m → r 0 = m - 3 ∧ r 1 = m - 2 ∧ (∀ p, 2 ≤ p → p ≤ m - 3 → r p = p - 1) ∧ r (m - 2) = m - 1 ∧ r (m - 1) = 0)

theorem heapStart_even {m : Nat} (hm : m % 2 = 0) (r : Perm Nat) (j : Nat) :
    heapStart m r j = (r * swap 0 m) ^ j := by
  induction j with
  | zero => rfl
  | succ j ih => rw [heapStart, ih, heapIndex, if_neg (by omega), pow_succ, mul_assoc]

/-- The elements that come to the last position, for an even `m`. -/
def evenOrbit (m j : Nat) : Nat :=
  if j = 0 ∨ j = m + 1 then m else if m = 2 then 2 - j
  else if j ≤ m - 3 then m - 2 - j else if j = m - 2 then m - 2 else if j = m - 1 then m - 1 else 0

theorem evenOrbit_step {m : Nat} (hm : m % 2 = 0) (hm2 : 2 ≤ m) {r : Perm Nat} (hfix : ∀ p, m ≤ p → r p = p)
    (he : EvenEnd m r) (j : Nat) (hj : j ≤ m) : (r * swap 0 m) (evenOrbit m j) = evenOrbit m (j + 1) := by
  rw [apply_swap]
  obtain ⟨h2, h4⟩ := he
  by_cases h : m = 2
  · subst h
    obtain ⟨a, b⟩ := h2 rfl
    have c := hfix 2 (le_refl _)
    interval_cases j <;> simp [evenOrbit, a, b, c]
  · obtain ⟨a, b, c, d, e⟩ := h4 (by omega)
    have f := hfix m (le_refl _)
    rcases Nat.eq_zero_or_pos j with rfl | hj0
    · have h1 : evenOrbit m 0 = m := by simp [evenOrbit]
      have h3 : evenOrbit m (0 + 1) = m - 3 := by
        unfold evenOrbit; rw [if_neg (by omega), if_neg h, if_pos (by omega)]; omega
      rw [h1, h3, if_neg (by omega), if_pos rfl, a]
    · by_cases hja : j ≤ m - 3
      · have h1 : evenOrbit m j = m - 2 - j := by
          unfold evenOrbit; rw [if_neg (by omega), if_neg h, if_pos hja]
        rw [h1, if_neg (by omega), if_neg (by omega)]
        by_cases hjb : j = m - 3
        · subst hjb
          have h3 : evenOrbit m (m - 3 + 1) = m - 2 := by
            unfold evenOrbit; rw [if_neg (by omega), if_neg h, if_neg (by omega), if_pos (by omega)]
          rw [h3, show m - 2 - (m - 3) = 1 by omega, b]
        · have h3 : evenOrbit m (j + 1) = m - 2 - (j + 1) := by
            unfold evenOrbit; rw [if_neg (by omega), if_neg h, if_pos (by omega)]
          rw [h3, c _ (by omega) (by omega)]; omega
      · by_cases hjb : j = m - 2
        · subst hjb
          have h1 : evenOrbit m (m - 2) = m - 2 := by
            unfold evenOrbit; rw [if_neg (by omega), if_neg h, if_neg (by omega), if_pos rfl]
          have h3 : evenOrbit m (m - 2 + 1) = m - 1 := by
            unfold evenOrbit
            rw [if_neg (by omega), if_neg h, if_neg (by omega), if_neg (by omega), if_pos (by omega)]
          rw [h1, h3, if_neg (by omega), if_neg (by omega), d]
        · by_cases hjc : j = m - 1
          · subst hjc
            have h1 : evenOrbit m (m - 1) = m - 1 := by
              unfold evenOrbit
              rw [if_neg (by omega), if_neg h, if_neg (by omega), if_neg (by omega), if_pos rfl]
            have h3 : evenOrbit m (m - 1 + 1) = 0 := by
              unfold evenOrbit
              rw [if_neg (by omega), if_neg h, if_neg (by omega), if_neg (by omega), if_neg (by omega)]
            rw [h1, h3, if_neg (by omega), if_neg (by omega), e]
          · obtain rfl : j = m := by omega
            have h1 : evenOrbit j j = 0 := by
              unfold evenOrbit
              rw [if_neg (by omega), if_neg h, if_neg (by omega), if_neg (by omega), if_neg (by omega)]
            have h3 : evenOrbit j (j + 1) = j := by simp [evenOrbit]
            rw [h1, h3, if_pos rfl, f]

theorem evenOrbit_pow {m : Nat} (hm : m % 2 = 0) (hm2 : 2 ≤ m) {r : Perm Nat} (hfix : ∀ p, m ≤ p → r p = p)
    (he : EvenEnd m r) (j : Nat) (hj : j ≤ m + 1) : ((r * swap 0 m) ^ j) m = evenOrbit m j := by
  induction j with
  | zero => simp [evenOrbit]
  | succ j ih =>
    rw [pow_succ', Perm.mul_apply, ih (by omega), evenOrbit_step hm hm2 hfix he j (by omega)]

theorem evenOrbit_inj {m : Nat} (hm2 : 2 ≤ m) {i j : Nat} (hi : i ≤ m) (hj : j ≤ m)
    (h : evenOrbit m i = evenOrbit m j) : i = j := by
  unfold evenOrbit at h
  split_ifs at h <;> omega

theorem evenOrbit_surj {m : Nat} (hm : m % 2 = 0) (hm2 : 2 ≤ m) {p : Nat} (hp : p ≤ m) : ∃ j, j ≤ m ∧ evenOrbit m j = p := by
  by_cases h : m = 2
  · subst h
    refine ⟨2 - p, by omega, ?_⟩
    interval_cases p <;> rfl
  · refine ⟨if p = m then 0 else if p = 0 then m else if p = m - 1 then m - 1 else if p = m - 2 then m - 2
      else m - 2 - p, ?_, ?_⟩
    · split_ifs <;> omega
    · unfold evenOrbit
      split_ifs <;> omega

theorem even_pow_eq_one {m : Nat} (hm : m % 2 = 0) (hm2 : 2 ≤ m) {r : Perm Nat} (hfix : ∀ p, m ≤ p → r p = p)
    (he : EvenEnd m r) : (r * swap 0 m) ^ (m + 1) = 1 := by
  ext p
  by_cases hp : p ≤ m
  · obtain ⟨k, hk, rfl⟩ := evenOrbit_surj hm hm2 hp
    rw [← evenOrbit_pow hm hm2 hfix he k (by omega), ← Perm.mul_apply, ← pow_add, Nat.add_comm, pow_add,
      Perm.mul_apply, evenOrbit_pow hm hm2 hfix he (m + 1) (le_refl _)]
    simp [evenOrbit]
  · have h1 : ∀ j, ((r * swap 0 m) ^ j) p = p := by
      intro j
      induction j with
      | zero => rfl
      | succ j ih =>
        rw [pow_succ, Perm.mul_apply, apply_swap, if_neg (by omega), if_neg (by omega), hfix p (by omega), ih]
    rw [h1]; rfl

/-- The permutation at the start of round `j`, for an odd `m` from 3. -/
def oddStart (m j p : Nat) : Nat :=
  if j = 0 then p
  else if j < m then
    if p = 0 then (if j % 2 = 1 then m else 0)
    else if p = m - 1 then (if j % 2 = 1 then 0 else m)
    else if p = m then (if j = 1 then m - 1 else j - 1)
    else if p = 1 then (if j = 1 then 1 else m - 1)
    else if p < j then p - 1 else p
  else
    if p = 0 then m else if p = m - 1 then m - 2 else if p = m then 0 else if p = 1 then m - 1
    else if p < m - 1 then p - 1 else p

theorem heapStart_odd {m : Nat} (hm : m % 2 = 1) (hm3 : 3 ≤ m) (j : Nat) (hj : j ≤ m) (p : Nat) :
    heapStart m (swap 0 (m - 1)) j p = oddStart m j p := by
  induction j generalizing p with
  | zero => simp [heapStart, oddStart]
  | succ j ih =>
    rw [heapStart, apply_swap, apply_swap, heapIndex, if_pos hm, ih (by omega)]
    unfold oddStart
    rcases Nat.eq_zero_or_pos j with rfl | hj0
    · simp only [if_true, Nat.zero_add, show (1 : Nat) ≠ 0 by decide, if_false, show 1 < m by omega,
        Nat.one_mod]
      split_ifs <;> omega
    · simp only [show j ≠ 0 by omega, if_false, show j < m by omega, if_true, show j + 1 ≠ 0 by omega]
      by_cases hjm : j + 1 < m
      · simp only [hjm, if_true]
        rcases Nat.mod_two_eq_zero_or_one j with h | h
        · simp only [show (j + 1) % 2 = 1 by omega, h]
          grind
        · simp only [show (j + 1) % 2 = 0 by omega, h]
          grind
      · simp only [hjm, if_false]
        simp only [show j % 2 = 0 by omega]
        grind

/-- What the ends of the runs are. -/
theorem heapEnd_spec (m : Nat) :
    (m % 2 = 1 → heapEnd m = swap 0 (m - 1)) ∧ (m % 2 = 0 → EvenEnd m (heapEnd m)) := by
  induction m with
  | zero => exact ⟨by simp, fun _ => ⟨by omega, by omega⟩⟩
  | succ m ih =>
    refine ⟨fun h => ?_, fun h => ?_⟩
    · have hm : m % 2 = 0 := by omega
      rcases Nat.eq_zero_or_pos m with rfl | hpos
      · simp [heapEnd, heapStart]; rfl
      · have := even_pow_eq_one hm (by omega) (heapEnd_fix m) (ih.2 hm)
        rw [pow_succ, ← heapStart_even hm, ← mul_assoc] at this
        rw [heapEnd, Nat.add_sub_cancel, ← Equiv.swap_inv, ← mul_inv_eq_one, inv_inv, this]
    · have hm : m % 2 = 1 := by omega
      have hr := ih.1 hm
      by_cases h1 : m = 1
      · subst h1
        refine ⟨fun _ => ?_, by omega⟩
        rw [heapEnd, hr]
        constructor <;> rfl
      · have hm3 : 3 ≤ m := by omega
        have key : ∀ p, heapEnd (m + 1) p = oddStart m m (if p = 0 then m - 1 else if p = m - 1 then 0 else p) := by
          intro p
          rw [heapEnd, hr, apply_swap, heapStart_odd hm hm3 m (le_refl _)]
        refine ⟨by omega, fun _ => ?_⟩
        simp only [key, oddStart]
        refine ⟨?_, ?_, ?_, ?_, ?_⟩
        all_goals (try intro p hp1 hp2)
        all_goals grind

/-- In each round another element is at the last position. -/
theorem heapStart_last {m i j : Nat} (hi : i ≤ m) (hj : j ≤ m)
    (h : heapStart m (heapEnd m) i m = heapStart m (heapEnd m) j m) : i = j := by
  rcases Nat.mod_two_eq_zero_or_one m with hm | hm
  · rcases Nat.eq_zero_or_pos m with rfl | hpos
    · omega
    · have he := (heapEnd_spec m).2 hm
      rw [heapStart_even hm, heapStart_even hm, evenOrbit_pow hm (by omega) (heapEnd_fix m) he _ (by omega),
        evenOrbit_pow hm (by omega) (heapEnd_fix m) he _ (by omega)] at h
      exact evenOrbit_inj (by omega) hi hj h
  · have he := (heapEnd_spec m).1 hm
    by_cases h1 : m = 1
    · subst h1
      rw [he] at h
      interval_cases i <;> interval_cases j <;> simp [heapStart, heapIndex] at h ⊢
    · have hm3 : 3 ≤ m := by omega
      rw [he, heapStart_odd hm hm3 i hi, heapStart_odd hm hm3 j hj] at h
      unfold oddStart at h
      split_ifs at h <;> omega

theorem heapOuts_nodup (m : Nat) : (heapOuts m).Nodup := by
  induction m with
  | zero => simp [heapOuts]
  | succ m ih =>
    rw [heapOuts, List.nodup_flatMap]
    refine ⟨fun j _ => ih.map (fun a b h => mul_left_cancel h), ?_⟩
    rw [List.pairwise_iff_getElem]
    intro a b ha hb hab
    simp only [List.length_range] at ha hb
    simp only [List.getElem_range, Function.onFun]
    intro g h1 h2
    rw [heapRound, List.mem_map] at h1 h2
    obtain ⟨g1, hg1, rfl⟩ := h1
    obtain ⟨g2, hg2, he⟩ := h2
    have := congrArg (fun g : Perm Nat => g m) he
    simp only [Perm.mul_apply] at this
    rw [heapOuts_fix m g1 hg1 m (le_refl _), heapOuts_fix m g2 hg2 m (le_refl _)] at this
    have := heapStart_last (by omega) (by omega) this
    omega

end Sp
