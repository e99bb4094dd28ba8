import Verif.Model.Combinatorics
import Verif.Props.ArraysSelect
import Mathlib.Data.Nat.Digits.Defs
import Mathlib.Data.Nat.ModEq
import Mathlib.Tactic.Ring

/-!
# C63: counting with digit sequences

The number of a digit sequence, lowest digit first, is Mathlib's `Nat.ofDigits`.
-/

set_option linter.unusedSectionVars false

namespace Sp

/-- A sequence of `n` digits of the given base. -/
def IsSequence (base n : Nat) (l : List Nat) : Prop := l.length = n ∧ ∀ x ∈ l, x < base

theorem isSequence_cons {base n x : Nat} {l : List Nat} :
    IsSequence base (n + 1) (x :: l) ↔ x < base ∧ IsSequence base n l := by
  simp [IsSequence]; tauto

theorem number_lt {base : Nat} : ∀ {n : Nat} {l : List Nat}, IsSequence base n l →
    Nat.ofDigits base l < base ^ n
  | 0, l, h => by
    obtain rfl : l = [] := List.length_eq_zero_iff.1 h.1
    simp [Nat.ofDigits]
  | n + 1, [], h => by simp [IsSequence] at h
  | n + 1, x :: l, h => by
    obtain ⟨hx, hl⟩ := isSequence_cons.1 h
    have := number_lt hl
    rw [Nat.ofDigits_cons, pow_succ]
    nlinarith

theorem number_inj {base : Nat} : ∀ {n : Nat} {l m : List Nat}, IsSequence base n l → IsSequence base n m →
    Nat.ofDigits base l = Nat.ofDigits base m → l = m
  | 0, l, m, h, h', _ => by
    rw [List.length_eq_zero_iff.1 h.1, List.length_eq_zero_iff.1 h'.1]
  | n + 1, [], _, h, _, _ => by simp [IsSequence] at h
  | n + 1, _ :: _, [], _, h, _ => by simp [IsSequence] at h
  | n + 1, x :: l, y :: m, h, h', he => by
    obtain ⟨hx, hl⟩ := isSequence_cons.1 h
    obtain ⟨hy, hm⟩ := isSequence_cons.1 h'
    rw [Nat.ofDigits_cons, Nat.ofDigits_cons] at he
    have hb : 0 < base := by omega
    have h1 : (x + base * Nat.ofDigits base l) % base = (y + base * Nat.ofDigits base m) % base := by rw [he]
    rw [Nat.add_mul_mod_self_left, Nat.add_mul_mod_self_left, Nat.mod_eq_of_lt hx, Nat.mod_eq_of_lt hy] at h1
    subst h1
    have h2 : Nat.ofDigits base l = Nat.ofDigits base m :=
      Nat.eq_of_mul_eq_mul_left hb (by omega)
    rw [number_inj hl hm h2]

/-- The digit sequence after the increment. -/
def incDigits (base : Nat) : List Nat → List Nat
  | [] => []
  | x :: l => if x < base - 1 then (x + 1) :: l else 0 :: incDigits base l

theorem incDigits_isSequence {base : Nat} (hb : 1 ≤ base) : ∀ {n : Nat} {l : List Nat}, IsSequence base n l →
    IsSequence base n (incDigits base l)
  | n, [], h => h
  | 0, _ :: _, h => by simp [IsSequence] at h
  | n + 1, x :: l, h => by
    obtain ⟨hx, hl⟩ := isSequence_cons.1 h
    rw [incDigits]
    split
    · exact isSequence_cons.2 ⟨by omega, hl⟩
    · exact isSequence_cons.2 ⟨by omega, incDigits_isSequence hb hl⟩

theorem incDigits_number {base : Nat} (hb : 1 ≤ base) : ∀ {n : Nat} {l : List Nat}, IsSequence base n l →
    Nat.ofDigits base (incDigits base l) = (Nat.ofDigits base l + 1) % base ^ n
  | 0, l, h => by
    obtain rfl : l = [] := List.length_eq_zero_iff.1 h.1
    simp [incDigits, Nat.ofDigits, Nat.mod_one]
  | n + 1, [], h => by simp [IsSequence] at h
  | n + 1, x :: l, h => by
    obtain ⟨hx, hl⟩ := isSequence_cons.1 h
    have hlt := number_lt hl
    rw [incDigits]
    split
    · next hx1 =>
      rw [Nat.ofDigits_cons, Nat.ofDigits_cons, Nat.mod_eq_of_lt]
      · omega
      · have := number_lt (isSequence_cons.2 ⟨show x + 1 < base by omega, hl⟩)
        rw [Nat.ofDigits_cons] at this
        omega
    · next hx1 =>
      have hxe : x + 1 = base := by omega
      rw [Nat.ofDigits_cons, Nat.ofDigits_cons, incDigits_number hb hl]
      rw [show x + base * Nat.ofDigits base l + 1 = base * (Nat.ofDigits base l + 1) by rw [← hxe]; ring,
        pow_succ', Nat.mul_mod_mul_left]
      simp

theorem sequenceIncrementLoop_eq {base : Nat} (hb : 1 ≤ base) (hb32 : base < 4294967296) :
    ∀ (l pre post : List Nat) (n i : Nat), i = pre.length → IsSequence base n l →
    sequenceIncrementLoop base n i (pre ++ (l ++ post)) = .ok (pre ++ (incDigits base l ++ post))
  | [], pre, post, n, i, hi, h => by
    obtain rfl : n = 0 := by simpa [IsSequence] using h.1.symm
    simp [sequenceIncrementLoop, incDigits]
  | x :: l, pre, post, 0, i, hi, h => by simp [IsSequence] at h
  | x :: l, pre, post, n + 1, i, hi, h => by
    obtain ⟨hx, hl⟩ := isSequence_cons.1 h
    rw [sequenceIncrementLoop, List.cons_append, rd_append hi, ok_bind', sub32_of_le hb hb32, incDigits]
    split
    · rw [wr_append hi, u32_of_lt (by omega), List.cons_append]
    · rw [wr_append hi, ok_bind']
      have := sequenceIncrementLoop_eq hb hb32 l (pre ++ [0]) post n (i + 1) (by simp [hi]) hl
      simpa using this

/-- C63: `sp_times_sequence_increment` on an array that holds a sequence of `n` digits adds one to its number,
wrapping around after the largest, and gives a sequence of `n` digits again. -/
theorem C63_increment (base n : Nat) (hb : 1 ≤ base) (hb32 : base < 4294967296) (l : List Nat)
    (hl : IsSequence base n l) :
    ∃ l', sequenceIncrement l 0 n base = .ok l' ∧ IsSequence base n l' ∧
      Nat.ofDigits base l' = (Nat.ofDigits base l + 1) % base ^ n := by
  refine ⟨incDigits base l, ?_, incDigits_isSequence hb hl, incDigits_number hb hl⟩
  have := sequenceIncrementLoop_eq hb hb32 l [] [] n 0 rfl hl
  simpa [sequenceIncrement] using this

/-- `C63_increment` on a case with a carry. -/
example : sequenceIncrement [9, 9, 4] 0 3 10 = .ok [0, 0, 5] ∧ IsSequence 10 3 [9, 9, 4] :=
  ⟨rfl, rfl, by decide⟩

/-- The sequences that follow `l`. -/
def sequencesFrom (base : Nat) (l : List Nat) (count : Nat) : List (List Nat) :=
  (List.range count).map (fun j => (incDigits base)^[j] l)

theorem iterate_isSequence {base n : Nat} (hb : 1 ≤ base) {l : List Nat} (hl : IsSequence base n l) (j : Nat) :
    IsSequence base n ((incDigits base)^[j] l) := by
  induction j with
  | zero => exact hl
  | succ j ih => rw [Function.iterate_succ_apply']; exact incDigits_isSequence hb ih

theorem iterate_number {base n : Nat} (hb : 1 ≤ base) {l : List Nat} (hl : IsSequence base n l) (j : Nat) :
    Nat.ofDigits base ((incDigits base)^[j] l) = (Nat.ofDigits base l + j) % base ^ n := by
  induction j with
  | zero => simp [Nat.mod_eq_of_lt (number_lt hl)]
  | succ j ih =>
    rw [Function.iterate_succ_apply', incDigits_number hb (iterate_isSequence hb hl j), ih, Nat.mod_add_mod,
      Nat.add_assoc]

theorem sequencesFrom_succ (base : Nat) (l : List Nat) (count : Nat) :
    sequencesFrom base l (count + 1) = sequencesFrom base l count ++ [(incDigits base)^[count] l] := by
  simp [sequencesFrom, List.range_succ]

theorem sequencesFrom_flatten_length {base n : Nat} (hb : 1 ≤ base) {l : List Nat} (hl : IsSequence base n l)
    (count : Nat) : (sequencesFrom base l count).flatten.length = n * count := by
  induction count with
  | zero => simp [sequencesFrom]
  | succ c ih =>
    rw [sequencesFrom_succ, List.flatten_append, List.length_append, ih]
    simp [(iterate_isSequence hb hl c).1, Nat.mul_succ]

theorem sequencesLoop_eq {base n count : Nat} (hb : 1 ≤ base) (hb32 : base < 4294967296) {l : List Nat}
    (hl : IsSequence base n l) (hn : 1 ≤ n) (h32 : n * count < 4294967296) (fuel : Nat) :
    ∀ (c : Nat) (post : List Nat), 1 ≤ c → c ≤ count → count < c + fuel → n * (count - c) ≤ post.length →
    sequencesLoop base n count fuel (n * c) ((sequencesFrom base l c).flatten ++ post)
      = .ok ((sequencesFrom base l count).flatten ++ post.drop (n * (count - c))) := by
  induction fuel with
  | zero => intro c post h1 h2 h3; omega
  | succ fuel ih =>
    intro c post h1 h2 h3 h4
    rw [sequencesLoop, u32_of_lt h32]
    by_cases hc : c = count
    · subst hc
      simp
    · have hlt : n * c < n * count := Nat.mul_lt_mul_of_pos_left (by omega) hn
      rw [if_pos hlt]
      have hcs : n * (c + 1) ≤ n * count := Nat.mul_le_mul_left _ (by omega)
      have hnc : n ≤ n * c := Nat.le_mul_of_pos_right _ h1
      have hsub : n * (count - c) = n * (count - (c + 1)) + n := by
        rw [← Nat.mul_succ]; congr 1; omega
      obtain ⟨d, rfl⟩ : ∃ d, c = d + 1 := ⟨c - 1, by omega⟩
      have hlen := sequencesFrom_flatten_length hb hl (d + 1)
      have hlend := sequencesFrom_flatten_length hb hl d
      have hpl : n ≤ post.length := by omega
      set last := (incDigits base)^[d] l with hlast
      have hlastS : IsSequence base n last := iterate_isSequence hb hl d
      have hsrc : (((sequencesFrom base l (d + 1)).flatten ++ post).drop (n * (d + 1) - n)).take n = last := by
        rw [sequencesFrom_succ, List.flatten_append]
        simp only [List.flatten_singleton, List.append_assoc]
        rw [List.drop_left' (by rw [hlend, Nat.mul_succ]; omega), List.take_left' hlastS.1]
      have hcp : memcpy ((sequencesFrom base l (d + 1)).flatten ++ post) (n * (d + 1))
          ((sequencesFrom base l (d + 1)).flatten ++ post) (sub32 (n * (d + 1)) n) n
          = .ok ((sequencesFrom base l (d + 1)).flatten ++ (last ++ post.drop n)) := by
        rw [sub32_of_le hnc (by omega)]
        have := memcpy_at (sequencesFrom base l (d + 1)).flatten (post.take n) (post.drop n)
          ((sequencesFrom base l (d + 1)).flatten ++ post) (d := n * (d + 1)) (s := n * (d + 1) - n) (n := n)
          hlen.symm (by simp [hpl]) (by simp only [List.length_append, hlen]; omega)
        rw [hsrc, List.append_assoc, List.take_append_drop] at this
        rw [this, List.append_assoc]
      rw [hcp, ok_bind', sequenceIncrement,
        sequenceIncrementLoop_eq hb hb32 last _ _ n _ hlen.symm hlastS, ok_bind', u32_of_lt (by
          rw [Nat.mul_succ] at hcs; omega), ← Nat.mul_succ]
      have := ih (d + 1 + 1) (post.drop n) (by omega) (by omega) (by omega) (by simp; omega)
      rw [sequencesFrom_succ base l (d + 1), List.flatten_append, Function.iterate_succ_apply', ← hlast] at this
      simp only [List.flatten_singleton, List.append_assoc] at this
      rw [this, List.drop_drop, hsub, Nat.add_comm n]

/-- C63: `sp_times_sequences` writes `count` digit sequences one after the other, beginning with the first
one, each with the number one higher than the one before it (wrapping around), and leaves the rest of the
array as it is. -/
theorem C63_sequences (base n count fuel : Nat) (hb : 1 ≤ base) (hb32 : base < 4294967296) (hn : 1 ≤ n)
    (hcount : 1 ≤ count) (h32 : n * count < 4294967296) (out : Buf Nat) (hout : n * count ≤ out.length)
    (hfirst : ∀ x ∈ out.take n, x < base) (hfuel : count ≤ fuel) :
    ∃ seqs : List (List Nat), timesSequences base n count fuel out = .ok (seqs.flatten ++ out.drop (n * count)) ∧
      seqs.length = count ∧
      ∀ (j : Nat) (s : List Nat), seqs[j]? = some s →
        IsSequence base n s ∧ Nat.ofDigits base s = (Nat.ofDigits base (out.take n) + j) % base ^ n := by
  have hle : n ≤ n * count := Nat.le_mul_of_pos_right _ hcount
  have hl : IsSequence base n (out.take n) := ⟨by simp; omega, hfirst⟩
  have := sequencesLoop_eq hb hb32 hl hn h32 fuel 1 (out.drop n) (le_refl _) hcount (by omega) (by
    rw [Nat.mul_sub, List.length_drop]; omega)
  refine ⟨sequencesFrom base (out.take n) count, ?_, by simp [sequencesFrom], ?_⟩
  · rw [timesSequences]
    have h1 : (sequencesFrom base (out.take n) 1).flatten = out.take n := by simp [sequencesFrom]
    rw [h1, List.take_append_drop, Nat.mul_one, List.drop_drop] at this
    rw [this]
    congr 3
    rw [Nat.mul_sub]; omega
  · intro j s hs
    have : s = (incDigits base)^[j] (out.take n) := by
      rw [sequencesFrom, List.getElem?_map] at hs
      obtain ⟨a, ha, rfl⟩ := Option.map_eq_some_iff.1 hs
      have := List.getElem?_eq_some_iff.1 ha
      obtain ⟨h1, h2⟩ := this
      simp at h2
      rw [h2]
    rw [this]
    exact ⟨iterate_isSequence hb hl j, iterate_number hb hl j⟩

/-- `C63_sequences` on the numbers 3 to 6 of base two. -/
example : timesSequences 2 3 4 9 [1, 1, 0, 7, 7, 7, 7, 7, 7, 7, 7, 7, 8]
    = .ok [1, 1, 0, 0, 0, 1, 1, 0, 1, 0, 1, 1, 8] := rfl

/-- C63: with `base ^ n` sequences, every digit sequence is written exactly once, whichever the first is. -/
theorem C63_sequences_all (base n fuel : Nat) (hb : 1 ≤ base) (hb32 : base < 4294967296) (hn : 1 ≤ n)
    (h32 : n * base ^ n < 4294967296) (out : Buf Nat) (hout : n * base ^ n ≤ out.length)
    (hfirst : ∀ x ∈ out.take n, x < base) (hfuel : base ^ n ≤ fuel) :
    ∃ seqs : List (List Nat),
      timesSequences base n (base ^ n) fuel out = .ok (seqs.flatten ++ out.drop (n * base ^ n)) ∧
      seqs.Nodup ∧ ∀ s, s ∈ seqs ↔ s.length = n ∧ ∀ x ∈ s, x < base := by
  have hpos : 1 ≤ base ^ n := Nat.one_le_pow _ _ hb
  obtain ⟨seqs, h1, h2, h3⟩ := C63_sequences base n (base ^ n) fuel hb hb32 hn hpos h32 out hout hfirst hfuel
  refine ⟨seqs, h1, ?_, ?_⟩
  · rw [List.nodup_iff_getElem?_ne_getElem?]
    intro i j hij hj he
    obtain ⟨s, hs⟩ : ∃ s, seqs[j]? = some s := ⟨_, List.getElem?_eq_getElem hj⟩
    have hi := (h3 i s (by rw [he, hs])).2
    have hj' := (h3 j s hs).2
    rw [hi] at hj'
    have hm : i ≡ j [MOD base ^ n] := Nat.ModEq.add_left_cancel' _ hj'
    have := Nat.ModEq.eq_of_lt_of_lt hm (by omega) (by omega)
    omega
  · intro s
    constructor
    · intro hs
      obtain ⟨j, hj, rfl⟩ := List.mem_iff_getElem.1 hs
      exact (h3 j _ (List.getElem?_eq_getElem hj)).1
    · intro hs
      have hl : IsSequence base n (out.take n) :=
        ⟨by simp; exact le_trans (Nat.le_mul_of_pos_right _ hpos) hout, hfirst⟩
      set v := Nat.ofDigits base (out.take n) with hv
      have hvlt : v < base ^ n := number_lt hl
      set w := Nat.ofDigits base s with hw
      have hwlt : w < base ^ n := number_lt (base := base) (n := n) hs
      set j := (w + base ^ n - v) % base ^ n with hj
      have hjlt : j < seqs.length := by rw [h2]; exact Nat.mod_lt _ hpos
      obtain ⟨ha, hb'⟩ := h3 j _ (List.getElem?_eq_getElem hjlt)
      have : Nat.ofDigits base seqs[j] = w := by
        rw [hb', hj, Nat.add_mod_mod, show v + (w + base ^ n - v) = w + base ^ n by omega, Nat.add_mod_right,
          Nat.mod_eq_of_lt hwlt]
      rw [number_inj hs ha this.symm]
      exact List.getElem_mem hjlt

/-- `C63_sequences_all` on the numbers of base two with two digits, from 2 on. -/
example : timesSequences 2 2 4 4 [0, 1, 7, 7, 7, 7, 7, 7] = .ok [0, 1, 1, 1, 0, 0, 1, 0] := rfl

end Sp
