import Verif.Lemmas.Convolve
import Verif.Spec.Convolution
import Mathlib.Data.List.GetD
import Mathlib.Algebra.Order.BigOperators.Group.List
import Mathlib.Algebra.BigOperators.NatAntidiagonal
import Mathlib.Algebra.BigOperators.Ring.Finset

/-!
# C01, C02, C03: convolution
-/

set_option linter.unusedSectionVars false

namespace Sp

/-! ## Connections between specification and the accumulation of the lemmas -/

theorem convAcc_eq_foldl {S : Type _} [Add S] [Mul S] (a b : Nat → S) (bLen k : Nat)
    (init : S) (n : Nat) :
    convAcc a b bLen k init n = ((List.range n).filter (fun i => i ≤ k ∧ k - i < bLen)).foldl
      (fun acc i => acc + a i * b (k - i)) init := by
  induction n with
  | zero => rfl
  | succ n ih =>
    rw [List.range_succ, List.filter_append, List.foldl_append, ← ih]
    by_cases h : n ≤ k ∧ k - n < bLen
    · simp [convAcc, h]
    · simp [convAcc, h]

theorem convAcc_eq_sum {S : Type _} [CommSemiring S] (a b : List S) (k : Nat) (init : S) (n : Nat) :
    convAcc (fun i => a.getD i 0) (fun i => b.getD i 0) b.length k init n =
      init + ∑ i ∈ Finset.range n, if i ≤ k then a.getD i 0 * b.getD (k - i) 0 else 0 := by
  induction n with
  | zero => simp [convAcc]
  | succ n ih =>
    rw [Finset.sum_range_succ, ← add_assoc, ← ih]
    by_cases h : n ≤ k ∧ k - n < b.length
    · rw [convAcc, if_pos h, if_pos h.1]
    · rw [convAcc, if_neg h]
      by_cases h1 : n ≤ k
      · have : b.getD (k - n) 0 = 0 := by
          rw [List.getD_eq_default]; omega
        rw [if_pos h1, this]; simp
      · rw [if_neg h1]; simp

theorem linearConvolution_eq {S : Type _} [CommSemiring S] (a b : List S) (k : Nat) :
    linearConvolution a b k =
      ∑ i ∈ Finset.range a.length, if i ≤ k then a.getD i 0 * b.getD (k - i) 0 else 0 := by
  unfold linearConvolution
  rw [Finset.Nat.sum_antidiagonal_eq_sum_range_succ (fun i j => a.getD i 0 * b.getD j 0),
    ← Finset.sum_filter]
  -- both are the sum over i ≤ k, i < a.length
  have h1 : (Finset.range a.length).filter (fun i => i ≤ k) =
      (Finset.range k.succ).filter (fun i => i < a.length) := by
    ext i; simp only [Finset.mem_filter, Finset.mem_range]; omega
  rw [h1, Finset.sum_filter]
  apply Finset.sum_congr rfl
  intro i _
  split
  · rfl
  · next h => rw [List.getD_eq_default _ _ (by omega)]; simp

/-! ## C01 -/

/-- **C01.** `sp_convolve_one` adds the linear convolution to `out` (which the caller provides as
zeros), for every cell; cells past `a_len + b_len - 2` are therefore unchanged, since the convolution
is zero there; no access outside the arrays. -/
theorem C01_convolve_one {S : Type _} [CommSemiring S] (a b out : Buf S)
    (hout : a.length + b.length - 1 ≤ out.length)
    (h32 : a.length + b.length ≤ 4294967296) :
    ∃ out', convolveOne a a.length b b.length out = .ok out' ∧ out'.length = out.length ∧
      ∀ k, k < out.length → out'[k]? = some (out.getD k 0 + linearConvolution a b k) := by
  have h := convolveOne_tab (a := fun i => a.getD i 0) (b := fun i => b.getD i 0)
    (f := fun i => out.getD i 0) (na := a.length) (nb := b.length) (n := out.length)
    (aLen := a.length) (bLen := b.length) le_rfl le_rfl (by omega) (by omega)
  rw [← eq_tab, ← eq_tab, ← eq_tab] at h
  refine ⟨_, h, by simp, ?_⟩
  intro k hk
  rw [tab_getElem?, if_pos hk, convAcc_eq_sum, linearConvolution_eq]

/-- The convolution is zero past the documented output length. -/
theorem C01_tail_unchanged {S : Type _} [CommSemiring S] (a b : List S) (k : Nat)
    (hk : a.length + b.length - 1 ≤ k) : linearConvolution a b k = 0 := by
  unfold linearConvolution
  apply Finset.sum_eq_zero
  intro p hp
  rw [Finset.mem_antidiagonal] at hp
  by_cases h : p.1 < a.length
  · rw [List.getD_eq_default b 0 (by omega), mul_zero]
  · rw [List.getD_eq_default a 0 (by omega), zero_mul]

/-- The hypotheses of C01 are met and the result is the expected one in a concrete case. -/
example : convolveOne [1, 2, 3] 3 [10, 100] 2 [0, 0, 0, 0, 7] = .ok [10, 120, 230, 300, (7 : Int)] := by
  rfl

/-! ## C02 -/

/-- **C02.** For samples with arbitrary operations (so also floating point): feeding a stream
block by block, with the first call's `carryover_len` either zero or `b_len - 1`, gives the
convolution of the whole stream; the outputs one after the other followed by the final carryover
are exactly the ordered convolution. -/
theorem C02_convolve_blocks {S : Type _} [Zero S] [Add S] [Mul S] (junk : S) (b : Buf S)
    (hb : 1 ≤ b.length) (blocks : List (Buf S))
    (h32 : ∀ a ∈ blocks, a.length + b.length ≤ 4294967296)
    (firstLen : Nat) (hfirst : firstLen = 0 ∨ firstLen = b.length - 1) :
    ∃ outs carry, convolveBlocks junk b blocks firstLen (List.replicate (b.length - 1) 0) =
        .ok (outs, carry) ∧
      outs.map List.length = blocks.map List.length ∧ carry.length = b.length - 1 ∧
      outs.flatten ++ carry = (List.range (blocks.flatten.length + (b.length - 1))).map
        (orderedConvolution blocks.flatten b) := by
  obtain ⟨outs, carry, h1, h2, h3, h4⟩ := convolveBlocks_tab junk b hb blocks h32 firstLen
    (by omega) (fun _ => 0) (fun _ _ => rfl)
  rw [← tab_replicate] at h1
  refine ⟨outs, carry, h1, h2, h3, ?_⟩
  rw [h4]
  unfold tab
  congr 1
  funext k
  rw [convAcc_eq_foldl]
  rfl

/-- **C02, the one-shot side.** `sp_convolve_one` over the whole stream gives the same samples, so
block-wise and one-shot results are identical. -/
theorem C02_one_shot {S : Type _} [Zero S] [Add S] [Mul S] (x b : Buf S)
    (hb : 1 ≤ b.length) (h32 : x.length + b.length ≤ 4294967296) :
    convolveOne x x.length b b.length (List.replicate (x.length + (b.length - 1)) 0) =
      .ok ((List.range (x.length + (b.length - 1))).map (orderedConvolution x b)) := by
  have h := convolveOne_tab (a := fun i => x.getD i 0) (b := fun i => b.getD i 0)
    (f := fun _ => 0) (na := x.length) (nb := b.length) (n := x.length + (b.length - 1))
    (aLen := x.length) (bLen := b.length) le_rfl le_rfl (by omega) (by omega)
  rw [← eq_tab, ← eq_tab, ← tab_replicate] at h
  rw [h]
  unfold tab
  congr 2
  funext k
  rw [convAcc_eq_foldl]
  rfl

/-- **C02, combined**: block-wise equals one-shot, whatever the division into blocks. -/
theorem C02_blocks_eq_one_shot {S : Type _} [Zero S] [Add S] [Mul S] (junk : S) (b : Buf S)
    (hb : 1 ≤ b.length) (blocks : List (Buf S))
    (h32 : blocks.flatten.length + b.length ≤ 4294967296) :
    ∃ outs carry, convolveBlocks junk b blocks 0 (List.replicate (b.length - 1) 0) =
        .ok (outs, carry) ∧
      outs.map List.length = blocks.map List.length ∧
      convolveOne blocks.flatten blocks.flatten.length b b.length
        (List.replicate (blocks.flatten.length + (b.length - 1)) 0) = .ok (outs.flatten ++ carry) := by
  obtain ⟨outs, carry, h1, h2, _, h4⟩ := C02_convolve_blocks junk b hb blocks (by
    intro a ha
    have : a.length ≤ blocks.flatten.length := by
      rw [List.length_flatten]
      exact List.single_le_sum (by simp) _ (List.mem_map_of_mem ha)
    omega) 0 (Or.inl rfl)
  exact ⟨outs, carry, h1, h2, by rw [C02_one_shot _ _ hb h32, h4]⟩

/-- A concrete run with blocks longer, equal and shorter than the carryover, and an empty one. -/
example : convolveBlocks 9 [1, 10, 100] [[1, 2, 3, 4], [5], [], [6, 7]] 0 [0, 0] =
    .ok ([[1, 12, 123, 234], [345], [], [456, 567]], [670, (700 : Int)]) := by
  rfl

/-! ## C03 -/

/-- **C03.** `sp_convolve` stays inside its arrays for all contents and all lengths: every access of
the model is bounds checked, and the call succeeds and keeps the array lengths. -/
theorem C03_convolve_in_bounds {S : Type _} [Zero S] [Add S] [Mul S] (a b carry out : Buf S)
    (carryLen : Nat) (hb : 1 ≤ b.length) (hout : out.length = a.length)
    (hcarry : max (b.length - 1) carryLen ≤ carry.length)
    (h32 : a.length + b.length ≤ 4294967296) :
    ∃ out' carry', convolve a a.length b b.length carryLen carry out = .ok (out', carry') ∧
      out'.length = out.length ∧ carry'.length = carry.length := by
  obtain ⟨c1, c2, h⟩ := convolvePrepare_ok (c := fun i => carry.getD i 0)
    (o := fun i => out.getD i 0) (aLen := a.length) (carryLen := carryLen) (nc := carry.length)
    (no := out.length) (by omega) (by omega)
  rw [← eq_tab, ← eq_tab, hout] at h
  have h2 := convolve_of_prepare (a := fun i => a.getD i 0) (b := fun i => b.getD i 0)
    (g := fun k => if k < a.length then c1 k else c2 (k - a.length))
    (carry := carry) (out := out) (na := a.length) (nb := b.length) (nc := carry.length)
    (aLen := a.length) (bLen := b.length) (carryLen := carryLen) le_rfl le_rfl hb (by omega) h32
    (by
      rw [h]
      congr 2
      · apply tab_congr; intro k hk; simp [hk]
      · apply tab_congr; intro k hk; simp)
  rw [← eq_tab, ← eq_tab] at h2
  exact ⟨_, _, h2, by simp [hout], by simp⟩

/-- The bound is sharp: with a carryover array shorter than `b_len - 1` the call writes outside it. -/
theorem C03_needs_carryover_space :
    convolve [1] 1 [1, 2, 3] 3 0 [0] [(0 : Int)] = .error .outOfBounds := by rfl

/-- Concrete case for the hypotheses of C03: a carryover longer than the block and than `b_len - 1`. -/
example : convolve [1, 2] 2 [1, 1] 2 3 [5, 6, 7] [0, 0] = .ok ([6, 9], [9, 0, (0 : Int)]) := by rfl

end Sp
