import Verif.Props.Convolution
import Verif.Lemmas.FloatDot

/-!
# C119: the accuracy of convolution in floating point arithmetic

The samples are double precision numbers, additions and multiplications round to nearest
(`Fl rnd`, Spec/Float.lean). The exact result is `linearConvolution` over the rational numbers.
-/

set_option linter.unusedSectionVars false

namespace Sp
variable {rnd : ℚ → ℚ}

/-- The numbers that samples stand for. -/
def exactValues (x : List (Fl rnd)) : List ℚ := x.map Fl.val

/-- Their absolute values. -/
def absValues (x : List (Fl rnd)) : List ℚ := x.map fun v => |v.val|

/-- The largest error for `n` terms whose absolute values sum up to `T`: slightly more than `n + 1` half units in the last
place of `T`, and twice the smallest possible rounding error for each term. -/
def dotErrorBound (n : Nat) (T : ℚ) : ℚ :=
  (n + 1) * (1 / 2 ^ 53) * (1 + (n + 1) * (1 / 2 ^ 53)) * T + 2 * n * (2 : ℚ) ^ (-1075 : ℤ)

theorem dotErrorBound_mono {n m : Nat} {T : ℚ} (h : n ≤ m) (hT : 0 ≤ T) : dotErrorBound n T ≤ dotErrorBound m T := by
  have hq : (n : ℚ) ≤ m := by exact_mod_cast h
  have h0 : (0 : ℚ) ≤ n := Nat.cast_nonneg n
  have h1 : ((n : ℚ) + 1) * (1 / 2 ^ 53) ≤ (m + 1) * (1 / 2 ^ 53) := by
    apply mul_le_mul_of_nonneg_right (by linarith); positivity
  have h2 : (0 : ℚ) ≤ (n + 1) * (1 / 2 ^ 53) := by positivity
  have h3 := mul_le_mul h1 (show 1 + ((n : ℚ) + 1) * (1 / 2 ^ 53) ≤ 1 + (m + 1) * (1 / 2 ^ 53) by linarith) (by linarith) (by linarith)
  have h4 := mul_le_mul_of_nonneg_right h3 hT
  have h5 := mul_le_mul_of_nonneg_right (show 2 * (n : ℚ) ≤ 2 * m by linarith) (two_zpow_pos (-1075)).le
  unfold dotErrorBound
  linarith

/-- The pairs of samples that are multiplied for sample `k`. -/
private def convPairs (x b : List (Fl rnd)) (k : Nat) : List (Fl rnd × Fl rnd) :=
  ((List.range x.length).filter (fun i => i ≤ k ∧ k - i < b.length)).map fun i => (x.getD i 0, b.getD (k - i) 0)

private theorem orderedConvolution_pairs (x b : List (Fl rnd)) (k : Nat) :
    orderedConvolution x b k = (convPairs x b k).foldl (fun acc p => acc + p.1 * p.2) 0 := by
  rw [convPairs, List.foldl_map]
  rfl

private theorem getD_map_zero {f : Fl rnd → ℚ} (hf : f 0 = 0) (x : List (Fl rnd)) (i : Nat) : (x.map f).getD i 0 = f (x.getD i 0) := by
  by_cases h : i < x.length
  · simp [List.getD_eq_getElem?_getD, h]
  · rw [List.getD_eq_default _ _ (by simpa using h), List.getD_eq_default _ _ (by simpa using h), hf]

private theorem sum_pairs (f : Fl rnd → ℚ) (hf : f 0 = 0) (x b : List (Fl rnd)) (k n : Nat) :
    ((((List.range n).filter (fun i => i ≤ k ∧ k - i < b.length)).map fun i => (x.getD i 0, b.getD (k - i) 0)).map
      fun p => f p.1 * f p.2).sum =
    ∑ i ∈ Finset.range n, if i ≤ k then (x.map f).getD i 0 * (b.map f).getD (k - i) 0 else 0 := by
  induction n with
  | zero => simp
  | succ n ih =>
    rw [List.range_succ, List.filter_append, List.map_append, List.map_append, List.sum_append, ih, Finset.sum_range_succ]
    congr 1
    by_cases h1 : n ≤ k
    · rw [if_pos h1, getD_map_zero hf, getD_map_zero hf]
      by_cases h2 : k - n < b.length
      · simp [List.filter_cons, h1, h2]
      · rw [List.getD_eq_default b _ (by omega), hf]
        simp [List.filter_cons, h2]
    · simp [List.filter_cons, h1]

private theorem exactDot_pairs (x b : List (Fl rnd)) (k : Nat) :
    exactDot (convPairs x b k) = linearConvolution (exactValues x) (exactValues b) k := by
  rw [linearConvolution_eq, exactDot, convPairs, sum_pairs Fl.val rfl]
  simp [exactValues]

private theorem absDot_pairs (x b : List (Fl rnd)) (k : Nat) :
    absDot (convPairs x b k) = linearConvolution (absValues x) (absValues b) k := by
  rw [linearConvolution_eq, absDot, convPairs]
  simp only [abs_mul]
  rw [sum_pairs (fun v => |v.val|) (by simp)]
  simp [absValues]

private theorem length_pairs (x b : List (Fl rnd)) (k : Nat) : (convPairs x b k).length ≤ min x.length b.length := by
  rw [convPairs, List.length_map]
  refine le_min ((List.length_filter_le _ _).trans (by simp)) ?_
  -- the second index is injective and below the length of b
  have h1 : (((List.range x.length).filter (fun i => i ≤ k ∧ k - i < b.length)).map fun i => k - i).Nodup := by
    refine List.Nodup.map_on ?_ (List.nodup_range.filter _)
    intro i hi j hj e
    simp only [List.mem_filter, decide_eq_true_eq] at hi hj
    omega
  have h2 : (((List.range x.length).filter (fun i => i ≤ k ∧ k - i < b.length)).map fun i => k - i) ⊆ List.range b.length := by
    intro j hj
    obtain ⟨i, hi, rfl⟩ := List.mem_map.1 hj
    simp only [List.mem_filter, decide_eq_true_eq] at hi
    simpa using hi.2.2
  have h3 := (h1.subperm h2).length_le
  simpa using h3

theorem orderedConvolution_error (h : RoundsToNearest rnd) (x b : List (Fl rnd)) (k : Nat) (hn : b.length ≤ 4294967296)
    (hmax : 2 * linearConvolution (absValues x) (absValues b) k + 1 ≤ doubleMax) :
    |(orderedConvolution x b k).val - linearConvolution (exactValues x) (exactValues b) k| ≤
      dotErrorBound (min x.length b.length) (linearConvolution (absValues x) (absValues b) k) := by
  have hl := length_pairs x b k
  have hm : min x.length b.length ≤ 4294967296 := by omega
  have he := dot_error h (convPairs x b k) (by norm_num; omega) (by rw [absDot_pairs]; exact hmax)
  have h0 := absDot_nonneg (convPairs x b k)
  rw [← orderedConvolution_pairs, exactDot_pairs] at he
  refine he.trans ?_
  rw [← absDot_pairs]
  exact dotErrorBound_mono hl h0

/-- **C119.** `sp_convolve_one` in double precision into a cleared output: every sample differs from the exact convolution by at
most about `(n + 1) / 2^53` times the convolution of the absolute values, `n` the length of the shorter array. The only
hypothesis about values is that the convolution of the absolute values stays below half of the largest double. -/
theorem C119_convolve_one (h : RoundsToNearest rnd) (x b : Buf (Fl rnd)) (hb : 1 ≤ b.length) (h32 : x.length + b.length ≤ 4294967296) :
    ∃ out, convolveOne x x.length b b.length (List.replicate (x.length + (b.length - 1)) 0) = .ok out ∧
      out.length = x.length + (b.length - 1) ∧
      ∀ k, k < out.length → 2 * linearConvolution (absValues x) (absValues b) k + 1 ≤ doubleMax →
        |(out.getD k 0).val - linearConvolution (exactValues x) (exactValues b) k| ≤
          dotErrorBound (min x.length b.length) (linearConvolution (absValues x) (absValues b) k) := by
  refine ⟨_, C02_one_shot x b hb h32, by simp, ?_⟩
  intro k hk hmax
  have e : ((List.range (x.length + (b.length - 1))).map (orderedConvolution x b)).getD k 0 = orderedConvolution x b k := by
    simp only [List.length_map, List.length_range] at hk
    simp [List.getD_eq_getElem?_getD, hk]
  rw [e]
  exact orderedConvolution_error h x b k (by omega) hmax

/-- **C119.** The same for a stream that is convolved in blocks of any lengths with carryover: the error does not depend on the
number of blocks or on where they begin, and does not grow with the length of the stream. -/
theorem C119_convolve_blocks (h : RoundsToNearest rnd) (junk : Fl rnd) (b : Buf (Fl rnd)) (hb : 1 ≤ b.length)
    (blocks : List (Buf (Fl rnd))) (h32 : blocks.flatten.length + b.length ≤ 4294967296) :
    ∃ outs carry, convolveBlocks junk b blocks 0 (List.replicate (b.length - 1) 0) = .ok (outs, carry) ∧
      outs.map List.length = blocks.map List.length ∧
      ∀ k, k < (outs.flatten ++ carry).length →
        2 * linearConvolution (absValues blocks.flatten) (absValues b) k + 1 ≤ doubleMax →
        |((outs.flatten ++ carry).getD k 0).val - linearConvolution (exactValues blocks.flatten) (exactValues b) k| ≤
          dotErrorBound b.length (linearConvolution (absValues blocks.flatten) (absValues b) k) := by
  obtain ⟨outs, carry, h1, h2, h3⟩ := C02_blocks_eq_one_shot junk b hb blocks h32
  refine ⟨outs, carry, h1, h2, ?_⟩
  obtain ⟨out, g1, _, g3⟩ := C119_convolve_one h blocks.flatten b hb h32
  have he : out = outs.flatten ++ carry := by
    rw [g1] at h3
    exact Except.ok.inj h3
  rw [← he]
  intro k hk hmax
  refine (g3 k hk hmax).trans (dotErrorBound_mono (min_le_right _ _) ?_)
  rw [← absDot_pairs]
  exact absDot_nonneg _

/-- The bound for a filter with 100 coefficients and samples below one: less than 10^-13 times the sum of the coefficients. -/
example : dotErrorBound 100 1 ≤ 1 / 10 ^ 13 := by
  have h : (2 : ℚ) ^ (-1075 : ℤ) ≤ 2 ^ (-100 : ℤ) := two_zpow_le (by norm_num)
  have e : (2 : ℚ) ^ (-100 : ℤ) = 1 / 2 ^ 100 := by rw [zpow_neg, one_div]; rfl
  rw [e] at h
  unfold dotErrorBound
  norm_num at h ⊢
  linarith

/-- A case where rounding matters: 1 and a number below half of its last place; the hypothesis about the largest double holds. -/
example (h : RoundsToNearest rnd) :
    ∃ out, convolveOne [(⟨1⟩ : Fl rnd), ⟨1 / 2 ^ 54⟩] 2 [(⟨1⟩ : Fl rnd), ⟨1⟩] 2 [0, 0, 0] = .ok out ∧
      |(out.getD 1 0).val - (1 + 1 / 2 ^ 54)| ≤ dotErrorBound 2 (1 + 1 / 2 ^ 54) := by
  obtain ⟨out, h1, h2, h3⟩ := C119_convolve_one h [(⟨1⟩ : Fl rnd), ⟨1 / 2 ^ 54⟩] [(⟨1⟩ : Fl rnd), ⟨1⟩] (by simp) (by simp)
  have e1 : linearConvolution (absValues [(⟨1⟩ : Fl rnd), ⟨1 / 2 ^ 54⟩]) (absValues [(⟨1⟩ : Fl rnd), ⟨1⟩]) 1 = 1 + 1 / 2 ^ 54 := by
    simp [linearConvolution, absValues, Finset.Nat.antidiagonal_succ]
  have e2 : linearConvolution (exactValues [(⟨1⟩ : Fl rnd), ⟨1 / 2 ^ 54⟩]) (exactValues [(⟨1⟩ : Fl rnd), ⟨1⟩]) 1 = 1 + 1 / 2 ^ 54 := by
    simp [linearConvolution, exactValues, Finset.Nat.antidiagonal_succ]
  refine ⟨out, h1, ?_⟩
  have h4 := h3 1 (by rw [h2]; simp) (by
    rw [e1]
    refine le_trans ?_ (le_doubleMax (e := 100) (by norm_num))
    norm_num)
  rw [e1, e2] at h4
  exact h4

end Sp
