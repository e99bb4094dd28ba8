import Verif.Props.FloatConvolution
import Verif.Props.FloatSinc
import Verif.Spec.KernelSize
import Verif.Lemmas.Filter

/-! # The response of convolved and of added kernels in double precision -/

set_option linter.unusedSectionVars false

noncomputable section

namespace Sp
variable {rnd : ℚ → ℚ}

private theorem linear_cast (na nb : Nat) (u v : Nat → ℚ) (k : Nat) :
    ((linearConvolution (tab na u) (tab nb v) k : ℚ) : ℝ) =
      ∑ i ∈ Finset.range na, if i ≤ k then (u i : ℝ) * (tab nb fun j => (v j : ℝ)).getD (k - i) 0 else 0 := by
  rw [linearConvolution_eq, tab_length, Rat.cast_sum]
  refine Finset.sum_congr rfl fun i hi => ?_
  have hi' := Finset.mem_range.1 hi
  by_cases h : i ≤ k
  · rw [if_pos h, if_pos h, getD_tab, if_pos hi', getD_tab, getD_tab]
    by_cases h2 : k - i < nb
    · rw [if_pos h2, if_pos h2]; push_cast; rfl
    · rw [if_neg h2, if_neg h2, mul_zero, mul_zero]; exact Rat.cast_zero
  · rw [if_neg h, if_neg h]; exact Rat.cast_zero

private theorem linear_sum {na nb : Nat} (u v : Nat → ℚ) (ha : 0 < na) :
    ∑ k ∈ Finset.range (na + nb - 1), ((linearConvolution (tab na u) (tab nb v) k : ℚ) : ℝ) =
      (∑ i ∈ Finset.range na, (u i : ℝ)) * ∑ j ∈ Finset.range nb, (v j : ℝ) := by
  have h := convolve_response (na := na) (nb := nb) (f := fun i => (u i : ℝ)) (g := fun j => (v j : ℝ)) 1 ha
  simp only [one_pow, mul_one] at h
  simp only [linear_cast]
  exact_mod_cast h

theorem kernelSize_tab (n : Nat) (q : Nat → Fl rnd) : kernelSize (tab n q) = ∑ k ∈ Finset.range n, |((q k).val : ℝ)| := by
  rw [kernelSize, realValues, tab_map, tab_map, sum_tab]

private theorem linear_abs (na nb : Nat) (u v : Nat → ℚ) (k : Nat) :
    |((linearConvolution (tab na u) (tab nb v) k : ℚ) : ℝ)| ≤ ((linearConvolution (tab na fun i => |u i|) (tab nb fun j => |v j|) k : ℚ) : ℝ) := by
  rw [linear_cast, linear_cast]
  refine (Finset.abs_sum_le_sum_abs _ _).trans (Finset.sum_le_sum fun i _ => ?_)
  split
  · rw [abs_mul, getD_tab, getD_tab, Rat.cast_abs]
    refine mul_le_mul_of_nonneg_left ?_ (abs_nonneg _)
    split
    · rw [Rat.cast_abs]
    · rw [abs_zero]
  · rw [abs_zero]

/-- The largest error of the response of a convolved kernel, for lengths whose smaller one is `m`. -/
theorem convolution_response {na nb : Nat} (h : RoundsToNearest rnd) (f g : Nat → Fl rnd) (ha : 0 < na) (hb : 0 < nb) (h32 : na + nb ≤ 4294967296)
    (hf : ∑ k ∈ Finset.range na, |((f k).val : ℝ)| ≤ 17) (hg : ∑ k ∈ Finset.range nb, |((g k).val : ℝ)| ≤ 36) :
    ∃ out, convolveOne (tab na f) na (tab nb g) nb (List.replicate (na + nb - 1) 0) = .ok out ∧ out.length = na + nb - 1 ∧ kernelSize out ≤ 613 ∧
      ∀ r, ‖response (realValues out) r - response (realValues (tab na f)) r * response (realValues (tab nb g)) r‖ ≤ ((na + nb - 1 : Nat) : ℝ) / 2 ^ 41 := by
  obtain ⟨out, e1, e2, e3⟩ := C119_convolve_one h (tab na f) (tab nb g) (by rw [tab_length]; omega) (by rw [tab_length, tab_length]; exact h32)
  simp only [tab_length] at e1 e2 e3
  rw [← Nat.add_sub_assoc (by omega)] at e1 e2
  refine ⟨out, e1, e2, ?_⟩
  set N := na + nb - 1 with hN
  have hout : realValues out = tab N fun k => ((out.getD k 0).val : ℝ) := by
    refine List.ext_getElem (by rw [realValues, List.length_map, e2, tab_length]) fun k hk hk' => ?_
    simp only [realValues, List.length_map] at hk
    simp [realValues, tab, List.getD_eq_getElem?_getD, hk]
  have hf' : ∀ F : Fl rnd → ℝ, ∀ n (q : Nat → Fl rnd), (tab n q).map F = tab n fun k => F (q k) := fun F n q => tab_map ..
  set T : Nat → ℚ := fun k => linearConvolution (absValues (tab na f)) (absValues (tab nb g)) k with hT
  have hT' : ∀ k, T k = linearConvolution (tab na fun i => |(f i).val|) (tab nb fun j => |(g j).val|) k := by
    intro k; rw [hT, absValues, absValues, tab_map, tab_map]
  have hsum : ∑ k ∈ Finset.range N, (T k : ℝ) ≤ 612 := by
    simp only [hT']
    rw [hN, linear_sum _ _ ha]
    push_cast
    refine (mul_le_mul hf hg (Finset.sum_nonneg fun _ _ => abs_nonneg _) (by norm_num)).trans (by norm_num)
  have hT0 : ∀ k, (0 : ℝ) ≤ T k := by
    intro k
    rw [hT', linear_cast]
    refine Finset.sum_nonneg fun i _ => ?_
    split
    · refine mul_nonneg (by exact_mod_cast abs_nonneg _) ?_
      rw [getD_tab]
      split
      · exact_mod_cast abs_nonneg _
      · exact le_rfl
    · exact le_rfl
  have hTle : ∀ k < N, (T k : ℝ) ≤ 612 := fun k hk =>
    (Finset.single_le_sum (f := fun k => (T k : ℝ)) (fun i _ => hT0 i) (Finset.mem_range.2 hk)).trans hsum
  have herr : ∀ k ∈ Finset.range N, |((out.getD k 0).val : ℝ) - ((linearConvolution (tab na fun i => (f i).val) (tab nb fun j => (g j).val) k : ℚ) : ℝ)| ≤
      (((min na nb : Nat) : ℝ) + 1) * (1 / 2 ^ 52) * T k + 1 / 2 ^ 100 := by
    intro k hk
    have hk' := Finset.mem_range.1 hk
    have hTq : T k ≤ 612 := by exact_mod_cast hTle k hk'
    have := e3 k (by rw [e2]; exact hk') (by
      refine le_trans ?_ (le_doubleMax (e := 60) (by norm_num))
      have : 2 * T k + 1 ≤ 1225 := by linarith
      exact this.trans (by norm_num))
    rw [exactValues, exactValues, tab_map, tab_map] at this
    have h2 := (Rat.cast_le (K := ℝ)).2 this
    rw [Rat.cast_abs, Rat.cast_sub, dotErrorBound] at h2
    refine h2.trans ?_
    have hmin : ((min na nb : Nat) : ℝ) ≤ 2147483648 := by
      have : min na nb ≤ 2147483648 := by omega
      exact_mod_cast this
    have hm0 : (0 : ℝ) ≤ ((min na nb : Nat) : ℝ) := Nat.cast_nonneg _
    change ((_ * T k + _ : ℚ) : ℝ) ≤ _
    push_cast [← Nat.cast_min]
    have hz : (2 : ℝ) ^ (-1075 : ℤ) ≤ 1 / 2 ^ 200 := by
      rw [show (1 : ℝ) / 2 ^ 200 = 2 ^ (-200 : ℤ) by rw [zpow_neg, one_div]; rfl]
      exact zpow_le_zpow_right₀ (by norm_num) (by norm_num)
    have hz0 : (0 : ℝ) < (2 : ℝ) ^ (-1075 : ℤ) := by positivity
    have ht0 := hT0 k
    generalize (2 : ℝ) ^ (-1075 : ℤ) = z at *
    generalize (T k : ℝ) = t at *
    generalize ((min na nb : Nat) : ℝ) = m at *
    have hA : 0 ≤ (m + 1) * (1 / 2 ^ 53) * t := by positivity
    have hB : (1 + (m + 1) * (1 / 2 ^ 53 : ℝ)) ≤ 2 := by
      have : (m + 1) * (1 / 2 ^ 53 : ℝ) ≤ 2147483649 * (1 / 2 ^ 53) := mul_le_mul_of_nonneg_right (by linarith) (by norm_num)
      have h3 : (2147483649 : ℝ) * (1 / 2 ^ 53) ≤ 1 := by norm_num
      linarith
    have h4 : (m + 1) * (1 / 2 ^ 53) * (1 + (m + 1) * (1 / 2 ^ 53)) * t ≤ (m + 1) * (1 / 2 ^ 52) * t := by
      have := mul_le_mul_of_nonneg_left hB hA
      calc _ = (m + 1) * (1 / 2 ^ 53) * t * (1 + (m + 1) * (1 / 2 ^ 53)) := by ring
        _ ≤ (m + 1) * (1 / 2 ^ 53) * t * 2 := this
        _ = _ := by ring
    have h5 : 2 * m * z ≤ 1 / 2 ^ 100 := by
      have := mul_le_mul (by linarith : 2 * m ≤ 4294967296) hz hz0.le (by norm_num)
      refine this.trans (by norm_num)
    linarith
  have herrs : ∑ k ∈ Finset.range N,
      |((out.getD k 0).val : ℝ) - ((linearConvolution (tab na fun i => (f i).val) (tab nb fun j => (g j).val) k : ℚ) : ℝ)| ≤ (N : ℝ) / 2 ^ 41 := by
    refine (Finset.sum_le_sum herr).trans ?_
    rw [Finset.sum_add_distrib, ← Finset.mul_sum, Finset.sum_const, Finset.card_range, nsmul_eq_mul]
    have hmN : ((min na nb : Nat) : ℝ) ≤ N := by
      have : min na nb ≤ N := by omega
      exact_mod_cast this
    have hN1 : (1 : ℝ) ≤ N := by
      have : 1 ≤ N := by omega
      exact_mod_cast this
    have hm0 : (0 : ℝ) ≤ ((min na nb : Nat) : ℝ) := Nat.cast_nonneg _
    have h7 : (((min na nb : Nat) : ℝ) + 1) * (1 / 2 ^ 52) * ∑ k ∈ Finset.range N, (T k : ℝ) ≤ (2 * N) * (1 / 2 ^ 52) * 612 := by
      refine mul_le_mul ?_ hsum (Finset.sum_nonneg fun i _ => hT0 i) (by positivity)
      exact mul_le_mul_of_nonneg_right (by linarith) (by norm_num)
    refine (add_le_add_left h7 _).trans ?_
    generalize (N : ℝ) = n at *
    have : 2 * n * (1 / 2 ^ 52) * 612 + n * (1 / 2 ^ 100) = n * (2 * (1 / 2 ^ 52) * 612 + 1 / 2 ^ 100) := by ring
    rw [this, div_eq_mul_inv]
    exact mul_le_mul_of_nonneg_left (by norm_num) (by linarith)
  refine ⟨?_, fun r => ?_⟩
  · rw [kernelSize, hout, tab_map, sum_tab]
    have hone : ∀ k ∈ Finset.range N, |((out.getD k 0).val : ℝ)| ≤
        |((out.getD k 0).val : ℝ) - ((linearConvolution (tab na fun i => (f i).val) (tab nb fun j => (g j).val) k : ℚ) : ℝ)| + T k := by
      intro k _
      have h1 := linear_abs na nb (fun i => (f i).val) (fun j => (g j).val) k
      rw [← hT'] at h1
      have h2 := abs_add_le (((out.getD k 0).val : ℝ) - ((linearConvolution (tab na fun i => (f i).val) (tab nb fun j => (g j).val) k : ℚ) : ℝ))
        ((linearConvolution (tab na fun i => (f i).val) (tab nb fun j => (g j).val) k : ℚ) : ℝ)
      rw [sub_add_cancel] at h2
      linarith
    refine (Finset.sum_le_sum hone).trans ?_
    rw [Finset.sum_add_distrib]
    have hN2 : (N : ℝ) / 2 ^ 41 ≤ 1 := by
      have : N ≤ 4294967296 := by omega
      have : (N : ℝ) ≤ 4294967296 := by exact_mod_cast this
      rw [div_le_one (by norm_num)]
      refine this.trans (by norm_num)
    linarith
  · rw [hout, realValues, realValues, hf', hf', response_tab (na), response_tab (nb), ← convolve_response (fexp r) ha, ← response_tab]
    refine (response_difference N _ _ r).trans ?_
    have hsum2 := herrs
    simp only [linear_cast] at hsum2
    exact hsum2

private theorem map_val (n : Nat) (q : Nat → Fl rnd) : realValues (tab n q) = tab n fun k => ((q k).val : ℝ) := by
  rw [realValues, tab_map]

/-- The response of a sum of kernels. -/
theorem addMiddle_response {na nb s : Nat} (h : RoundsToNearest rnd) (f g : Nat → Fl rnd) (hs : s + nb ≤ na) {A B : ℝ}
    (hf : ∑ k ∈ Finset.range na, |((f k).val : ℝ)| ≤ A) (hg : ∑ k ∈ Finset.range nb, |((g k).val : ℝ)| ≤ B) (hAB : A + B ≤ 60) :
    kernelSize (tab na (addMiddle s nb f g)) ≤ A + B + (na : ℝ) / 2 ^ 42 ∧ ∀ r,
    ‖response (realValues (tab na (addMiddle s nb f g))) r -
      (response (realValues (tab na f)) r + delayResponse s r * response (realValues (tab nb g)) r)‖ ≤ (na : ℝ) / 2 ^ 42 := by
  have hel : ∀ k ∈ Finset.range na, |((addMiddle s nb f g k).val : ℝ) - addMiddle s nb (fun k => ((f k).val : ℝ)) (fun k => ((g k).val : ℝ)) k| ≤ 1 / 2 ^ 46 := by
    intro k hk
    rw [addMiddle, addMiddle]
    by_cases hc : s ≤ k ∧ k < nb + s
    · rw [if_pos hc, if_pos hc, Fl.add_val]
      have h1 : |((f k).val : ℝ)| ≤ A := (Finset.single_le_sum (f := fun k => |((f k).val : ℝ)|) (fun _ _ => abs_nonneg _) hk).trans hf
      have h2 : |((g (k - s)).val : ℝ)| ≤ B :=
        (Finset.single_le_sum (f := fun k => |((g k).val : ℝ)|) (fun _ _ => abs_nonneg _) (Finset.mem_range.2 (by omega))).trans hg
      have h3 := abs_add_le ((g (k - s)).val : ℝ) ((f k).val : ℝ)
      have hq : |(((g (k - s)).val + (f k).val : ℚ) : ℝ)| ≤ 60 := by
        rw [Rat.cast_add]; linarith
      have h4 := rnd_real h (hq.trans (le_trans (by norm_num) (fmax_ge (e := 60) (by norm_num))))
      rw [Rat.cast_add] at h4 hq
      rw [fu] at h4
      have h5 := feta_le
      refine h4.trans ?_
      have h6 : (1 : ℝ) / 2 ^ 200 ≤ 1 / 2 ^ 60 := by norm_num
      linarith
    · rw [if_neg hc, if_neg hc, sub_self, abs_zero]; norm_num
  have hels : ∑ k ∈ Finset.range na, |((addMiddle s nb f g k).val : ℝ) - addMiddle s nb (fun k => ((f k).val : ℝ)) (fun k => ((g k).val : ℝ)) k| ≤
      (na : ℝ) / 2 ^ 42 := by
    refine (Finset.sum_le_sum hel).trans ?_
    rw [Finset.sum_const, Finset.card_range, nsmul_eq_mul, div_eq_mul_inv]
    exact mul_le_mul_of_nonneg_left (by norm_num) (Nat.cast_nonneg _)
  refine ⟨?_, fun r => ?_⟩
  · rw [kernelSize_tab]
    have hone : ∀ k ∈ Finset.range na, |((addMiddle s nb f g k).val : ℝ)| ≤
        |((addMiddle s nb f g k).val : ℝ) - addMiddle s nb (fun k => ((f k).val : ℝ)) (fun k => ((g k).val : ℝ)) k| +
          (|((f k).val : ℝ)| + if s ≤ k ∧ k < nb + s then |((g (k - s)).val : ℝ)| else 0) := by
      intro k _
      have h2 := abs_add_le (((addMiddle s nb f g k).val : ℝ) - addMiddle s nb (fun k => ((f k).val : ℝ)) (fun k => ((g k).val : ℝ)) k)
        (addMiddle s nb (fun k => ((f k).val : ℝ)) (fun k => ((g k).val : ℝ)) k)
      rw [sub_add_cancel] at h2
      refine h2.trans (add_le_add_right ?_ _)
      rw [addMiddle]
      split
      · have := abs_add_le ((g (k - s)).val : ℝ) ((f k).val : ℝ)
        linarith
      · rw [add_zero]
    refine (Finset.sum_le_sum hone).trans ?_
    rw [Finset.sum_add_distrib, Finset.sum_add_distrib]
    have hG : ∑ k ∈ Finset.range na, (if s ≤ k ∧ k < nb + s then |((g (k - s)).val : ℝ)| else 0) = ∑ k ∈ Finset.range nb, |((g k).val : ℝ)| := by
      rw [← Finset.sum_filter]
      refine (Finset.sum_nbij' (fun k => k - s) (fun k => k + s) ?_ ?_ ?_ ?_ ?_)
      · intro k hk
        simp only [Finset.mem_filter, Finset.mem_range] at hk ⊢
        omega
      · intro k hk
        simp only [Finset.mem_filter, Finset.mem_range] at hk ⊢
        omega
      · intro k hk
        simp only [Finset.mem_filter, Finset.mem_range] at hk ⊢
        omega
      · intro k hk
        omega
      · intro k _
        rfl
    rw [hG]
    linarith
  · rw [map_val, map_val, map_val, ← response_addMiddle hs]
    exact (response_difference na _ _ r).trans hels

end Sp
