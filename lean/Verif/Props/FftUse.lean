import Verif.Props.Fft
import Verif.Props.FloatFft
import Verif.Props.Convolution
import Mathlib.Algebra.Polynomial.Eval.Degree
import Mathlib.Tactic.IntervalCases

/-! # C178: energy and convolution in the frequency domain -/

set_option linter.unusedSectionVars false

noncomputable section

namespace Sp
variable {rnd : ℚ → ℚ}

private theorem dft_energy {n : Nat} (x : Nat → ℂ) :
    ∑ k ∈ Finset.range n, ‖dft n x k‖ ^ 2 = n * ∑ t ∈ Finset.range n, ‖x t‖ ^ 2 := by
  have key : ((∑ k ∈ Finset.range n, ‖dft n x k‖ ^ 2 : ℝ) : ℂ) = ((n * ∑ t ∈ Finset.range n, ‖x t‖ ^ 2 : ℝ) : ℂ) := by
    push_cast
    have h1 : ∀ z : ℂ, ((‖z‖ : ℝ) : ℂ) ^ 2 = z * (starRingEnd ℂ) z := fun z => (Complex.mul_conj' z).symm
    simp only [h1]
    have h2 : ∀ k, (starRingEnd ℂ) (dft n x k) = ∑ t ∈ Finset.range n, (starRingEnd ℂ) (x t) * fexp (-((t * k : ℝ) / n)) := by
      intro k
      rw [dft_eq, map_sum]
      exact Finset.sum_congr rfl fun t _ => by rw [map_mul, conj_fexp]
    calc ∑ k ∈ Finset.range n, dft n x k * (starRingEnd ℂ) (dft n x k)
        = ∑ k ∈ Finset.range n, ∑ t ∈ Finset.range n, (starRingEnd ℂ) (x t) * (dft n x k * fexp (-((k * t : ℝ) / n))) := by
          refine Finset.sum_congr rfl fun k _ => ?_
          rw [h2, Finset.mul_sum]
          refine Finset.sum_congr rfl fun t _ => ?_
          rw [mul_comm (k : ℝ)]
          ring
      _ = ∑ t ∈ Finset.range n, (starRingEnd ℂ) (x t) * idft n (dft n x) t := by
          rw [Finset.sum_comm]
          exact Finset.sum_congr rfl fun t _ => by rw [idft, Finset.mul_sum]
      _ = ∑ t ∈ Finset.range n, (n : ℂ) * (x t * (starRingEnd ℂ) (x t)) := by
          refine Finset.sum_congr rfl fun t ht => ?_
          rw [idft_dft x (Finset.mem_range.1 ht)]
          ring
      _ = _ := by rw [Finset.mul_sum]
  exact_mod_cast key

/-- **C178, energy.** The sum of the squares of the absolute values of the result of `sp_fft` is `n` times that of the input, for every length. -/
theorem C178_energy {n : Nat} {re im : List ℝ} (hn : n < 4294967296) (hlen : im.length = re.length) (hle : n ≤ re.length) :
    ∃ re' im', spFft n re im = .ok (0, re', im') ∧
      ∑ k ∈ Finset.range n, ‖complexAt re' im' k‖ ^ 2 = n * ∑ t ∈ Finset.range n, ‖complexAt re im t‖ ^ 2 := by
  obtain ⟨re', im', h1, -, -, h2, -⟩ := C71_dft hn hlen hle
  refine ⟨re', im', h1, ?_⟩
  rw [← dft_energy]
  exact Finset.sum_congr rfl fun k hk => by rw [h2 k (Finset.mem_range.1 hk)]

/-- Non-vacuity: seven elements of longer arrays. -/
example : ∃ re' im', spFft 7 (List.replicate 9 (3 : ℝ)) (List.replicate 9 4) = .ok (0, re', im') ∧ ∑ k ∈ Finset.range 7, ‖complexAt re' im' k‖ ^ 2 = 7 * (7 * 25) := by
  obtain ⟨re', im', h1, h2⟩ := C178_energy (n := 7) (re := List.replicate 9 3) (im := List.replicate 9 4) (by norm_num) (by simp) (by simp)
  refine ⟨re', im', h1, ?_⟩
  rw [h2, Finset.sum_congr rfl (g := fun _ => (25 : ℝ))]
  · norm_num
  · intro t ht
    have ht' := Finset.mem_range.1 ht
    have e : ∀ v : ℝ, (List.replicate 9 v).getD t 0 = v := fun v => by
      rw [List.getD_eq_getElem?_getD, List.getElem?_replicate, if_pos (by omega), Option.getD_some]
    rw [complexAt, e, e, Complex.sq_norm, Complex.normSq_mk]
    norm_num

/-- **C178, energy in double precision.** `E` is the bound of C133 for the error of an element. -/
theorem C178_double_energy (h : RoundsToNearest rnd) [Trig (Fl rnd)] (ht : TrigAccurate rnd) {n : Nat} {re im : List (Fl rnd)} (hn : n < 4294967296)
    (hlen : im.length = re.length) (hle : n ≤ re.length) (hmax : 2 ^ 80 * spectrumBound n re im + 2 ^ 80 ≤ ((doubleMax : ℚ) : ℝ)) {E : ℝ}
    (hE : E = n / 2 ^ 35 * spectrumBound n re im + (2 : ℝ) ^ (-950 : ℤ)) :
    ∃ re' im', spFft n re im = .ok (0, re', im') ∧
      |∑ k ∈ Finset.range n, ‖sampleAt re' im' k‖ ^ 2 - n * ∑ t ∈ Finset.range n, ‖sampleAt re im t‖ ^ 2| ≤ n * (2 * spectrumBound n re im * E + E ^ 2) := by
  obtain ⟨re', im', h1, -, -, h2, -⟩ := C133_fft h ht hn hlen hle hmax
  refine ⟨re', im', h1, ?_⟩
  rw [← dft_energy, ← Finset.sum_sub_distrib]
  refine (Finset.abs_sum_le_sum_abs _ _).trans ((Finset.sum_le_sum (g := fun _ => 2 * spectrumBound n re im * E + E ^ 2) fun k hk => ?_).trans
    (by rw [Finset.sum_const, Finset.card_range, nsmul_eq_mul]))
  have a1 := h2 k (Finset.mem_range.1 hk)
  rw [← hE] at a1
  have a2 : ‖dft n (sampleAt re im) k‖ ≤ spectrumBound n re im := norm_dft_le _ _ _
  have a3 := (abs_norm_sub_norm_le (sampleAt re' im' k) (dft n (sampleAt re im) k)).trans a1
  have a4 := norm_nonneg (dft n (sampleAt re im) k)
  have a5 := norm_nonneg (sampleAt re' im' k)
  generalize ‖sampleAt re' im' k‖ = u at *
  generalize ‖dft n (sampleAt re im) k‖ = v at *
  generalize spectrumBound n re im = s at *
  have e : u ^ 2 - v ^ 2 = (u - v) * ((u - v) + 2 * v) := by ring
  have hE0 : 0 ≤ E := (abs_nonneg _).trans a3
  rw [e, abs_mul]
  have b1 : |u - v + 2 * v| ≤ E + 2 * s := by
    refine (abs_add_le _ _).trans (add_le_add a3 ?_)
    rw [abs_of_nonneg (by linarith)]
    linarith
  refine (mul_le_mul a3 b1 (abs_nonneg _) hE0).trans (le_of_eq ?_)
  ring

section
attribute [local instance] libm

/-- Non-vacuity: the numbers 1, 3 and -2; the energy of the spectrum is 42. -/
example : ∃ re' im', spFft (S := Fl nearestDouble) 3 [⟨1⟩, ⟨3⟩, ⟨-2⟩] [⟨0⟩, ⟨0⟩, ⟨0⟩] = .ok (0, re', im') ∧
    |∑ k ∈ Finset.range 3, ‖sampleAt re' im' k‖ ^ 2 - 42| ≤ 1 / 2 ^ 25 := by
  obtain ⟨re', im', h1, h2⟩ := C178_double_energy nearestDouble_rounds libm_accurate (n := 3) (re := [⟨1⟩, ⟨3⟩, ⟨-2⟩]) (im := [⟨0⟩, ⟨0⟩, ⟨0⟩])
    (by norm_num) rfl (by simp) (by
      rw [spectrumBound_three]
      exact le_trans (by norm_num) (fmax_ge (e := 120) (by norm_num))) rfl
  refine ⟨re', im', h1, ?_⟩
  have e : ∑ t ∈ Finset.range 3, ‖sampleAt (rnd := nearestDouble) [⟨1⟩, ⟨3⟩, ⟨-2⟩] [⟨0⟩, ⟨0⟩, ⟨0⟩] t‖ ^ 2 = 14 := by
    rw [Finset.sum_range_succ, Finset.sum_range_succ, Finset.sum_range_one]
    simp only [Complex.sq_norm]
    simp [sampleAt, complexAt, realValues, Complex.normSq_mk]
    norm_num
  rw [e, spectrumBound_three] at h2
  have : ((3 : ℕ) : ℝ) * 14 = 42 := by norm_num
  rw [this] at h2
  refine h2.trans ?_
  have z : (2 : ℝ) ^ (-950 : ℤ) ≤ 1 / 2 ^ 40 := by
    rw [show (1 : ℝ) / 2 ^ 40 = 2 ^ (-40 : ℤ) by norm_num]
    exact zpow_le_zpow_right₀ (by norm_num) (by norm_num)
  have z0 : (0 : ℝ) < (2 : ℝ) ^ (-950 : ℤ) := by positivity
  generalize (2 : ℝ) ^ (-950 : ℤ) = y at *
  push_cast
  nlinarith [mul_le_mul z z z0.le (by norm_num)]

end

/-! ### Convolution -/

open Polynomial in
private theorem dft_convolution {n k : Nat} (a b : List ℝ) (hab : a.length + b.length ≤ n + 1) (ha : 0 < a.length) (hb : 0 < b.length) :
    dft n (fun t => ((linearConvolution a b t : ℝ) : ℂ)) k =
      dft n (fun t => ((a.getD t 0 : ℝ) : ℂ)) k * dft n (fun t => ((b.getD t 0 : ℝ) : ℂ)) k := by
  have hpoly : ∀ x : List ℝ, ∃ p : ℂ[X], (∀ i, p.coeff i = ((x.getD i 0 : ℝ) : ℂ)) := by
    intro x
    refine ⟨∑ i ∈ Finset.range x.length, monomial i ((x.getD i 0 : ℝ) : ℂ), fun i => ?_⟩
    rw [finsetSum_coeff]
    simp only [coeff_monomial]
    by_cases hi : i < x.length
    · rw [Finset.sum_eq_single i (fun j _ hj => if_neg hj) (fun h => absurd (Finset.mem_range.2 hi) h), if_pos rfl]
    · rw [List.getD_eq_default x 0 (by omega)]
      refine Finset.sum_eq_zero fun j hj => if_neg ?_
      have := Finset.mem_range.1 hj
      omega
  have hdft : ∀ (x : Nat → ℂ) (p : ℂ[X]), (∀ i, p.coeff i = x i) → p.natDegree < n → dft n x k = p.eval (fexp ((k : ℝ) / n)) := by
    intro x p hp hd
    rw [dft_eq, eval_eq_sum_range' hd]
    refine Finset.sum_congr rfl fun t _ => ?_
    rw [hp, ← fexp_pow, mul_div_assoc]
  have hdeg : ∀ (x : List ℝ) (p : ℂ[X]), (∀ i, p.coeff i = ((x.getD i 0 : ℝ) : ℂ)) → p.natDegree ≤ x.length - 1 := by
    intro x p hp
    refine natDegree_le_iff_coeff_eq_zero.2 fun i hi => ?_
    rw [hp, List.getD_eq_default x 0 (by omega), Complex.ofReal_zero]
  obtain ⟨p, hp⟩ := hpoly a
  obtain ⟨q, hq⟩ := hpoly b
  have dp := hdeg a p hp
  have dq := hdeg b q hq
  have dpq : (p * q).natDegree ≤ a.length - 1 + (b.length - 1) := natDegree_mul_le.trans (add_le_add dp dq)
  rw [hdft _ p hp (by omega), hdft _ q hq (by omega), hdft _ (p * q) _ (by omega), eval_mul]
  intro i
  rw [coeff_mul, linearConvolution]
  push_cast
  exact Finset.sum_congr rfl fun r _ => by rw [hp, hq]

private theorem padded {n : Nat} (x : List ℝ) :
    complexAt (x ++ List.replicate (n - x.length) 0) (List.replicate n 0) = fun t => ((x.getD t 0 : ℝ) : ℂ) := by
  funext t
  have e1 : (x ++ List.replicate (n - x.length) (0 : ℝ)).getD t 0 = x.getD t 0 := by
    rw [List.getD_eq_getElem?_getD, List.getD_eq_getElem?_getD]
    by_cases ht : t < x.length
    · rw [List.getElem?_append_left ht]
    · rw [List.getElem?_append_right (by omega), List.getElem?_replicate, List.getElem?_eq_none (by omega : x.length ≤ t)]
      split <;> rfl
  have e2 : (List.replicate n (0 : ℝ)).getD t 0 = 0 := by
    rw [List.getD_eq_getElem?_getD, List.getElem?_replicate]
    split <;> rfl
  rw [complexAt, e1, e2]
  rfl

/-- **C178, convolution.** Two signals, with zeros behind them so that their convolution fits, transformed with `sp_fft` and multiplied element by element as complex numbers,
are what `sp_fft` gives for their convolution by `sp_convolve_one`; and `sp_ffti` of the products is `n` times the convolution. -/
theorem C178_convolution {n : Nat} {a b : List ℝ} (ha : a ≠ []) (hb : b ≠ []) (hab : a.length + b.length ≤ n + 1) (hn : n < 4294967296) :
    ∃ ar ai br bi out cr ci re im, spFft n (a ++ List.replicate (n - a.length) 0) (List.replicate n 0) = .ok (0, ar, ai) ∧
      spFft n (b ++ List.replicate (n - b.length) 0) (List.replicate n 0) = .ok (0, br, bi) ∧
      convolveOne a a.length b b.length (List.replicate n 0) = .ok out ∧ spFft n out (List.replicate n 0) = .ok (0, cr, ci) ∧
      (∀ k, k < n → complexAt cr ci k = complexAt ar ai k * complexAt br bi k) ∧
      spFfti n ((List.range n).map fun k => (complexAt ar ai k * complexAt br bi k).re) ((List.range n).map fun k => (complexAt ar ai k * complexAt br bi k).im) =
        .ok (0, re, im) ∧ re.length = n ∧ im.length = n ∧
      ∀ k, k < n → re.getD k 0 = n * out.getD k 0 ∧ im.getD k 0 = 0 := by
  have ha' := List.length_pos_iff.2 ha
  have hb' := List.length_pos_iff.2 hb
  obtain ⟨ar, ai, a1, -, -, a2, -⟩ := C71_dft (n := n) (re := a ++ List.replicate (n - a.length) 0) (im := List.replicate n 0) hn
    (by simp; omega) (by simp; omega)
  obtain ⟨br, bi, b1, -, -, b2, -⟩ := C71_dft (n := n) (re := b ++ List.replicate (n - b.length) 0) (im := List.replicate n 0) hn
    (by simp; omega) (by simp; omega)
  obtain ⟨out, o1, o2, o3⟩ := C01_convolve_one a b (List.replicate n (0 : ℝ)) (by simp; omega) (by omega)
  rw [List.length_replicate] at o2 o3
  have hout : ∀ t, out.getD t 0 = linearConvolution a b t := by
    intro t
    rw [List.getD_eq_getElem?_getD]
    by_cases ht : t < n
    · rw [o3 t ht, Option.getD_some, List.getD_eq_getElem?_getD, List.getElem?_replicate, if_pos ht, Option.getD_some, zero_add]
    · rw [List.getElem?_eq_none (by omega), C01_tail_unchanged a b t (by omega)]
      rfl
  have hcomplex : complexAt out (List.replicate n 0) = fun t => ((linearConvolution a b t : ℝ) : ℂ) := by
    have := padded (n := n) out
    rw [o2, Nat.sub_self, List.replicate_zero, List.append_nil] at this
    rw [this]
    funext t
    rw [hout]
  obtain ⟨cr, ci, re, im, c1, c2, c3, c4, c5, -⟩ := C72_inverse (n := n) (re := out) (im := List.replicate n 0) hn (by simp [o2]) (by omega)
  obtain ⟨cr', ci', d1, d2, d3, d4, -⟩ := C71_dft (n := n) (re := out) (im := List.replicate n 0) hn (by simp [o2]) (by omega)
  rw [c1] at d1
  obtain ⟨-, h⟩ := Prod.mk.inj (Except.ok.inj d1)
  obtain ⟨rfl, rfl⟩ := Prod.mk.inj h
  rw [o2] at d2 c3
  rw [List.length_replicate] at d3 c4
  have hprod : ∀ k, k < n → complexAt cr ci k = complexAt ar ai k * complexAt br bi k := by
    intro k hk
    rw [d4 k hk, a2 k hk, b2 k hk, hcomplex, padded a, padded b]
    exact dft_convolution a b hab ha' hb'
  have er : ((List.range n).map fun k => (complexAt ar ai k * complexAt br bi k).re) = cr := by
    refine List.ext_getElem (by simp [d2]) fun k h1 h2 => ?_
    have hk : k < n := by omega
    rw [List.getElem_map, List.getElem_range, ← hprod k hk, complexAt]
    simp only
    rw [List.getD_eq_getElem?_getD, List.getElem?_eq_getElem h2, Option.getD_some]
  have ei : ((List.range n).map fun k => (complexAt ar ai k * complexAt br bi k).im) = ci := by
    refine List.ext_getElem (by simp [d3]) fun k h1 h2 => ?_
    have hk : k < n := by omega
    rw [List.getElem_map, List.getElem_range, ← hprod k hk, complexAt]
    simp only
    rw [List.getD_eq_getElem?_getD, List.getElem?_eq_getElem h2, Option.getD_some]
  refine ⟨ar, ai, br, bi, out, cr, ci, re, im, a1, b1, o1, c1, hprod, by rw [er, ei, c2], c3, c4, fun k hk => ?_⟩
  have := c5 k hk
  rw [hcomplex] at this
  have e1 := congrArg Complex.re this
  have e2 := congrArg Complex.im this
  rw [complexAt, ← Complex.ofReal_natCast, ← Complex.ofReal_mul] at e1 e2
  rw [hout]
  exact ⟨by simpa using e1, by simpa using e2⟩

/-- Non-vacuity: three and two elements with a transform of length five, and with the values. -/
example : ∃ re im ar ai br bi, spFft 5 [1, 2, 3, 0, 0] [0, 0, 0, 0, 0] = .ok (0, ar, ai) ∧ spFft 5 [10, 100, 0, 0, 0] [0, 0, 0, 0, 0] = .ok (0, br, bi) ∧
    spFfti 5 ((List.range 5).map fun k => (complexAt ar ai k * complexAt br bi k).re) ((List.range 5).map fun k => (complexAt ar ai k * complexAt br bi k).im) =
      .ok (0, re, im) ∧ re = [50, 600, 1150, 1500, 0] := by
  obtain ⟨ar, ai, br, bi, out, cr, ci, re, im, h1, h2, h3, -, -, h4, h5, -, h6⟩ := C178_convolution (n := 5) (a := [1, 2, 3]) (b := [10, 100]) (by simp) (by simp)
    (by simp) (by norm_num)
  refine ⟨re, im, ar, ai, br, bi, h1, h2, h4, ?_⟩
  obtain ⟨out', o1, o2, o3⟩ := C01_convolve_one [1, 2, 3] [10, 100] (List.replicate 5 (0 : ℝ)) (by simp) (by simp)
  rw [show ([1, 2, 3] : List ℝ).length = 3 from rfl, show ([10, 100] : List ℝ).length = 2 from rfl] at h3 o1
  rw [h3] at o1
  obtain rfl := Except.ok.inj o1
  have v : ∀ k, k < 5 → out.getD k 0 = linearConvolution [1, 2, 3] [10, 100] k := by
    intro k hk
    rw [List.getD_eq_getElem?_getD, o3 k (by simpa using hk), Option.getD_some, List.getD_eq_getElem?_getD, List.getElem?_replicate, if_pos hk, Option.getD_some,
      zero_add]
  have g : ∀ k, k < 5 → re.getD k 0 = 5 * linearConvolution [1, 2, 3] [10, 100] k := by
    intro k hk
    rw [(h6 k hk).1, v k hk]
    norm_num
  refine List.ext_getElem (by rw [h5]; rfl) fun k k1 k2 => ?_
  have hk : k < 5 := by omega
  have := g k hk
  rw [List.getD_eq_getElem?_getD, List.getElem?_eq_getElem k1, Option.getD_some] at this
  rw [this]
  unfold linearConvolution
  interval_cases k <;> simp [Finset.Nat.antidiagonal_succ] <;> norm_num

end Sp
