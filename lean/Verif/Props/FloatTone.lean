import Verif.Props.FloatBand

/-! # C169: tones through filters in double precision -/

set_option linter.unusedSectionVars false

noncomputable section

namespace Sp
variable {rnd : ℚ → ℚ}

private theorem getD_cast (F : Fl rnd → ℚ) (x : List (Fl rnd)) (i : Nat) :
    (((x.map F).getD i 0 : ℚ) : ℝ) = (x.map fun v => (F v : ℝ)).getD i 0 := by
  simp only [List.getD_eq_getElem?_getD, List.getElem?_map]
  cases x[i]? <;> simp

private theorem settled (F : Fl rnd → ℚ) (x b : List (Fl rnd)) {n : Nat} (h1 : b.length ≤ n + 1) :
    ((linearConvolution (x.map F) (b.map F) n : ℚ) : ℝ) =
      ∑ j ∈ Finset.range b.length, (b.map fun v => (F v : ℝ)).getD j 0 * (x.map fun v => (F v : ℝ)).getD (n - j) 0 := by
  have hc : linearConvolution (x.map F) (b.map F) n = linearConvolution (b.map F) (x.map F) n := by
    unfold linearConvolution
    rw [← Finset.Nat.sum_antidiagonal_swap]
    exact Finset.sum_congr rfl fun p _ => mul_comm _ _
  rw [hc, linearConvolution_eq, List.length_map, Rat.cast_sum]
  refine Finset.sum_congr rfl fun j hj => ?_
  have := Finset.mem_range.1 hj
  rw [if_pos (by omega), Rat.cast_mul, getD_cast, getD_cast]

private theorem sum_getD_abs (b : List ℝ) : ∑ j ∈ Finset.range b.length, |b.getD j 0| = (b.map abs).sum := by
  rw [List.sum_eq_foldr, ← List.sum_eq_foldr]
  have : b.map abs = tab b.length fun j => |b.getD j 0| := by
    refine List.ext_getElem (by rw [List.length_map, tab_length]) fun k hk hk' => ?_
    simp only [List.length_map] at hk
    simp [tab, List.getD_eq_getElem?_getD, hk]
  rw [this, sum_tab]

/-- The output for an exact tone is the real part of the tone, times the response. -/
theorem tone_sum (b : List ℝ) (f a p : ℝ) {n : Nat} (hn : b.length ≤ n + 1) :
    ∃ z : ℂ, ‖z‖ = |a| ∧ ∑ j ∈ Finset.range b.length, b.getD j 0 * toneSample a f p ((n - j : Nat) : ℝ) = (z * response b f).re ∧
      ∀ d : Nat, toneSample a f p ((n : ℝ) - d) = (z * delayResponse d f).re := by
  have key : ∀ y : ℝ, toneSample a f p y = ((a : ℂ) * Complex.exp (((2 * Real.pi * f * y + p : ℝ) : ℂ) * Complex.I)).re := by
    intro y
    rw [Complex.re_ofReal_mul, Complex.exp_ofReal_mul_I_re]
    rfl
  have shift : ∀ d : ℝ, toneSample a f p ((n : ℝ) - d) =
      ((a : ℂ) * Complex.exp (((2 * Real.pi * f * n + p : ℝ) : ℂ) * Complex.I) * Complex.exp (-2 * Real.pi * Complex.I * f * d)).re := by
    intro d
    rw [key, mul_assoc (a : ℂ), ← Complex.exp_add]
    congr 3
    push_cast
    ring
  refine ⟨(a : ℂ) * Complex.exp (((2 * Real.pi * f * n + p : ℝ) : ℂ) * Complex.I), ?_, ?_, ?_⟩
  · rw [norm_mul, Complex.norm_exp_ofReal_mul_I, mul_one, Complex.norm_real, Real.norm_eq_abs]
  · rw [response, Finset.mul_sum, Complex.re_sum]
    refine Finset.sum_congr rfl fun j hj => ?_
    have hj := Finset.mem_range.1 hj
    rw [Nat.cast_sub (by omega), shift, ← Complex.re_ofReal_mul]
    congr 1
    push_cast
    ring
  · intro d
    rw [shift, delayResponse]
    push_cast
    rfl

/-- Samples that are near to a signal, through a kernel of doubles block by block: near to the convolution of the signal. -/
theorem signal_through {F : Type} [DecidableEq F] (h : RoundsToNearest rnd) {ir : List (Fl rnd)} (hpos : 1 ≤ ir.length) (hlen : ir.length ≤ 4294967296)
    (irOf : F → List UInt8 → Option (Buf (Fl rnd))) (kind : F) (args : List UInt8) (hir : irOf kind args = some ir) {s : Nat → ℝ} {A δ : ℝ}
    (hA : ∀ n, |s n| ≤ A) (hmax : kernelSize ir * (A + δ) ≤ 2 ^ 200) (junk : Fl rnd) (blocks : List (Buf (Fl rnd)))
    (h32 : ∀ x ∈ blocks, x.length + ir.length ≤ 4294967296)
    (hx : ∀ n, n < blocks.flatten.length → |((blocks.flatten.getD n 0).val : ℝ) - s n| ≤ δ) :
    ∃ rs, filterCalls irOf junk (blocks.map fun x => (x, kind, args)) none = .ok rs ∧ (∀ r ∈ rs, r.success = true) ∧
      ∀ n, ir.length ≤ n + 1 → n < blocks.flatten.length → ∃ y, (rs.map fun r => r.out).flatten[n]? = some y ∧
        |(y.val : ℝ) - ∑ j ∈ Finset.range ir.length, (realValues ir).getD j 0 * s (n - j)| ≤
          kernelSize ir * δ + ((ir.length + 1) / 2 ^ 52 * (kernelSize ir * (A + δ)) + 1 / 2 ^ 100) := by
  obtain ⟨rs, r1, r2, -, r4, -⟩ := C04_filter_seamless irOf junk kind args ir hir hpos blocks h32
  refine ⟨rs, r1, r2, fun n n1 n2 => ⟨orderedConvolution blocks.flatten ir n, ?_, ?_⟩⟩
  · rw [r4, List.getElem?_map, List.getElem?_range n2, Option.map_some]
  set x : List (Fl rnd) := blocks.flatten with hxd
  have hW : ∑ j ∈ Finset.range ir.length, |(realValues ir).getD j 0| = kernelSize ir := by
    have := sum_getD_abs (realValues ir)
    rw [realValues, List.length_map, ← realValues] at this
    exact this
  have hxr : ∀ k, k < x.length → |(realValues x).getD k 0 - s k| ≤ δ := by
    intro k hk
    have := hx k hk
    rw [realValues, List.getD_eq_getElem?_getD, List.getElem?_map, List.getElem?_eq_getElem hk]
    rw [List.getD_eq_getElem?_getD, List.getElem?_eq_getElem hk] at this
    exact this
  have hδ : 0 ≤ δ := (abs_nonneg _).trans (hxr n n2)
  have hW0 : 0 ≤ kernelSize ir := by rw [← hW]; exact Finset.sum_nonneg fun _ _ => abs_nonneg _
  -- the sizes of the products
  have hT : ((linearConvolution (absValues x) (absValues ir) n : ℚ) : ℝ) ≤ kernelSize ir * (A + δ) := by
    rw [absValues, absValues, settled (fun v => |v.val|) x ir n1, ← hW, Finset.sum_mul]
    refine Finset.sum_le_sum fun j hj => ?_
    have hj := Finset.mem_range.1 hj
    have e1 : (ir.map fun v => ((|v.val| : ℚ) : ℝ)).getD j 0 = |(realValues ir).getD j 0| := by
      simp only [realValues, List.getD_eq_getElem?_getD, List.getElem?_map, List.getElem?_eq_getElem hj, Option.map_some, Option.getD_some, Rat.cast_abs]
    have hj' : n - j < x.length := by omega
    have e2 : (x.map fun v => ((|v.val| : ℚ) : ℝ)).getD (n - j) 0 = |(realValues x).getD (n - j) 0| := by
      simp only [realValues, List.getD_eq_getElem?_getD, List.getElem?_map, List.getElem?_eq_getElem hj', Option.map_some, Option.getD_some, Rat.cast_abs]
    rw [e1, e2]
    refine mul_le_mul_of_nonneg_left ?_ (abs_nonneg _)
    have h3 := hxr (n - j) hj'
    have h4 := abs_add_le ((realValues x).getD (n - j) 0 - s (n - j)) (s (n - j))
    rw [sub_add_cancel] at h4
    linarith [hA (n - j)]
  have hT0 : (0 : ℝ) ≤ ((linearConvolution (absValues x) (absValues ir) n : ℚ) : ℝ) := by
    have : (0 : ℚ) ≤ linearConvolution (absValues x) (absValues ir) n := by
      unfold linearConvolution
      refine Finset.sum_nonneg fun q _ => ?_
      have hn : ∀ (l : List (Fl rnd)) i, 0 ≤ (absValues l).getD i 0 := by
        intro l i
        simp only [absValues, List.getD_eq_getElem?_getD, List.getElem?_map]
        cases l[i]? with
        | none => simp
        | some v => simp
      exact mul_nonneg (hn _ _) (hn _ _)
    exact_mod_cast this
  -- rounding errors of the convolution
  have hround : |((orderedConvolution x ir n).val : ℝ) - ((linearConvolution (exactValues x) (exactValues ir) n : ℚ) : ℝ)| ≤
      (ir.length + 1) / 2 ^ 52 * (kernelSize ir * (A + δ)) + 1 / 2 ^ 100 := by
    have hmaxq : 2 * linearConvolution (absValues x) (absValues ir) n + 1 ≤ doubleMax := by
      refine le_trans ?_ (le_doubleMax (e := 202) (by norm_num))
      have h3 : ((linearConvolution (absValues x) (absValues ir) n : ℚ) : ℝ) ≤ ((2 ^ 200 : ℚ) : ℝ) := by push_cast; exact hT.trans hmax
      have h4 : linearConvolution (absValues x) (absValues ir) n ≤ 2 ^ 200 := by exact_mod_cast h3
      rw [show (2 : ℚ) ^ (202 : ℤ) = 4 * 2 ^ 200 by norm_num]
      have : (1 : ℚ) ≤ 2 ^ 200 := by norm_num
      linarith
    have h2 := (Rat.cast_le (K := ℝ)).2 ((orderedConvolution_error h x ir n hlen hmaxq).trans
      (dotErrorBound_mono (min_le_right _ _) (by exact_mod_cast hT0)))
    rw [Rat.cast_abs, Rat.cast_sub, dotErrorBound] at h2
    refine h2.trans ?_
    push_cast
    have hz : (2 : ℝ) ^ (-1075 : ℤ) ≤ 1 / 2 ^ 200 := by
      rw [show (1 : ℝ) / 2 ^ 200 = 2 ^ (-200 : ℤ) by rw [zpow_neg, one_div]; rfl]
      exact zpow_le_zpow_right₀ (by norm_num) (by norm_num)
    have hz0 : (0 : ℝ) < (2 : ℝ) ^ (-1075 : ℤ) := by positivity
    have hm : (ir.length : ℝ) ≤ 4294967296 := by exact_mod_cast hlen
    have hm0 : (0 : ℝ) ≤ (ir.length : ℝ) := Nat.cast_nonneg _
    generalize (2 : ℝ) ^ (-1075 : ℤ) = z at *
    generalize ((linearConvolution (absValues x) (absValues ir) n : ℚ) : ℝ) = t at *
    generalize (ir.length : ℝ) = m at *
    generalize kernelSize ir * (A + δ) = B at *
    have hAA : 0 ≤ (m + 1) * (1 / 2 ^ 53) * t := by positivity
    have hB : (1 + (m + 1) * (1 / 2 ^ 53 : ℝ)) ≤ 2 := by
      have : (m + 1) * (1 / 2 ^ 53 : ℝ) ≤ 4294967297 * (1 / 2 ^ 53) := mul_le_mul_of_nonneg_right (by linarith) (by norm_num)
      have h3 : (4294967297 : ℝ) * (1 / 2 ^ 53) ≤ 1 := by norm_num
      linarith
    have h4 : (m + 1) * (1 / 2 ^ 53) * (1 + (m + 1) * (1 / 2 ^ 53)) * t ≤ (m + 1) / 2 ^ 52 * B := by
      have := mul_le_mul_of_nonneg_left hB hAA
      calc _ = (m + 1) * (1 / 2 ^ 53) * t * (1 + (m + 1) * (1 / 2 ^ 53)) := by ring
        _ ≤ (m + 1) * (1 / 2 ^ 53) * t * 2 := this
        _ = (m + 1) / 2 ^ 52 * t := by ring
        _ ≤ _ := mul_le_mul_of_nonneg_left hT (by positivity)
    have h5 : 2 * m * z ≤ 1 / 2 ^ 100 := by
      have := mul_le_mul (by linarith : 2 * m ≤ 8589934592) hz hz0.le (by norm_num)
      refine this.trans (by norm_num)
    linarith
  -- errors of the samples
  have hsamples : |((linearConvolution (exactValues x) (exactValues ir) n : ℚ) : ℝ) - ∑ j ∈ Finset.range ir.length, (realValues ir).getD j 0 * s (n - j)| ≤
      kernelSize ir * δ := by
    rw [exactValues, exactValues, settled Fl.val x ir n1, ← Finset.sum_sub_distrib, ← hW, Finset.sum_mul]
    refine (Finset.abs_sum_le_sum_abs _ _).trans (Finset.sum_le_sum fun j hj => ?_)
    have hj := Finset.mem_range.1 hj
    change |(realValues ir).getD j 0 * (realValues x).getD (n - j) 0 - _| ≤ _
    rw [← mul_sub, abs_mul]
    exact mul_le_mul_of_nonneg_left (hxr _ (by omega)) (abs_nonneg _)
  have := abs_sub_le ((orderedConvolution x ir n).val : ℝ) ((linearConvolution (exactValues x) (exactValues ir) n : ℚ) : ℝ)
    (∑ j ∈ Finset.range ir.length, (realValues ir).getD j 0 * s (n - j))
  linarith

/-- **C169, tones in double precision.** Samples that are within `δ` of a tone are filtered block by block with a kernel of doubles, for every division into
blocks and streams of any length: where the response of the kernel is small the output is silent, where it is near to that of a delay the output is the
delayed tone, up to the error in proportion to the amplitude, the error of the samples, and the rounding errors of the convolution. -/
theorem C169_double_tone {F : Type} [DecidableEq F] (h : RoundsToNearest rnd) {ir : List (Fl rnd)} (hpos : 1 ≤ ir.length) (hlen : ir.length ≤ 4294967296)
    (irOf : F → List UInt8 → Option (Buf (Fl rnd))) (kind : F) (args : List UInt8) (hir : irOf kind args = some ir) (f a p δ : ℝ)
    (hmax : kernelSize ir * (|a| + δ) ≤ 2 ^ 200) (junk : Fl rnd) (blocks : List (Buf (Fl rnd))) (h32 : ∀ x ∈ blocks, x.length + ir.length ≤ 4294967296)
    (hx : ∀ n, n < blocks.flatten.length → |((blocks.flatten.getD n 0).val : ℝ) - toneSample a f p n| ≤ δ) :
    ∃ rs, filterCalls irOf junk (blocks.map fun x => (x, kind, args)) none = .ok rs ∧ (∀ r ∈ rs, r.success = true) ∧
      ∀ n, ir.length ≤ n + 1 → n < blocks.flatten.length → ∃ y, (rs.map fun r => r.out).flatten[n]? = some y ∧
        (∀ ε, ‖response (realValues ir) f‖ ≤ ε →
          |(y.val : ℝ)| ≤ ε * |a| + kernelSize ir * δ + ((ir.length + 1) / 2 ^ 52 * (kernelSize ir * (|a| + δ)) + 1 / 2 ^ 100)) ∧
        ∀ (d : Nat) ε, ‖response (realValues ir) f - delayResponse d f‖ ≤ ε →
          |(y.val : ℝ) - toneSample a f p ((n : ℝ) - d)| ≤
            ε * |a| + kernelSize ir * δ + ((ir.length + 1) / 2 ^ 52 * (kernelSize ir * (|a| + δ)) + 1 / 2 ^ 100) := by
  have ht : ∀ n : Nat, |toneSample a f p n| ≤ |a| := by
    intro y
    rw [toneSample, abs_mul]
    exact mul_le_of_le_one_right (abs_nonneg _) (Real.abs_cos_le_one _)
  obtain ⟨rs, r1, r2, r3⟩ := signal_through h hpos hlen irOf kind args hir ht hmax junk blocks h32 hx
  refine ⟨rs, r1, r2, fun n n1 n2 => ?_⟩
  obtain ⟨y, y1, y2⟩ := r3 n n1 n2
  refine ⟨y, y1, ?_⟩
  obtain ⟨z, z1, z2, z3⟩ := tone_sum (realValues ir) f a p (n := n) (by rw [realValues, List.length_map]; exact n1)
  rw [show (realValues ir).length = ir.length by rw [realValues, List.length_map]] at z2
  rw [z2] at y2
  have hre : ∀ w : ℂ, ∀ ε, ‖w‖ ≤ ε → |(z * w).re| ≤ ε * |a| := by
    intro w ε hw
    refine (Complex.abs_re_le_norm _).trans ?_
    rw [norm_mul, z1, mul_comm]
    exact mul_le_mul_of_nonneg_right hw (abs_nonneg _)
  generalize (ir.length + 1 : ℝ) / 2 ^ 52 * (kernelSize ir * (|a| + δ)) + 1 / 2 ^ 100 = R at *
  generalize kernelSize ir * δ = Q at *
  refine ⟨fun ε hε => ?_, fun d ε hε => ?_⟩
  · have := hre _ ε hε
    rw [abs_le] at this y2 ⊢
    constructor <;> linarith
  · have := hre _ ε hε
    rw [mul_sub, Complex.sub_re, ← z3 d] at this
    rw [abs_le] at this y2 ⊢
    constructor <;> linarith

/-- **C169, the sizes of kernels.** The elements of a low-pass kernel sum up to at most 17 in size, those of a high-pass kernel to at most 36, for all
lengths: this bounds the effect of errors of the samples. -/
theorem C169_double_sizes (h : RoundsToNearest rnd) [Trig (Fl rnd)] (ht : LibmAccurate rnd) (junk : Fl rnd) {c t : Fl rnd} (hc : IsDouble c.val)
    (t0 : 4 / 1073741824 ≤ t.val) (h0 : t.val ≤ c.val) (h1 : c.val ≤ 1 / 2) {ir : List (Fl rnd)} :
    (lpHpIr junk c t false = .ok ir → kernelSize ir ≤ 17) ∧ (lpHpIr junk c t true = .ok ir → kernelSize ir ≤ 36) := by
  obtain ⟨M, y, z, -, -, y1, z1, y2, z2, -⟩ := both_kernels h ht junk hc t0 h0 h1
  constructor
  · intro hi
    rw [y1] at hi
    rw [← Except.ok.inj hi, kernelSize_tab]
    exact y2
  · intro hi
    rw [z1] at hi
    rw [← Except.ok.inj hi, kernelSize_tab]
    exact z2

/-- A tone through a kernel of bounded length and size. -/
private theorem tone_through {F : Type} [DecidableEq F] (h : RoundsToNearest rnd) {ir : List (Fl rnd)} (hpos : 1 ≤ ir.length) (hlen : ir.length ≤ 8388613)
    {W : ℝ} (hsize : kernelSize ir ≤ W) (hW : W ≤ 1000) (irOf : F → List UInt8 → Option (Buf (Fl rnd))) (kind : F) (args : List UInt8)
    (hir : irOf kind args = some ir) (f a p δ : ℝ) (ha : |a| + δ ≤ 2 ^ 100) (junk' : Fl rnd) (blocks : List (Buf (Fl rnd)))
    (h32 : ∀ x ∈ blocks, x.length + ir.length ≤ 4294967296)
    (hx : ∀ n, n < blocks.flatten.length → |((blocks.flatten.getD n 0).val : ℝ) - toneSample a f p n| ≤ δ) :
    ∃ rs, filterCalls irOf junk' (blocks.map fun x => (x, kind, args)) none = .ok rs ∧ (∀ r ∈ rs, r.success = true) ∧
      ∀ n, ir.length ≤ n + 1 → n < blocks.flatten.length → ∃ y, (rs.map fun r => r.out).flatten[n]? = some y ∧
        (∀ ε, ‖response (realValues ir) f‖ ≤ ε + ir.length / 2 ^ 38 → |(y.val : ℝ)| ≤ (ε + 1 / 2 ^ 14) * |a| + (W + 1) * δ + 1 / 2 ^ 100) ∧
        ∀ (d : Nat) ε, ‖response (realValues ir) f - delayResponse d f‖ ≤ ε + ir.length / 2 ^ 38 →
          |(y.val : ℝ) - toneSample a f p ((n : ℝ) - d)| ≤ (ε + 1 / 2 ^ 14) * |a| + (W + 1) * δ + 1 / 2 ^ 100 := by
  have hW0 : 0 ≤ kernelSize ir := by
    rw [kernelSize]
    refine List.sum_nonneg fun v hv => ?_
    obtain ⟨w, -, rfl⟩ := List.mem_map.1 hv
    exact abs_nonneg _
  have hblocks : blocks.flatten.length = 0 ∨ 0 ≤ δ := by
    by_cases hb : 0 < blocks.flatten.length
    · exact .inr ((abs_nonneg _).trans (hx 0 hb))
    · exact .inl (by omega)
  rcases hblocks with hb | hδ
  · obtain ⟨rs, r1, r2, -⟩ := C04_filter_seamless irOf junk' kind args ir hir hpos blocks h32
    exact ⟨rs, r1, r2, fun n _ hn => absurd hn (by omega)⟩
  have ha0 := abs_nonneg a
  have hprod : kernelSize ir * (|a| + δ) ≤ 1000 * (|a| + δ) := mul_le_mul_of_nonneg_right (hsize.trans hW) (by positivity)
  obtain ⟨rs, r1, r2, r3⟩ := C169_double_tone h hpos (by omega) irOf kind args hir f a p δ (hprod.trans (by
    refine (mul_le_mul_of_nonneg_left ha (by norm_num)).trans ?_
    norm_num)) junk' blocks h32 hx
  refine ⟨rs, r1, r2, fun n n1 n2 => ?_⟩
  obtain ⟨v, v1, v2, v3⟩ := r3 n n1 n2
  have hl : (ir.length : ℝ) ≤ 8388613 := by exact_mod_cast hlen
  have hl0 : (0 : ℝ) ≤ ir.length := Nat.cast_nonneg _
  have hR : ((ir.length : ℝ) + 1) / 2 ^ 52 * (kernelSize ir * (|a| + δ)) ≤ 1 / 2 ^ 18 * (|a| + δ) := by
    have h3 : ((ir.length : ℝ) + 1) / 2 ^ 52 ≤ 8388614 / 2 ^ 52 := div_le_div_of_nonneg_right (by linarith) (by norm_num)
    refine (mul_le_mul h3 hprod (mul_nonneg hW0 (by linarith)) (by norm_num)).trans ?_
    rw [← mul_assoc]
    exact mul_le_mul_of_nonneg_right (by norm_num) (by linarith)
  have hE : (ir.length : ℝ) / 2 ^ 38 ≤ 3 / 2 ^ 16 := by
    rw [div_le_iff₀ (by norm_num)]
    norm_num
    linarith
  have hS := mul_le_mul_of_nonneg_right hsize hδ
  have hEa := mul_le_mul_of_nonneg_right hE ha0
  generalize ((ir.length : ℝ) + 1) / 2 ^ 52 * (kernelSize ir * (|a| + δ)) = R at *
  have fin : ∀ ε : ℝ, (ε + ir.length / 2 ^ 38) * |a| + kernelSize ir * δ + (R + 1 / 2 ^ 100) ≤ (ε + 1 / 2 ^ 14) * |a| + (W + 1) * δ + 1 / 2 ^ 100 := by
    intro ε
    rw [add_mul, add_mul, add_mul]
    linarith
  exact ⟨v, v1, fun ε hε => (v2 _ hε).trans (fin ε), fun d ε hε => (v3 _ _ hε).trans (fin ε)⟩

/-- The length of a low-pass or high-pass kernel for a transition of at least `2 ^ -20`. -/
theorem length_le {n : Nat} {t : ℚ} (t0 : 1 / 2 ^ 20 ≤ t) (hn : (n : ℚ) ≤ 4 / t + 3) : n ≤ 4194307 := by
  have t00 : 0 < t := lt_of_lt_of_le (by norm_num) t0
  have t4 : 4 / t ≤ 4194304 := by
    rw [div_le_iff₀ (by norm_num)] at t0
    rw [div_le_iff₀ t00]
    linarith
  have : (n : ℚ) ≤ 4194307 := by linarith
  exact_mod_cast this

/-- A bound is weakened. -/
private theorem weaken {x ε ε' a δ W w : ℝ} (ha : 0 ≤ a) (h : x ≤ (ε + 1 / 2 ^ 14) * a + (W + 1) * δ + 1 / 2 ^ 100) (he : ε + 1 / 2 ^ 14 ≤ ε')
    (hw : W + 1 = w) : x ≤ ε' * a + w * δ + 1 / 2 ^ 100 := by
  rw [← hw]
  have := mul_le_mul_of_nonneg_right he ha
  linarith

/-- **C169, a tone through the low-pass filter in double precision**, from the arguments of the filter to the samples of the output: a tone of amplitude
`a` above the cutoff frequency comes out with less than 1/100 of its amplitude, one below delayed and with an error of less than 1/60 of the amplitude, if
the samples are within `δ` of the tone, plus at most `18 * δ` and `2 ^ -100`. The transition is at least `2 ^ -20`. -/
theorem C169_double_tone_low_pass {F : Type} [DecidableEq F] (h : RoundsToNearest rnd) [Trig (Fl rnd)] (ht : LibmAccurate rnd) (junk : Fl rnd) {c t : Fl rnd}
    (hc : IsDouble c.val) (t0 : 1 / 2 ^ 20 ≤ t.val) (h0 : t.val ≤ c.val) (h1 : c.val ≤ 1 / 2) :
    ∃ ir : List (Fl rnd), lpHpIr junk c t false = .ok ir ∧ ir.length ≤ 4194307 ∧
      ∀ (irOf : F → List UInt8 → Option (Buf (Fl rnd))) (kind : F) (args : List UInt8), irOf kind args = some ir →
      ∀ f a p δ : ℝ, |a| + δ ≤ 2 ^ 100 → ∀ (junk' : Fl rnd) (blocks : List (Buf (Fl rnd))),
      (∀ x ∈ blocks, x.length + ir.length ≤ 4294967296) →
      (∀ n, n < blocks.flatten.length → |((blocks.flatten.getD n 0).val : ℝ) - toneSample a f p n| ≤ δ) →
      ∃ rs, filterCalls irOf junk' (blocks.map fun x => (x, kind, args)) none = .ok rs ∧ (∀ r ∈ rs, r.success = true) ∧
        ∀ n, ir.length ≤ n + 1 → n < blocks.flatten.length → ∃ y, (rs.map fun r => r.out).flatten[n]? = some y ∧
          (c.val + t.val ≤ |f| → |f| ≤ 1 / 2 → |(y.val : ℝ)| ≤ 1 / 100 * |a| + 18 * δ + 1 / 2 ^ 100) ∧
          (|f| ≤ c.val - t.val → |(y.val : ℝ) - toneSample a f p ((n : ℝ) - ((ir.length - 1) / 2 : Nat))| ≤ 1 / 60 * |a| + 18 * δ + 1 / 2 ^ 100) := by
  have t1 : 4 / 1073741824 ≤ t.val := le_trans (by norm_num) t0
  obtain ⟨ir, i1, -, i2⟩ := C169_double_low_pass h ht junk hc (le_trans (by norm_num) t1) h0 h1
  obtain ⟨M, y, z, -, hl, y1, z1, -, -, -⟩ := both_kernels h ht junk hc t1 h0 h1
  have el : ir.length = 2 * M + 1 := by
    rw [i1] at y1
    rw [Except.ok.inj y1, tab_length]
  have hlen : ir.length ≤ 4194307 := length_le t0 (by rw [el]; exact hl)
  have hsize := (C169_double_sizes h ht junk hc t1 h0 h1 (ir := ir)).1 i1
  refine ⟨ir, i1, hlen, fun irOf kind args hir f a p δ ha junk' blocks h32 hx => ?_⟩
  obtain ⟨rs, r1, r2, r3⟩ := tone_through h (by omega) (by omega) hsize (by norm_num) irOf kind args hir f a p δ ha junk' blocks h32 hx
  refine ⟨rs, r1, r2, fun n n1 n2 => ?_⟩
  obtain ⟨v, v1, v2, v3⟩ := r3 n n1 n2
  have more : ∀ ε : ℝ, ε + (ir.length : ℝ) / 2 ^ 40 ≤ ε + ir.length / 2 ^ 38 := by
    intro ε
    have : (0 : ℝ) ≤ ir.length := Nat.cast_nonneg _
    linarith
  refine ⟨v, v1, fun hf hf' => ?_, fun hf => ?_⟩
  · exact weaken (abs_nonneg a) (v2 _ (((i2 f).2 hf hf').trans (more _))) (by norm_num) (by norm_num)
  · exact weaken (abs_nonneg a) (v3 _ _ (((i2 f).1 hf).trans (more _))) (by norm_num) (by norm_num)

/-- **C169, a tone through the high-pass filter in double precision**: a tone below the cutoff frequency comes out with less than 1/60 of its amplitude,
one above delayed and with an error of less than 1/100 of the amplitude, plus at most `37 * δ` and `2 ^ -100`. -/
theorem C169_double_tone_high_pass {F : Type} [DecidableEq F] (h : RoundsToNearest rnd) [Trig (Fl rnd)] (ht : LibmAccurate rnd) (junk : Fl rnd) {c t : Fl rnd}
    (hc : IsDouble c.val) (t0 : 1 / 2 ^ 20 ≤ t.val) (h0 : t.val ≤ c.val) (h1 : c.val ≤ 1 / 2) :
    ∃ ir : List (Fl rnd), lpHpIr junk c t true = .ok ir ∧ ir.length ≤ 4194307 ∧
      ∀ (irOf : F → List UInt8 → Option (Buf (Fl rnd))) (kind : F) (args : List UInt8), irOf kind args = some ir →
      ∀ f a p δ : ℝ, |a| + δ ≤ 2 ^ 100 → ∀ (junk' : Fl rnd) (blocks : List (Buf (Fl rnd))),
      (∀ x ∈ blocks, x.length + ir.length ≤ 4294967296) →
      (∀ n, n < blocks.flatten.length → |((blocks.flatten.getD n 0).val : ℝ) - toneSample a f p n| ≤ δ) →
      ∃ rs, filterCalls irOf junk' (blocks.map fun x => (x, kind, args)) none = .ok rs ∧ (∀ r ∈ rs, r.success = true) ∧
        ∀ n, ir.length ≤ n + 1 → n < blocks.flatten.length → ∃ y, (rs.map fun r => r.out).flatten[n]? = some y ∧
          (|f| ≤ c.val - t.val → |(y.val : ℝ)| ≤ 1 / 60 * |a| + 37 * δ + 1 / 2 ^ 100) ∧
          (c.val + t.val ≤ |f| → |f| ≤ 1 / 2 →
            |(y.val : ℝ) - toneSample a f p ((n : ℝ) - ((ir.length - 1) / 2 : Nat))| ≤ 1 / 100 * |a| + 37 * δ + 1 / 2 ^ 100) := by
  have t1 : 4 / 1073741824 ≤ t.val := le_trans (by norm_num) t0
  obtain ⟨ir, i1, -, i2⟩ := C169_double_high_pass h ht junk hc (le_trans (by norm_num) t1) h0 h1
  obtain ⟨M, y, z, -, hl, y1, z1, -, -, -⟩ := both_kernels h ht junk hc t1 h0 h1
  have el : ir.length = 2 * M + 1 := by
    rw [i1] at z1
    rw [Except.ok.inj z1, tab_length]
  have hlen : ir.length ≤ 4194307 := length_le t0 (by rw [el]; exact hl)
  have hsize := (C169_double_sizes h ht junk hc t1 h0 h1 (ir := ir)).2 i1
  refine ⟨ir, i1, hlen, fun irOf kind args hir f a p δ ha junk' blocks h32 hx => ?_⟩
  obtain ⟨rs, r1, r2, r3⟩ := tone_through h (by omega) (by omega) hsize (by norm_num) irOf kind args hir f a p δ ha junk' blocks h32 hx
  refine ⟨rs, r1, r2, fun n n1 n2 => ?_⟩
  obtain ⟨v, v1, v2, v3⟩ := r3 n n1 n2
  have more : ∀ ε : ℝ, ε + (ir.length : ℝ) / 2 ^ 40 ≤ ε + ir.length / 2 ^ 38 := by
    intro ε
    have : (0 : ℝ) ≤ ir.length := Nat.cast_nonneg _
    linarith
  refine ⟨v, v1, fun hf => ?_, fun hf hf' => ?_⟩
  · exact weaken (abs_nonneg a) (v2 _ (((i2 f).1 hf).trans (more _))) (by norm_num) (by norm_num)
  · exact weaken (abs_nonneg a) (v3 _ _ (((i2 f).2 hf hf').trans (more _))) (by norm_num) (by norm_num)

/-- **C169, a tone through the band-pass filter in double precision**: a tone outside of the band comes out with less than 1/60 of its amplitude,
one inside of the band delayed and with an error of less than 1/40 of the amplitude, plus at most `614 * δ` and `2 ^ -100`. -/
theorem C169_double_tone_band_pass {F : Type} [DecidableEq F] (h : RoundsToNearest rnd) [Trig (Fl rnd)] (ht : LibmAccurate rnd) (junk : Fl rnd)
    {cl ch tl th : Fl rnd} (hcl : IsDouble cl.val) (hch : IsDouble ch.val) (tl0 : 1 / 2 ^ 20 ≤ tl.val) (th0 : 1 / 2 ^ 20 ≤ th.val) (h0 : tl.val ≤ cl.val)
    (hm : cl.val + tl.val ≤ ch.val - th.val) (h1 : ch.val < 1 / 2) :
    ∃ ir : List (Fl rnd), bpBrIr junk cl ch tl th false = .ok (ir, 3) ∧ ir.length ≤ 8388613 ∧
      ∀ (irOf : F → List UInt8 → Option (Buf (Fl rnd))) (kind : F) (args : List UInt8), irOf kind args = some ir →
      ∀ f a p δ : ℝ, |a| + δ ≤ 2 ^ 100 → ∀ (junk' : Fl rnd) (blocks : List (Buf (Fl rnd))),
      (∀ x ∈ blocks, x.length + ir.length ≤ 4294967296) →
      (∀ n, n < blocks.flatten.length → |((blocks.flatten.getD n 0).val : ℝ) - toneSample a f p n| ≤ δ) →
      ∃ rs, filterCalls irOf junk' (blocks.map fun x => (x, kind, args)) none = .ok rs ∧ (∀ r ∈ rs, r.success = true) ∧
        ∀ n, ir.length ≤ n + 1 → n < blocks.flatten.length → ∃ y, (rs.map fun r => r.out).flatten[n]? = some y ∧
          (|f| ≤ cl.val - tl.val → |(y.val : ℝ)| ≤ 1 / 60 * |a| + 614 * δ + 1 / 2 ^ 100) ∧
          (cl.val + tl.val ≤ |f| → |f| ≤ ch.val - th.val →
            |(y.val : ℝ) - toneSample a f p ((n : ℝ) - ((ir.length - 1) / 2 : Nat))| ≤ 1 / 40 * |a| + 614 * δ + 1 / 2 ^ 100) ∧
          (ch.val + th.val ≤ |f| → |f| ≤ 1 / 2 → |(y.val : ℝ)| ≤ 1 / 60 * |a| + 614 * δ + 1 / 2 ^ 100) := by
  obtain ⟨ir, i1, i0, il, hsize, i2⟩ := C169_double_band_pass h ht junk hcl hch (le_trans (by norm_num) tl0) (le_trans (by norm_num) th0) h0 hm h1
  have hlen : ir.length ≤ 8388613 := by
    have q : ∀ t : ℚ, 1 / 2 ^ 20 ≤ t → 4 / t ≤ 4194304 := by
      intro t t0
      rw [div_le_iff₀ (by norm_num)] at t0
      rw [div_le_iff₀ (by linarith)]
      linarith
    have q1 := q _ tl0
    have q2 := q _ th0
    have : (ir.length : ℚ) ≤ 8388613 := by linarith
    exact_mod_cast this
  refine ⟨ir, i1, hlen, fun irOf kind args hir f a p δ ha junk' blocks h32 hx => ?_⟩
  obtain ⟨rs, r1, r2, r3⟩ := tone_through h i0 (by omega) hsize (by norm_num) irOf kind args hir f a p δ ha junk' blocks h32 hx
  refine ⟨rs, r1, r2, fun n n1 n2 => ?_⟩
  obtain ⟨v, v1, v2, v3⟩ := r3 n n1 n2
  refine ⟨v, v1, fun hf => ?_, fun hf hf' => ?_, fun hf hf' => ?_⟩
  · exact weaken (abs_nonneg a) (v2 _ ((i2 f).1 hf)) (by norm_num) (by norm_num)
  · exact weaken (abs_nonneg a) (v3 _ _ ((i2 f).2.1 hf hf')) (by norm_num) (by norm_num)
  · exact weaken (abs_nonneg a) (v2 _ ((i2 f).2.2 hf hf')) (by norm_num) (by norm_num)

/-- **C169, a tone through the band-reject filter in double precision**: a tone inside of the band comes out with less than 1/45 of its amplitude,
one outside of the band delayed and with an error of less than 1/30 of the amplitude, plus at most `55 * δ` and `2 ^ -100`. -/
theorem C169_double_tone_band_reject {F : Type} [DecidableEq F] (h : RoundsToNearest rnd) [Trig (Fl rnd)] (ht : LibmAccurate rnd) (junk : Fl rnd)
    {cl ch tl th : Fl rnd} (hcl : IsDouble cl.val) (hch : IsDouble ch.val) (tl0 : 1 / 2 ^ 20 ≤ tl.val) (th0 : 1 / 2 ^ 20 ≤ th.val) (h0 : tl.val ≤ cl.val)
    (hm : cl.val + tl.val ≤ ch.val - th.val) (h1 : ch.val < 1 / 2) :
    ∃ ir : List (Fl rnd), bpBrIr junk cl ch tl th true = .ok (ir, 1) ∧ ir.length ≤ 4194307 ∧
      ∀ (irOf : F → List UInt8 → Option (Buf (Fl rnd))) (kind : F) (args : List UInt8), irOf kind args = some ir →
      ∀ f a p δ : ℝ, |a| + δ ≤ 2 ^ 100 → ∀ (junk' : Fl rnd) (blocks : List (Buf (Fl rnd))),
      (∀ x ∈ blocks, x.length + ir.length ≤ 4294967296) →
      (∀ n, n < blocks.flatten.length → |((blocks.flatten.getD n 0).val : ℝ) - toneSample a f p n| ≤ δ) →
      ∃ rs, filterCalls irOf junk' (blocks.map fun x => (x, kind, args)) none = .ok rs ∧ (∀ r ∈ rs, r.success = true) ∧
        ∀ n, ir.length ≤ n + 1 → n < blocks.flatten.length → ∃ y, (rs.map fun r => r.out).flatten[n]? = some y ∧
          (|f| ≤ cl.val - tl.val → |(y.val : ℝ) - toneSample a f p ((n : ℝ) - ((ir.length - 1) / 2 : Nat))| ≤ 1 / 30 * |a| + 55 * δ + 1 / 2 ^ 100) ∧
          (cl.val + tl.val ≤ |f| → |f| ≤ ch.val - th.val →
            |(y.val : ℝ)| ≤ 1 / 45 * |a| + 55 * δ + 1 / 2 ^ 100) ∧
          (ch.val + th.val ≤ |f| → |f| ≤ 1 / 2 → |(y.val : ℝ) - toneSample a f p ((n : ℝ) - ((ir.length - 1) / 2 : Nat))| ≤ 1 / 30 * |a| + 55 * δ + 1 / 2 ^ 100) := by
  obtain ⟨ir, i1, i0, il, hsize, i2⟩ := C169_double_band_reject h ht junk hcl hch (le_trans (by norm_num) tl0) (le_trans (by norm_num) th0) h0 hm h1
  have hlen : ir.length ≤ 4194307 := by
    have q : ∀ t : ℚ, 1 / 2 ^ 20 ≤ t → 4 / t ≤ 4194304 := by
      intro t t0
      rw [div_le_iff₀ (by norm_num)] at t0
      rw [div_le_iff₀ (by linarith)]
      linarith
    have q1 := q _ tl0
    have q2 := q _ th0
    have := max_le q1 q2
    have : (ir.length : ℚ) ≤ 4194307 := by linarith
    exact_mod_cast this
  refine ⟨ir, i1, hlen, fun irOf kind args hir f a p δ ha junk' blocks h32 hx => ?_⟩
  obtain ⟨rs, r1, r2, r3⟩ := tone_through h i0 (by omega) hsize (by norm_num) irOf kind args hir f a p δ ha junk' blocks h32 hx
  refine ⟨rs, r1, r2, fun n n1 n2 => ?_⟩
  obtain ⟨v, v1, v2, v3⟩ := r3 n n1 n2
  refine ⟨v, v1, fun hf => ?_, fun hf hf' => ?_, fun hf hf' => ?_⟩
  · exact weaken (abs_nonneg a) (v3 _ _ ((i2 f).1 hf)) (by norm_num) (by norm_num)
  · exact weaken (abs_nonneg a) (v2 _ ((i2 f).2.1 hf hf')) (by norm_num) (by norm_num)
  · exact weaken (abs_nonneg a) (v3 _ _ ((i2 f).2.2 hf hf')) (by norm_num) (by norm_num)

attribute [local instance] kernelLibm

/-- The highest frequency, 10000 samples in three blocks, through a low-pass for 1/4 of the sampling rate with a transition of 1/1024: as soon as the
kernel is filled, the output is silent. -/
example : ∃ blocks : List (Buf (Fl nearestDouble)), blocks.length = 3 ∧ blocks.flatten.length = 10000 ∧ ∃ ir rs,
    lpHpIr (⟨7⟩ : Fl nearestDouble) ⟨1 / 4⟩ ⟨1 / 1024⟩ false = .ok ir ∧
    filterCalls (fun (_ : Unit) _ => some ir) ⟨5⟩ (blocks.map fun x => (x, (), [])) none = .ok rs ∧
    ∀ n, ir.length ≤ n + 1 → n < 10000 → ∃ y, (rs.map fun r => r.out).flatten[n]? = some y ∧ |(y.val : ℝ)| ≤ 1 / 99 := by
  have hd : IsDouble (1 / 4) := ⟨1, -2, by norm_num, by norm_num, by norm_num, by norm_num⟩
  obtain ⟨ir, i1, hir, i2⟩ := C169_double_tone_low_pass (F := Unit) nearestDouble_rounds kernelLibm_accurate ⟨7⟩ (c := ⟨1 / 4⟩) (t := ⟨1 / 1024⟩) hd (by norm_num)
    (by norm_num) (by norm_num)
  obtain ⟨x, hxd⟩ : ∃ x : Buf (Fl nearestDouble), x = tab 10000 fun n => ⟨(-1) ^ n⟩ := ⟨_, rfl⟩
  have hx : x.length = 10000 := by rw [hxd]; exact tab_length
  let blocks := [x.take 4000, (x.drop 4000).take 3000, (x.drop 4000).drop 3000]
  have hf : blocks.flatten = x := by
    simp only [blocks, List.flatten_cons, List.flatten_nil, List.append_nil, List.take_append_drop]
  obtain ⟨rs, r1, -, r2⟩ := i2 (fun _ _ => some ir) () [] rfl (1 / 2) 1 0 0 (by norm_num) ⟨5⟩ blocks (by
    intro b hb
    have : b.length ≤ 10000 := by
      simp only [blocks, List.mem_cons, List.not_mem_nil, or_false] at hb
      rcases hb with rfl | rfl | rfl <;> simp [hx]
    omega) (by
    intro n hn
    rw [hf] at hn ⊢
    rw [hx] at hn
    rw [hxd, getD_tab, if_pos hn, toneSample]
    push_cast
    rw [show 2 * Real.pi * (1 / 2) * n + 0 = n * Real.pi by ring, Real.cos_nat_mul_pi]
    simp)
  refine ⟨blocks, rfl, by rw [hf, hx], ir, rs, i1, r1, fun n n1 n2 => ?_⟩
  obtain ⟨y, y1, y2, -⟩ := r2 n n1 (by rw [hf, hx]; exact n2)
  refine ⟨y, y1, (y2 ?_ ?_).trans ?_⟩
  · rw [abs_of_pos (by norm_num)]; push_cast; norm_num
  · rw [abs_of_pos (by norm_num)]
  · norm_num

/-- A constant signal of 5000 samples in two blocks, which is a tone of frequency zero: silent after the high-pass and the band-pass, kept by the
band-reject. -/
example : ∃ blocks : List (Buf (Fl nearestDouble)), blocks.map List.length = [2000, 3000] ∧ ∃ hp bp br rs1 rs2 rs3,
    lpHpIr (⟨7⟩ : Fl nearestDouble) ⟨1 / 64⟩ ⟨1 / 128⟩ true = .ok hp ∧ bpBrIr (⟨7⟩ : Fl nearestDouble) ⟨1 / 64⟩ ⟨1 / 8⟩ ⟨1 / 128⟩ ⟨1 / 64⟩ false = .ok (bp, 3) ∧
    bpBrIr (⟨7⟩ : Fl nearestDouble) ⟨1 / 64⟩ ⟨1 / 8⟩ ⟨1 / 128⟩ ⟨1 / 64⟩ true = .ok (br, 1) ∧
    filterCalls (fun (_ : Unit) _ => some hp) ⟨5⟩ (blocks.map fun x => (x, (), [])) none = .ok rs1 ∧
    filterCalls (fun (_ : Unit) _ => some bp) ⟨5⟩ (blocks.map fun x => (x, (), [])) none = .ok rs2 ∧
    filterCalls (fun (_ : Unit) _ => some br) ⟨5⟩ (blocks.map fun x => (x, (), [])) none = .ok rs3 ∧
    ∀ n, hp.length ≤ n + 1 → bp.length ≤ n + 1 → br.length ≤ n + 1 → n < 5000 → ∃ y1 y2 y3 : Fl nearestDouble,
      (rs1.map fun r => r.out).flatten[n]? = some y1 ∧ (rs2.map fun r => r.out).flatten[n]? = some y2 ∧ (rs3.map fun r => r.out).flatten[n]? = some y3 ∧
      |(y1.val : ℝ)| ≤ 1 / 59 ∧ |(y2.val : ℝ)| ≤ 1 / 59 ∧ |(y3.val : ℝ) - 1| ≤ 1 / 29 := by
  have hd : IsDouble (1 / 64) := ⟨1, -6, by norm_num, by norm_num, by norm_num, by norm_num⟩
  have hd' : IsDouble (1 / 8) := ⟨1, -3, by norm_num, by norm_num, by norm_num, by norm_num⟩
  obtain ⟨hp, p1, pl, p2⟩ := C169_double_tone_high_pass (F := Unit) nearestDouble_rounds kernelLibm_accurate ⟨7⟩ (c := ⟨1 / 64⟩) (t := ⟨1 / 128⟩) hd
    (by norm_num) (by norm_num) (by norm_num)
  obtain ⟨bp, b1, bl, b2⟩ := C169_double_tone_band_pass (F := Unit) nearestDouble_rounds kernelLibm_accurate ⟨7⟩ (cl := ⟨1 / 64⟩) (ch := ⟨1 / 8⟩)
    (tl := ⟨1 / 128⟩) (th := ⟨1 / 64⟩) hd hd' (by norm_num) (by norm_num) (by norm_num) (by norm_num) (by norm_num)
  obtain ⟨br, c1, cl, c2⟩ := C169_double_tone_band_reject (F := Unit) nearestDouble_rounds kernelLibm_accurate ⟨7⟩ (cl := ⟨1 / 64⟩) (ch := ⟨1 / 8⟩)
    (tl := ⟨1 / 128⟩) (th := ⟨1 / 64⟩) hd hd' (by norm_num) (by norm_num) (by norm_num) (by norm_num) (by norm_num)
  obtain ⟨x, hxd⟩ : ∃ x : Buf (Fl nearestDouble), x = tab 2000 fun _ => ⟨1⟩ := ⟨_, rfl⟩
  obtain ⟨x', hxd'⟩ : ∃ x' : Buf (Fl nearestDouble), x' = tab 3000 fun _ => ⟨1⟩ := ⟨_, rfl⟩
  have hx : x.length = 2000 := by rw [hxd]; exact tab_length
  have hx' : x'.length = 3000 := by rw [hxd']; exact tab_length
  let blocks := [x, x']
  have hf : blocks.flatten = x ++ x' := by simp only [blocks, List.flatten_cons, List.flatten_nil, List.append_nil]
  have hlen : blocks.flatten.length = 5000 := by rw [hf, List.length_append, hx, hx']
  have h32 : ∀ m, m ≤ 8388613 → ∀ b ∈ blocks, b.length + m ≤ 4294967296 := by
    intro m hm b hb
    simp only [blocks, List.mem_cons, List.not_mem_nil, or_false] at hb
    rcases hb with rfl | rfl <;> omega
  have hone : ∀ y ∈ blocks.flatten, y = ⟨1⟩ := by
    intro y hy
    rw [hf, hxd, hxd', List.mem_append] at hy
    simp only [tab, List.mem_map] at hy
    rcases hy with ⟨_, _, rfl⟩ | ⟨_, _, rfl⟩ <;> rfl
  have htone : ∀ y, toneSample 1 0 0 y = 1 := by
    intro y
    simp [toneSample]
  have hs : ∀ n, n < blocks.flatten.length → |((blocks.flatten.getD n 0).val : ℝ) - toneSample 1 0 0 n| ≤ 0 := by
    intro n hn
    rw [List.getD_eq_getElem?_getD, List.getElem?_eq_getElem hn, Option.getD_some, hone _ (List.getElem_mem hn), htone]
    simp
  obtain ⟨rs1, r1, -, s1⟩ := p2 (fun _ _ => some hp) () [] rfl 0 1 0 0 (by norm_num) ⟨5⟩ blocks (h32 _ (by omega)) hs
  obtain ⟨rs2, r2, -, s2⟩ := b2 (fun _ _ => some bp) () [] rfl 0 1 0 0 (by norm_num) ⟨5⟩ blocks (h32 _ (by omega)) hs
  obtain ⟨rs3, r3, -, s3⟩ := c2 (fun _ _ => some br) () [] rfl 0 1 0 0 (by norm_num) ⟨5⟩ blocks (h32 _ (by omega)) hs
  refine ⟨blocks, by simp only [blocks, List.map_cons, List.map_nil, hx, hx'], hp, bp, br, rs1, rs2, rs3, p1, b1, c1, r1, r2, r3, fun n n1 n2 n3 hn => ?_⟩
  obtain ⟨y1, g1, g2, -⟩ := s1 n n1 (by omega)
  obtain ⟨y2, k1, k2, -, -⟩ := s2 n n2 (by omega)
  obtain ⟨y3, l1, l2, -, -⟩ := s3 n n3 (by omega)
  refine ⟨y1, y2, y3, g1, k1, l1, (g2 ?_).trans ?_, (k2 ?_).trans ?_, ?_⟩
  · rw [abs_zero]; push_cast; norm_num
  · norm_num
  · rw [abs_zero]; push_cast; norm_num
  · norm_num
  · have := l2 (by rw [abs_zero]; push_cast; norm_num)
    rw [htone] at this
    refine this.trans ?_
    norm_num

end Sp
