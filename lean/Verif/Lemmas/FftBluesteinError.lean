import Verif.Lemmas.FftError
import Verif.Lemmas.FftBluestein
import Verif.Lemmas.FftBluesteinGeneric

/-! # Rounding errors of the Bluestein transform -/

set_option linter.unusedSectionVars false

noncomputable section

namespace Sp
variable {rnd : ℚ → ℚ}

/-! ## The transform of powers of two -/

theorem feta_power {L : Nat} (hL : L ≤ 33) : 6 * ((3 : ℝ) ^ L - 1) * feta ≤ (2 : ℝ) ^ (-1020 : ℤ) := by
  have h1 : (3 : ℝ) ^ L ≤ 3 ^ 33 := pow_le_pow_right₀ (by norm_num) hL
  have h2 : 6 * ((3 : ℝ) ^ L - 1) ≤ 2 ^ (55 : ℤ) := by
    have : 6 * (3 : ℝ) ^ 33 ≤ 2 ^ (55 : ℤ) := by norm_num
    linarith
  have h3 := mul_le_mul_of_nonneg_right h2 feta_pos.le
  refine h3.trans (le_of_eq ?_)
  rw [feta, ← zpow_add₀ (by norm_num)]
  norm_num

theorem fftTransform_pow_fl (h : RoundsToNearest rnd) [Trig (Fl rnd)] (ht : TrigAccurate rnd) {L N : Nat} (hL : L ≤ 33) (hN : 2 ^ L ≤ N)
    (d : Nat) (x : Nat → Fl rnd × Fl rnd) (hmax : 64 * ∑ i ∈ Finset.range (2 ^ L), ‖cval (x i)‖ + 64 ≤ fmax) :
    ∃ z, fftTransform (d + 1) (2 ^ L) (gbuf N x) = .ok (true, gbuf N z) ∧
      (∀ k, k < 2 ^ L → ‖cval (z k) - dft (2 ^ L) (fun i => cval (x i)) k‖ ≤
        L / 2 ^ 45 * ∑ i ∈ Finset.range (2 ^ L), ‖cval (x i)‖ + (2 : ℝ) ^ (-1020 : ℤ)) ∧
      ∀ k, 2 ^ L ≤ k → z k = x k := by
  obtain ⟨z, e, hz⟩ := fftRadix2_gbuf (StageInv L (fun i => cval (x i)) x) (by omega) hN x
    (StageInv.zero L _) (StageInv.succ h ht (by omega) _ hmax)
  refine ⟨z, ?_, ?_, hz.2⟩
  · rw [fftTransform, if_neg (Nat.two_pow_pos L).ne', if_pos (and_pred_pow L)]
    exact e
  · intro k hk
    have h1 := hz.1 k hk
    rw [Nat.sub_self, stageZ_last L _ hk, Nat.div_eq_of_lt hk] at h1
    refine h1.trans (add_le_add ?_ (feta_power hL))
    have h2 := growth_le L (by omega)
    have h3 := nsum_le_total (fun i => cval (x i)) 0 L 0 (by norm_num)
    have h4 := nsum_nonneg (fun i => cval (x i)) 0 L 0
    have h5 : 0 ≤ (L : ℝ) / 2 ^ 45 := by positivity
    rw [Nat.zero_add] at h3
    calc _ ≤ (L : ℝ) / 2 ^ 45 * nsum (fun i => cval (x i)) 0 L 0 :=
          mul_le_mul_of_nonneg_right (by rw [div_eq_mul_one_div]; linarith) h4
      _ ≤ _ := mul_le_mul_of_nonneg_left h3 h5

/-! ## Bounds of exact transforms -/

theorem norm_swapRI (z : ℂ) : ‖swapRI z‖ = ‖z‖ := by
  rw [swapRI_eq, norm_mul, Complex.norm_I, one_mul, RCLike.norm_conj]

theorem norm_dft_le (n : Nat) (x : Nat → ℂ) (k : Nat) : ‖dft n x k‖ ≤ ∑ i ∈ Finset.range n, ‖x i‖ := by
  rw [dft_eq]
  refine (norm_sum_le _ _).trans (Finset.sum_le_sum fun t _ => ?_)
  rw [norm_mul, norm_fexp, mul_one]

theorem norm_dft_sub_le (n : Nat) (x y : Nat → ℂ) (k : Nat) : ‖dft n x k - dft n y k‖ ≤ ∑ i ∈ Finset.range n, ‖x i - y i‖ := by
  rw [dft_eq, dft_eq, ← Finset.sum_sub_distrib]
  refine (norm_sum_le _ _).trans (Finset.sum_le_sum fun t _ => ?_)
  rw [← sub_mul, norm_mul, norm_fexp, mul_one]

theorem norm_idft_le (n : Nat) (x : Nat → ℂ) (k : Nat) : ‖idft n x k‖ ≤ ∑ i ∈ Finset.range n, ‖x i‖ := by
  rw [idft]
  refine (norm_sum_le _ _).trans (Finset.sum_le_sum fun t _ => ?_)
  rw [norm_mul, norm_fexp, mul_one]

theorem norm_idft_sub_le (n : Nat) (x y : Nat → ℂ) (k : Nat) : ‖idft n x k - idft n y k‖ ≤ ∑ i ∈ Finset.range n, ‖x i - y i‖ := by
  rw [idft, idft, ← Finset.sum_sub_distrib]
  refine (norm_sum_le _ _).trans (Finset.sum_le_sum fun t _ => ?_)
  rw [← sub_mul, norm_mul, norm_fexp, mul_one]

/-! ## Single operations -/

theorem chirp_angle_error (h : RoundsToNearest rnd) [Trig (Fl rnd)] (ht : TrigAccurate rnd) {n r : Nat} (hn : 0 < n) (hn62 : n ≤ 2 ^ 62) (hr : r ≤ 2 * n) :
    |(((Trig.pi * r / n : Fl rnd)).val : ℝ) - Real.pi * r / n| ≤ 1 / 2 ^ 48 - 1 / 2 ^ 52 ∧
      |((Trig.pi * r / n : Fl rnd)).val| ≤ 7 := by
  have hpi1 := Real.pi_gt_d20
  have hpi2 := Real.pi_lt_d20
  have he := feta_pos
  have he2 := feta_le
  have hmax : (2 : ℝ) ^ (100 : ℤ) ≤ fmax := fmax_ge (by norm_num)
  have hmax' : (2 : ℝ) ^ 100 ≤ fmax := by exact_mod_cast hmax
  have hn0 : (0 : ℝ) < n := by exact_mod_cast hn
  have hnr : (n : ℝ) ≤ 2 ^ 62 := by exact_mod_cast hn62
  have hir : (r : ℝ) ≤ 2 * n := by exact_mod_cast hr
  have hi0 : (0 : ℝ) ≤ r := by positivity
  have hn1 : (1 : ℝ) ≤ n := by exact_mod_cast hn
  set x0 : ℚ := 884279719003555 / 281474976710656 with hx0
  set x1 : ℚ := rnd (x0 * r) with hx1
  have e2 : ((Trig.pi * r / n : Fl rnd)).val = rnd (x1 / n) := by
    show rnd (rnd ((Trig.pi : Fl rnd).val * r) / n) = _
    rw [ht.pi]
  rw [e2]
  have c0 : |(x0 : ℝ) - Real.pi| ≤ 2 / 2 ^ 53 := by
    rw [hx0]
    push_cast
    rw [abs_le]
    constructor <;> linarith
  have c0' : |(x0 : ℝ)| ≤ 32 / 10 := by
    rw [abs_le] at c0 ⊢
    constructor <;> linarith
  have m1 : |(x0 : ℝ) * r| ≤ 32 / 10 * r := by
    rw [abs_mul, abs_of_nonneg hi0]
    exact mul_le_mul_of_nonneg_right c0' hi0
  have b1 := rnd_real h (q := x0 * r) (by
    push_cast
    refine m1.trans (le_trans ?_ hmax')
    linarith)
  rw [← hx1, fu] at b1
  push_cast at b1
  have hf0 : (0 : ℝ) ≤ r / n := by positivity
  have hf1 : (r : ℝ) / n ≤ 2 := by
    rw [div_le_iff₀ hn0]; linarith
  have c1 : |(x1 : ℝ) / n - x0 * (r / n)| ≤ 64 / 10 / 2 ^ 53 + feta := by
    have : (x1 : ℝ) / n - x0 * (r / n) = (x1 - x0 * r) / n := by field_simp
    rw [this, abs_div, abs_of_pos hn0, div_le_iff₀ hn0]
    refine b1.trans ?_
    have : feta ≤ feta * n := le_mul_of_one_le_right he.le hn1
    rw [add_mul]
    linarith
  have c2 : |(x0 : ℝ) * (r / n) - Real.pi * r / n| ≤ 4 / 2 ^ 53 := by
    have : (x0 : ℝ) * (r / n) - Real.pi * r / n = (x0 - Real.pi) * (r / n) := by ring
    rw [this, abs_mul, abs_of_nonneg hf0]
    have := mul_le_mul c0 hf1 hf0 (by norm_num)
    linarith
  have c3 : |(x0 : ℝ) * (r / n)| ≤ 64 / 10 := by
    rw [abs_mul, abs_of_nonneg hf0]
    have := mul_le_mul c0' hf1 hf0 (by norm_num)
    linarith
  have c4 : |(x1 : ℝ) / n| ≤ 65 / 10 := by
    rw [abs_le] at c1 c3 ⊢
    constructor <;> linarith
  have b2 := rnd_real h (q := x1 / n) (by
    push_cast
    refine c4.trans (le_trans ?_ hmax')
    norm_num)
  rw [fu] at b2
  push_cast at b2
  have d1 : |((rnd (x1 / n) : ℚ) : ℝ) - Real.pi * r / n| ≤ 1 / 2 ^ 48 - 1 / 2 ^ 52 := by
    rw [abs_le] at b2 c1 c2 ⊢
    constructor <;> linarith
  refine ⟨d1, ?_⟩
  have d2 : |((rnd (x1 / n) : ℚ) : ℝ)| ≤ 7 := by
    have c5 := abs_le.1 c4
    rw [abs_le] at b2 ⊢
    constructor <;> linarith
  exact_mod_cast d2

theorem fexp_chirp {n : Nat} (hn : 0 < n) (i : Nat) : fexp ((i * i : ℝ) / (2 * n)) = fexp (((i * i % (n * 2) : ℕ) : ℝ) / (2 * n)) := by
  have hn' : (n : ℝ) ≠ 0 := by positivity
  have h1 := Nat.div_add_mod (i * i) (n * 2)
  have h2 : ((i * i : ℕ) : ℝ) = ((n * 2 * (i * i / (n * 2)) + i * i % (n * 2) : ℕ) : ℝ) := by rw [h1]
  push_cast at h2
  rw [h2]
  generalize i * i / (n * 2) = q at *
  generalize i * i % (n * 2) = r at *
  have e : ((n * 2 * (q : ℝ) + (r : ℝ)) / (2 * (n : ℝ))) = ((q : ℤ) : ℝ) + ((r : ℝ) / (2 * n)) := by
    push_cast
    field_simp
  rw [e, fexp_add, fexp_int, one_mul]

theorem cTable_error (h : RoundsToNearest rnd) [Trig (Fl rnd)] (ht : TrigAccurate rnd) {n : Nat} (hn : 0 < n) (hn62 : n ≤ 2 ^ 62) (i : Nat) :
    |(((cTable n i : Fl rnd × Fl rnd).1.val : ℚ) : ℝ) - (fexp ((i * i : ℝ) / (2 * n))).re| ≤ 1 / 2 ^ 48 ∧
      |(((cTable n i : Fl rnd × Fl rnd).2.val : ℚ) : ℝ) + (fexp ((i * i : ℝ) / (2 * n))).im| ≤ 1 / 2 ^ 48 := by
  have hn' : (n : ℝ) ≠ 0 := by positivity
  obtain ⟨h1, h2⟩ := chirp_angle_error h ht hn hn62 (Nat.mod_lt (i * i) (by omega : 0 < n * 2) |>.le.trans (by omega))
  have h3 := ht.cos _ h2
  have h4 := ht.sin _ h2
  rw [fexp_chirp hn, fexp_re, fexp_im, ← sub_eq_add_neg]
  unfold cTable
  dsimp only
  generalize i * i % (n * 2) = r at *
  have ha : 2 * Real.pi * ((r : ℝ) / (2 * n)) = Real.pi * r / n := by field_simp
  rw [ha]
  have h5 := Real.abs_cos_sub_cos_le (((Trig.pi * r / n : Fl rnd)).val : ℝ) (Real.pi * r / n)
  have h6 := Real.abs_sin_sub_sin_le (((Trig.pi * r / n : Fl rnd)).val : ℝ) (Real.pi * r / n)
  generalize (Trig.pi * (r : Fl rnd) / (n : Fl rnd)) = y at *
  exact ⟨(abs_sub_le _ (Real.cos y.val) _).trans (by linarith), (abs_sub_le _ (Real.sin y.val) _).trans (by linarith)⟩

/-- The product with an element of the table of the Bluestein transform. -/
theorem chirp_mul_error (h : RoundsToNearest rnd) [Trig (Fl rnd)] (ht : TrigAccurate rnd) {n : Nat} (hn : 0 < n) (hn62 : n ≤ 2 ^ 62) (i : Nat)
    {q : Fl rnd × Fl rnd} (hmax : 16 * ‖cval q‖ + 16 ≤ fmax) :
    ‖cval (gmul q (cTable n i)) - cval q * fexp ((i * i : ℝ) / (2 * n))‖ ≤ 1 / 2 ^ 45 * ‖cval q‖ + 8 * feta := by
  obtain ⟨t1, t2⟩ := cTable_error h ht hn hn62 i
  obtain ⟨e1, e2⟩ := gmul_error_gen le_rfl h (norm_fexp _) t1 t2 hmax
  have hq := norm_nonneg (cval q)
  rw [mul_comm]
  refine (norm_le_abs_add _).trans ?_
  rw [Complex.sub_re, Complex.sub_im]
  linarith

/-- The rounded product of complex numbers. -/
theorem gprod_error (h : RoundsToNearest rnd) {x y : Fl rnd × Fl rnd} (hmax : 16 * (‖cval x‖ * ‖cval y‖) + 16 ≤ fmax) :
    ‖cval (gprod x y) - cval x * cval y‖ ≤ 1 / 2 ^ 49 * (‖cval x‖ * ‖cval y‖) + 8 * feta := by
  have he := feta_pos
  have he1 : feta ≤ 1 := feta_le.trans (by norm_num)
  have hx1 : |(x.1.val : ℝ)| ≤ ‖cval x‖ := Complex.abs_re_le_norm (cval x)
  have hx2 : |(x.2.val : ℝ)| ≤ ‖cval x‖ := Complex.abs_im_le_norm (cval x)
  have hy1 : |(y.1.val : ℝ)| ≤ ‖cval y‖ := Complex.abs_re_le_norm (cval y)
  have hy2 : |(y.2.val : ℝ)| ≤ ‖cval y‖ := Complex.abs_im_le_norm (cval y)
  have hP : 0 ≤ ‖cval x‖ * ‖cval y‖ := by positivity
  have prod : ∀ a b : ℚ, |(a : ℝ)| ≤ ‖cval x‖ → |(b : ℝ)| ≤ ‖cval y‖ →
      |((rnd (a * b) : ℚ) : ℝ) - a * b| ≤ 1 / 2 ^ 53 * (‖cval x‖ * ‖cval y‖) + feta ∧ |(a : ℝ) * b| ≤ ‖cval x‖ * ‖cval y‖ := by
    intro a b ha hb
    have h2 : |(a : ℝ) * b| ≤ ‖cval x‖ * ‖cval y‖ := by
      rw [abs_mul]
      exact mul_le_mul ha hb (abs_nonneg _) (norm_nonneg _)
    have h3 := rnd_real h (q := a * b) (by push_cast; linarith)
    rw [fu] at h3
    push_cast at h3
    exact ⟨by linarith, h2⟩
  have comp : ∀ a b s : ℝ, ∀ q : ℚ, |s| ≤ 1 → (q : ℝ) = a + s * b → |a| ≤ 2 * (‖cval x‖ * ‖cval y‖) + 1 → |b| ≤ 2 * (‖cval x‖ * ‖cval y‖) + 1 →
      |((rnd q : ℚ) : ℝ) - (a + s * b)| ≤ 1 / 2 ^ 53 * |a + s * b| + feta := by
    intro a b s q hs hq ha hb
    have h2 : |s * b| ≤ |b| := by
      rw [abs_mul]
      exact mul_le_of_le_one_left (abs_nonneg _) hs
    have h3 := rnd_real h (q := q) (by
      rw [hq]
      have := abs_add_le a (s * b)
      linarith)
    rw [fu, hq] at h3
    exact h3
  obtain ⟨a1, a2⟩ := prod x.1.val y.1.val hx1 hy1
  obtain ⟨b1, b2⟩ := prod x.2.val y.2.val hx2 hy2
  obtain ⟨c1, c2⟩ := prod x.2.val y.1.val hx2 hy1
  obtain ⟨d1, d2⟩ := prod x.1.val y.2.val hx1 hy2
  have size : ∀ {a b : ℝ}, |a - b| ≤ 1 / 2 ^ 53 * (‖cval x‖ * ‖cval y‖) + feta → |b| ≤ ‖cval x‖ * ‖cval y‖ →
      |a| ≤ (1 + 1 / 2 ^ 53) * (‖cval x‖ * ‖cval y‖) + feta := by
    intro a b h1 h2
    rw [abs_le] at *
    constructor <;> linarith
  have a3 := size a1 a2
  have b3 := size b1 b2
  have c3 := size c1 c2
  have d3 := size d1 d2
  have r1 := comp _ _ (-1) (rnd (x.1.val * y.1.val) - rnd (x.2.val * y.2.val)) (by norm_num) (by push_cast; ring)
    (a3.trans (by linarith)) (b3.trans (by linarith))
  have r2 := comp _ _ 1 (rnd (x.2.val * y.1.val) + rnd (x.1.val * y.2.val)) (by norm_num) (by push_cast; ring)
    (c3.trans (by linarith)) (d3.trans (by linarith))
  have bound : ∀ {a b A B s t : ℝ}, |a - A| ≤ 1 / 2 ^ 53 * (‖cval x‖ * ‖cval y‖) + feta → |b - B| ≤ 1 / 2 ^ 53 * (‖cval x‖ * ‖cval y‖) + feta →
      |a| ≤ (1 + 1 / 2 ^ 53) * (‖cval x‖ * ‖cval y‖) + feta → |b| ≤ (1 + 1 / 2 ^ 53) * (‖cval x‖ * ‖cval y‖) + feta →
      (s = 1 ∨ s = -1) → |t - (a + s * b)| ≤ 1 / 2 ^ 53 * |a + s * b| + feta →
      |t - (A + s * B)| ≤ 1 / 2 ^ 50 * (‖cval x‖ * ‖cval y‖) + 4 * feta := by
    intro a b A B s t h1 h2 h3 h4 hs h5
    have h6 : |a + s * b| ≤ (2 + 2 / 2 ^ 53) * (‖cval x‖ * ‖cval y‖) + 2 * feta := by
      rcases hs with rfl | rfl
      · refine (abs_add_le _ _).trans ?_
        rw [one_mul]
        linarith
      · refine (abs_add_le _ _).trans ?_
        rw [neg_one_mul, abs_neg]
        linarith
    rw [abs_le] at h1 h2 h5
    rcases hs with rfl | rfl
    · rw [abs_le]
      constructor <;> linarith
    · rw [abs_le]
      constructor <;> linarith
  have f1 := bound a1 b1 a3 b3 (Or.inr rfl) r1
  have f2 := bound c1 d1 c3 d3 (Or.inl rfl) r2
  refine (norm_le_abs_add _).trans ?_
  rw [Complex.sub_re, Complex.sub_im, Complex.mul_re, Complex.mul_im]
  have g1 : |(cval (gprod x y)).re - ((cval x).re * (cval y).re - (cval x).im * (cval y).im)| ≤
      1 / 2 ^ 50 * (‖cval x‖ * ‖cval y‖) + 4 * feta := by
    refine le_trans (le_of_eq ?_) f1
    congr 1
    rw [cval_re, cval_re, cval_re, cval_im, cval_im]
    show ((rnd (rnd (x.1.val * y.1.val) - rnd (x.2.val * y.2.val)) : ℚ) : ℝ) - _ = _
    ring
  have g2 : |(cval (gprod x y)).im - ((cval x).re * (cval y).im + (cval x).im * (cval y).re)| ≤
      1 / 2 ^ 50 * (‖cval x‖ * ‖cval y‖) + 4 * feta := by
    refine le_trans (le_of_eq ?_) f2
    congr 1
    rw [cval_im, cval_re, cval_re, cval_im, cval_im]
    show ((rnd (rnd (x.2.val * y.1.val) + rnd (x.1.val * y.2.val)) : ℚ) : ℝ) - _ = _
    ring
  linarith

/-- The rounded quotient. -/
theorem gdiv_error (h : RoundsToNearest rnd) {x : Fl rnd × Fl rnd} {m : Nat} (hm : 0 < m) (hmax : ‖cval x‖ ≤ fmax) :
    ‖cval (gdiv m x) - cval x / m‖ ≤ 1 / 2 ^ 52 * (‖cval x‖ / m) + 2 * feta := by
  have hm0 : (0 : ℝ) < m := by exact_mod_cast hm
  have hm1 : (1 : ℝ) ≤ m := by exact_mod_cast hm
  have hx1 : |(x.1.val : ℝ)| ≤ ‖cval x‖ := Complex.abs_re_le_norm (cval x)
  have hx2 : |(x.2.val : ℝ)| ≤ ‖cval x‖ := Complex.abs_im_le_norm (cval x)
  have q : ∀ a : ℚ, |(a : ℝ)| ≤ ‖cval x‖ → |((rnd (a / m) : ℚ) : ℝ) - a / m| ≤ 1 / 2 ^ 53 * (‖cval x‖ / m) + feta := by
    intro a ha
    have h1 : |(a : ℝ) / m| ≤ ‖cval x‖ / m := by
      rw [abs_div, abs_of_pos hm0]
      exact div_le_div_of_nonneg_right ha hm0.le
    have h2 := rnd_real h (q := a / m) (by
      push_cast
      exact h1.trans ((div_le_self (norm_nonneg _) hm1).trans hmax))
    rw [fu] at h2
    push_cast at h2
    linarith
  have q1 := q _ hx1
  have q2 := q _ hx2
  refine (norm_le_abs_add _).trans ?_
  rw [Complex.sub_re, Complex.sub_im, Complex.div_natCast_re, Complex.div_natCast_im]
  have g1 : |(cval (gdiv m x)).re - (cval x).re / m| ≤ 1 / 2 ^ 53 * (‖cval x‖ / m) + feta := q1
  have g2 : |(cval (gdiv m x)).im - (cval x).im / m| ≤ 1 / 2 ^ 53 * (‖cval x‖ / m) + feta := q2
  linarith

/-! ## The whole transform -/

/-- The product of approximations. -/
theorem approx_mul {p P q Q o : ℂ} {BP BQ e1 e2 e3 h1 h3 : ℝ} (hP : ‖P‖ ≤ BP) (hQ : ‖Q‖ ≤ BQ) (hp : ‖p - P‖ ≤ e1 * BP + h1)
    (hq : ‖q - Q‖ ≤ e2 * BQ) (ho : ‖o - p * q‖ ≤ e3 * (‖p‖ * ‖q‖) + h3) (he1 : 0 ≤ e1) (he2 : 0 ≤ e2) (he3 : 0 ≤ e3) (hh : 0 ≤ h1)
    (he1' : e1 ≤ 1) (he2' : e2 ≤ 1) (he3' : e3 ≤ 1) :
    ‖p‖ * ‖q‖ ≤ 4 * (BP * BQ) + 2 * (BQ * h1) ∧
      ‖o - P * Q‖ ≤ (e1 + e2 + e1 * e2 + 4 * e3) * (BP * BQ) + 4 * (BQ * h1) + h3 := by
  have hBP : 0 ≤ BP := (norm_nonneg P).trans hP
  have hBQ : 0 ≤ BQ := (norm_nonneg Q).trans hQ
  have np : ‖p‖ ≤ (1 + e1) * BP + h1 := by
    have := norm_add_le (p - P) P
    rw [sub_add_cancel] at this
    linarith
  have nq : ‖q‖ ≤ (1 + e2) * BQ := by
    have := norm_add_le (q - Q) Q
    rw [sub_add_cancel] at this
    linarith
  have np' : ‖p‖ ≤ 2 * BP + h1 := by
    have := mul_le_mul_of_nonneg_right he1' hBP
    linarith
  have nq' : ‖q‖ ≤ 2 * BQ := by
    have := mul_le_mul_of_nonneg_right he2' hBQ
    linarith
  have npq : ‖p‖ * ‖q‖ ≤ 4 * (BP * BQ) + 2 * (BQ * h1) := by
    have := mul_le_mul np' nq' (norm_nonneg _) (by positivity)
    linarith
  refine ⟨npq, ?_⟩
  have e : o - P * Q = (o - p * q) + (p * (q - Q) + (p - P) * Q) := by ring
  rw [e]
  refine (norm_add_le _ _).trans ?_
  have s1 : ‖p * (q - Q)‖ ≤ ((1 + e1) * BP + h1) * (e2 * BQ) := by
    rw [norm_mul]
    exact mul_le_mul np hq (norm_nonneg _) (by positivity)
  have s2 : ‖(p - P) * Q‖ ≤ (e1 * BP + h1) * BQ := by
    rw [norm_mul]
    exact mul_le_mul hp hQ (norm_nonneg _) (by positivity)
  have s3 := norm_add_le (p * (q - Q)) ((p - P) * Q)
  have s4 : e3 * (‖p‖ * ‖q‖) ≤ e3 * (4 * (BP * BQ)) + 2 * (BQ * h1) := by
    have t1 := mul_le_mul_of_nonneg_left npq he3
    have t2 : e3 * (2 * (BQ * h1)) ≤ 1 * (2 * (BQ * h1)) := mul_le_mul_of_nonneg_right he3' (by positivity)
    linarith
  have s5 : e2 * (BQ * h1) ≤ 1 * (BQ * h1) := mul_le_mul_of_nonneg_right he2' (by positivity)
  have s6 : ((1 + e1) * BP + h1) * (e2 * BQ) = (e2 + e1 * e2) * (BP * BQ) + e2 * (BQ * h1) := by ring
  have s7 : (e1 * BP + h1) * BQ = e1 * (BP * BQ) + BQ * h1 := by ring
  rw [s6] at s1
  rw [s7] at s2
  linarith

theorem sum_mirror_le {n m : Nat} (hm : n < m / 2) (c : ℝ) (hc : 0 ≤ c) :
    ∑ a ∈ Finset.range m, (if a < n then c else if m - n < a then c else 0) ≤ 2 * n * c := by
  obtain ⟨e, he⟩ : ∃ e, m = n + e + n := ⟨m - n - n, by omega⟩
  rw [he, Finset.sum_range_add, Finset.sum_range_add]
  have h1 : ∑ a ∈ Finset.range n, (if a < n then c else if n + e + n - n < a then c else 0) = n * c := by
    rw [Finset.sum_congr rfl fun a ha => if_pos (Finset.mem_range.1 ha), Finset.sum_const, Finset.card_range, nsmul_eq_mul]
  have h2 : ∑ a ∈ Finset.range e, (if n + a < n then c else if n + e + n - n < n + a then c else 0) = 0 := by
    refine Finset.sum_eq_zero fun a ha => ?_
    have := Finset.mem_range.1 ha
    rw [if_neg (by omega), if_neg (by omega)]
  have h3 : ∑ a ∈ Finset.range n, (if n + e + a < n then c else if n + e + n - n < n + e + a then c else 0) ≤ n * c := by
    refine (Finset.sum_le_sum (g := fun _ => c) fun a _ => ?_).trans ?_
    · split_ifs <;> linarith
    · rw [Finset.sum_const, Finset.card_range, nsmul_eq_mul]
  linarith

theorem fftBluestein_fl (h : RoundsToNearest rnd) [Trig (Fl rnd)] (ht : TrigAccurate rnd) {n N : Nat} (hn0 : 0 < n) (hn : n < 4294967296)
    (hN : n ≤ N) (d : Nat) (x : Nat → Fl rnd × Fl rnd) (hmax : 2 ^ 80 * ∑ i ∈ Finset.range n, ‖cval (x i)‖ + 2 ^ 80 ≤ fmax) :
    ∃ z, fftBluestein (fftTransform (d + 1)) n (gbuf N x) = .ok (true, gbuf N z) ∧
      (∀ k, k < n → ‖cval (z k) - dft n (fun i => cval (x i)) k‖ ≤
        n / 2 ^ 35 * ∑ i ∈ Finset.range n, ‖cval (x i)‖ + (2 : ℝ) ^ (-950 : ℤ)) ∧
      ∀ k, n ≤ k → z k = x k := by
  obtain ⟨j, hj, hmn, e⟩ := fftLength_eq hn 65 0 (by omega) (by omega)
  rw [Nat.pow_zero] at e
  have hb : 2 ^ j ≤ 2 ^ 33 := Nat.pow_le_pow_right (by omega) hj
  have htr := fun z => fftTransform_pow_fl h ht hj (le_refl (2 ^ j)) d z
  have hj' : (j : ℝ) ≤ 33 := by exact_mod_cast hj
  generalize hm : 2 ^ j = m at *
  have hm0 : 0 < m := by omega
  -- the constants
  set η : ℝ := (2 : ℝ) ^ (-1020 : ℤ) with hη
  have hη0 : 0 < η := by positivity
  have hη1 : η ≤ 1 / 2 ^ 200 := by
    rw [hη, one_div, ← zpow_natCast, ← zpow_neg]
    exact zpow_le_zpow_right₀ (by norm_num) (by norm_num)
  have hη2 : 2 ^ 70 * η = (2 : ℝ) ^ (-950 : ℤ) := by
    rw [hη, ← zpow_natCast, ← zpow_add₀ (by norm_num)]
    norm_num
  have hf : feta * 2 ^ 55 = η := by
    rw [hη, feta, ← zpow_natCast, ← zpow_add₀ (by norm_num)]
    norm_num
  have hf0 := feta_pos
  have hnr : (n : ℝ) ≤ 2 ^ 32 := by
    have : (n : ℝ) ≤ 4294967296 := by exact_mod_cast hn.le
    linarith
  have hnr0 : (1 : ℝ) ≤ n := by exact_mod_cast hn0
  have hmr : (m : ℝ) ≤ 2 ^ 33 := by exact_mod_cast hb
  have hmr0 : (1 : ℝ) ≤ m := by exact_mod_cast hm0
  set T : ℝ := ∑ i ∈ Finset.range n, ‖cval (x i)‖ with hT
  have hT0 : 0 ≤ T := Finset.sum_nonneg fun _ _ => norm_nonneg _
  have hxT : ∀ i, i < n → ‖cval (x i)‖ ≤ T := fun i hi =>
    Finset.single_le_sum (f := fun i => ‖cval (x i)‖) (fun _ _ => norm_nonneg _) (Finset.mem_range.2 hi)
  have hn62 : n ≤ 2 ^ 62 := by omega
  have hz0 : cval (((0 : Fl rnd), (0 : Fl rnd))) = 0 := by
    apply Complex.ext
    · exact Rat.cast_zero
    · exact Rat.cast_zero
  have tri : ∀ {u v : ℂ} {a b : ℝ}, ‖u - v‖ ≤ a → ‖v‖ ≤ b → ‖u‖ ≤ a + b := by
    intro u v a b h1 h2
    have := norm_add_le (u - v) v
    rw [sub_add_cancel] at this
    linarith
  -- the first array
  set W : Nat → ℂ := fun i => fexp ((i * i : ℝ) / (2 * n)) with hW
  set av : Nat → Fl rnd × Fl rnd := fun a => if a < n then gmul (x a) (cTable n a) else (0, 0) with hav
  set a0 : Nat → ℂ := fun a => if a < n then cval (x a) * W a else 0 with ha0
  have ha : ∑ i ∈ Finset.range m, ‖cval (av i) - a0 i‖ ≤ 1 / 2 ^ 45 * T + η := by
    obtain ⟨f, hf'⟩ := Nat.exists_eq_add_of_le (show n ≤ m by omega)
    rw [hf', Finset.sum_range_add, Finset.sum_eq_zero (s := Finset.range f), add_zero]
    · refine (Finset.sum_le_sum (g := fun i => 1 / 2 ^ 45 * ‖cval (x i)‖ + 8 * feta) fun i hi => ?_).trans ?_
      · have hi' := Finset.mem_range.1 hi
        rw [hav, ha0]
        dsimp only
        rw [if_pos hi', if_pos hi']
        have := hxT i hi'
        exact chirp_mul_error h ht hn0 hn62 i (by linarith)
      · rw [Finset.sum_add_distrib, ← Finset.mul_sum, Finset.sum_const, Finset.card_range, nsmul_eq_mul]
        have := mul_le_mul_of_nonneg_right hnr hf0.le
        linarith
    · intro i _
      rw [hav, ha0]
      dsimp only
      rw [if_neg (by omega), if_neg (by omega), hz0, sub_zero, norm_zero]
  have ha1 : ∑ i ∈ Finset.range m, ‖a0 i‖ ≤ T := by
    obtain ⟨f, hf'⟩ := Nat.exists_eq_add_of_le (show n ≤ m by omega)
    rw [hf', Finset.sum_range_add, Finset.sum_eq_zero (s := Finset.range f), add_zero]
    · refine Finset.sum_le_sum fun i hi => ?_
      rw [ha0]
      dsimp only
      rw [if_pos (Finset.mem_range.1 hi), norm_mul, hW]
      dsimp only
      rw [norm_fexp, mul_one]
    · intro i _
      rw [ha0]
      dsimp only
      rw [if_neg (by omega), norm_zero]
  have sumle : ∀ {f : Nat → Fl rnd × Fl rnd} {g : Nat → ℂ} {a b : ℝ}, ∑ i ∈ Finset.range m, ‖cval (f i) - g i‖ ≤ a →
      ∑ i ∈ Finset.range m, ‖g i‖ ≤ b → ∑ i ∈ Finset.range m, ‖cval (f i)‖ ≤ a + b := by
    intro f g a b h1 h2
    refine le_trans ?_ (add_le_add h1 h2)
    rw [← Finset.sum_add_distrib]
    refine Finset.sum_le_sum fun i _ => ?_
    have := norm_add_le (cval (f i) - g i) (g i)
    rwa [sub_add_cancel] at this
  have ha2 := sumle ha ha1
  obtain ⟨A, eA, rA, -⟩ := htr av (by linarith)
  have kap : ∀ {t b : ℝ}, 0 ≤ t → t ≤ b → (j : ℝ) / 2 ^ 45 * t ≤ 33 / 2 ^ 45 * b := by
    intro t b h0 h1
    exact mul_le_mul (div_le_div_of_nonneg_right hj' (by positivity)) h1 h0 (by positivity)
  have sn : ∀ f : Nat → Fl rnd × Fl rnd, 0 ≤ ∑ i ∈ Finset.range m, ‖cval (f i)‖ := fun f => Finset.sum_nonneg fun _ _ => norm_nonneg _
  have hA : ∀ q, q < m → ‖cval (A q) - dft m a0 q‖ ≤ 66 / 2 ^ 45 * T + 4 * η := by
    intro q hq
    have h1 := rA q hq
    have h2 := norm_dft_sub_le m (fun i => cval (av i)) a0 q
    have h3 := norm_sub_le_norm_sub_add_norm_sub (cval (A q)) (dft m (fun i => cval (av i)) q) (dft m a0 q)
    have h4 := kap (sn av) ha2
    linarith
  have hA1 : ∀ q, ‖dft m a0 q‖ ≤ T := fun q => (norm_dft_le m a0 q).trans ha1
  -- the second array
  set bv : Nat → Fl rnd × Fl rnd := gMirror n m (cTable n) with hbv
  set b0 : Nat → ℂ := fun a : Nat => if a < n then fexp (-((a * a : ℝ) / (2 * n))) else
        if m - n < a then fexp (-((((m - a : ℕ) : ℝ) * ((m - a : ℕ) : ℝ)) / (2 * n))) else 0 with hb0
  have table : ∀ i : Nat, ‖cval (cTable n i : Fl rnd × Fl rnd) - fexp (-((i * i : ℝ) / (2 * n)))‖ ≤ 1 / 2 ^ 47 := by
    intro i
    obtain ⟨t1, t2⟩ := cTable_error h ht hn0 hn62 i
    refine (norm_le_abs_add _).trans ?_
    rw [← conj_fexp, Complex.sub_re, Complex.sub_im, Complex.conj_re, Complex.conj_im, cval_re, cval_im, sub_neg_eq_add]
    linarith
  have hbe : ∑ i ∈ Finset.range m, ‖cval (bv i) - b0 i‖ ≤ 2 * n * (1 / 2 ^ 47) := by
    refine le_trans (Finset.sum_le_sum fun i _ => ?_) (sum_mirror_le hmn (1 / 2 ^ 47) (by norm_num))
    rw [hbv, hb0]
    dsimp only
    unfold gMirror
    split_ifs
    · exact table i
    · exact table (m - i)
    · rw [hz0, sub_zero, norm_zero]
  have hb1 : ∑ i ∈ Finset.range m, ‖b0 i‖ ≤ 2 * n * 1 := by
    refine le_trans (Finset.sum_le_sum fun i _ => ?_) (sum_mirror_le hmn 1 (by norm_num))
    rw [hb0]
    dsimp only
    split_ifs
    · rw [norm_fexp]
    · rw [norm_fexp]
    · rw [norm_zero]
  have hb2 := sumle hbe hb1
  have hfm : (2 : ℝ) ^ 80 ≤ fmax := by linarith
  obtain ⟨B, eB, rB, -⟩ := htr bv (by linarith)
  set Q : ℝ := 2 * n with hQ
  have hQ2 : 2 ≤ Q := by linarith
  have hQ3 : Q ≤ 2 ^ 33 := by linarith
  have hB : ∀ q, q < m → ‖cval (B q) - dft m b0 q‖ ≤ 66 / 2 ^ 45 * Q := by
    intro q hq
    have h1 := rB q hq
    have h2 := norm_dft_sub_le m (fun i => cval (bv i)) b0 q
    have h3 := norm_sub_le_norm_sub_add_norm_sub (cval (B q)) (dft m (fun i => cval (bv i)) q) (dft m b0 q)
    have h4 := kap (sn bv) hb2
    linarith
  have hB1 : ∀ q, ‖dft m b0 q‖ ≤ Q := fun q => (norm_dft_le m b0 q).trans (by linarith)
  -- the product
  set P : ℝ := T * Q with hP
  have hP0 : 0 ≤ P := by positivity
  have hP1 : P ≤ 2 ^ 33 * T := by rw [hP, mul_comm]; exact mul_le_mul_of_nonneg_right hQ3 hT0
  have hQη : Q * (4 * η) ≤ 2 ^ 33 * (4 * η) := mul_le_mul_of_nonneg_right hQ3 (by positivity)
  have hC : ∀ q, q < m → ‖cval (gprod (A q) (B q)) - dft m a0 q * dft m b0 q‖ ≤ 140 / 2 ^ 45 * P + 2 ^ 38 * η := by
    intro q hq
    have n1 := tri (hA q hq) (hA1 q)
    have n2 := tri (hB q hq) (hB1 q)
    have n3 := mul_le_mul n1 n2 (norm_nonneg _) (by positivity)
    have n4 : (66 / 2 ^ 45 * T + 4 * η + T) * (66 / 2 ^ 45 * Q + Q) = (1 + 66 / 2 ^ 45) * (1 + 66 / 2 ^ 45) * P + (1 + 66 / 2 ^ 45) * (Q * (4 * η)) := by
      rw [hP]; ring
    have n5 := gprod_error h (x := A q) (y := B q) (by rw [n4] at n3; linarith)
    have n6 := (approx_mul (hA1 q) (hB1 q) (hA q hq) (hB q hq) n5 (by norm_num) (by norm_num) (by norm_num) (by positivity) (by norm_num)
      (by norm_num) (by norm_num)).2
    rw [← hP] at n6
    linarith
  have hC1 : ∀ q, ‖dft m a0 q * dft m b0 q‖ ≤ P := fun q => by
    rw [norm_mul]
    exact mul_le_mul (hA1 q) (hB1 q) (norm_nonneg _) hT0
  have consts : ∀ (f : Nat → ℝ) (c : ℝ), (∀ q, q < m → f q ≤ c) → ∑ q ∈ Finset.range m, f q ≤ m * c := by
    intro f c hf
    refine (Finset.sum_le_sum fun q hq => hf q (Finset.mem_range.1 hq)).trans (le_of_eq ?_)
    rw [Finset.sum_const, Finset.card_range, nsmul_eq_mul]
  have cswap : ∀ v : Fl rnd × Fl rnd, cval (gswap v) = swapRI (cval v) := fun _ => rfl
  set c0 : Nat → ℂ := fun q => dft m a0 q * dft m b0 q with hc0
  have hCs := consts _ _ hC
  have hCs1 := consts _ _ fun q (_ : q < m) => hC1 q
  have hCs2 : ∑ i ∈ Finset.range m, ‖cval (gswap (gprod (A i) (B i)))‖ ≤ m * (140 / 2 ^ 45 * P + 2 ^ 38 * η) + m * P := by
    have := sumle (f := fun q => gprod (A q) (B q)) (g := c0) hCs hCs1
    refine le_trans (le_of_eq ?_) this
    exact Finset.sum_congr rfl fun i _ => by rw [cswap, norm_swapRI]
  set U : ℝ := 140 / 2 ^ 45 * P + 2 ^ 38 * η with hU
  have hU0 : 0 ≤ U := by positivity
  have hUP : (m : ℝ) * U + m * P ≤ 2 ^ 33 * (U + P) := by
    have := mul_le_mul_of_nonneg_right hmr (by positivity : 0 ≤ U + P)
    linarith
  obtain ⟨D, eD, rD, -⟩ := htr (fun q => gswap (gprod (A q) (B q))) (by linarith)
  -- the sum of the Bluestein transform
  set g : Nat → ℂ := fun k => ∑ t ∈ Finset.range m, a0 t * b0 ((k + m - t) % m) with hg
  have hidft : ∀ k, k < m → idft m c0 k = m * g k := fun k hk => idft_mul a0 b0 hk
  have hD : ∀ k, k < m → ‖cval (gswap (D k)) - m * g k‖ ≤ m * (175 / 2 ^ 45 * P + 2 ^ 40 * η) := by
    intro k hk
    have h1 := rD k hk
    have h0 : (fun i => cval (gswap (gprod (A i) (B i)))) = fun i => swapRI (cval (gprod (A i) (B i))) := rfl
    rw [h0, dft_swap] at h1
    have h1' : ‖cval (gswap (D k)) - idft m (fun i => cval (gprod (A i) (B i))) k‖ ≤
        (j : ℝ) / 2 ^ 45 * ∑ i ∈ Finset.range m, ‖cval (gswap (gprod (A i) (B i)))‖ + η := by
      rw [← norm_swapRI]
      exact h1
    have h2 := norm_idft_sub_le m (fun i => cval (gprod (A i) (B i))) c0 k
    have h3 := norm_sub_le_norm_sub_add_norm_sub (cval (gswap (D k))) (idft m (fun i => cval (gprod (A i) (B i))) k) (idft m c0 k)
    have h4 := kap (sn _) hCs2
    rw [hidft k hk] at h2 h3
    have h5 : η ≤ m * η := le_mul_of_one_le_left hη0.le hmr0
    have h6 : (m : ℝ) * (175 / 2 ^ 45 * P + 2 ^ 40 * η) = 175 / 2 ^ 45 * (m * P) + 2 ^ 40 * (m * η) := by ring
    have h7 : (m : ℝ) * U = 140 / 2 ^ 45 * (m * P) + 2 ^ 38 * (m * η) := by rw [hU]; ring
    have h8 : 0 ≤ (m : ℝ) * P := by positivity
    have h9 : 0 ≤ (m : ℝ) * η := by positivity
    rw [h6]
    rw [h7] at h4 hCs
    linarith
  have hgP : ∀ k, k < m → ‖g k‖ ≤ P := by
    intro k hk
    have h1 := norm_idft_le m c0 k
    rw [hidft k hk, norm_mul, Complex.norm_natCast] at h1
    exact le_of_mul_le_mul_left (h1.trans hCs1) (by linarith)
  -- the result
  refine ⟨_, fftBluestein_gbuf hn0 hn hN hmn (by omega) e eA eB eD, ?_, fun k hk => by rw [if_neg (by omega)]⟩
  intro k hk
  have hkm : k < m := by omega
  rw [if_pos hk]
  have hdft : dft n (fun i => cval (x i)) k = g k * W k := by
    rw [← bluestein_sum hn0 hmn hk, conj_fexp, neg_neg]
    congr 1
    refine Finset.sum_congr rfl fun t _ => ?_
    congr 1
    by_cases h : t < n
    · rw [if_pos h, ha0, conj_fexp, neg_neg]
      dsimp only
      rw [if_pos h]
    · rw [if_neg h, ha0]
      dsimp only
      rw [if_neg h]
  rw [hdft]
  have hmne : (m : ℂ) ≠ 0 := by exact_mod_cast hm0.ne'
  set V : ℝ := 175 / 2 ^ 45 * P + 2 ^ 40 * η with hV
  have hV0 : 0 ≤ V := by positivity
  have d1 := hD k hkm
  have d2 : ‖cval (gswap (D k))‖ ≤ m * (V + P) := by
    refine (tri d1 (b := m * P) ?_).trans (by linarith)
    rw [norm_mul, Complex.norm_natCast]
    exact mul_le_mul_of_nonneg_left (hgP k hkm) (by linarith)
  have d3 : ‖cval (gswap (D k))‖ ≤ 2 ^ 33 * (V + P) := d2.trans (mul_le_mul_of_nonneg_right hmr (by positivity))
  have d4 := gdiv_error h (x := gswap (D k)) hm0 (by linarith)
  have d5 : ‖cval (gswap (D k))‖ / m ≤ V + P := by
    rw [div_le_iff₀ (by linarith)]
    linarith
  have d6 : ‖cval (gswap (D k)) / m - g k‖ ≤ V := by
    have : cval (gswap (D k)) / m - g k = (cval (gswap (D k)) - m * g k) / m := by field_simp
    rw [this, norm_div, Complex.norm_natCast, div_le_iff₀ (by linarith)]
    linarith
  have d7 := norm_sub_le_norm_sub_add_norm_sub (cval (gdiv m (gswap (D k)))) (cval (gswap (D k)) / m) (g k)
  have d8 : ‖cval (gdiv m (gswap (D k))) - g k‖ ≤ 176 / 2 ^ 45 * P + 2 ^ 41 * η := by linarith
  have d9 := tri d8 (hgP k hkm)
  have d10 := chirp_mul_error h ht hn0 hn62 k (q := gdiv m (gswap (D k))) (by linarith)
  have d11 := norm_sub_le_norm_sub_add_norm_sub (cval (gmul (gdiv m (gswap (D k))) (cTable n k)))
    (cval (gdiv m (gswap (D k))) * W k) (g k * W k)
  have d12 : ‖cval (gdiv m (gswap (D k))) * W k - g k * W k‖ = ‖cval (gdiv m (gswap (D k))) - g k‖ := by
    rw [← sub_mul, norm_mul, hW]
    dsimp only
    rw [norm_fexp, mul_one]
  rw [d12] at d11
  have d13 : (n : ℝ) / 2 ^ 35 * T = 512 / 2 ^ 45 * P := by rw [hP, hQ]; ring
  rw [d13, ← hη2]
  linarith

end Sp
