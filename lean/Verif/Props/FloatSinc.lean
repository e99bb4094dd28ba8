import Verif.Lemmas.FloatSinc
import Verif.Props.FloatFft

/-! # C167: windowed sinc kernels in double precision -/

set_option linter.unusedSectionVars false

noncomputable section

namespace Sp
variable {rnd : ℚ → ℚ}

theorem irLength_double (h : RoundsToNearest rnd) {t : Fl rnd} (h0 : 0 < t.val) (h4 : 4 / t.val ≤ 4294967294) (h1 : t.val ≤ 4) :
    ∃ n, irLength t = .ok n ∧ n % 2 = 1 ∧ n < 4294967296 ∧ (rnd (4 / t.val) : ℚ) ≤ n ∧ (n : ℚ) < rnd (4 / t.val) + 2 := by
  have hne : t ≠ 0 := fun e => by rw [e] at h0; exact lt_irrefl _ h0
  have hq1 : 1 ≤ 4 / t.val := by rw [le_div_iff₀ h0]; linarith
  have hmax : |4 / t.val| ≤ doubleMax := by
    rw [abs_of_pos (by linarith)]
    have := le_doubleMax (e := 40) (by norm_num)
    linarith [(by norm_num : (4294967294 : ℚ) ≤ (2 : ℚ) ^ (40 : ℤ))]
  have lo : (1 : ℚ) ≤ rnd (4 / t.val) := by
    have := h.le_rnd (d := 1) (by simpa using isDouble_nat (n := 1) (by norm_num)) hmax hq1
    exact this
  have hi : rnd (4 / t.val) ≤ 4294967294 := by
    have := h.rnd_le (d := 4294967294) (by simpa using isDouble_nat (n := 4294967294) (by norm_num)) hmax h4
    exact this
  have ev : (4 / t : Fl rnd).val = rnd (4 / t.val) := rfl
  rw [irLength, divOf, if_neg hne]
  simp only [ok_bind']
  have c1 : 1 ≤ ⌈rnd (4 / t.val)⌉ := Int.one_le_ceil_iff.2 (by linarith)
  have c2 : ⌈rnd (4 / t.val)⌉ ≤ 4294967294 := Int.ceil_le.2 (by exact_mod_cast hi)
  have c3 : rnd (4 / t.val) ≤ ⌈rnd (4 / t.val)⌉ := Int.le_ceil _
  have c4 : (⌈rnd (4 / t.val)⌉ : ℚ) < rnd (4 / t.val) + 1 := Int.ceil_lt_add_one _
  have e : CeilTime.ceilTime (4 / t : Fl rnd) = .ok ⌈rnd (4 / t.val)⌉.toNat := by
    show (if ⌈(4 / t : Fl rnd).val⌉ < 0 ∨ 4294967296 ≤ ⌈(4 / t : Fl rnd).val⌉ then (.error .outOfBounds : C Nat) else .ok ⌈(4 / t : Fl rnd).val⌉.toNat) = _
    rw [ev, if_neg (by omega)]
  rw [e, ok_bind']
  obtain ⟨m, hm⟩ : ∃ m : Nat, ⌈rnd (4 / t.val)⌉ = m := ⟨⌈rnd (4 / t.val)⌉.toNat, by omega⟩
  rw [hm] at c1 c2 c3 c4 ⊢
  rw [Int.cast_natCast] at c3 c4
  rw [Int.toNat_natCast]
  by_cases hp : m % 2 = 0
  · rw [if_pos hp, u32_of_lt (by omega)]
    refine ⟨_, rfl, by omega, by omega, ?_, ?_⟩ <;> push_cast <;> linarith
  · rw [if_neg hp]
    exact ⟨_, rfl, by omega, by omega, c3, by linarith⟩

/-- **C167, length.** The length of the kernel is an odd number and, up to the rounding of the division, not below `4 / transition` and less than
two above. -/
theorem C167_length (h : RoundsToNearest rnd) {t : Fl rnd} (h0 : 0 < t.val) (h4 : 4 / t.val ≤ 4294967294) (h1 : t.val ≤ 4) :
    ∃ n, irLength t = .ok n ∧ Odd n ∧ (1 - 1 / 2 ^ 53) * (4 / t.val) ≤ n ∧ (n : ℚ) < (1 + 1 / 2 ^ 53) * (4 / t.val) + 2 := by
  obtain ⟨n, e, hodd, -, l1, l2⟩ := irLength_double h h0 h4 h1
  have hq1 : 1 ≤ 4 / t.val := by rw [le_div_iff₀ h0]; linarith
  have h3 := h.error_mid (q := 4 / t.val) (by rw [abs_of_pos (by linarith)]; exact le_trans (by norm_num) hq1)
    (by rw [abs_of_pos (by linarith)]; exact h4.trans (by norm_num))
  rw [abs_of_pos (by linarith : 0 < 4 / t.val), abs_le] at h3
  exact ⟨n, e, Nat.odd_iff.2 hodd, by linarith, by linarith⟩

/-! ### The elements -/

/-- From the windowed sinc to the scaled kernel. -/
private theorem scaled_error {n : Nat} (hn : 3 ≤ n) (hn2 : (n : ℝ) ≤ 2 ^ 32) {F f : Nat → ℝ} {S A G A' K K' R η : ℝ} (hS : S ≠ 0) (hSF : S = ∑ k ∈ Finset.range n, F k)
    (hA : A = ∑ k ∈ Finset.range n, |F k|) (hG : G = ∑ k ∈ Finset.range n, f k) (hA' : A' = ∑ k ∈ Finset.range n, |f k|)
    (hK : K = A / |S|) (hK' : K' = A' / |G|) (hR : R = n / |S|) (hf : ∀ k < n, |f k - F k| ≤ 32 / 2 ^ 53)
    (hB : K * (20 * n * K + 160 * R) / 2 ^ 53 ≤ 1 / 8) (hη0 : 0 ≤ η) (hη : η ≤ 1 / 2 ^ 200) :
    G ≠ 0 ∧ 12 * n / 2 ^ 53 * K' ≤ 1 ∧ 1 ≤ K ∧
    ∃ E : Nat → ℝ, (∀ k < n, 0 ≤ E k) ∧ (∑ k ∈ Finset.range n, E k) + 4 * K / 2 ^ 53 ≤ K * (20 * n * K + 160 * R) / 2 ^ 53 ∧
      ∀ k < n, ∀ y, |y - f k / G| ≤ (12 * n + 2) / 2 ^ 53 * K' * (|f k| / |G|) + η → |y - F k / S| ≤ E k := by
  have hn0 : (3 : ℝ) ≤ n := by exact_mod_cast hn
  have hs : 0 < |S| := abs_pos.2 hS
  have hAS : |S| ≤ A := by rw [hSF, hA]; exact Finset.abs_sum_le_sum_abs _ _
  have hK1 : 1 ≤ K := by rw [hK, one_le_div hs]; exact hAS
  have hR0 : 0 < R := by rw [hR]; positivity
  have hAK : A = K * |S| := by rw [hK]; field_simp
  have hnR : (n : ℝ) = R * |S| := by rw [hR]; field_simp
  have hKR : R ≤ K * R := le_mul_of_one_le_left hR0.le hK1
  have hKK : (n : ℝ) * K ≤ n * K * K := le_mul_of_one_le_right (by positivity) hK1
  have hB' : 20 * (n * K * K) + 160 * (K * R) ≤ 2 ^ 53 / 8 := by
    rw [div_le_iff₀ (by norm_num)] at hB
    linarith
  have hnKK0 : 0 ≤ (n : ℝ) * K * K := by positivity
  have hKR0 : 0 ≤ K * R := by positivity
  have hRu : 32 * R / 2 ^ 53 ≤ 1 / 40 := by
    rw [div_le_iff₀ (by norm_num)]
    linarith
  have hnKu : (n : ℝ) * K / 2 ^ 53 ≤ 1 / 160 := by
    rw [div_le_iff₀ (by norm_num)]
    linarith
  have hd : 32 * (n : ℝ) / 2 ^ 53 = 32 * R / 2 ^ 53 * |S| := by rw [hnR]; ring
  have hd2 : 32 * (n : ℝ) / 2 ^ 53 ≤ 1 / 40 * |S| := by rw [hd]; exact mul_le_mul_of_nonneg_right hRu hs.le
  have hGS : |S - G| ≤ 32 * n / 2 ^ 53 := by
    rw [hSF, hG, ← Finset.sum_sub_distrib]
    refine (Finset.abs_sum_le_sum_abs _ _).trans ((Finset.sum_le_sum (g := fun _ => (32 / 2 ^ 53 : ℝ)) fun k hk => ?_).trans (le_of_eq ?_))
    · rw [abs_sub_comm]; exact hf k (Finset.mem_range.1 hk)
    · rw [Finset.sum_const, Finset.card_range, nsmul_eq_mul]; ring
  have hg : 39 / 40 * |S| ≤ |G| := by
    have : |S| ≤ |S - G| + |G| := by
      have := abs_add_le (S - G) G
      rwa [sub_add_cancel] at this
    linarith
  have hg0 : 0 < |G| := by linarith
  have hfF : ∀ k < n, |f k| ≤ |F k| + 32 / 2 ^ 53 := by
    intro k hk
    have := abs_add_le (f k - F k) (F k)
    rw [sub_add_cancel] at this
    linarith [hf k hk]
  have hAA : A' ≤ 41 / 40 * A := by
    have : A' ≤ A + 32 * n / 2 ^ 53 := by
      rw [hA', hA]
      refine (Finset.sum_le_sum fun k hk => hfF k (Finset.mem_range.1 hk)).trans (le_of_eq ?_)
      rw [Finset.sum_add_distrib, Finset.sum_const, Finset.card_range, nsmul_eq_mul]; ring
    linarith
  have hinv : 1 / |G| ≤ 40 / 39 / |S| := by
    rw [div_le_div_iff₀ hg0 hs]
    linarith
  have hKK' : K' ≤ 41 / 39 * K := by
    rw [hK', div_le_iff₀ hg0]
    have : 41 / 39 * K * (39 / 40 * |S|) ≤ 41 / 39 * K * |G| := mul_le_mul_of_nonneg_left hg (by positivity)
    have e : 41 / 39 * K * (39 / 40 * |S|) = 41 / 40 * A := by rw [hAK]; ring
    linarith
  have hK'0 : 0 ≤ K' := by
    rw [hK', hA']
    exact div_nonneg (Finset.sum_nonneg fun _ _ => abs_nonneg _) (abs_nonneg _)
  refine ⟨abs_pos.1 hg0, ?_, hK1, fun k => (137 / 10 * n * K * (|F k| + 32 / 2 ^ 53) / |S| + 33 / |S| + 33 * R * |F k| / |S|) / 2 ^ 53 + η, ?_, ?_, ?_⟩
  · have : 12 * (n : ℝ) / 2 ^ 53 * K' ≤ 12 * n / 2 ^ 53 * (41 / 39 * K) := mul_le_mul_of_nonneg_left hKK' (by positivity)
    have e : 12 * (n : ℝ) / 2 ^ 53 * (41 / 39 * K) = 12 * 41 / 39 * (n * K / 2 ^ 53) := by ring
    linarith
  · intro k _
    have hK0 : 0 ≤ K := by linarith
    positivity
  · have e : ∑ k ∈ Finset.range n, ((137 / 10 * n * K * (|F k| + 32 / 2 ^ 53) / |S| + 33 / |S| + 33 * R * |F k| / |S|) / 2 ^ 53 + η) =
        (137 / 10 * n * K * (K + 32 * R / 2 ^ 53) + 33 * R + 33 * R * K) / 2 ^ 53 + n * η := by
      rw [Finset.sum_add_distrib, ← Finset.sum_div, Finset.sum_add_distrib, Finset.sum_add_distrib, ← Finset.sum_div, ← Finset.sum_div,
        ← Finset.sum_div, ← Finset.mul_sum, ← Finset.mul_sum, Finset.sum_add_distrib, ← hA]
      simp only [Finset.sum_const, Finset.card_range, nsmul_eq_mul]
      rw [hK, hR]
      ring
    rw [e]
    have e1 : 137 / 10 * (n : ℝ) * K * (K + 32 * R / 2 ^ 53) ≤ 137 / 10 * n * K * (K + 1 / 40 * K) := by
      refine mul_le_mul_of_nonneg_left ?_ (by positivity)
      linarith
    have e2 : (n : ℝ) * η ≤ 1 / 2 ^ 53 := by
      calc (n : ℝ) * η ≤ 2 ^ 32 * (1 / 2 ^ 200) := mul_le_mul hn2 hη hη0 (by norm_num)
        _ ≤ _ := by norm_num
    have e3 : 3 * K ≤ n * K := mul_le_mul_of_nonneg_right hn0 (by linarith)
    have e4 : K * (20 * n * K + 160 * R) / 2 ^ 53 = (20 * (n * K * K) + 160 * (K * R)) / 2 ^ 53 := by ring
    rw [e4]
    have e5 : (137 / 10 * n * K * (K + 32 * R / 2 ^ 53) + 33 * R + 33 * R * K) / 2 ^ 53 ≤
        (137 / 10 * 41 / 40 * (n * K * K) + 66 * (K * R)) / 2 ^ 53 := by
      refine div_le_div_of_nonneg_right ?_ (by norm_num)
      linarith
    linarith
  · intro k hk y hy
    have hK0 : 0 ≤ K := by linarith
    have e : y - F k / S = (y - f k / G) + ((f k - F k) * (1 / G) + F k / S * ((S - G) * (1 / G))) := by
      have : G ≠ 0 := abs_pos.1 hg0
      field_simp
      ring
    rw [e]
    have hG1 : |1 / G| ≤ 40 / 39 / |S| := by rw [abs_div, abs_one]; exact hinv
    have t1 : |(f k - F k) * (1 / G)| ≤ 32 / 2 ^ 53 * (40 / 39 / |S|) := by
      rw [abs_mul]
      exact mul_le_mul (hf k hk) hG1 (abs_nonneg _) (by norm_num)
    have t2 : |F k / S * ((S - G) * (1 / G))| ≤ |F k| / |S| * (32 * R / 2 ^ 53 * |S| * (40 / 39 / |S|)) := by
      rw [abs_mul, abs_div, abs_mul]
      refine mul_le_mul_of_nonneg_left ?_ (by positivity)
      refine mul_le_mul (hGS.trans (le_of_eq hd)) hG1 (abs_nonneg _) (by positivity)
    have t3 : (12 * n + 2) / 2 ^ 53 * K' * (|f k| / |G|) ≤ (38 / 3 * n) / 2 ^ 53 * (41 / 39 * K) * ((|F k| + 32 / 2 ^ 53) * (40 / 39 / |S|)) := by
      refine mul_le_mul ?_ ?_ (by positivity) (by positivity)
      · refine mul_le_mul ?_ hKK' hK'0 (by positivity)
        refine div_le_div_of_nonneg_right ?_ (by norm_num)
        linarith
      · rw [div_eq_mul_one_div]
        exact mul_le_mul (hfF k hk) hinv (by positivity) (by positivity)
    have e2 : |F k| / |S| * (32 * R / 2 ^ 53 * |S| * (40 / 39 / |S|)) = 32 * 40 / 39 * (R * |F k| / |S| / 2 ^ 53) := by
      field_simp
    have e3 : (38 / 3 * n) / 2 ^ 53 * (41 / 39 * K) * ((|F k| + 32 / 2 ^ 53) * (40 / 39 / |S|)) =
        38 / 3 * 41 / 39 * 40 / 39 * (n * K * (|F k| + 32 / 2 ^ 53) / |S| / 2 ^ 53) := by ring
    have e4 : 32 / 2 ^ 53 * (40 / 39 / |S|) = 32 * 40 / 39 * (1 / |S| / 2 ^ 53) := by ring
    have e5 : (137 / 10 * n * K * (|F k| + 32 / 2 ^ 53) / |S| + 33 / |S| + 33 * R * |F k| / |S|) / 2 ^ 53 + η =
        137 / 10 * (n * K * (|F k| + 32 / 2 ^ 53) / |S| / 2 ^ 53) + 33 * (1 / |S| / 2 ^ 53) + 33 * (R * |F k| / |S| / 2 ^ 53) + η := by ring
    beta_reduce
    rw [e5]
    rw [e2] at t2
    rw [e3] at t3
    rw [e4] at t1
    have z1 : 0 ≤ n * K * (|F k| + 32 / 2 ^ 53) / |S| / 2 ^ 53 := by positivity
    have z2 : 0 ≤ 1 / |S| / 2 ^ 53 := by positivity
    have z3 : 0 ≤ R * |F k| / |S| / 2 ^ 53 := by positivity
    refine (abs_add_le _ _).trans ((add_le_add hy (abs_add_le _ _)).trans ?_)
    generalize n * K * (|F k| + 32 / 2 ^ 53) / |S| / 2 ^ 53 = Z1 at *
    generalize 1 / |S| / 2 ^ 53 = Z2 at *
    generalize R * |F k| / |S| / 2 ^ 53 = Z3 at *
    linarith only [t1, t2, t3, z1, z2, z3]

private theorem mem_tab {T : Type} {n : Nat} {f : Nat → T} {x : T} : x ∈ tab n f ↔ ∃ k, k < n ∧ f k = x := by
  simp only [tab, List.mem_map, List.mem_range]

/-- The difference of the responses of two kernels. -/
theorem response_difference (n : Nat) (g g' : Nat → ℝ) (f : ℝ) :
    ‖response (tab n g) f - response (tab n g') f‖ ≤ ∑ k ∈ Finset.range n, |g k - g' k| := by
  rw [response_tab, response_tab, ← Finset.sum_sub_distrib]
  refine (norm_sum_le _ _).trans (Finset.sum_le_sum fun k _ => ?_)
  rw [← sub_mul, norm_mul, norm_pow, norm_fexp, one_pow, mul_one, ← Complex.ofReal_sub, Complex.norm_real, Real.norm_eq_abs]

/-- The windowed sinc in double precision. -/
private theorem sinc_values (h : RoundsToNearest rnd) [Trig (Fl rnd)] (ht : LibmAccurate rnd) (junk : Fl rnd) {c : Fl rnd} (hc : IsDouble c.val)
    (hc0 : 1 / 2 ^ 99 ≤ c.val) (hc1 : c.val ≤ 1 / 2) {n : Nat} (h3 : 3 ≤ n) (hodd : n % 2 = 1) (hn : n < 4294967296) :
    ∃ f : Nat → Fl rnd, forRange 0 n (sincBody c (((n : Fl rnd) - 1) / 2) n) (List.replicate n junk) = .ok (tab n f) ∧
      ∀ k < n, IsDouble (f k).val ∧ |((f k).val : ℝ) - windowedSincValue c.val n k| ≤ 32 / 2 ^ 53 := by
  obtain ⟨m, rfl⟩ : ∃ m, n = 2 * m + 1 := ⟨n / 2, by omega⟩
  have key : ∀ k, ∃ v : Fl rnd, k < 2 * m + 1 → (do
      let w ← windowBlackman (k : Fl rnd) (2 * m + 1)
      pure (w * spSinc (2 * c * ((k : Fl rnd) - (((2 * m + 1 : Nat) : Fl rnd) - 1) / 2))) : C (Fl rnd)) = .ok v ∧ IsDouble v.val ∧
      |(v.val : ℝ) - windowedSincValue c.val (2 * m + 1) k| ≤ 32 / 2 ^ 53 := by
    intro k
    by_cases hk : k < 2 * m + 1
    · obtain ⟨v, hv⟩ := windowed_sinc_error h ht hc hc0 hc1 (by omega : 0 < m) hn hk
      exact ⟨v, fun _ => hv⟩
    · exact ⟨0, fun hc => absurd hc hk⟩
  choose f hf using key
  refine ⟨f, ?_, fun k hk => (hf k hk).2⟩
  rw [tab_replicate, tab_loop (v := f) (by
    intro i o hi _
    have := (hf i hi).1
    obtain ⟨w, e1, e2⟩ := bind_eq_ok.1 this
    have e3 := Except.ok.inj e2
    rw [sincBody, e1, ok_bind', e3]
    exact wr_tab _ hi)]
  rw [tab_congr fun a ha => by rw [if_pos ha]]

theorem irLength_odd {t : Fl rnd} {n : Nat} (h : irLength t = .ok n) : n % 2 = 1 ∧ n < 4294967296 := by
  rw [irLength] at h
  obtain ⟨x, -, h⟩ := bind_eq_ok.1 h
  obtain ⟨a, h1, h⟩ := bind_eq_ok.1 h
  have ha : a < 4294967296 := by
    change (if ⌈x.val⌉ < 0 ∨ 4294967296 ≤ ⌈x.val⌉ then (.error .outOfBounds : C Nat) else .ok ⌈x.val⌉.toNat) = _ at h1
    split at h1
    · cases h1
    · have := Except.ok.inj h1
      omega
  have h2 := Except.ok.inj h
  by_cases hp : a % 2 = 0
  · rw [if_pos hp, u32_of_lt (by omega)] at h2
    omega
  · rw [if_neg hp] at h2
    omega

private theorem feta_eq : (((2 : ℚ) ^ (-1075 : ℤ) : ℚ) : ℝ) = feta := by rw [Rat.cast_zpow, Rat.cast_ofNat, feta]

private theorem kernels (h : RoundsToNearest rnd) [Trig (Fl rnd)] (ht : LibmAccurate rnd) (junk : Fl rnd) {c t : Fl rnd} (hc : IsDouble c.val)
    (hc0 : 1 / 2 ^ 99 ≤ c.val) (hc1 : c.val ≤ 1 / 2) {n : Nat} (hl : irLength t = .ok n) (h3 : 3 ≤ n) (hS : windowedSincSum c.val n ≠ 0)
    (hB : kernelErrorBound c.val n ≤ 1 / 8) :
    ∃ y : Nat → Fl rnd, lpHpIr junk c t false = .ok (tab n y) ∧
      lpHpIr junk c t true = .ok (tab n fun k => if k = (n - 1) / 2 then -y k + 1 else -y k) ∧ (∀ k < n, IsDouble (y k).val) ∧
      1 ≤ sincCancellation c.val n ∧
      ∃ E : Nat → ℝ, (∀ k < n, 0 ≤ E k) ∧
        (∑ k ∈ Finset.range n, E k) + 4 * sincCancellation c.val n / 2 ^ 53 ≤ kernelErrorBound c.val n ∧
        ∀ k < n, |((y k).val : ℝ) - lowPassKernel c.val n k| ≤ E k := by
  obtain ⟨hodd, hn⟩ := irLength_odd hl
  obtain ⟨f, hf1, hf2⟩ := sinc_values h ht junk hc hc0 hc1 h3 hodd hn
  have hnr : (n : ℝ) ≤ 2 ^ 32 := by
    have : (n : ℝ) ≤ 4294967296 := by exact_mod_cast hn.le
    linarith
  have hsum1 : ((constantGain (tab n f) : ℚ) : ℝ) = ∑ k ∈ Finset.range n, ((f k).val : ℝ) := by
    rw [constantGain, tab_map, sum_tab, Rat.cast_sum]
  have hsum2 : ((((tab n f).map fun x => |x.val|).sum : ℚ) : ℝ) = ∑ k ∈ Finset.range n, |((f k).val : ℝ)| := by
    rw [tab_map, sum_tab, Rat.cast_sum]
    simp only [Rat.cast_abs]
  have hcan : ((cancellation (tab n f) : ℚ) : ℝ) = (∑ k ∈ Finset.range n, |((f k).val : ℝ)|) / |∑ k ∈ Finset.range n, ((f k).val : ℝ)| := by
    rw [cancellation, Rat.cast_div, hsum2, Rat.cast_abs]
    congr 2
  obtain ⟨g0, gK, k1, E, E0, E1, E2⟩ := scaled_error h3 hnr (F := windowedSincValue c.val n) (f := fun k => ((f k).val : ℝ)) (η := feta) hS rfl rfl rfl rfl rfl rfl rfl
    (fun k hk => (hf2 k hk).2) hB feta_pos.le feta_le
  have hd : ∀ x ∈ tab n f, IsDouble x.val := by
    intro x hx
    obtain ⟨k, hk, rfl⟩ := mem_tab.1 hx
    exact (hf2 k hk).1
  have hw : ∀ k < n, |windowedSincValue c.val n k| ≤ 1 := by
    intro k _
    rw [windowedSincValue, abs_mul]
    exact mul_le_one₀ (abs_blackmanOf_le _ _) (abs_nonneg _) (abs_sincOf_le _)
  have hmax : ∀ x ∈ tab n f, |x.val| ≤ 2 ^ 900 := by
    intro x hx
    obtain ⟨k, hk, rfl⟩ := mem_tab.1 hx
    have h1 : |((f k).val : ℝ)| ≤ 2 := by
      have := abs_add_le (((f k).val : ℝ) - windowedSincValue c.val n k) (windowedSincValue c.val n k)
      rw [sub_add_cancel] at this
      linarith [(hf2 k hk).2, hw k hk]
    have h2 : |(f k).val| ≤ 2 := by exact_mod_cast h1
    refine h2.trans ?_
    calc (2 : ℚ) = 2 ^ 1 := by norm_num
      _ ≤ 2 ^ 900 := pow_le_pow_right₀ (by norm_num) (by norm_num)
  obtain ⟨out, e1, e2, e3, e4, -, -⟩ := C164_low_pass h (ir := tab n f) (by intro e; have := congrArg List.length e; rw [tab_length] at this; simp at this; omega)
    (by rw [tab_length]; omega) hd hmax (by
      intro e
      apply g0
      beta_reduce
      rw [← hsum1, e, Rat.cast_zero]) (by
      rw [tab_length]
      rw [← hcan] at gK
      refine (Rat.cast_le (K := ℝ)).1 ?_
      push_cast
      exact gK)
  rw [tab_length] at e1 e2 e4
  obtain ⟨y, rfl⟩ : ∃ y, out = tab n y := ⟨_, e2 ▸ eq_tab out 0⟩
  have d1 : lpHpIr junk c t false = .ok (tab n y) := by
    rw [lpHpIr, hl, ok_bind', hf1, ok_bind']
    exact e1
  have d2 : lpHpIr junk c t true = spectralInversion (tab n y) n := by
    rw [lpHpIr, hl, ok_bind', hf1, ok_bind']
    rw [irFinish] at e1 ⊢
    obtain ⟨r, r1, r2⟩ := bind_eq_ok.1 e1
    obtain ⟨z, z1, z2⟩ := bind_eq_ok.1 r2
    cases z2
    rw [r1, ok_bind', z1, ok_bind', if_pos rfl]
  refine ⟨y, d1, ?_, ?_, k1, E, E0, E1, ?_⟩
  · rw [d2]
    exact spectralInversion_tab (by omega) hn
  · intro k hk
    exact e3 _ (mem_tab.2 ⟨k, hk, rfl⟩)
  · intro k hk
    refine E2 k hk _ ?_
    have e5 := e4 k (f k) (y k) (by rw [tab_getElem?, if_pos hk]) (by rw [tab_getElem?, if_pos hk])
    have e6 := (Rat.cast_le (K := ℝ)).2 e5
    rw [Rat.cast_add, feta_eq] at e6
    push_cast at e6
    rw [hcan, hsum1] at e6
    exact e6

/-- **C167, low-pass.** With a math library of the usual accuracy, the kernel for a cutoff frequency up to half of the sampling rate exists in
double precision, each element is that of the formula, and the response for each frequency is that of the exact kernel, except for errors
in proportion to the length and to how much the values of the sinc cancel each other. -/
theorem C167_low_pass (h : RoundsToNearest rnd) [Trig (Fl rnd)] (ht : LibmAccurate rnd) (junk : Fl rnd) {c t : Fl rnd} (hc : IsDouble c.val)
    (hc0 : 1 / 2 ^ 99 ≤ c.val) (hc1 : c.val ≤ 1 / 2) {n : Nat} (hl : irLength t = .ok n) (h3 : 3 ≤ n) (hS : windowedSincSum c.val n ≠ 0)
    (hB : kernelErrorBound c.val n ≤ 1 / 8) :
    ∃ ir : List (Fl rnd), lpHpIr junk c t false = .ok ir ∧ ir.length = n ∧ (∀ x ∈ ir, IsDouble x.val) ∧
      (∀ (k : Nat) x, ir[k]? = some x → |(x.val : ℝ) - lowPassKernel c.val n k| ≤ kernelErrorBound c.val n) ∧
      ∀ f, ‖response (realValues ir) f - response ((List.range n).map (lowPassKernel c.val n)) f‖ ≤ kernelErrorBound c.val n := by
  obtain ⟨y, e1, -, e2, k1, E, E0, E1, E2⟩ := kernels h ht junk hc hc0 hc1 hl h3 hS hB
  have hsum : ∑ k ∈ Finset.range n, E k ≤ kernelErrorBound c.val n := by
    have : 0 ≤ 4 * sincCancellation c.val n / 2 ^ 53 := by positivity
    linarith
  refine ⟨tab n y, e1, tab_length, ?_, ?_, ?_⟩
  · intro x hx
    obtain ⟨k, hk, rfl⟩ := mem_tab.1 hx
    exact e2 k hk
  · intro k x hx
    obtain ⟨hk, rfl⟩ := tab_some hx
    refine (E2 k hk).trans (le_trans ?_ hsum)
    exact Finset.single_le_sum (f := E) (fun i hi => E0 i (Finset.mem_range.1 hi)) (Finset.mem_range.2 hk)
  · intro f
    rw [realValues, tab_map]
    refine (response_difference n _ _ f).trans (le_trans (Finset.sum_le_sum fun k hk => E2 k (Finset.mem_range.1 hk)) hsum)

/-- **C167, high-pass.** The kernel is the delayed impulse without the low-pass kernel, with the same bound for the errors. -/
theorem C167_high_pass (h : RoundsToNearest rnd) [Trig (Fl rnd)] (ht : LibmAccurate rnd) (junk : Fl rnd) {c t : Fl rnd} (hc : IsDouble c.val)
    (hc0 : 1 / 2 ^ 99 ≤ c.val) (hc1 : c.val ≤ 1 / 2) {n : Nat} (hl : irLength t = .ok n) (h3 : 3 ≤ n) (hS : windowedSincSum c.val n ≠ 0)
    (hB : kernelErrorBound c.val n ≤ 1 / 8) :
    ∃ ir : List (Fl rnd), lpHpIr junk c t true = .ok ir ∧ ir.length = n ∧ (∀ x ∈ ir, IsDouble x.val) ∧
      (∀ (k : Nat) x, ir[k]? = some x →
        |(x.val : ℝ) - ((if 2 * k + 1 = n then 1 else 0) - lowPassKernel c.val n k)| ≤ kernelErrorBound c.val n) ∧
      ∀ f, ‖response (realValues ir) f - response ((List.range n).map fun k => (if 2 * k + 1 = n then 1 else 0) - lowPassKernel c.val n k) f‖ ≤
        kernelErrorBound c.val n := by
  obtain ⟨y, -, e1, e2, k1, E, E0, E1, E2⟩ := kernels h ht junk hc hc0 hc1 hl h3 hS hB
  obtain ⟨hodd, hn⟩ := irLength_odd hl
  have hm : (n - 1) / 2 < n := by omega
  set K := sincCancellation c.val n with hK
  have hKd : 0 ≤ 4 * K / 2 ^ 53 := by positivity
  -- the element in the middle
  have hlow : |lowPassKernel c.val n ((n - 1) / 2)| ≤ K := by
    rw [lowPassKernel, hK, sincCancellation, abs_div]
    refine div_le_div_of_nonneg_right ?_ (abs_nonneg _)
    exact Finset.single_le_sum (f := fun k => |windowedSincValue c.val n k|) (fun _ _ => abs_nonneg _) (Finset.mem_range.2 hm)
  have hEm : E ((n - 1) / 2) ≤ 1 / 8 := by
    have := Finset.single_le_sum (f := E) (fun i hi => E0 i (Finset.mem_range.1 hi)) (Finset.mem_range.2 hm)
    linarith
  have hy : |((y ((n - 1) / 2)).val : ℝ)| ≤ K + 1 / 8 := by
    have := abs_add_le (((y ((n - 1) / 2)).val : ℝ) - lowPassKernel c.val n ((n - 1) / 2)) (lowPassKernel c.val n ((n - 1) / 2))
    rw [sub_add_cancel] at this
    linarith [E2 _ hm]
  have hKbig : K ≤ 2 ^ 53 := by
    have h0 : kernelErrorBound c.val n = K * (20 * n * K + 160 * (n / |windowedSincSum c.val n|)) / 2 ^ 53 := rfl
    have h1 : 4 * K / 2 ^ 53 ≤ 1 / 8 := by
      have : 0 ≤ ∑ k ∈ Finset.range n, E k := Finset.sum_nonneg fun i hi => E0 i (Finset.mem_range.1 hi)
      linarith
    rw [div_le_iff₀ (by norm_num)] at h1
    linarith
  have hq : |((-(y ((n - 1) / 2)).val + 1 : ℚ) : ℝ)| ≤ K + 9 / 8 := by
    push_cast
    have := abs_add_le (-((y ((n - 1) / 2)).val : ℝ)) 1
    rw [abs_neg, abs_one] at this
    linarith
  have hqmax : |((-(y ((n - 1) / 2)).val + 1 : ℚ) : ℝ)| ≤ fmax := by
    have := fmax_ge (e := 60) (by norm_num)
    linarith [(by norm_num : (2 : ℝ) ^ (60 : ℤ) = 2 ^ 60)]
  have hr := rnd_real h hqmax
  rw [fu] at hr
  have hmid : |(((-y ((n - 1) / 2) + 1 : Fl rnd).val : ℚ) : ℝ) - (1 - lowPassKernel c.val n ((n - 1) / 2))| ≤ E ((n - 1) / 2) + 4 * K / 2 ^ 53 := by
    have h1 := E2 _ hm
    have he := feta_le
    change |((rnd (-(y ((n - 1) / 2)).val + 1) : ℚ) : ℝ) - _| ≤ _
    generalize ((rnd (-(y ((n - 1) / 2)).val + 1) : ℚ) : ℝ) = z at *
    have h2 : |z - ((-(y ((n - 1) / 2)).val + 1 : ℚ) : ℝ)| ≤ 4 * K / 2 ^ 53 := by
      refine hr.trans ?_
      linarith
    push_cast at h2
    rw [abs_le] at h1 h2 ⊢
    constructor <;> linarith
  have hel : ∀ k < n, |((((if k = (n - 1) / 2 then -y k + 1 else -y k : Fl rnd)).val : ℚ) : ℝ) - ((if 2 * k + 1 = n then 1 else 0) - lowPassKernel c.val n k)| ≤
      E k + if k = (n - 1) / 2 then 4 * K / 2 ^ 53 else 0 := by
    intro k hk
    by_cases hkm : k = (n - 1) / 2
    · rw [if_pos hkm, if_pos (by omega), if_pos hkm, hkm]
      exact hmid
    · rw [if_neg hkm, if_neg (by omega), if_neg hkm, add_zero, Fl.neg_val, Rat.cast_neg]
      have := E2 k hk
      rw [abs_le] at this ⊢
      constructor <;> linarith
  have hsum : ∑ k ∈ Finset.range n, (E k + if k = (n - 1) / 2 then 4 * K / 2 ^ 53 else 0) ≤ kernelErrorBound c.val n := by
    rw [Finset.sum_add_distrib, Finset.sum_ite_eq_of_mem' _ _ _ (Finset.mem_range.2 hm)]
    exact E1
  refine ⟨_, e1, tab_length, ?_, ?_, ?_⟩
  · intro x hx
    obtain ⟨k, hk, rfl⟩ := mem_tab.1 hx
    split
    · rename_i e
      subst e
      refine h.double _ ?_
      have : |(-(y ((n - 1) / 2)).val + 1 : ℚ)| ≤ doubleMax := by
        rw [fmax] at hqmax
        exact_mod_cast hqmax
      exact this
    · exact (e2 k hk).neg
  · intro k x hx
    obtain ⟨hk, rfl⟩ := tab_some hx
    refine (hel k hk).trans (le_trans ?_ hsum)
    refine Finset.single_le_sum (f := fun k => E k + if k = (n - 1) / 2 then 4 * K / 2 ^ 53 else 0) (fun i hi => ?_) (Finset.mem_range.2 hk)
    have := E0 i (Finset.mem_range.1 hi)
    beta_reduce
    split <;> linarith
  · intro f
    rw [realValues, tab_map]
    refine (response_difference n _ _ f).trans (le_trans (Finset.sum_le_sum fun k hk => hel k (Finset.mem_range.1 hk)) hsum)

/-- The sizes of the elements of both kernels. -/
theorem kernel_sizes (h : RoundsToNearest rnd) [Trig (Fl rnd)] (ht : LibmAccurate rnd) (junk : Fl rnd) {c t : Fl rnd} (hc : IsDouble c.val)
    (hc0 : 1 / 2 ^ 99 ≤ c.val) (hc1 : c.val ≤ 1 / 2) {n : Nat} (hl : irLength t = .ok n) (h3 : 3 ≤ n) (hS : windowedSincSum c.val n ≠ 0)
    (hB : kernelErrorBound c.val n ≤ 1 / 8) (hK : sincCancellation c.val n ≤ 16) :
    ∃ y z : Nat → Fl rnd, lpHpIr junk c t false = .ok (tab n y) ∧ lpHpIr junk c t true = .ok (tab n z) ∧
      ∑ k ∈ Finset.range n, |((y k).val : ℝ)| ≤ 17 ∧ ∑ k ∈ Finset.range n, |((z k).val : ℝ)| ≤ 36 := by
  obtain ⟨y, e1, e1', e2, k1, E, E0, E1, E2⟩ := kernels h ht junk hc hc0 hc1 hl h3 hS hB
  have hlow : ∑ k ∈ Finset.range n, |lowPassKernel c.val n k| = sincCancellation c.val n := by
    rw [sincCancellation, div_eq_mul_inv, Finset.sum_mul]
    refine Finset.sum_congr rfl fun k _ => ?_
    rw [lowPassKernel, abs_div, div_eq_mul_inv]
    rfl
  have hy : ∑ k ∈ Finset.range n, |((y k).val : ℝ)| ≤ 16 + 1 / 8 := by
    have h1 : ∑ k ∈ Finset.range n, |((y k).val : ℝ)| ≤ ∑ k ∈ Finset.range n, (E k + |lowPassKernel c.val n k|) := by
      refine Finset.sum_le_sum fun k hk => ?_
      have := abs_add_le (((y k).val : ℝ) - lowPassKernel c.val n k) (lowPassKernel c.val n k)
      rw [sub_add_cancel] at this
      linarith [E2 k (Finset.mem_range.1 hk)]
    rw [Finset.sum_add_distrib, hlow] at h1
    linarith
  refine ⟨y, _, e1, e1', by linarith, ?_⟩
  have hm : (n - 1) / 2 < n := by omega
  have hz : ∀ k ∈ Finset.range n, |((((if k = (n - 1) / 2 then -y k + 1 else -y k : Fl rnd)).val : ℚ) : ℝ)| ≤
      2 * |((y k).val : ℝ)| + if k = (n - 1) / 2 then 3 else 0 := by
    intro k hk
    have h0 := abs_nonneg ((y k).val : ℝ)
    by_cases hkm : k = (n - 1) / 2
    · rw [if_pos hkm, if_pos hkm]
      have hyk : |((y k).val : ℝ)| ≤ 16 + 1 / 8 :=
        (Finset.single_le_sum (f := fun k => |((y k).val : ℝ)|) (fun _ _ => abs_nonneg _) hk).trans hy
      have hq : |((-(y k).val + 1 : ℚ) : ℝ)| ≤ |((y k).val : ℝ)| + 1 := by
        push_cast
        have := abs_add_le (-((y k).val : ℝ)) 1
        rw [abs_neg, abs_one] at this
        linarith
      have hqmax : |((-(y k).val + 1 : ℚ) : ℝ)| ≤ fmax := by
        have := fmax_ge (e := 60) (by norm_num)
        linarith [(by norm_num : (2 : ℝ) ^ (60 : ℤ) = 2 ^ 60)]
      have := abs_lt_of_error (rnd_real h hqmax) hq
      change |((rnd (-(y k).val + 1) : ℚ) : ℝ)| ≤ _
      linarith
    · rw [if_neg hkm, if_neg hkm, Fl.neg_val, Rat.cast_neg, abs_neg]
      linarith
  refine (Finset.sum_le_sum hz).trans ?_
  rw [Finset.sum_add_distrib, ← Finset.mul_sum, Finset.sum_ite_eq_of_mem' _ _ _ (Finset.mem_range.2 hm)]
  linarith

/-- **C167, wide filters.** If all values of the sinc inside of the window are positive, nothing has to be known about the sums: the error is at most
`180 * n / 2 ^ 53`. -/
theorem C167_same_sign (h : RoundsToNearest rnd) [Trig (Fl rnd)] (ht : LibmAccurate rnd) (junk : Fl rnd) {c t : Fl rnd} (hc : IsDouble c.val)
    (hc0 : 1 / 2 ^ 99 ≤ c.val) (hc1 : c.val ≤ 1 / 2) {n : Nat} (hl : irLength t = .ok n) (h3 : 3 ≤ n) (hw : c.val * (n - 1) ≤ 1) :
    ∃ ir : List (Fl rnd), lpHpIr junk c t false = .ok ir ∧ ir.length = n ∧ (∀ x ∈ ir, IsDouble x.val) ∧
      (∀ (k : Nat) x, ir[k]? = some x → |(x.val : ℝ) - lowPassKernel c.val n k| ≤ 180 * n / 2 ^ 53) ∧
      ∀ f, ‖response (realValues ir) f - response ((List.range n).map (lowPassKernel c.val n)) f‖ ≤ 180 * n / 2 ^ 53 := by
  obtain ⟨hodd, hn⟩ := irLength_odd hl
  have hcpos : (0 : ℚ) ≤ c.val := le_trans (by norm_num) hc0
  have hw' : |(c.val : ℝ)| * (n - 1) ≤ 1 := by
    have := (Rat.cast_le (K := ℝ)).2 hw
    push_cast at this
    rw [abs_of_nonneg (by exact_mod_cast hcpos)]
    exact this
  obtain ⟨hmid, hnn⟩ := kernel_same_sign h3 hodd hw'
  have hmem : (n - 1) / 2 ∈ Finset.range n := Finset.mem_range.2 (by omega)
  have hs : 1 ≤ windowedSincSum c.val n := by
    rw [windowedSincSum, ← hmid]
    simp only [windowedSincValue_eq]
    exact Finset.single_le_sum (f := fun k => sincKernel c.val n k) (fun i hi => hnn i (Finset.mem_range.1 hi)) hmem
  have hK : sincCancellation c.val n = 1 := by
    have : ∑ k ∈ Finset.range n, |windowedSincValue c.val n k| = windowedSincSum c.val n := by
      refine Finset.sum_congr rfl fun k hk => abs_of_nonneg ?_
      rw [windowedSincValue_eq]
      exact hnn k (Finset.mem_range.1 hk)
    rw [sincCancellation, this, abs_of_pos (by linarith), div_self (by linarith)]
  have hbound : kernelErrorBound c.val n ≤ 180 * n / 2 ^ 53 := by
    rw [kernelErrorBound, hK, abs_of_pos (by linarith)]
    refine div_le_div_of_nonneg_right ?_ (by norm_num)
    have : (n : ℝ) / windowedSincSum c.val n ≤ n := div_le_self (Nat.cast_nonneg n) hs
    linarith
  have hB : kernelErrorBound c.val n ≤ 1 / 8 := by
    refine hbound.trans ?_
    have : (n : ℝ) ≤ 4294967296 := by exact_mod_cast hn.le
    rw [div_le_iff₀ (by norm_num)]
    linarith
  obtain ⟨ir, e1, e2, e3, e4, e5⟩ := C167_low_pass h ht junk hc hc0 hc1 hl h3 (by intro e; rw [e] at hs; linarith) hB
  exact ⟨ir, e1, e2, e3, fun k x hx => (e4 k x hx).trans hbound, fun f => (e5 f).trans hbound⟩

/-- **C167, length, rounded.** The length is not always the one of the formula: for the double below `4 / 3`, whose exact quotient is above 3, the
quotient is rounded to 3, so that the kernel has 3 instead of 5 elements. -/
theorem C167_length_rounded (h : RoundsToNearest rnd) :
    irLength (⟨6004799503160661 / 2 ^ 52⟩ : Fl rnd) = .ok 3 ∧ IsKernelLength ((6004799503160661 / 2 ^ 52 : ℚ) : ℝ) 5 := by
  have e : rnd (4 / (6004799503160661 / 2 ^ 52)) = 3 := by
    have := h.eq_of (q := 4 / (6004799503160661 / 2 ^ 52)) (k := 1) (M := 6755399441055744) (by norm_num) (by norm_num) (by norm_num)
      (by norm_num [abs_of_pos, abs_of_neg]) (by norm_num [abs_of_pos]) (by norm_num [abs_of_pos])
    rw [this]
    norm_num
  obtain ⟨n, e1, e2, -, e3, e4⟩ := irLength_double h (t := ⟨6004799503160661 / 2 ^ 52⟩) (by norm_num) (by norm_num) (by norm_num)
  rw [e] at e3 e4
  have hn : n = 3 := by
    have h1 : 3 ≤ n := by exact_mod_cast e3
    have h2 : n < 5 := by
      have : (n : ℚ) < 5 := by linarith
      exact_mod_cast this
    omega
  rw [hn] at e1
  refine ⟨e1, by decide, by norm_num, ?_⟩
  intro m hm hle
  have h1 : (3 : ℝ) < m := lt_of_lt_of_le (by norm_num) hle
  have h2 : 3 < m := by exact_mod_cast h1
  have := Nat.odd_iff.1 hm
  omega

/-! ### A case -/

/-- A real number near to another one, with a relative error below `2 ^ -60`. -/
theorem exists_relative (v : ℝ) : ∃ q : ℚ, |(q : ℝ) - v| ≤ |v| / 2 ^ 60 := by
  by_cases hv : v = 0
  · exact ⟨0, by simp [hv]⟩
  · have h0 : 0 < |v| / 2 ^ 60 := by have := abs_pos.2 hv; positivity
    obtain ⟨q, h1, h2⟩ := exists_rat_btwn (show v - |v| / 2 ^ 60 < v + |v| / 2 ^ 60 by linarith)
    exact ⟨q, by rw [abs_le]; constructor <;> linarith⟩

/-- The value rounded to a double. -/
def relativeResult (v : ℝ) : Fl nearestDouble := ⟨nearestDouble (exists_relative v).choose⟩

theorem relativeResult_error {v : ℝ} (hv : |v| ≤ 1) : |((relativeResult v).val : ℝ) - v| ≤ |v| / 2 ^ 52 + (2 : ℝ) ^ (-1074 : ℤ) := by
  have h1 := (exists_relative v).choose_spec
  rw [relativeResult]
  generalize (exists_relative v).choose = q at *
  have h2 : |(q : ℝ)| ≤ (1 + 1 / 2 ^ 60) * |v| := by
    have := abs_add_le ((q : ℝ) - v) v
    rw [sub_add_cancel] at this
    linarith
  have hmax' : (2 : ℝ) ^ 100 ≤ fmax := by exact_mod_cast fmax_ge (e := 100) (by norm_num)
  have h3 := rnd_real nearestDouble_rounds (q := q) (by linarith)
  have h4 : feta ≤ (2 : ℝ) ^ (-1074 : ℤ) := zpow_le_zpow_right₀ (by norm_num) (by norm_num)
  have h5 := abs_sub_le ((nearestDouble q : ℚ) : ℝ) q v
  rw [fu] at h3
  have h6 := abs_nonneg v
  show |((nearestDouble q : ℚ) : ℝ) - v| ≤ _
  generalize (2 : ℝ) ^ (-1074 : ℤ) = z at *
  linarith

/-- A math library whose results are rounded from values with 60 correct digits. -/
@[reducible] def kernelLibm : Trig (Fl nearestDouble) :=
  ⟨⟨884279719003555 / 281474976710656⟩, fun x => libmResult (Real.cos x.val), fun x => relativeResult (Real.sin x.val)⟩

attribute [local instance] kernelLibm

theorem kernelLibm_accurate : LibmAccurate nearestDouble :=
  ⟨rfl, fun _ _ => libmResult_error (Real.abs_cos_le_one _), fun _ _ => relativeResult_error (Real.abs_sin_le_one _)⟩

/-- A low-pass for 1/16 of the sampling rate with the transition 1/2: nine elements. -/
example : ∃ ir : List (Fl nearestDouble), lpHpIr ⟨7⟩ ⟨1 / 16⟩ ⟨1 / 2⟩ false = .ok ir ∧ ir.length = 9 ∧
    ∀ f, ‖response (realValues ir) f - response ((List.range 9).map (lowPassKernel (1 / 16) 9)) f‖ ≤ 180 * 9 / 2 ^ 53 := by
  have e0 : nearestDouble (4 / (1 / 2)) = 8 := by
    rw [show (4 / (1 / 2) : ℚ) = (8 : ℕ) by norm_num]
    exact nearestDouble_rounds.exact (isDouble_nat (by norm_num))
  obtain ⟨n, e1, e2, -, e3, e4⟩ := irLength_double nearestDouble_rounds (t := ⟨1 / 2⟩) (by norm_num) (by norm_num) (by norm_num)
  rw [e0] at e3 e4
  have hn : n = 9 := by
    have h1 : 8 ≤ n := by exact_mod_cast e3
    have h2 : n < 10 := by
      have : (n : ℚ) < 10 := by linarith
      exact_mod_cast this
    omega
  subst hn
  have hd : IsDouble (1 / 16) := ⟨1, -4, by norm_num, by norm_num, by norm_num, by norm_num⟩
  obtain ⟨ir, r1, r2, -, -, r3⟩ := C167_same_sign nearestDouble_rounds kernelLibm_accurate ⟨7⟩ (c := ⟨1 / 16⟩) (t := ⟨1 / 2⟩) hd (by norm_num)
    (by norm_num) e1 (by norm_num) (by norm_num)
  refine ⟨ir, r1, r2, fun f => ?_⟩
  have := r3 f
  push_cast at this
  exact this

end Sp
