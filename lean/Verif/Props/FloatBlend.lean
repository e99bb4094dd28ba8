import Verif.Model.Rounded
import Verif.Lemmas.FloatLine
import Verif.Props.ArraysSelect
import Verif.Props.Scaling

/-!
# C121 and C122: blending and conversions in floating point arithmetic

The result of each floating point operation is rounded to a nearest double (Spec/Float.lean).
-/

set_option linter.unusedSectionVars false

namespace Sp
variable {rnd : ℚ → ℚ}

theorem blend_error (h : RoundsToNearest rnd) {a b t M : ℚ} (ht : IsDouble t) (h0 : 0 ≤ t) (h1 : t ≤ 1)
    (haM : |a| ≤ M) (hbM : |b| ≤ M) (hM : 2 * M + 1 ≤ doubleMax) :
    |sampleInterpolateR rnd a b t - ((1 - t) * a + t * b)| ≤ 4 * M / 2 ^ 53 + (2 : ℚ) ^ (-1073 : ℤ) := by
  have hM0 : 0 ≤ M := (abs_nonneg a).trans haM
  have hη0 := two_zpow_pos (-1075)
  have hη : (2 : ℚ) ^ (-1073 : ℤ) = 4 * (2 : ℚ) ^ (-1075 : ℤ) := by
    rw [show (-1073 : ℤ) = 2 + -1075 by norm_num, two_zpow_add]
    norm_num
  have hη1 : (2 : ℚ) ^ (-1075 : ℤ) ≤ 1 / 8 := by
    have : (2 : ℚ) ^ (-1075 : ℤ) ≤ (2 : ℚ) ^ (-3 : ℤ) := two_zpow_le (by norm_num)
    have e : (2 : ℚ) ^ (-3 : ℤ) = 1 / 8 := by norm_num
    exact this.trans e.le
  have h1d : IsDouble 1 := by simpa using isDouble_nat (n := 1) (by norm_num)
  have hs1 : |1 - t| ≤ doubleMax := by
    rw [abs_of_nonneg (by linarith only [h1])]
    linarith only [hM, hM0, h0]
  have hserr := h.error_add h1d ht.neg (by rwa [← sub_eq_add_neg])
  rw [← sub_eq_add_neg, abs_of_nonneg (show 0 ≤ 1 - t by linarith only [h1])] at hserr
  have hs0 := h.nonneg hs1 (by linarith only [h1])
  have hsle : rnd (1 - t) ≤ 1 := h.rnd_le h1d hs1 (by linarith only [h0])
  rw [sampleInterpolateR]
  set s := rnd (1 - t) with hs
  -- the products
  have hsa : |s * a| ≤ M := by
    rw [abs_mul, abs_of_nonneg hs0]
    exact (mul_le_of_le_one_left (abs_nonneg a) hsle).trans haM
  have htb : |t * b| ≤ M := by
    rw [abs_mul, abs_of_nonneg h0]
    exact (mul_le_of_le_one_left (abs_nonneg b) h1).trans hbM
  have hsam : |s * a| ≤ doubleMax := by linarith only [hsa, hM, hM0]
  have htbm : |t * b| ≤ doubleMax := by linarith only [htb, hM, hM0]
  have hpe := h.error_gen hsam
  have hqe := h.error_gen htbm
  have hpd := h.double _ hsam
  have hqd := h.double _ htbm
  set p := rnd (s * a) with hp
  set q := rnd (t * b) with hq
  have hsa2 : |s * a| ≤ (1 - t) * M + M / 2 ^ 53 := by
    rw [abs_mul, abs_of_nonneg hs0]
    have e1 := mul_le_mul_of_nonneg_left haM hs0
    have e2 : s ≤ (1 - t) + 1 / 2 ^ 53 := by
      have := (abs_le.1 hserr).1
      have e3 : (1 - t) / 2 ^ 53 ≤ 1 / 2 ^ 53 := by linarith only [h0]
      linarith only [this, e3]
    have e4 := mul_le_mul_of_nonneg_right e2 hM0
    linarith only [e1, e4]
  have htb2 : |t * b| ≤ t * M := by
    rw [abs_mul, abs_of_nonneg h0]
    exact mul_le_mul_of_nonneg_left hbM h0
  have k1 : |s * a - (1 - t) * a| ≤ (1 - t) * M / 2 ^ 53 := by
    rw [show s * a - (1 - t) * a = -((1 - t - s) * a) by ring, abs_neg, abs_mul]
    have e1 := mul_le_mul hserr haM (abs_nonneg a) (div_nonneg (by linarith only [h1]) (by norm_num))
    refine e1.trans (le_of_eq ?_)
    ring
  -- the sum
  have hx : |(1 - t) * a + t * b| ≤ M := by
    have e1 := abs_add_le ((1 - t) * a) (t * b)
    rw [abs_mul, abs_mul, abs_of_nonneg h0, abs_of_nonneg (show 0 ≤ 1 - t by linarith only [h1])] at e1
    have e2 := mul_le_mul_of_nonneg_left haM (show 0 ≤ 1 - t by linarith only [h1])
    have e3 := mul_le_mul_of_nonneg_left hbM h0
    linarith only [e1, e2, e3]
  have hdiff : |p + q - ((1 - t) * a + t * b)| ≤ 9 / 4 * M / 2 ^ 53 + 2 * (2 : ℚ) ^ (-1075 : ℤ) := by
    have e : p + q - ((1 - t) * a + t * b) = -(s * a - p) - (t * b - q) + (s * a - (1 - t) * a) := by ring
    rw [e]
    have e1 := abs_add_le (-(s * a - p) - (t * b - q)) (s * a - (1 - t) * a)
    have e2 := abs_sub (-(s * a - p)) (t * b - q)
    rw [abs_neg] at e2
    have e3 : 0 ≤ t * M := mul_nonneg h0 hM0
    linarith only [e1, e2, e3, hpe, hqe, k1, hsa2, htb2, hM0]
  have hpq : |p + q| ≤ M + (9 / 4 * M / 2 ^ 53 + 2 * (2 : ℚ) ^ (-1075 : ℤ)) := by
    have e1 := abs_add_le (p + q - ((1 - t) * a + t * b)) ((1 - t) * a + t * b)
    rw [sub_add_cancel] at e1
    linarith only [e1, hdiff, hx]
  have hpqm : |p + q| ≤ doubleMax := by linarith only [hpq, hM, hM0, hη1]
  have hre := h.error_add hpd hqd hpqm
  have e : rnd (p + q) - ((1 - t) * a + t * b) = -(p + q - rnd (p + q)) + (p + q - ((1 - t) * a + t * b)) := by ring
  rw [e]
  have e1 := abs_add_le (-(p + q - rnd (p + q))) (p + q - ((1 - t) * a + t * b))
  rw [abs_neg] at e1
  rw [hη]
  linarith only [e1, hre, hpq, hdiff, hM0, hη0]

/-- **C121, partial**: each blended sample is as close to the exact value as a few roundings allow, is exactly `a[i]` for a fraction of 0 and exactly
`b[i]` for a fraction of 1. Missing: blended samples can be outside of the range between the two samples (`C121_samples_blend_false`). -/
theorem C121_samples_blend_partial (h : RoundsToNearest rnd) (a b : Src ℚ) (t : ℚ) (size : Nat) (out : Buf ℚ) (hc : size ≤ out.length)
    (ha : a.Has size) (hb : b.Has size) (ht : IsDouble t) (h0 : 0 ≤ t) (h1 : t ≤ 1) :
    ∃ f : ℚ → ℚ → ℚ, samplesBlendR rnd a b t size out =
        .ok (List.zipWith f ((a.get out).take size) ((b.get out).take size) ++ out.drop size) ∧
      (∀ x y, 2 * max |x| |y| + 1 ≤ doubleMax → |f x y - ((1 - t) * x + t * y)| ≤ 4 * max |x| |y| / 2 ^ 53 + (2 : ℚ) ^ (-1073 : ℤ)) ∧
      (t = 0 → ∀ x y, IsDouble x → f x y = x) ∧ (t = 1 → ∀ x y, IsDouble y → f x y = y) := by
  have h1d : rnd 1 = 1 := h.exact (by simpa using isDouble_nat (n := 1) (by norm_num))
  refine ⟨fun x y => sampleInterpolateR rnd x y t, zipLoop_eq hc ha hb (fun _ _ _ _ => rfl), ?_, ?_, ?_⟩
  · intro x y hm
    exact blend_error h ht h0 h1 (le_max_left _ _) (le_max_right _ _) hm
  · rintro rfl x y hx
    simp only [sampleInterpolateR, sub_zero, h1d, one_mul, zero_mul, h.zero, add_zero, h.exact hx]
  · rintro rfl x y hy
    simp only [sampleInterpolateR, sub_self, h.zero, one_mul, zero_mul, zero_add, h.exact hy]

/-- The hypotheses are met: halfway between a third, rounded, and 1. -/
example (h : RoundsToNearest rnd) : ∃ r : ℚ, samplesBlendR rnd (some [rnd (1 / 3)]) (some [1]) (1 / 2) 1 [0, 7] = .ok [r, 7] ∧
    |r - (1 / 2 * rnd (1 / 3) + 1 / 2)| ≤ 5 / 2 ^ 53 := by
  have hm : |(1 / 3 : ℚ)| ≤ doubleMax := by
    have := le_doubleMax (e := 0) (by norm_num)
    rw [zpow_zero] at this
    rw [abs_of_pos (by norm_num)]
    linarith only [this]
  have d1 : IsDouble 1 := by simpa using isDouble_nat (n := 1) (by norm_num)
  have r1 := h.rnd_le d1 hm (by norm_num)
  have r0 := h.nonneg hm (by norm_num)
  obtain ⟨f, f1, f2, -, -⟩ := C121_samples_blend_partial h (some [rnd (1 / 3)]) (some [1]) (1 / 2) 1 [0, 7] (by simp) (Src.has_some.2 (by simp))
    (Src.has_some.2 (by simp)) ⟨1, -1, by norm_num, by norm_num, by norm_num, by norm_num⟩ (by norm_num) (by norm_num)
  have hmx : max |rnd (1 / 3)| |(1 : ℚ)| = 1 := by
    rw [abs_of_nonneg r0, abs_one, max_eq_right r1]
  have h3 : (3 : ℚ) ≤ doubleMax := by
    have := le_doubleMax (e := 2) (by norm_num)
    norm_num at this
    linarith only [this]
  have := f2 (rnd (1 / 3)) 1 (by rw [hmx]; linarith only [h3])
  rw [hmx] at this
  have hη : (2 : ℚ) ^ (-1073 : ℤ) ≤ 1 / 2 ^ 53 := by
    have : (2 : ℚ) ^ (-1073 : ℤ) ≤ (2 : ℚ) ^ (-53 : ℤ) := two_zpow_le (by norm_num)
    refine this.trans (le_of_eq ?_)
    norm_num
  refine ⟨f (rnd (1 / 3)) 1, by simpa [Src.get] using f1, ?_⟩
  rw [abs_le] at this ⊢
  constructor <;> linarith only [this.1, this.2, hη]

/-- **C121 is false**: with every rounding to nearest, blending 0.625 with itself gives a number above 0.625, for the fraction 0.08 as a double. -/
theorem C121_samples_blend_false (h : RoundsToNearest rnd) :
    ∃ t r : ℚ, IsDouble t ∧ 0 ≤ t ∧ t ≤ 1 ∧ IsDouble (5 / 8) ∧ samplesBlendR rnd (some [5 / 8]) (some [5 / 8]) t 1 [0] = .ok [r] ∧ 5 / 8 < r := by
  have r1 : rnd (1 - 5764607523034235 / 72057594037927936) = 8286623314361713 / 9007199254740992 := by
    have := h.eq_of (q := 1 - 5764607523034235 / 72057594037927936) (k := -1) (M := 8286623314361713) (by norm_num) (by norm_num) (by norm_num)
      (by norm_num [abs_of_pos, abs_of_neg]) (by norm_num [abs_of_pos, abs_of_neg]) (by norm_num [abs_of_pos, abs_of_neg])
    rw [this]
    norm_num
  have r2 : rnd (8286623314361713 / 9007199254740992 * (5 / 8)) = 5179139571476071 / 9007199254740992 := by
    have := h.eq_of (q := 8286623314361713 / 9007199254740992 * (5 / 8)) (k := -1) (M := 5179139571476071) (by norm_num) (by norm_num) (by norm_num)
      (by norm_num [abs_of_pos, abs_of_neg]) (by norm_num [abs_of_pos, abs_of_neg]) (by norm_num [abs_of_pos, abs_of_neg])
    rw [this]
    norm_num
  have r3 : rnd (5764607523034235 / 72057594037927936 * (5 / 8)) = 3602879701896397 / 72057594037927936 := by
    have := h.eq_of (q := 5764607523034235 / 72057594037927936 * (5 / 8)) (k := -5) (M := 7205759403792794) (by norm_num) (by norm_num) (by norm_num)
      (by norm_num [abs_of_pos, abs_of_neg]) (by norm_num [abs_of_pos, abs_of_neg]) (by norm_num [abs_of_pos, abs_of_neg])
    rw [this]
    norm_num
  have r4 : rnd (5179139571476071 / 9007199254740992 + 3602879701896397 / 72057594037927936) = 5629499534213121 / 9007199254740992 := by
    have := h.eq_of (q := 5179139571476071 / 9007199254740992 + 3602879701896397 / 72057594037927936) (k := -1) (M := 5629499534213121) (by norm_num)
      (by norm_num) (by norm_num)
      (by norm_num [abs_of_pos, abs_of_neg]) (by norm_num [abs_of_pos, abs_of_neg]) (by norm_num [abs_of_pos, abs_of_neg])
    rw [this]
    norm_num
  refine ⟨5764607523034235 / 72057594037927936, 5629499534213121 / 9007199254740992, ⟨5764607523034235, -56, by norm_num, by norm_num, by norm_num, ?_⟩,
    by norm_num, by norm_num, ⟨5, -3, by norm_num, by norm_num, by norm_num, by norm_num⟩, ?_, by norm_num⟩
  · norm_num
  · rw [samplesBlendR, zipLoop_eq (g := fun x y => sampleInterpolateR rnd x y (5764607523034235 / 72057594037927936)) (by simp)
      (Src.has_some.2 (by simp)) (Src.has_some.2 (by simp)) (fun _ _ _ _ => rfl)]
    simp only [Src.get, Option.getD_some, List.take_succ_cons, List.take_zero, List.zipWith_cons_cons, List.zipWith_nil_left, List.drop_succ_cons,
      List.drop_nil, List.append_nil, sampleInterpolateR, r1, r2, r3, r4]

/-! ### Rounding to integers -/

theorem isDouble_quarters {m : ℤ} (h : |m| < 2 ^ 53) : IsDouble ((m : ℚ) / 4) :=
  ⟨m, -2, h, by norm_num, by norm_num, by norm_num [div_eq_mul_inv]⟩

theorem le_doubleMax_of {q : ℚ} (h : |q| ≤ 2 ^ 100) : |q| ≤ doubleMax := by
  refine h.trans ?_
  have := le_doubleMax (e := 100) (by norm_num)
  exact_mod_cast this

theorem cheapRoundR_nearest (h : RoundsToNearest rnd) {x : ℚ} (hx : IsDouble x) (h0 : 0 ≤ x) (h1 : x < 4294967295 + 1 / 2)
    (hne : x ≠ 1 / 2 - 1 / 2 ^ 54) : ∃ n : Nat, cheapRoundR rnd x = .ok n ∧ IsNearest x n := by
  have hmax : |1 / 2 + x| ≤ doubleMax := by
    refine le_doubleMax_of ?_
    rw [abs_of_nonneg (by linarith only [h0])]
    exact le_trans (show 1 / 2 + x ≤ 4294967296 by linarith only [h1]) (by norm_num)
  rcases lt_or_ge x (1 / 2) with hlt | hge
  · have hle : x ≤ 1 / 2 - 1 / 2 ^ 53 := by
      rcases lt_or_ge x (1 / 4) with h4 | h4
      · refine h4.le.trans ?_
        norm_num
      · obtain ⟨m, hm⟩ := hx.grid_of_le (k := -2) (by rw [abs_of_nonneg h0]; exact le_trans (by norm_num) h4)
        have e : ((2 : ℚ) ^ ((-2 : ℤ) - 52)) = 1 / 2 ^ 54 := by
          rw [show ((-2 : ℤ) - 52) = -54 by norm_num, zpow_neg]
          norm_num
        rw [e] at hm
        have m1 : (m : ℚ) < 2 ^ 53 := by linarith only [hm, hlt]
        have m2 : m < 2 ^ 53 := by exact_mod_cast m1
        have m3 : m ≠ 2 ^ 53 - 1 := by
          rintro rfl
          apply hne
          rw [hm]
          norm_num
        have m4 : m ≤ 2 ^ 53 - 2 := by omega
        have m5 : (m : ℚ) ≤ 2 ^ 53 - 2 := by exact_mod_cast m4
        rw [hm]
        linarith only [m5]
    have hd : IsDouble (1 - 1 / 2 ^ 53) := ⟨2 ^ 53 - 1, -53, by norm_num, by norm_num, by norm_num, by norm_num⟩
    have r1 := h.rnd_le hd hmax (by linarith only [hle])
    have r0 := h.nonneg hmax (by linarith only [h0])
    refine ⟨0, ?_, by norm_num; linarith only [h0], by norm_num; linarith only [hlt]⟩
    rw [cheapRoundR, toTime_of r0 (by linarith only [r1])]
    refine congrArg Except.ok ?_
    rw [Nat.floor_eq_zero]
    linarith only [r1]
  · set n := ⌊1 / 2 + x⌋₊ with hn
    have l1 := Nat.floor_le (show 0 ≤ 1 / 2 + x by linarith only [h0])
    have l2 := Nat.lt_floor_add_one (1 / 2 + x)
    rw [← hn] at l1 l2
    have n1 : 1 ≤ n := by
      rw [hn, Nat.le_floor_iff (by linarith only [h0])]
      push_cast
      linarith only [hge]
    have n2 : n < 4294967296 := by
      have : (n : ℚ) < 4294967296 := by linarith only [l1, h1]
      exact_mod_cast this
    have n2q : (n : ℚ) ≤ 4294967295 := by exact_mod_cast (by omega : n ≤ 4294967295)
    have r0 := h.le_rnd (isDouble_nat (n := n) (by omega)) hmax l1
    have r1 : rnd (1 / 2 + x) < n + 1 := by
      rcases lt_or_ge x n with hlt | hxn
      · have hd : IsDouble ((n : ℚ) + 1 / 2) := by
          have := isDouble_quarters (m := 4 * n + 2) (by rw [abs_of_nonneg (by omega)]; omega)
          have e : (((4 * n + 2 : ℤ)) : ℚ) / 4 = n + 1 / 2 := by
            push_cast
            ring
          rwa [e] at this
        have := h.rnd_le hd hmax (by linarith only [hlt])
        linarith only [this]
      · have k1 := Nat.pow_log_le_self 2 (show n ≠ 0 by omega)
        have k2 := Nat.lt_pow_succ_log_self (b := 2) (by norm_num) n
        set k := Nat.log 2 n with hk
        have k3 : k ≤ 31 := by
          by_contra hc
          have := Nat.pow_le_pow_right (show 0 < 2 by norm_num) (show 32 ≤ k by omega)
          omega
        have k1q : (2 : ℚ) ^ (k : ℤ) ≤ n := by
          rw [zpow_natCast]
          exact_mod_cast k1
        have k2q : (n : ℚ) + 1 ≤ (2 : ℚ) ^ ((k : ℤ) + 1) := by
          have : n + 1 ≤ 2 ^ (k + 1) := k2
          rw [show ((k : ℤ) + 1) = ((k + 1 : ℕ) : ℤ) by push_cast; rfl, zpow_natCast]
          exact_mod_cast this
        have g1 := hx.grid_of_le (k := k) (by rw [abs_of_nonneg h0]; exact k1q.trans hxn)
        have g2 : OnGrid ((k : ℤ) - 52) (1 / 2) := OnGrid.mono (f := -1) (by omega) ⟨1, by norm_num⟩
        have hd : IsDouble (1 / 2 + x) := (g2.add g1).isDouble (by omega) (by
          rw [abs_of_nonneg (by linarith only [h0]), ← two_zpow_53, show (53 + ((k : ℤ) - 52)) = k + 1 by ring]
          linarith only [l2, k2q]) hmax
        rw [h.exact hd]
        exact l2
    refine ⟨n, ?_, by linarith only [l1], by linarith only [l2]⟩
    rw [cheapRoundR, toTime_of (by linarith only [r0, Nat.cast_nonneg (α := ℚ) n]) (by linarith only [r1, n2q])]
    refine congrArg Except.ok ?_
    rw [Nat.floor_eq_iff (by linarith only [r0, Nat.cast_nonneg (α := ℚ) n])]
    exact ⟨r0, r1⟩

theorem isNearest_nat {m n : Nat} (h : IsNearest m n) : n = m := by
  obtain ⟨h1, h2⟩ := h
  have a : (n : ℚ) < m + 1 := by linarith only [h1]
  have b : (m : ℚ) < n + 1 := by linarith only [h2]
  have a' : n < m + 1 := by exact_mod_cast a
  have b' : m < n + 1 := by exact_mod_cast b
  omega

theorem half_below_ne (n : Nat) : (n : ℚ) ≠ 1 / 2 - 1 / 2 ^ 54 := by
  intro h
  have h1 : (n : ℚ) < 1 := by
    rw [h]
    norm_num
  have h2 : (0 : ℚ) < n := by
    rw [h]
    norm_num
  have h1' : n < 1 := by exact_mod_cast h1
  have h2' : 0 < n := by exact_mod_cast h2
  omega

theorem cheapRoundR_nat (h : RoundsToNearest rnd) {n : Nat} (hn : n < 4294967296) : cheapRoundR rnd n = .ok n := by
  have hq : (n : ℚ) ≤ 4294967295 := by exact_mod_cast (by omega : n ≤ 4294967295)
  obtain ⟨m, e, hm⟩ := cheapRoundR_nearest h (isDouble_nat (n := n) (by omega)) (Nat.cast_nonneg n) (by linarith only [hq]) (half_below_ne n)
  rw [e, isNearest_nat hm]

theorem timeInterpolateR_eq (h : RoundsToNearest rnd) {x y : Nat} {t : ℚ} (ht : IsDouble t) (h0 : 0 ≤ t) (h1 : t ≤ 1)
    (hx : x < 4294967296) (hy : y < 4294967296) :
    ∃ n : Nat, timeInterpolateR rnd x y t = .ok n ∧ cheapRoundR rnd n = .ok n ∧ |(n : ℚ) - ((1 - t) * x + t * y)| ≤ 1 / 2 + 1 / 2 ^ 18 ∧
      min x y ≤ n ∧ n ≤ max x y := by
  have hb := between_interpolate (a := (x : ℚ)) (b := y) h0 h1
  have hM : max x y < 4294967296 := by omega
  have hMq : ((max x y : Nat) : ℚ) ≤ 4294967295 := by exact_mod_cast (by omega : max x y ≤ 4294967295)
  have hxq : (x : ℚ) ≤ 4294967296 := by exact_mod_cast hx.le
  have hyq : (y : ℚ) ≤ 4294967296 := by exact_mod_cast hy.le
  have he := blend_error h (a := x) (b := y) (M := 4294967296) ht h0 h1 (by rwa [abs_of_nonneg (Nat.cast_nonneg x)])
    (by rwa [abs_of_nonneg (Nat.cast_nonneg y)]) (by
      have := le_doubleMax_of (q := 2 * 4294967296 + 1) (by norm_num)
      rwa [abs_of_nonneg (by norm_num)] at this)
  have hη : (2 : ℚ) ^ (-1073 : ℤ) ≤ 1 / 2 ^ 60 := by
    have : (2 : ℚ) ^ (-1073 : ℤ) ≤ (2 : ℚ) ^ (-60 : ℤ) := two_zpow_le (by norm_num)
    refine this.trans (le_of_eq ?_)
    norm_num
  set w := (1 - t) * (x : ℚ) + t * y with hw
  set v := sampleInterpolateR rnd x y t with hv
  have hmin : ((min x y : Nat) : ℚ) ≤ w := by rw [Nat.cast_min]; exact hb.1
  have hmax : w ≤ ((max x y : Nat) : ℚ) := by rw [Nat.cast_max]; exact hb.2
  have hmin0 : (0 : ℚ) ≤ ((min x y : Nat) : ℚ) := Nat.cast_nonneg _
  obtain ⟨he1, he2⟩ := abs_le.1 he
  have hs0 : 0 ≤ 1 / 2 + v := by linarith only [he1, hη, hmin, hmin0]
  have hs1 : 1 / 2 + v ≤ 4294967296 := by linarith only [he2, hη, hmax, hMq]
  have hsm : |1 / 2 + v| ≤ doubleMax := by
    refine le_doubleMax_of ?_
    rw [abs_of_nonneg hs0]
    exact hs1.trans (by norm_num)
  have r0 := h.le_rnd (isDouble_nat (n := min x y) (by omega)) hsm (by linarith only [he1, hη, hmin])
  have hd : IsDouble (((max x y : Nat) : ℚ) + 3 / 4) := by
    have := isDouble_quarters (m := 4 * (max x y : Nat) + 3) (by rw [abs_of_nonneg (by omega)]; omega)
    have e : (((4 * (max x y : Nat) + 3 : ℤ)) : ℚ) / 4 = (max x y : Nat) + 3 / 4 := by
      push_cast
      ring
    rwa [e] at this
  have r1 := h.rnd_le hd hsm (by linarith only [he2, hη, hmax])
  have rr0 : 0 ≤ rnd (1 / 2 + v) := hmin0.trans r0
  set n := ⌊rnd (1 / 2 + v)⌋₊ with hn
  have l1 := Nat.floor_le rr0
  have l2 := Nat.lt_floor_add_one (rnd (1 / 2 + v))
  rw [← hn] at l1 l2
  have n1 : min x y ≤ n := by rwa [hn, Nat.le_floor_iff rr0]
  have n2 : n ≤ max x y := by
    have : (n : ℚ) < ((max x y : Nat) : ℚ) + 1 := by linarith only [l1, r1]
    have : n < max x y + 1 := by exact_mod_cast this
    omega
  have herr := h.error_gen hsm
  rw [abs_of_nonneg hs0] at herr
  obtain ⟨g1, g2⟩ := abs_le.1 herr
  have hη2 : (2 : ℚ) ^ (-1075 : ℤ) ≤ 1 / 2 ^ 60 := le_trans (two_zpow_le (by norm_num)) hη
  refine ⟨n, ?_, cheapRoundR_nat h (by omega), ?_, n1, n2⟩
  · rw [timeInterpolateR, ← hv, cheapRoundR, toTime_of rr0 (by linarith only [r1, hMq])]
  · rw [abs_le]
    constructor <;> linarith only [l1, l2, g1, g2, he1, he2, hs1, hη, hη2]

/-- **C121, times**: for every pair of values, blending yields an integer between the two, and nearest to the interpolated value up to 2^-18. -/
theorem C121_times_blend (h : RoundsToNearest rnd) (a b : Src Nat) (t : ℚ) (size : Nat) (out : Buf Nat) (ht : IsDouble t) (h0 : 0 ≤ t) (h1 : t ≤ 1)
    (hc : size ≤ out.length) (ha : a.Has size) (hb : b.Has size)
    (ha2 : ∀ x ∈ a.get out, x < 4294967296) (hb2 : ∀ x ∈ b.get out, x < 4294967296) :
    ∃ g : Nat → Nat → Nat,
      timesBlendR rnd a b t size out =
        .ok (List.zipWith g ((a.get out).take size) ((b.get out).take size) ++ out.drop size) ∧
      ∀ x y : Nat, x < 4294967296 → y < 4294967296 →
        |(g x y : ℚ) - ((1 - t) * x + t * y)| ≤ 1 / 2 + 1 / 2 ^ 18 ∧ min x y ≤ g x y ∧ g x y ≤ max x y := by
  classical
  have hr : ∀ x y : Nat, ∃ n : Nat, x < 4294967296 → y < 4294967296 →
      timeInterpolateR rnd x y t = .ok n ∧ cheapRoundR rnd n = .ok n ∧
        |(n : ℚ) - ((1 - t) * x + t * y)| ≤ 1 / 2 + 1 / 2 ^ 18 ∧ min x y ≤ n ∧ n ≤ max x y := by
    intro x y
    by_cases hh : x < 4294967296 ∧ y < 4294967296
    · obtain ⟨n, hn⟩ := timeInterpolateR_eq h ht h0 h1 hh.1 hh.2
      exact ⟨n, fun _ _ => hn⟩
    · exact ⟨0, fun hx hy => absurd ⟨hx, hy⟩ hh⟩
  choose g hg using hr
  refine ⟨g, zipLoop_eq hc ha hb (fun x hx y hy => ?_), fun x y hx hy => (hg x y hx hy).2.2⟩
  obtain ⟨e1, e2, _⟩ := hg x y (ha2 x (List.mem_of_mem_take hx)) (hb2 y (List.mem_of_mem_take hy))
  rw [e1, ok_bind', e2]

/-- The hypotheses are met: a fraction of a third, rounded, for values at the ends of the range. -/
example (h : RoundsToNearest rnd) : ∃ m n : Nat, timesBlendR rnd (some [0, 7]) (some [4294967295, 7]) (rnd (1 / 3)) 2 [9, 9, 9] = .ok [m, n, 9] ∧
    m ≤ 4294967295 ∧ n = 7 := by
  have hm : |(1 / 3 : ℚ)| ≤ doubleMax := le_doubleMax_of (by norm_num [abs_of_pos])
  have r1 := h.rnd_le (isDouble_nat (n := 1) (by norm_num)) hm (by norm_num)
  obtain ⟨g, g1, g2⟩ := C121_times_blend h (some [0, 7]) (some [4294967295, 7]) (rnd (1 / 3)) 2 [9, 9, 9] (h.double _ hm) (h.nonneg hm (by norm_num))
    (by simpa using r1) (by simp) (Src.has_some.2 (by simp)) (Src.has_some.2 (by simp)) (by simp [Src.get]) (by simp [Src.get])
  refine ⟨g 0 4294967295, g 7 7, by simpa [Src.get] using g1, ?_, ?_⟩
  · have := (g2 0 4294967295 (by norm_num) (by norm_num)).2.2
    omega
  · have := (g2 7 7 (by norm_num) (by norm_num)).2
    omega

/-! ### C122 -/

/-- **C122, partial**: every sample is converted to the nearest integer, the upper one for halves, except for one number: the largest double
below 1/2 (`C122_to_times_false`). Exactly `count` elements are written. -/
theorem C122_to_times_partial (h : RoundsToNearest rnd) (inp : Buf ℚ) (count : Nat) (out : Buf Nat) (hc : count ≤ inp.length)
    (ho : count ≤ out.length) (hd : ∀ x ∈ inp, IsDouble x ∧ 0 ≤ x ∧ x < 4294967295 + 1 / 2 ∧ x ≠ 1 / 2 - 1 / 2 ^ 54) :
    ∃ ns : List Nat, samplesToTimesR rnd inp count out = .ok (ns ++ out.drop count) ∧ List.Forall₂ IsNearest (inp.take count) ns := by
  classical
  have hr : ∀ x : ℚ, ∃ n : Nat, IsDouble x ∧ 0 ≤ x ∧ x < 4294967295 + 1 / 2 ∧ x ≠ 1 / 2 - 1 / 2 ^ 54 →
      cheapRoundR rnd x = .ok n ∧ IsNearest x n := by
    intro x
    by_cases hh : IsDouble x ∧ 0 ≤ x ∧ x < 4294967295 + 1 / 2 ∧ x ≠ 1 / 2 - 1 / 2 ^ 54
    · obtain ⟨n, hn⟩ := cheapRoundR_nearest h hh.1 hh.2.1 hh.2.2.1 hh.2.2.2
      exact ⟨n, fun _ => hn⟩
    · exact ⟨0, fun h => absurd h hh⟩
  choose g hg using hr
  have e1 : samplesToTimesR rnd inp count out = .ok (tab out.length fun a => if a < count then g (inp.getD a 0) else out.getD a 0) := by
    rw [samplesToTimesR]
    conv_lhs => rw [eq_tab out 0]
    refine tab_loop fun i o hi _ => ?_
    have hm : inp.getD i 0 ∈ inp := by
      rw [getD_of_lt (by omega)]
      exact List.getElem_mem _
    have hrd : rd inp i = .ok (inp.getD i 0) := by
      rw [getD_of_lt (by omega)]
      exact rd_eq_ok (by omega)
    rw [hrd, ok_bind', (hg _ (hd _ hm)).1, ok_bind', wr_tab _ (by omega)]
  refine ⟨(inp.take count).map g, ?_, ?_⟩
  · rw [e1]
    refine congrArg Except.ok ?_
    apply List.ext_getElem?
    intro i
    rw [tab_getElem?]
    by_cases hi : i < count
    · rw [if_pos (by omega), if_pos hi, List.getElem?_append_left (by simp; omega), List.getElem?_map, List.getElem?_take, if_pos hi,
        List.getElem?_eq_getElem (by omega), getD_of_lt (by omega)]
      rfl
    · rw [List.getElem?_append_right (by simp; omega), List.length_map, List.length_take, min_eq_left hc, List.getElem?_drop,
        show count + (i - count) = i by omega]
      by_cases h2 : i < out.length
      · rw [if_pos h2, if_neg hi, getD_of_lt h2, List.getElem?_eq_getElem h2]
      · rw [if_neg h2, List.getElem?_eq_none (by omega)]
  · rw [List.forall₂_map_right_iff, List.forall₂_same]
    intro x hx
    exact (hg x (hd x (List.mem_of_mem_take hx))).2

/-- The hypotheses are met: halves go up, and the largest number. -/
example (h : RoundsToNearest rnd) : samplesToTimesR rnd [5 / 2, 7 / 4, 4294967295] 3 [9, 9, 9, 9] = .ok [3, 2, 4294967295, 9] := by
  have d1 : IsDouble (5 / 2) := ⟨5, -1, by norm_num, by norm_num, by norm_num, by norm_num⟩
  have d2 : IsDouble (7 / 4) := ⟨7, -2, by norm_num, by norm_num, by norm_num, by norm_num⟩
  have d3 : IsDouble 4294967295 := by simpa using isDouble_nat (n := 4294967295) (by norm_num)
  obtain ⟨ns, e1, e2⟩ := C122_to_times_partial h [5 / 2, 7 / 4, 4294967295] 3 [9, 9, 9, 9] (by simp) (by simp) (by
    intro x hx
    simp only [List.mem_cons, List.not_mem_nil, or_false] at hx
    rcases hx with rfl | rfl | rfl
    · exact ⟨d1, by norm_num, by norm_num, by norm_num⟩
    · exact ⟨d2, by norm_num, by norm_num, by norm_num⟩
    · exact ⟨d3, by norm_num, by norm_num, by norm_num⟩)
  have e3 : List.Forall₂ IsNearest [5 / 2, 7 / 4, 4294967295] ns := e2
  rcases e3 with _ | ⟨a1, _ | ⟨a2, _ | ⟨a3, _ | _⟩⟩⟩
  have key : ∀ (x : ℚ) (m n : Nat), IsNearest x m → IsNearest x n → n = m := by
    intro x m n hm hn
    have a : (n : ℚ) < m + 1 := by linarith only [hm.2, hn.1]
    have b : (m : ℚ) < n + 1 := by linarith only [hn.2, hm.1]
    have a' : n < m + 1 := by exact_mod_cast a
    have b' : m < n + 1 := by exact_mod_cast b
    omega
  rw [e1, key _ 3 _ ⟨by norm_num, by norm_num⟩ a1, key _ 2 _ ⟨by norm_num, by norm_num⟩ a2, key _ 4294967295 _ ⟨by norm_num, by norm_num⟩ a3]
  rfl

/-- C122: times converted to samples and back are unchanged. -/
theorem C122_times_round_trip (h : RoundsToNearest rnd) {inp : List Nat} {out : List ℚ} {back : List Nat} {count : Nat} (hc : count ≤ inp.length)
    (ho : count ≤ out.length) (hb : count ≤ back.length) (h32 : ∀ x ∈ inp, x < 4294967296) :
    ∃ s, timesToSamples inp count out = .ok s ∧ samplesToTimesR rnd s count back = .ok (inp.take count ++ back.drop count) := by
  obtain ⟨s, e1, e2, -⟩ := C97_times_round_trip (back := back) hc ho hb h32
  refine ⟨s, e1, ?_⟩
  have hl : ((inp.take count).map (fun (x : Nat) => (x : ℚ))).length = count := by simp; omega
  have e3 : samplesToTimesR rnd s count back = samplesToTimesR rnd (s.take count) count back := by
    rw [samplesToTimesR, samplesToTimesR]
    refine forRange_congr fun i o _ hi => ?_
    rw [rd, rd, List.getElem?_take, if_pos hi]
  rw [e3, e2, List.take_left' hl]
  obtain ⟨ns, f1, f2⟩ := C122_to_times_partial h ((inp.take count).map (fun (x : Nat) => (x : ℚ))) count back (by omega) hb (by
    intro x hx
    rw [List.mem_map] at hx
    obtain ⟨n, hn, rfl⟩ := hx
    have := h32 n (List.mem_of_mem_take hn)
    have hq : (n : ℚ) ≤ 4294967295 := by exact_mod_cast (by omega : n ≤ 4294967295)
    exact ⟨isDouble_nat (by omega), Nat.cast_nonneg n, by linarith only [hq], half_below_ne n⟩)
  rw [f1]
  rw [List.take_of_length_le (by omega), List.forall₂_map_left_iff] at f2
  have f3 := f2.imp (fun m n hmn => (isNearest_nat hmn).symm)
  rw [List.forall₂_eq_eq_eq] at f3
  rw [← f3]

/-- **C122 is false**: for a rounding that takes 1 - 2^-54, which is as close to 1 as it is to 1 - 2^-53, to the number with the even significand, 1,
the largest double below 1/2 is converted to 1. The nearest integer is 0. -/
theorem C122_to_times_false (heven : rnd (1 - 1 / 2 ^ 54) = 1) :
    IsDouble (1 / 2 - 1 / 2 ^ 54) ∧ samplesToTimesR rnd [1 / 2 - 1 / 2 ^ 54] 1 [0] = .ok [1] ∧ IsNearest (1 / 2 - 1 / 2 ^ 54) 0 ∧
      ¬ IsNearest (1 / 2 - 1 / 2 ^ 54) 1 := by
  refine ⟨⟨2 ^ 53 - 1, -54, by norm_num, by norm_num, by norm_num, by norm_num⟩, ?_, ⟨by norm_num, by norm_num⟩, fun hh => ?_⟩
  · have e : cheapRoundR rnd (1 / 2 - 1 / 2 ^ 54) = .ok 1 := by
      rw [cheapRoundR, show (1 : ℚ) / 2 + (1 / 2 - 1 / 2 ^ 54) = 1 - 1 / 2 ^ 54 by ring, heven, toTime_of (by norm_num) (by norm_num)]
      simp
    have hrd : rd [(1 / 2 - 1 / 2 ^ 54 : ℚ)] 0 = .ok (1 / 2 - 1 / 2 ^ 54) := rfl
    simp only [samplesToTimesR, forRange, iter, hrd, e, ok_bind']
    rfl
  · have := hh.1
    norm_num at this

/-- The hypothesis is met by a rounding to nearest. -/
example : RoundsToNearest nearestDouble ∧ nearestDouble (1 - 1 / 2 ^ 54) = 1 := by
  refine ⟨nearestDouble_rounds, ?_⟩
  have hl : Int.log 2 |(1 - 1 / 2 ^ 54 : ℚ)| = -1 := by
    obtain ⟨l1, l2⟩ := log_bounds (q := (1 - 1 / 2 ^ 54 : ℚ)) (by norm_num)
    have ea : |(1 - 1 / 2 ^ 54 : ℚ)| = 1 - 1 / 2 ^ 54 := abs_of_pos (by norm_num)
    rw [ea] at l1 l2 ⊢
    have a1 : (2 : ℚ) ^ (Int.log 2 (1 - 1 / 2 ^ 54 : ℚ)) < (2 : ℚ) ^ (0 : ℤ) := lt_of_le_of_lt l1 (by norm_num)
    have a2 : (2 : ℚ) ^ (-1 : ℤ) < (2 : ℚ) ^ (Int.log 2 (1 - 1 / 2 ^ 54 : ℚ) + 1) := lt_of_le_of_lt (by norm_num) l2
    rw [two_zpow_lt] at a1 a2
    omega
  have hu : ulpExp (1 - 1 / 2 ^ 54 : ℚ) = -53 := by
    rw [ulpExp, hl]
    norm_num
  have hg : gridNearest (1 - 1 / 2 ^ 54 : ℚ) = 1 := by
    rw [gridNearest, hu, round_eq]
    have : ⌊((1 : ℚ) - 1 / 2 ^ 54) / (2 : ℚ) ^ (-53 : ℤ) + 1 / 2⌋ = 2 ^ 53 := by
      rw [Int.floor_eq_iff]
      constructor <;> norm_num
    rw [this]
    norm_num
  have := le_doubleMax (e := 0) (by norm_num)
  rw [zpow_zero] at this
  rw [nearestDouble, hg, min_eq_right this, max_eq_right (by linarith only [this])]

/-- C122: samples are converted to units by a map that takes -1 to 0, 0 to 1/2 and 1 to 1, keeps the order and the range, and is accurate. -/
theorem C122_units (h : RoundsToNearest rnd) {b : List ℚ} {count : Nat} (hc : count ≤ b.length) :
    ∃ f : ℚ → ℚ, samplesToUnitsR rnd b count = .ok ((b.take count).map f ++ b.drop count) ∧ f (-1) = 0 ∧ f 0 = 1 / 2 ∧ f 1 = 1 ∧
      (∀ x y, -1 ≤ x → x ≤ y → y ≤ 1 → f x ≤ f y) ∧
      ∀ x, IsDouble x → -1 ≤ x → x ≤ 1 → 0 ≤ f x ∧ f x ≤ 1 ∧ |f x - (x + 1) / 2| ≤ 3 / 2 ^ 53 := by
  have d1 : IsDouble 1 := by simpa using isDouble_nat (n := 1) (by norm_num)
  have d2 : IsDouble 2 := by simpa using isDouble_nat (n := 2) (by norm_num)
  have dh : IsDouble (1 / 2) := ⟨1, -1, by norm_num, by norm_num, by norm_num, by norm_num⟩
  have m2 : ∀ q : ℚ, 0 ≤ q → q ≤ 2 → |q| ≤ doubleMax := by
    intro q q0 q2
    refine le_doubleMax_of ?_
    rw [abs_of_nonneg q0]
    exact q2.trans (by norm_num)
  have s1 : ∀ x : ℚ, -1 ≤ x → x ≤ 1 → 0 ≤ rnd (x + 1) ∧ rnd (x + 1) ≤ 2 := by
    intro x x0 x1
    have := m2 (x + 1) (by linarith) (by linarith)
    exact ⟨h.nonneg this (by linarith), h.rnd_le d2 this (by linarith)⟩
  refine ⟨fun x => rnd (rnd (x + 1) / 2), mapLoop_eq hc (Src.has_none _) (fun x _ => rfl), ?_, ?_, ?_, ?_, ?_⟩
  · simp [h.zero]
  · simp only [zero_add, h.exact d1, h.exact dh]
  · simp only [show (1 : ℚ) + 1 = 2 by norm_num, h.exact d2, show (2 : ℚ) / 2 = 1 by norm_num, h.exact d1]
  · intro x y x0 xy y1
    obtain ⟨a1, a2⟩ := s1 x x0 (by linarith)
    obtain ⟨b1, b2⟩ := s1 y (by linarith) y1
    have := h.mono (m2 (x + 1) (by linarith) (by linarith)) (m2 (y + 1) (by linarith) (by linarith)) (by linarith)
    exact h.mono (m2 _ (by linarith) (by linarith)) (m2 _ (by linarith) (by linarith)) (by linarith)
  · intro x hx x0 x1
    obtain ⟨a1, a2⟩ := s1 x x0 x1
    have hm := m2 (rnd (x + 1) / 2) (by linarith) (by linarith)
    have e1 := h.error_add hx d1 (m2 (x + 1) (by linarith) (by linarith))
    rw [abs_of_nonneg (show 0 ≤ x + 1 by linarith)] at e1
    have e2 := h.error_gen hm
    rw [abs_of_nonneg (show 0 ≤ rnd (x + 1) / 2 by linarith)] at e2
    have hη : (2 : ℚ) ^ (-1075 : ℤ) ≤ 1 / 2 ^ 60 := by
      have : (2 : ℚ) ^ (-1075 : ℤ) ≤ (2 : ℚ) ^ (-60 : ℤ) := two_zpow_le (by norm_num)
      refine this.trans (le_of_eq ?_)
      norm_num
    refine ⟨h.nonneg hm (by linarith), h.rnd_le d1 hm (by linarith), ?_⟩
    rw [abs_le] at e1 e2 ⊢
    constructor <;> linarith only [e1.1, e1.2, e2.1, e2.2, x1, a2, hη]

end Sp
