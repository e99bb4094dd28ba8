import Verif.Props.FloatSumAny
import Verif.Lemmas.Filter
import Verif.Lemmas.PathN
import Verif.Props.FloatConvolution
import Mathlib.Algebra.BigOperators.Field

/-!
# C164: kernels of filters in double precision

The windowed sinc is any array of doubles, so that nothing is assumed about the accuracy of the functions `sin` and `cos` of the C library.
-/

set_option linter.unusedSectionVars false

namespace Sp
variable {rnd : ℚ → ℚ}

instance : DecidableEq (Fl rnd) := fun a b => decidable_of_iff (a.val = b.val) Fl.ext_iff.symm

/-- The gain of a kernel for a constant signal, computed without rounding: the sum of its elements. -/
def constantGain (ir : List (Fl rnd)) : ℚ := (ir.map Fl.val).sum

/-- How much the elements of a kernel cancel each other: 1 if all have the same sign. -/
def cancellation (ir : List (Fl rnd)) : ℚ := (ir.map fun x => |x.val|).sum / |(ir.map Fl.val).sum|

private theorem as_tab {S : Type} (xs : List S) (z : S) : xs = tab xs.length fun k => xs.getD k z := by
  refine List.ext_getElem (by simp [tab]) fun i h1 h2 => ?_
  simp [tab, h1]

private theorem sums_tab (n : Nat) (f : Nat → Fl rnd) :
    exactSum (tab n f) = ∑ k ∈ Finset.range n, (f k).val ∧ absSum (tab n f) = ∑ k ∈ Finset.range n, |(f k).val| := by
  rw [exactSum, absSum, tab_map, tab_map, sum_tab, sum_tab]
  exact ⟨rfl, rfl⟩

private theorem scale_tab {n : Nat} {f : Nat → Fl rnd} {r : Fl rnd} (hr : r.val ≠ 0) :
    forRange 0 n (irScaleBody r) (tab n f) = .ok (tab n fun k => f k / r) := by
  have hr' : r ≠ 0 := fun e => hr (by rw [e]; rfl)
  rw [tab_loop (v := fun k => f k / r) (by
    intro i o hi ho
    rw [irScaleBody, rd_tab hi, ok_bind', if_neg hr', ho]
    exact wr_tab _ hi)]
  rw [tab_congr fun a ha => by rw [if_pos ha]]

/-- The facts about the scaled kernel. -/
private theorem scaled (h : RoundsToNearest rnd) {n : Nat} {f : Nat → Fl rnd} (hn0 : 0 < n) (hd : ∀ k < n, IsDouble (f k).val) (hn : n < 2 ^ 32)
    (hmax : 8 * absSum (tab n f) ≤ doubleMax) (hs0 : exactSum (tab n f) ≠ 0)
    (hs : 12 * n / 2 ^ 53 * absSum (tab n f) ≤ |exactSum (tab n f)|) :
    ∃ r : Fl rnd, f64Sum (tab n f) n = .ok r ∧ r.val ≠ 0 ∧
      (∀ k < n, IsDouble (f k / r).val ∧ |(f k / r).val| ≤ 2 ^ 52 ∧
        |(f k / r).val - (f k).val / r.val| ≤ 2 / 2 ^ 53 * (|(f k).val| / |exactSum (tab n f)|) + (2 : ℚ) ^ (-1075 : ℤ) ∧
        |(f k).val / r.val| ≤ 2 * (|(f k).val| / |exactSum (tab n f)|) ∧
        |(f k).val / r.val - (f k).val / exactSum (tab n f)| ≤
          12 * n / 2 ^ 53 * (absSum (tab n f) / |exactSum (tab n f)|) * (|(f k).val| / |exactSum (tab n f)|)) ∧
      |exactSum (tab n f) / r.val - 1| ≤ 12 * n / 2 ^ 53 * (absSum (tab n f) / |exactSum (tab n f)|) := by
  have hnq : (n : ℚ) < 4294967296 := by exact_mod_cast hn
  have hn1 : (1 : ℚ) ≤ n := by exact_mod_cast hn0
  obtain ⟨r, h1, h2, h3⟩ := C118_any_signs_partial h (xs := tab n f) (by intro e; have := congrArg List.length e; simp [tab] at this; omega)
    (by
      intro x hx
      simp only [tab, List.mem_map, List.mem_range] at hx
      obtain ⟨k, hk, rfl⟩ := hx
      exact hd k hk) (by simp [tab]; omega) hmax
  rw [tab_length] at h1 h3
  refine ⟨r, h1, ?_⟩
  have hx : ∀ k < n, |(f k).val| ≤ absSum (tab n f) := by
    intro k hk
    rw [(sums_tab n f).2]
    exact Finset.single_le_sum (f := fun k => |(f k).val|) (fun _ _ => abs_nonneg _) (Finset.mem_range.2 hk)
  generalize exactSum (tab n f) = s at *
  generalize absSum (tab n f) = A at *
  have hs1 : 0 < |s| := abs_pos.2 hs0
  have hA : 0 ≤ A := (abs_nonneg _).trans (hx 0 hn0)
  have hrs : |s| / 2 ≤ |r.val| := by
    have e1 : 6 * n / 2 ^ 53 * A = (12 * n / 2 ^ 53 * A) / 2 := by ring
    have e2 : s = r.val - (r.val - s) := by ring
    have e3 : |s| ≤ |r.val| + |r.val - s| := by
      conv_lhs => rw [e2]
      exact abs_sub _ _
    linarith
  have hr0 : 0 < |r.val| := by linarith
  have hr : r.val ≠ 0 := abs_pos.1 hr0
  have hinv : ∀ y : ℚ, 0 ≤ y → y / |r.val| ≤ 2 * (y / |s|) := by
    intro y hy
    rw [div_le_iff₀ hr0]
    have : 2 * (y / |s|) * |r.val| = (y / |s|) * (2 * |r.val|) := by ring
    rw [this]
    calc y = y / |s| * |s| := by field_simp
      _ ≤ y / |s| * (2 * |r.val|) := mul_le_mul_of_nonneg_left (by linarith) (div_nonneg hy hs1.le)
  have hAs : A / |s| ≤ 2 ^ 53 / 12 := by
    rw [div_le_iff₀ hs1]
    have : 12 / 2 ^ 53 * A ≤ 12 * n / 2 ^ 53 * A := mul_le_mul_of_nonneg_right (by
      rw [div_le_div_iff_of_pos_right (by norm_num)]; linarith) hA
    have e : A = 2 ^ 53 / 12 * (12 / 2 ^ 53 * A) := by ring
    rw [e]
    exact mul_le_mul_of_nonneg_left (this.trans hs) (by norm_num)
  have h52 : IsDouble ((2 : ℚ) ^ 52) := ⟨1, 52, by norm_num, by norm_num, by norm_num, by norm_num⟩
  refine ⟨hr, ?_, ?_⟩
  · intro k hk
    have q1 : |(f k).val / r.val| ≤ 2 * (|(f k).val| / |s|) := by
      rw [abs_div]
      exact hinv _ (abs_nonneg _)
    have q2 : |(f k).val / r.val| ≤ 2 ^ 52 := by
      refine q1.trans ?_
      have : |(f k).val| / |s| ≤ A / |s| := div_le_div_of_nonneg_right (hx k hk) hs1.le
      have : (2 : ℚ) ^ 53 / 12 * 2 ≤ 2 ^ 52 := by norm_num
      linarith
    have q3 := q2.trans ((le_abs_self _).trans h52.le_max)
    refine ⟨h.double _ q3, h.abs_le q3 h52 q2, ?_, q1, ?_⟩
    · have := h.error_gen q3
      rw [Fl.div_val, abs_sub_comm]
      refine this.trans ?_
      have : |(f k).val / r.val| / 2 ^ 53 ≤ 2 * (|(f k).val| / |s|) / 2 ^ 53 := div_le_div_of_nonneg_right q1 (by norm_num)
      have e : 2 / 2 ^ 53 * (|(f k).val| / |s|) = 2 * (|(f k).val| / |s|) / 2 ^ 53 := by ring
      rw [e]
      linarith
    · have e : (f k).val / r.val - (f k).val / s = (f k).val / s * ((s - r.val) / r.val) := by field_simp
      rw [e, abs_mul, abs_div, abs_div, mul_comm, abs_sub_comm s]
      refine mul_le_mul_of_nonneg_right ?_ (div_nonneg (abs_nonneg _) hs1.le)
      refine (hinv _ (abs_nonneg _)).trans ?_
      have : |r.val - s| / |s| ≤ 6 * n / 2 ^ 53 * A / |s| := div_le_div_of_nonneg_right h3 hs1.le
      have e : 12 * n / 2 ^ 53 * (A / |s|) = 2 * (6 * n / 2 ^ 53 * A / |s|) := by ring
      rw [e]
      linarith
  · have e : s / r.val - 1 = (s - r.val) / r.val := by field_simp
    rw [e, abs_div, abs_sub_comm]
    refine (hinv _ (abs_nonneg _)).trans ?_
    have : |r.val - s| / |s| ≤ 6 * n / 2 ^ 53 * A / |s| := div_le_div_of_nonneg_right h3 hs1.le
    have e : 12 * n / 2 ^ 53 * (A / |s|) = 2 * (6 * n / 2 ^ 53 * A / |s|) := by ring
    rw [e]
    linarith

private theorem gain_tab {n : Nat} {f : Nat → Fl rnd} {r : Fl rnd} {s A B E : ℚ}
    (hs : s = ∑ k ∈ Finset.range n, (f k).val) (hA : A = ∑ k ∈ Finset.range n, |(f k).val|)
    (hk : ∀ k < n, |(f k / r).val - (f k).val / r.val| ≤ 2 / 2 ^ 53 * (|(f k).val| / |s|) + E)
    (h1 : |s / r.val - 1| ≤ B) : |(∑ k ∈ Finset.range n, (f k / r).val) - 1| ≤ B + 2 / 2 ^ 53 * (A / |s|) + n * E := by
  have e1 : (∑ k ∈ Finset.range n, (f k / r).val) - 1 =
      (∑ k ∈ Finset.range n, ((f k / r).val - (f k).val / r.val)) + (s / r.val - 1) := by
    rw [Finset.sum_sub_distrib, ← Finset.sum_div, ← hs]
    ring
  rw [e1]
  have h2 : |∑ k ∈ Finset.range n, ((f k / r).val - (f k).val / r.val)| ≤ 2 / 2 ^ 53 * (A / |s|) + n * E := by
    refine (Finset.abs_sum_le_sum_abs _ _).trans ((Finset.sum_le_sum fun k hk' => hk k (Finset.mem_range.1 hk')).trans (le_of_eq ?_))
    rw [Finset.sum_add_distrib, ← Finset.mul_sum, ← Finset.sum_div, ← hA, Finset.sum_const, Finset.card_range, nsmul_eq_mul]
  have := abs_add_le (∑ k ∈ Finset.range n, ((f k / r).val - (f k).val / r.val)) (s / r.val - 1)
  linarith

private theorem scaled_list (h : RoundsToNearest rnd) {n : Nat} {f : Nat → Fl rnd} (hn0 : 0 < n) (hn : n < 2 ^ 32)
    (hd : ∀ x ∈ tab n f, IsDouble x.val) (hmax : ∀ x ∈ tab n f, |x.val| ≤ 2 ^ 900) (hs0 : exactSum (tab n f) ≠ 0)
    (hs : 12 * n / 2 ^ 53 * (absSum (tab n f) / |exactSum (tab n f)|) ≤ 1) :
    ∃ r : Fl rnd, f64Sum (tab n f) n = .ok r ∧ r.val ≠ 0 ∧
      (∀ k < n, IsDouble (f k / r).val ∧ |(f k / r).val| ≤ 2 ^ 52 ∧
        |(f k / r).val - (f k).val / r.val| ≤ 2 / 2 ^ 53 * (|(f k).val| / |exactSum (tab n f)|) + (2 : ℚ) ^ (-1075 : ℤ) ∧
        |(f k).val / r.val| ≤ 2 * (|(f k).val| / |exactSum (tab n f)|) ∧
        |(f k).val / r.val - (f k).val / exactSum (tab n f)| ≤
          12 * n / 2 ^ 53 * (absSum (tab n f) / |exactSum (tab n f)|) * (|(f k).val| / |exactSum (tab n f)|)) ∧
      |exactSum (tab n f) / r.val - 1| ≤ 12 * n / 2 ^ 53 * (absSum (tab n f) / |exactSum (tab n f)|) := by
  have mem : ∀ k < n, f k ∈ tab n f := fun k hk => by
    simp only [tab, List.mem_map, List.mem_range]
    exact ⟨k, hk, rfl⟩
  refine scaled h hn0 (fun k hk => hd _ (mem k hk)) hn ?_ hs0 ?_
  · have h1 : absSum (tab n f) ≤ n * 2 ^ 900 := by
      rw [(sums_tab n f).2]
      refine (Finset.sum_le_sum fun k hk => hmax _ (mem k (Finset.mem_range.1 hk))).trans (le_of_eq ?_)
      rw [Finset.sum_const, Finset.card_range, nsmul_eq_mul]
    have h2 : (n : ℚ) ≤ 2 ^ 32 := by exact_mod_cast hn.le
    have h3 : (n : ℚ) * 2 ^ 900 ≤ 2 ^ 32 * 2 ^ 900 := mul_le_mul_of_nonneg_right h2 (by positivity)
    have h4 : (2 : ℚ) ^ (935 : ℤ) ≤ doubleMax := le_doubleMax (by norm_num)
    have h5 : (2 : ℚ) ^ (935 : ℤ) = 8 * (2 ^ 32 * 2 ^ 900) := by
      have : (8 : ℚ) = 2 ^ 3 := by norm_num
      rw [this, ← pow_add, ← pow_add, ← zpow_natCast]
      rfl
    rw [h5] at h4
    exact (mul_le_mul_of_nonneg_left (h1.trans h3) (by norm_num)).trans h4
  · have hs1 : 0 < |exactSum (tab n f)| := abs_pos.2 hs0
    rw [← mul_div_assoc, div_le_one hs1] at hs
    exact hs

private theorem scaled_abs {n : Nat} {f : Nat → Fl rnd} {r : Fl rnd} {s A : ℚ} (hn : n < 2 ^ 32)
    (hA : A = ∑ k ∈ Finset.range n, |(f k).val|) (h1 : 1 ≤ A / |s|)
    (hk : ∀ k < n, |(f k / r).val - (f k).val / r.val| ≤ 2 / 2 ^ 53 * (|(f k).val| / |s|) + (2 : ℚ) ^ (-1075 : ℤ))
    (hq : ∀ k < n, |(f k).val / r.val| ≤ 2 * (|(f k).val| / |s|)) : ∑ k ∈ Finset.range n, |(f k / r).val| ≤ 3 * (A / |s|) := by
  have hE : (n : ℚ) * (2 : ℚ) ^ (-1075 : ℤ) ≤ 1 / 2 := by
    have h2 : (n : ℚ) ≤ 2 ^ (32 : ℤ) := by exact_mod_cast hn.le
    have h3 : (2 : ℚ) ^ (32 : ℤ) * (2 : ℚ) ^ (-1075 : ℤ) ≤ (2 : ℚ) ^ (-1 : ℤ) := by
      rw [← zpow_add₀ (by norm_num)]
      exact zpow_le_zpow_right₀ (by norm_num) (by norm_num)
    have h4 : (2 : ℚ) ^ (-1 : ℤ) = 1 / 2 := by norm_num
    have h5 := mul_le_mul_of_nonneg_right h2 (by positivity : (0 : ℚ) ≤ (2 : ℚ) ^ (-1075 : ℤ))
    exact (h5.trans h3).trans h4.le
  have h2 : ∑ k ∈ Finset.range n, |(f k / r).val| ≤ ∑ k ∈ Finset.range n, ((2 + 2 / 2 ^ 53) * (|(f k).val| / |s|) + (2 : ℚ) ^ (-1075 : ℤ)) := by
    refine Finset.sum_le_sum fun k hk' => ?_
    have a := hk k (Finset.mem_range.1 hk')
    have b := hq k (Finset.mem_range.1 hk')
    have e : (f k / r).val = (f k).val / r.val + ((f k / r).val - (f k).val / r.val) := by ring
    have c := abs_add_le ((f k).val / r.val) ((f k / r).val - (f k).val / r.val)
    rw [← e] at c
    linarith
  rw [Finset.sum_add_distrib, ← Finset.mul_sum, ← Finset.sum_div, ← hA, Finset.sum_const, Finset.card_range, nsmul_eq_mul] at h2
  generalize A / |s| = K at *
  have h3 : (2 + 2 / 2 ^ 53 : ℚ) * K ≤ 5 / 2 * K := mul_le_mul_of_nonneg_right (by norm_num) (by linarith)
  linarith

private theorem one_le_cancellation {n : Nat} {f : Nat → Fl rnd} (hs0 : exactSum (tab n f) ≠ 0) :
    1 ≤ absSum (tab n f) / |exactSum (tab n f)| := by
  rw [one_le_div (abs_pos.2 hs0), (sums_tab n f).1, (sums_tab n f).2]
  exact Finset.abs_sum_le_sum_abs _ _

/-- **C164**: the low pass kernel that is made from any windowed sinc of doubles: each element is the exactly scaled element, and the gain for
constant signals is 1, except for rounding errors in proportion to the length and to how much the elements cancel each other. -/
theorem C164_low_pass (h : RoundsToNearest rnd) {ir : List (Fl rnd)} (hne : ir ≠ []) (hn : ir.length < 2 ^ 32) (hd : ∀ x ∈ ir, IsDouble x.val)
    (hmax : ∀ x ∈ ir, |x.val| ≤ 2 ^ 900) (hs0 : constantGain ir ≠ 0) (hs : 12 * ir.length / 2 ^ 53 * cancellation ir ≤ 1) :
    ∃ out, irFinish ir ir.length false = .ok out ∧ out.length = ir.length ∧ (∀ x ∈ out, IsDouble x.val) ∧
      (∀ (k : Nat) x y, ir[k]? = some x → out[k]? = some y → |y.val - x.val / constantGain ir| ≤
        (12 * ir.length + 2) / 2 ^ 53 * cancellation ir * (|x.val| / |constantGain ir|) + (2 : ℚ) ^ (-1075 : ℤ)) ∧
      |constantGain out - 1| ≤ (12 * ir.length + 2) / 2 ^ 53 * cancellation ir + ir.length * (2 : ℚ) ^ (-1075 : ℤ) ∧
      (out.map fun x => |x.val|).sum ≤ 3 * cancellation ir := by
  obtain ⟨n, f, rfl, hl⟩ : ∃ n f, ir = tab n f ∧ ir.length = n := ⟨_, _, as_tab ir 0, rfl⟩
  have hn0 : 0 < n := by
    rcases Nat.eq_zero_or_pos n with rfl | h0
    · exact absurd (by simp [tab]) hne
    · exact h0
  simp only [hl] at *
  obtain ⟨r, h1, hr, h2, h3⟩ := scaled_list h hn0 hn hd hmax hs0 hs
  have h1c := one_le_cancellation hs0
  refine ⟨tab n fun k => f k / r, ?_, tab_length, ?_, ?_, ?_, ?_⟩
  · rw [irFinish, h1, ok_bind', scale_tab hr, ok_bind']
    rfl
  · intro x hx
    simp only [tab, List.mem_map, List.mem_range] at hx
    obtain ⟨k, hk, rfl⟩ := hx
    exact (h2 k hk).1
  · intro k x y hx hy
    obtain ⟨hk, rfl⟩ := tab_some hx
    obtain ⟨-, rfl⟩ := tab_some hy
    obtain ⟨-, -, a1, -, a2⟩ := h2 k hk
    change |(f k / r).val - (f k).val / exactSum (tab n f)| ≤ (12 * n + 2) / 2 ^ 53 * (absSum (tab n f) / |exactSum (tab n f)|) *
      (|(f k).val| / |exactSum (tab n f)|) + _
    have e : (f k / r).val - (f k).val / exactSum (tab n f) = ((f k / r).val - (f k).val / r.val) +
      ((f k).val / r.val - (f k).val / exactSum (tab n f)) := by ring
    rw [e]
    refine (abs_add_le _ _).trans ((add_le_add a1 a2).trans ?_)
    have hx0 : 0 ≤ |(f k).val| / |exactSum (tab n f)| := by positivity
    generalize |(f k).val| / |exactSum (tab n f)| = X at *
    generalize absSum (tab n f) / |exactSum (tab n f)| = K at *
    have : 2 / 2 ^ 53 * X * 1 ≤ 2 / 2 ^ 53 * X * K := mul_le_mul_of_nonneg_left h1c (by positivity)
    have e2 : (12 * (n : ℚ) + 2) / 2 ^ 53 * K * X = 12 * n / 2 ^ 53 * K * X + 2 / 2 ^ 53 * X * K := by ring
    rw [e2]
    linarith
  · have := gain_tab (sums_tab n f).1 (sums_tab n f).2 (fun k hk => (h2 k hk).2.2.1) h3
    change |exactSum (tab n fun k => f k / r) - 1| ≤ (12 * n + 2) / 2 ^ 53 * (absSum (tab n f) / |exactSum (tab n f)|) + _
    rw [(sums_tab n _).1]
    refine this.trans (le_of_eq ?_)
    ring
  · change absSum (tab n fun k => f k / r) ≤ 3 * (absSum (tab n f) / |exactSum (tab n f)|)
    rw [(sums_tab n _).2]
    exact scaled_abs hn (sums_tab n f).2 h1c (fun k hk => (h2 k hk).2.2.1) (fun k hk => (h2 k hk).2.2.2.1)

/-- **C164**: the high pass kernel: its gain for constant signals is 0, with the same error and two more roundings. -/
theorem C164_high_pass (h : RoundsToNearest rnd) {ir : List (Fl rnd)} (hne : ir ≠ []) (hn : ir.length < 2 ^ 32) (hd : ∀ x ∈ ir, IsDouble x.val)
    (hmax : ∀ x ∈ ir, |x.val| ≤ 2 ^ 900) (hs0 : constantGain ir ≠ 0) (hs : 12 * ir.length / 2 ^ 53 * cancellation ir ≤ 1) :
    ∃ out, irFinish ir ir.length true = .ok out ∧ out.length = ir.length ∧ (∀ x ∈ out, IsDouble x.val) ∧
      |constantGain out| ≤ (12 * ir.length + 6) / 2 ^ 53 * cancellation ir + 2 * ir.length * (2 : ℚ) ^ (-1075 : ℤ) ∧
      (out.map fun x => |x.val|).sum ≤ 5 * cancellation ir := by
  obtain ⟨n, f, rfl, hl⟩ : ∃ n f, ir = tab n f ∧ ir.length = n := ⟨_, _, as_tab ir 0, rfl⟩
  have hn0 : 0 < n := by
    rcases Nat.eq_zero_or_pos n with rfl | h0
    · exact absurd (by simp [tab]) hne
    · exact h0
  simp only [hl] at *
  obtain ⟨r, h1, hr, h2, h3⟩ := scaled_list h hn0 hn hd hmax hs0 hs
  have h1c := one_le_cancellation hs0
  have hc : (n - 1) / 2 < n := by omega
  obtain ⟨d1, d2, d3, d4, -⟩ := h2 _ hc
  set g : Nat → Fl rnd := fun k => f k / r with hg
  have one : IsDouble 1 := ⟨1, 0, by norm_num, by norm_num, by norm_num, by norm_num⟩
  have hq : |-(g ((n - 1) / 2)).val + 1| ≤ doubleMax := by
    have h4 : (2 : ℚ) ^ (53 : ℤ) ≤ doubleMax := le_doubleMax (by norm_num)
    have h5 := abs_add_le (-(g ((n - 1) / 2)).val) 1
    rw [abs_neg, abs_one] at h5
    have h6 : (2 : ℚ) ^ (53 : ℤ) = 2 ^ 52 + 2 ^ 52 := by norm_num
    have h7 : (1 : ℚ) ≤ 2 ^ 52 := by norm_num
    linarith
  have e2 := h.error_add d1.neg one hq
  have e4 : |-(g ((n - 1) / 2)).val + 1| ≤ |(g ((n - 1) / 2)).val| + 1 := by
    have := abs_add_le (-(g ((n - 1) / 2)).val) 1
    rwa [abs_neg, abs_one] at this
  refine ⟨tab n fun k => if k = (n - 1) / 2 then -g k + 1 else -g k, ?_, tab_length, ?_, ?_, ?_⟩
  · rw [irFinish, h1, ok_bind', scale_tab hr, ok_bind', if_pos rfl]
    exact spectralInversion_tab hn0 (by omega)
  · intro x hx
    simp only [tab, List.mem_map, List.mem_range] at hx
    obtain ⟨k, hk, rfl⟩ := hx
    split
    · rename_i e
      subst e
      exact h.double _ hq
    · exact (h2 k hk).1.neg
  · have e0 := gain_tab (sums_tab n f).1 (sums_tab n f).2 (fun k hk => (h2 k hk).2.2.1) h3
    change |exactSum (tab n _)| ≤ (12 * n + 6) / 2 ^ 53 * (absSum (tab n f) / |exactSum (tab n f)|) + _
    rw [(sums_tab n _).1]
    have e1 : ∑ k ∈ Finset.range n, (if k = (n - 1) / 2 then -g k + 1 else -g k).val =
        (∑ k ∈ Finset.range n, -(g k).val) + (rnd (-(g ((n - 1) / 2)).val + 1) + (g ((n - 1) / 2)).val) := by
      rw [← Finset.sum_ite_eq_of_mem' (Finset.range n) ((n - 1) / 2) (fun k => rnd (-(g k).val + 1) + (g k).val) (Finset.mem_range.2 hc),
        ← Finset.sum_add_distrib]
      refine Finset.sum_congr rfl fun k _ => ?_
      split
      · rw [Fl.add_val, Fl.neg_val, Fl.one_val]; ring
      · rw [Fl.neg_val]; ring
    rw [e1, Finset.sum_neg_distrib]
    have e3 : -(∑ k ∈ Finset.range n, (g k).val) + (rnd (-(g ((n - 1) / 2)).val + 1) + (g ((n - 1) / 2)).val) =
      -((∑ k ∈ Finset.range n, (g k).val) - 1) - (-(g ((n - 1) / 2)).val + 1 - rnd (-(g ((n - 1) / 2)).val + 1)) := by ring
    rw [e3]
    refine (abs_sub _ _).trans ?_
    rw [abs_neg]
    have hle : |(f ((n - 1) / 2)).val| / |exactSum (tab n f)| ≤ absSum (tab n f) / |exactSum (tab n f)| := by
      refine div_le_div_of_nonneg_right ?_ (abs_nonneg _)
      rw [(sums_tab n f).2]
      exact Finset.single_le_sum (f := fun k => |(f k).val|) (fun _ _ => abs_nonneg _) (Finset.mem_range.2 hc)
    have e5 : |(g ((n - 1) / 2)).val| ≤ |(f ((n - 1) / 2)).val / r.val| + |(f ((n - 1) / 2) / r).val - (f ((n - 1) / 2)).val / r.val| := by
      have : (g ((n - 1) / 2)).val = (f ((n - 1) / 2)).val / r.val + ((f ((n - 1) / 2) / r).val - (f ((n - 1) / 2)).val / r.val) := by
        rw [hg]; ring
      conv_lhs => rw [this]
      exact abs_add_le _ _
    have hn1 : (1 : ℚ) ≤ n := by exact_mod_cast hn0
    have hE : (0 : ℚ) < (2 : ℚ) ^ (-1075 : ℤ) := by positivity
    have hnE : (2 : ℚ) ^ (-1075 : ℤ) ≤ n * (2 : ℚ) ^ (-1075 : ℤ) := le_mul_of_one_le_left hE.le hn1
    generalize (2 : ℚ) ^ (-1075 : ℤ) = E at *
    generalize |(f ((n - 1) / 2)).val| / |exactSum (tab n f)| = X at *
    generalize absSum (tab n f) / |exactSum (tab n f)| = K at *
    have e6 : |(g ((n - 1) / 2)).val| ≤ 5 / 2 * K + E := by linarith
    have e7 : |-(g ((n - 1) / 2)).val + 1| / 2 ^ 53 ≤ (7 / 2 * K + E) / 2 ^ 53 := div_le_div_of_nonneg_right (by linarith) (by norm_num)
    have e8 : (7 / 2 * K + E) / 2 ^ 53 ≤ 4 / 2 ^ 53 * K + E := by
      rw [add_div]
      have : E / 2 ^ 53 ≤ E := div_le_self hE.le (by norm_num)
      have : 7 / 2 * K / 2 ^ 53 = 7 / 2 / 2 ^ 53 * K := by ring
      have : 7 / 2 / 2 ^ 53 * K ≤ 4 / 2 ^ 53 * K := mul_le_mul_of_nonneg_right (by norm_num) (by linarith)
      linarith
    have e9 : (12 * (n : ℚ) + 6) / 2 ^ 53 * K + 2 * n * E = 12 * n / 2 ^ 53 * K + 2 / 2 ^ 53 * K + n * E + (4 / 2 ^ 53 * K + n * E) := by ring
    rw [e9]
    linarith

  · have e5 := scaled_abs hn (sums_tab n f).2 h1c (fun k hk => (h2 k hk).2.2.1) (fun k hk => (h2 k hk).2.2.2.1)
    change absSum (tab n _) ≤ 5 * (absSum (tab n f) / |exactSum (tab n f)|)
    rw [(sums_tab n _).2]
    have e6 : ∀ k ∈ Finset.range n, |(if k = (n - 1) / 2 then -g k + 1 else -g k).val| ≤
        |(g k).val| + (if k = (n - 1) / 2 then 1 + |-(g k).val + 1| / 2 ^ 53 else 0) := by
      intro k _
      split
      · rename_i e
        subst e
        rw [Fl.add_val, Fl.neg_val, Fl.one_val]
        have e7 : rnd (-(g ((n - 1) / 2)).val + 1) = (-(g ((n - 1) / 2)).val + 1) - (-(g ((n - 1) / 2)).val + 1 - rnd (-(g ((n - 1) / 2)).val + 1)) := by
          ring
        rw [e7]
        refine (abs_sub _ _).trans ?_
        linarith
      · rw [Fl.neg_val, abs_neg, add_zero]
    refine (Finset.sum_le_sum e6).trans ?_
    rw [Finset.sum_add_distrib, Finset.sum_ite_eq_of_mem' (Finset.range n) _ _ (Finset.mem_range.2 hc)]
    have e8 : |(g ((n - 1) / 2)).val| ≤ ∑ k ∈ Finset.range n, |(f k / r).val| :=
      Finset.single_le_sum (f := fun k => |(g k).val|) (fun _ _ => abs_nonneg _) (Finset.mem_range.2 hc)
    generalize absSum (tab n f) / |exactSum (tab n f)| = K at *
    have e9 : |-(g ((n - 1) / 2)).val + 1| / 2 ^ 53 ≤ 4 * K / 2 ^ 53 := div_le_div_of_nonneg_right (by linarith) (by norm_num)
    have e10 : 4 * K / 2 ^ 53 ≤ K := by
      rw [div_le_iff₀ (by norm_num)]
      nlinarith only [h1c]
    linarith

private theorem constant_convolution {xs b : List ℚ} {c : ℚ} (hc : ∀ x ∈ xs, x = c) {k : Nat} (h1 : b.length ≤ k + 1) (h2 : k < xs.length) :
    linearConvolution xs b k = c * b.sum := by
  rw [linearConvolution, Finset.Nat.sum_antidiagonal_eq_sum_range_succ (fun i j => xs.getD i 0 * b.getD j 0), ← Finset.sum_range_reflect]
  have e : ∀ i ∈ Finset.range (k + 1), xs.getD (k + 1 - 1 - i) 0 * b.getD (k - (k + 1 - 1 - i)) 0 = c * b.getD i 0 := by
    intro i hi
    rw [Finset.mem_range] at hi
    have e1 : k - (k + 1 - 1 - i) = i := by omega
    have e2 : xs.getD (k + 1 - 1 - i) 0 = c := by
      rw [List.getD_eq_getElem _ _ (by omega)]
      exact hc _ (List.getElem_mem _)
    rw [e1, e2]
  rw [Finset.sum_congr rfl e, ← Finset.mul_sum]
  congr 1
  obtain ⟨m, hm⟩ : ∃ m, k + 1 = b.length + m := ⟨k + 1 - b.length, by omega⟩
  rw [hm, Finset.sum_range_add, Finset.sum_eq_zero (s := Finset.range m) (by intro i _; simp), add_zero]
  conv_rhs => rw [as_tab b 0]
  rw [sum_tab]

/-- The outputs for a constant signal when the kernel is inside of the signal. -/
private theorem constant_output (h : RoundsToNearest rnd) (junk c : Fl rnd) {b : Buf (Fl rnd)} (hb : 1 ≤ b.length) {blocks : List (Buf (Fl rnd))}
    (h32 : blocks.flatten.length + b.length ≤ 4294967296) (hc : ∀ x ∈ blocks.flatten, x = c) (hcm : |c.val| ≤ 2 ^ 900)
    {T : ℚ} (hT : (b.map fun x => |x.val|).sum ≤ T) (hT1 : T ≤ 2 ^ 60) :
    ∃ outs carry, convolveBlocks junk b blocks 0 (List.replicate (b.length - 1) 0) = .ok (outs, carry) ∧
      outs.map List.length = blocks.map List.length ∧
      ∀ k y, b.length ≤ k + 1 → outs.flatten[k]? = some y →
        |y.val - c.val * constantGain b| ≤ 4 / 3 * ((b.length + 1) / 2 ^ 53 * T * |c.val|) + 2 * b.length * (2 : ℚ) ^ (-1075 : ℤ) := by
  obtain ⟨outs, carry, h1, h2, h3⟩ := C119_convolve_blocks h junk b hb blocks h32
  refine ⟨outs, carry, h1, h2, ?_⟩
  intro k y hk hy
  have hl : outs.flatten.length = blocks.flatten.length := by rw [List.length_flatten, List.length_flatten, h2]
  have hk2 : k < outs.flatten.length := (List.getElem?_eq_some_iff.1 hy).1
  have hT0 : 0 ≤ (b.map fun x => |x.val|).sum := List.sum_nonneg (by
    intro x hx
    obtain ⟨v, -, rfl⟩ := List.mem_map.1 hx
    exact abs_nonneg _)
  have c1 : linearConvolution (exactValues blocks.flatten) (exactValues b) k = c.val * constantGain b := by
    refine constant_convolution ?_ (by simpa [exactValues] using hk) (by rw [exactValues, List.length_map]; omega)
    intro x hx
    obtain ⟨v, hv, rfl⟩ := List.mem_map.1 hx
    rw [hc v hv]
  have c2 : linearConvolution (absValues blocks.flatten) (absValues b) k = |c.val| * (b.map fun x => |x.val|).sum := by
    refine constant_convolution ?_ (by simpa [absValues] using hk) (by rw [absValues, List.length_map]; omega)
    intro x hx
    obtain ⟨v, hv, rfl⟩ := List.mem_map.1 hx
    rw [hc v hv]
  have hTc : |c.val| * (b.map fun x => |x.val|).sum ≤ |c.val| * T := mul_le_mul_of_nonneg_left hT (abs_nonneg _)
  have h4 := h3 k (by rw [List.length_append]; omega) (by
    rw [c2]
    have g1 : |c.val| * T ≤ 2 ^ 900 * 2 ^ 60 := mul_le_mul hcm hT1 (hT0.trans hT) (by positivity)
    have g2 : (2 : ℚ) ^ (1000 : ℤ) ≤ doubleMax := le_doubleMax (by norm_num)
    have g3 : (2 : ℚ) ^ (1000 : ℤ) = 2 ^ 40 * (2 ^ 900 * 2 ^ 60) := by
      rw [← pow_add, ← pow_add, ← zpow_natCast]
      rfl
    have g4 : (1 : ℚ) ≤ 2 ^ 900 * 2 ^ 60 := by
      rw [← pow_add]
      exact one_le_pow₀ (by norm_num)
    generalize (2 : ℚ) ^ 900 * 2 ^ 60 = Q at *
    rw [g3] at g2
    have g5 : (3 : ℚ) * Q ≤ 2 ^ 40 * Q := mul_le_mul_of_nonneg_right (by norm_num) (by linarith only [g4])
    linarith only [g2, g5, g1, g4, hTc])
  rw [c1, c2] at h4
  have e : (outs.flatten ++ carry).getD k 0 = y := by
    rw [List.getD_eq_getElem?_getD, List.getElem?_append_left hk2, hy]
    rfl
  rw [e] at h4
  refine h4.trans ?_
  rw [dotErrorBound]
  have hn : (b.length : ℚ) + 1 ≤ 4294967297 := by
    have : b.length ≤ 4294967296 := by omega
    have : (b.length : ℚ) ≤ 4294967296 := by exact_mod_cast this
    linarith
  have hn0 : (0 : ℚ) ≤ b.length := Nat.cast_nonneg _
  have hu : ((b.length : ℚ) + 1) * (1 / 2 ^ 53) ≤ 1 / 3 := by
    have := mul_le_mul_of_nonneg_right hn (by positivity : (0 : ℚ) ≤ 1 / 2 ^ 53)
    refine this.trans ?_
    norm_num
  have hu0 : 0 ≤ ((b.length : ℚ) + 1) * (1 / 2 ^ 53) := by positivity
  have e2 : 4 / 3 * (((b.length : ℚ) + 1) / 2 ^ 53 * T * |c.val|) = ((b.length : ℚ) + 1) * (1 / 2 ^ 53) * (4 / 3) * (|c.val| * T) := by ring
  rw [e2]
  refine add_le_add ?_ le_rfl
  refine mul_le_mul (mul_le_mul_of_nonneg_left (by linarith) hu0) hTc (mul_nonneg (abs_nonneg _) hT0) (by positivity)

private theorem le_2_60 {n : Nat} {K : ℚ} (hn : 0 < n) (hK : 1 ≤ K) (hs : 12 * n / 2 ^ 53 * K ≤ 1) : 5 * K ≤ 2 ^ 60 := by
  have h1 : (1 : ℚ) ≤ n := by exact_mod_cast hn
  have h2 : 12 * 1 / 2 ^ 53 * K ≤ 12 * n / 2 ^ 53 * K :=
    mul_le_mul_of_nonneg_right (div_le_div_of_nonneg_right (by linarith) (by norm_num)) (by linarith)
  have h3 : 12 * 1 / 2 ^ 53 * K ≤ 1 := h2.trans hs
  have h4 : K = 2 ^ 53 / 12 * (12 * 1 / 2 ^ 53 * K) := by ring
  have h5 : K ≤ 2 ^ 53 / 12 * 1 := by
    rw [h4]
    exact mul_le_mul_of_nonneg_left h3 (by norm_num)
  linarith

private theorem cancellation_ge {ir : List (Fl rnd)} (hs0 : constantGain ir ≠ 0) : 1 ≤ cancellation ir := by
  have e : ir = tab ir.length fun k => ir.getD k 0 := as_tab ir 0
  rw [e] at hs0 ⊢
  exact one_le_cancellation hs0

/-- **C164**: a constant signal passes a low pass filter: each output sample, as soon as the kernel is inside of the signal, is the value of the signal
except for rounding errors. The division into blocks has no effect. -/
theorem C164_constant_passes (h : RoundsToNearest rnd) {ir : List (Fl rnd)} (hne : ir ≠ []) (hn : ir.length < 2 ^ 32)
    (hd : ∀ x ∈ ir, IsDouble x.val) (hmax : ∀ x ∈ ir, |x.val| ≤ 2 ^ 900) (hs0 : constantGain ir ≠ 0)
    (hs : 12 * ir.length / 2 ^ 53 * cancellation ir ≤ 1)
    (junk c : Fl rnd) {blocks : List (Buf (Fl rnd))} (h32 : blocks.flatten.length + ir.length ≤ 4294967296)
    (hc : ∀ x ∈ blocks.flatten, x = c) (hcm : |c.val| ≤ 2 ^ 900) :
    ∃ kernel outs carry, irFinish ir ir.length false = .ok kernel ∧
      convolveBlocks junk kernel blocks 0 (List.replicate (ir.length - 1) 0) = .ok (outs, carry) ∧
      outs.map List.length = blocks.map List.length ∧
      ∀ k y, ir.length ≤ k + 1 → outs.flatten[k]? = some y →
        |y.val - c.val| ≤ (16 * ir.length + 6) / 2 ^ 53 * cancellation ir * |c.val| + ir.length * (|c.val| + 2) * (2 : ℚ) ^ (-1075 : ℤ) := by
  obtain ⟨kernel, k1, k2, -, -, k5, k6⟩ := C164_low_pass h hne hn hd hmax hs0 hs
  have hK := cancellation_ge hs0
  have hn0 := List.length_pos_iff.2 hne
  obtain ⟨outs, carry, o1, o2, o3⟩ := constant_output h junk c (b := kernel) (by omega) (by rw [k2]; exact h32) hc hcm k6
    (by have := le_2_60 hn0 hK hs; linarith)
  rw [k2] at o1
  refine ⟨kernel, outs, carry, k1, o1, o2, ?_⟩
  intro k y hk hy
  have := o3 k y (by omega) hy
  rw [k2] at this
  have e : y.val - c.val = (y.val - c.val * constantGain kernel) + c.val * (constantGain kernel - 1) := by ring
  rw [e]
  refine (abs_add_le _ _).trans ?_
  rw [abs_mul]
  have g := mul_le_mul_of_nonneg_left k5 (abs_nonneg c.val)
  refine (add_le_add this g).trans (le_of_eq ?_)
  ring

/-- **C164**: nothing but rounding errors is left of a constant signal by a high pass filter. -/
theorem C164_constant_removed (h : RoundsToNearest rnd) {ir : List (Fl rnd)} (hne : ir ≠ []) (hn : ir.length < 2 ^ 32)
    (hd : ∀ x ∈ ir, IsDouble x.val) (hmax : ∀ x ∈ ir, |x.val| ≤ 2 ^ 900) (hs0 : constantGain ir ≠ 0)
    (hs : 12 * ir.length / 2 ^ 53 * cancellation ir ≤ 1)
    (junk c : Fl rnd) {blocks : List (Buf (Fl rnd))} (h32 : blocks.flatten.length + ir.length ≤ 4294967296)
    (hc : ∀ x ∈ blocks.flatten, x = c) (hcm : |c.val| ≤ 2 ^ 900) :
    ∃ kernel outs carry, irFinish ir ir.length true = .ok kernel ∧
      convolveBlocks junk kernel blocks 0 (List.replicate (ir.length - 1) 0) = .ok (outs, carry) ∧
      outs.map List.length = blocks.map List.length ∧
      ∀ k y, ir.length ≤ k + 1 → outs.flatten[k]? = some y →
        |y.val| ≤ (19 * ir.length + 13) / 2 ^ 53 * cancellation ir * |c.val| + 2 * ir.length * (|c.val| + 1) * (2 : ℚ) ^ (-1075 : ℤ) := by
  obtain ⟨kernel, k1, k2, -, k5, k6⟩ := C164_high_pass h hne hn hd hmax hs0 hs
  have hK := cancellation_ge hs0
  have hn0 := List.length_pos_iff.2 hne
  obtain ⟨outs, carry, o1, o2, o3⟩ := constant_output h junk c (b := kernel) (by omega) (by rw [k2]; exact h32) hc hcm k6 (le_2_60 hn0 hK hs)
  rw [k2] at o1
  refine ⟨kernel, outs, carry, k1, o1, o2, ?_⟩
  intro k y hk hy
  have := o3 k y (by omega) hy
  rw [k2] at this
  have e : y.val = (y.val - c.val * constantGain kernel) + c.val * constantGain kernel := by ring
  rw [e]
  refine (abs_add_le _ _).trans ?_
  rw [abs_mul]
  have g := mul_le_mul_of_nonneg_left k5 (abs_nonneg c.val)
  refine (add_le_add this g).trans ?_
  have hp : 0 ≤ cancellation ir * |c.val| / 2 ^ 53 := by positivity
  have hp2 : 0 ≤ ir.length * (cancellation ir * |c.val| / 2 ^ 53) := by positivity
  have e2 : (19 * ir.length + 13) / 2 ^ 53 * cancellation ir * |c.val| = 19 * (ir.length * (cancellation ir * |c.val| / 2 ^ 53)) +
    13 * (cancellation ir * |c.val| / 2 ^ 53) := by ring
  have e3 : 4 / 3 * ((ir.length + 1) / 2 ^ 53 * (5 * cancellation ir) * |c.val|) = 20 / 3 * (ir.length * (cancellation ir * |c.val| / 2 ^ 53)) +
    20 / 3 * (cancellation ir * |c.val| / 2 ^ 53) := by ring
  have e4 : |c.val| * ((12 * ir.length + 6) / 2 ^ 53 * cancellation ir + 2 * ir.length * (2 : ℚ) ^ (-1075 : ℤ)) =
    12 * (ir.length * (cancellation ir * |c.val| / 2 ^ 53)) + 6 * (cancellation ir * |c.val| / 2 ^ 53) +
      2 * ir.length * |c.val| * (2 : ℚ) ^ (-1075 : ℤ) := by ring
  rw [e2, e3, e4]
  have e5 : 2 * (ir.length : ℚ) * (|c.val| + 1) * (2 : ℚ) ^ (-1075 : ℤ) = 2 * ir.length * |c.val| * (2 : ℚ) ^ (-1075 : ℤ) +
    2 * ir.length * (2 : ℚ) ^ (-1075 : ℤ) := by ring
  rw [e5]
  linarith

/-- The hypotheses, for a kernel of three elements with different signs. -/
def smallKernel : List (Fl nearestDouble) := [⟨-1 / 4⟩, ⟨1⟩, ⟨-1 / 4⟩]

example : smallKernel ≠ [] ∧ smallKernel.length < 2 ^ 32 ∧ (∀ x ∈ smallKernel, IsDouble x.val) ∧ (∀ x ∈ smallKernel, |x.val| ≤ 2 ^ 900) ∧
    constantGain smallKernel = 1 / 2 ∧ cancellation smallKernel = 3 ∧ 12 * smallKernel.length / 2 ^ 53 * cancellation smallKernel ≤ 1 := by
  have q : IsDouble (-1 / 4) := ⟨-1, -2, by norm_num, by norm_num, by norm_num, by norm_num⟩
  have one : IsDouble 1 := ⟨1, 0, by norm_num, by norm_num, by norm_num, by norm_num⟩
  have hc : cancellation smallKernel = 3 := by norm_num [cancellation, smallKernel, abs_of_pos, abs_of_neg]
  refine ⟨by simp [smallKernel], by norm_num [smallKernel], ?_, ?_, by norm_num [constantGain, smallKernel], hc, ?_⟩
  · simp only [smallKernel, List.mem_cons, List.not_mem_nil, or_false, forall_eq_or_imp, forall_eq]
    exact ⟨q, one, q⟩
  · have h1 : (1 : ℚ) ≤ 2 ^ 900 := one_le_pow₀ (by norm_num)
    simp only [smallKernel, List.mem_cons, List.not_mem_nil, or_false, forall_eq_or_imp, forall_eq]
    have h2 : |(-1 / 4 : ℚ)| ≤ 1 := by norm_num [abs_of_neg]
    exact ⟨h2.trans h1, by rw [abs_one]; exact h1, h2.trans h1⟩
  · rw [hc]
    norm_num [smallKernel]

end Sp
