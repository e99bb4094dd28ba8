import Verif.Model.Rounded
import Verif.Props.Statistics
import Verif.Props.FloatSum
import Verif.Props.FloatBlend

/-!
# C125 Means in double precision
-/

set_option linter.unusedSectionVars false

namespace Sp
variable {rnd : ℚ → ℚ}

/-! ### Specification -/

/-- The exact arithmetic mean. -/
def exactMean (xs : List ℚ) : ℚ := xs.sum / xs.length

/-! ### Proof -/

theorem sum_between {xs : List ℚ} {lo hi : ℚ} (h : ∀ x ∈ xs, lo ≤ x ∧ x ≤ hi) : lo * xs.length ≤ xs.sum ∧ xs.sum ≤ hi * xs.length := by
  induction xs with
  | nil => simp
  | cons x xs ih =>
    have h1 := h x (by simp)
    have h2 := ih fun y hy => h y (by simp [hy])
    simp only [List.sum_cons, List.length_cons]
    push_cast
    constructor <;> linarith

theorem mean_between {xs : List ℚ} (hne : xs ≠ []) {lo hi : ℚ} (h : ∀ x ∈ xs, lo ≤ x ∧ x ≤ hi) : lo ≤ exactMean xs ∧ exactMean xs ≤ hi := by
  have h0 : (0 : ℚ) < xs.length := by exact_mod_cast List.length_pos_iff.2 hne
  have := sum_between h
  rw [exactMean, le_div_iff₀ h0, div_le_iff₀ h0]
  exact this

/-- **C125, times**: the mean of times whose sum does not overflow is a double that is nearest to the exact mean, and it is not less than the least
value and not greater than the greatest. -/
theorem C125_times_mean (h : RoundsToNearest rnd) {a : Buf Nat} (hne : a ≠ []) (hsum : a.sum < 4294967296) :
    ∃ m, timesMeanR rnd a a.length = .ok m ∧ IsDouble m ∧
      (∀ d, IsDouble d → |exactMean (a.map (fun x : Nat => (x : ℚ))) - m| ≤ |exactMean (a.map (fun x : Nat => (x : ℚ))) - d|) ∧
      ∀ lo hi : Nat, (∀ x ∈ a, lo ≤ x ∧ x ≤ hi) → (lo : ℚ) ≤ m ∧ m ≤ hi := by
  have hl : a.length ≠ 0 := fun h' => hne (List.length_eq_zero_iff.1 h')
  have hcast : ((a.sum : Nat) : ℚ) = (a.map (fun x : Nat => (x : ℚ))).sum := by
    induction a with
    | nil => simp
    | cons x t ih =>
      by_cases ht : t = []
      · simp [ht]
      · rw [List.sum_cons, List.map_cons, List.sum_cons, Nat.cast_add,
          ih ht (by rw [List.sum_cons] at hsum; omega) (fun h' => ht (List.length_eq_zero_iff.1 h'))]
  have hE : (a.sum : ℚ) / (a.length : ℚ) = exactMean (a.map (fun x : Nat => (x : ℚ))) := by
    rw [exactMean, hcast, List.length_map]
  have hall : ∀ x ∈ a.map (fun x : Nat => (x : ℚ)), (0 : ℚ) ≤ x ∧ x ≤ 4294967296 := by
    intro y hy
    obtain ⟨x, hx, rfl⟩ := List.mem_map.1 hy
    have := List.single_le_sum (l := a) (fun _ _ => Nat.zero_le _) x hx
    exact ⟨Nat.cast_nonneg _, by exact_mod_cast (by omega : x ≤ 4294967296)⟩
  have hm := mean_between (by simpa using hne) hall
  have hq : |exactMean (a.map (fun x : Nat => (x : ℚ)))| ≤ doubleMax := by
    refine le_doubleMax_of ?_
    rw [abs_of_nonneg hm.1]
    exact hm.2.trans (by norm_num)
  refine ⟨rnd (exactMean (a.map (fun x : Nat => (x : ℚ)))), ?_, h.double _ hq, fun d hd => h.nearest _ d hq hd, ?_⟩
  · rw [timesMeanR, timesSum_eq a hsum, ok_bind', if_neg hl, hE]
    rfl
  · intro lo hi hb
    have hb' : ∀ x ∈ a.map (fun x : Nat => (x : ℚ)), (lo : ℚ) ≤ x ∧ x ≤ ((min hi 4294967296 : Nat) : ℚ) := by
      intro y hy
      have hy2 := (hall y hy).2
      obtain ⟨x, hx, rfl⟩ := List.mem_map.1 hy
      have h1 : x ≤ 4294967296 := by exact_mod_cast hy2
      have := hb x hx
      exact ⟨by exact_mod_cast this.1, by exact_mod_cast le_min this.2 h1⟩
    have hm := mean_between (by simpa using hne) hb'
    have hlo : lo ≤ 4294967296 := by
      obtain ⟨x, hx⟩ := List.exists_mem_of_ne_nil a hne
      have h1 := hb x hx
      have h2 := (hall (x : ℚ) (List.mem_map.2 ⟨x, hx, rfl⟩)).2
      have h3 : x ≤ 4294967296 := by exact_mod_cast h2
      omega
    refine ⟨h.le_rnd (isDouble_nat (by omega)) hq hm.1, (h.rnd_le (isDouble_nat (by omega)) hq hm.2).trans ?_⟩
    exact_mod_cast min_le_left _ _

/-- A mean that is not a double. -/
example : ∃ m, timesMeanR nearestDouble [1, 2, 2] 3 = .ok m ∧ IsDouble m ∧
    (∀ d, IsDouble d → |exactMean (([1, 2, 2] : List Nat).map (fun x : Nat => (x : ℚ))) - m| ≤
      |exactMean (([1, 2, 2] : List Nat).map (fun x : Nat => (x : ℚ))) - d|) ∧
    ∀ lo hi : Nat, (∀ x ∈ [1, 2, 2], lo ≤ x ∧ x ≤ hi) → (lo : ℚ) ≤ m ∧ m ≤ hi :=
  C125_times_mean nearestDouble_rounds (a := [1, 2, 2]) (by simp) (by norm_num)

/-- **C125, samples, partial**: the mean of samples that are not negative differs from the exact mean by at most about two roundings. Missing: that
it is not less than the least value and not greater than the greatest, and negative values, for both of which there are counterexamples. -/
theorem C125_samples_mean_partial (h : RoundsToNearest rnd) {xs : List (Fl rnd)} (hne : xs ≠ []) (hd : ∀ x ∈ xs, IsDouble x.val)
    (h0 : ∀ x ∈ xs, 0 ≤ x.val) (hn : xs.length < 4294967296) (hmax : 2 * exactSum xs ≤ doubleMax) :
    ∃ m, samplesMeanR xs xs.length = .ok m ∧ IsDouble m.val ∧ 0 ≤ m.val ∧
      |m.val - exactMean (xs.map Fl.val)| ≤
        (2 / 2 ^ 53 + 4 * (xs.length / 2 ^ 53) ^ 2) * exactMean (xs.map Fl.val) + (2 : ℚ) ^ (-1075 : ℤ) := by
  obtain ⟨r, h1, h2⟩ := C118_nonnegative_partial h hne hd h0 (by omega) hmax
  have hl0 : (1 : ℚ) ≤ xs.length := by exact_mod_cast List.length_pos_iff.2 hne
  have hl1 : (xs.length : ℚ) ≤ 4294967296 := by exact_mod_cast hn.le
  have hS0 : 0 ≤ exactSum xs := List.sum_nonneg fun x hx => by
    obtain ⟨y, hy, rfl⟩ := List.mem_map.1 hx
    exact h0 y hy
  set n : ℚ := (xs.length : ℚ) with hn'
  have hE : exactMean (xs.map Fl.val) = exactSum xs / n := by rw [exactMean, exactSum, List.length_map]
  rw [hE]
  set S := exactSum xs
  set e : ℚ := 1 / 2 ^ 53 + 2 * (n / 2 ^ 53) ^ 2 with he
  have hn2 : (n / 2 ^ 53) ^ 2 ≤ 1 / 8 := by
    have h3 : n / 2 ^ 53 ≤ 1 / 4 := by linarith only [hl1]
    have h4 : 0 ≤ n / 2 ^ 53 := by positivity
    nlinarith
  have he1 : e ≤ 1 / 2 := by
    have : (1 : ℚ) / 2 ^ 53 ≤ 1 / 4 := by norm_num
    linarith
  have he0 : 0 ≤ e := by positivity
  have h2' := abs_le.1 h2
  have hr0 : 0 ≤ r.val := by nlinarith
  have hr1 : r.val ≤ 2 * S := by nlinarith
  have hq0 : 0 ≤ r.val / n := by positivity
  have hqr : r.val / n ≤ r.val := div_le_self hr0 hl0
  have hq : |r.val / n| ≤ doubleMax := by
    rw [abs_of_nonneg hq0]
    linarith
  have herr := h.error_gen hq
  refine ⟨r / (xs.length : Fl rnd), by rw [samplesMeanR, h1, ok_bind']; rfl, ?_, ?_, ?_⟩
  · exact h.double _ hq
  · exact h.nonneg hq hq0
  · rw [Fl.div_val, Fl.natCast_val, ← hn']
    have h3 : |r.val / n - S / n| ≤ e * (S / n) := by
      rw [← sub_div, abs_div, abs_of_pos (show 0 < n by linarith), ← mul_div_assoc]
      exact div_le_div_of_nonneg_right h2 (by linarith)
    have h4 : r.val / n ≤ (1 + e) * (S / n) := by
      have := (abs_le.1 h3).2
      linarith
    rw [abs_of_nonneg hq0] at herr
    have h5 : |rnd (r.val / n) - S / n| ≤ |r.val / n - rnd (r.val / n)| + |r.val / n - S / n| := by
      have := abs_sub_abs_le_abs_sub (r.val / n - S / n) (r.val / n - rnd (r.val / n))
      have h6 : rnd (r.val / n) - S / n = (r.val / n - S / n) - (r.val / n - rnd (r.val / n)) := by ring
      rw [h6]
      have := abs_sub (r.val / n - S / n) (r.val / n - rnd (r.val / n))
      linarith
    have hM : 0 ≤ S / n := by positivity
    have h7 : (r.val / n) / 2 ^ 53 ≤ (1 + e) * (S / n) / 2 ^ 53 := div_le_div_of_nonneg_right h4 (by norm_num)
    have h8 : (1 + e) / 2 ^ 53 + e ≤ 2 / 2 ^ 53 + 4 * (n / 2 ^ 53) ^ 2 := by
      have h9 : (1 : ℚ) / 2 ^ 53 ≤ n / 2 ^ 53 := div_le_div_of_nonneg_right hl0 (by norm_num)
      have h10 : (1 / 2 ^ 53 : ℚ) ^ 2 ≤ (n / 2 ^ 53) ^ 2 := pow_le_pow_left₀ (by norm_num) h9 2
      have h11 : e / 2 ^ 53 ≤ 2 * (n / 2 ^ 53) ^ 2 := by
        have h12 : e / 2 ^ 53 = (1 / 2 ^ 53) ^ 2 + 2 * (n / 2 ^ 53) ^ 2 / 2 ^ 53 := by rw [he]; ring
        have h13 : 2 * (n / 2 ^ 53) ^ 2 / 2 ^ 53 ≤ (n / 2 ^ 53) ^ 2 := by
          have : 0 ≤ (n / 2 ^ 53) ^ 2 := by positivity
          linarith only [this]
        linarith
      have h14 : (1 + e) / 2 ^ 53 = 1 / 2 ^ 53 + e / 2 ^ 53 := by ring
      rw [h14]
      linarith
    have h15 := mul_le_mul_of_nonneg_right h8 hM
    have h16 : ((1 + e) / 2 ^ 53 + e) * (S / n) = (1 + e) * (S / n) / 2 ^ 53 + e * (S / n) := by ring
    rw [h16] at h15
    linarith

/-- Three samples whose mean is no double. -/
example : ∃ m : Fl nearestDouble, samplesMeanR [⟨1⟩, ⟨1⟩, ⟨2⟩] 3 = .ok m ∧ IsDouble m.val ∧ 0 ≤ m.val ∧
    |m.val - exactMean (([⟨1⟩, ⟨1⟩, ⟨2⟩] : List (Fl nearestDouble)).map Fl.val)| ≤
      (2 / 2 ^ 53 + 4 * ((3 : Nat) / 2 ^ 53) ^ 2) * exactMean (([⟨1⟩, ⟨1⟩, ⟨2⟩] : List (Fl nearestDouble)).map Fl.val) + (2 : ℚ) ^ (-1075 : ℤ) := by
  refine C125_samples_mean_partial nearestDouble_rounds (xs := [⟨1⟩, ⟨1⟩, ⟨2⟩]) (by simp) ?_ ?_ (by norm_num) ?_
  · intro x hx
    simp only [List.mem_cons, List.not_mem_nil, or_false] at hx
    have h1 : IsDouble 1 := ⟨1, 0, by norm_num, by norm_num, by norm_num, by norm_num⟩
    have h2 : IsDouble 2 := ⟨2, 0, by norm_num, by norm_num, by norm_num, by norm_num⟩
    rcases hx with rfl | rfl | rfl
    · exact h1
    · exact h1
    · exact h2
  · intro x hx
    simp only [List.mem_cons, List.not_mem_nil, or_false] at hx
    rcases hx with rfl | rfl | rfl <;> norm_num
  · refine le_trans ?_ (le_doubleMax (e := 62) (by norm_num))
    norm_num [exactSum]

theorem isDouble_int {n : ℤ} (h : |n| ≤ 9007199254740992) : IsDouble n := by
  obtain ⟨h1, h2⟩ := abs_le.1 h
  rcases le_total 0 n with h0 | h0
  · have := isDouble_nat (n := n.toNat) (by omega)
    have e : ((n.toNat : ℕ) : ℚ) = n := by exact_mod_cast Int.toNat_of_nonneg h0
    rwa [e] at this
  · have := (isDouble_nat (n := (-n).toNat) (by omega)).neg
    have e : (((-n).toNat : ℕ) : ℚ) = -n := by exact_mod_cast Int.toNat_of_nonneg (by omega : 0 ≤ -n)
    rwa [e, neg_neg] at this

theorem f64SumLoop_ints (h : RoundsToNearest rnd) {n len : Nat} {x R T c : ℤ} (hlen : len < n) (hxR : x ≤ R)
    (hT : rnd ((R + x : ℤ) : ℚ) = (T : ℚ)) (h1 : |R - T| ≤ 9007199254740992) (h2 : |R - T + x| ≤ 9007199254740992)
    (h3 : |c + (R - T + x)| ≤ 9007199254740992) :
    f64SumLoop (List.replicate n (⟨x⟩ : Fl rnd)) (len + 1) ⟨R⟩ ⟨c⟩ =
      f64SumLoop (List.replicate n ⟨x⟩) len ⟨T⟩ ⟨((c + (R - T + x) : ℤ) : ℚ)⟩ := by
  rw [f64SumLoop, rd_eq_ok (by simpa using hlen), ok_bind', List.getElem_replicate]
  have hx : (⟨(x : ℚ)⟩ : Fl rnd) ≤ ⟨(R : ℚ)⟩ := by
    rw [Fl.le_def]
    show (x : ℚ) ≤ (R : ℚ)
    exact_mod_cast hxR
  dsimp only
  rw [if_pos (ge_iff_le.2 hx)]
  have hT' : (⟨(R : ℚ)⟩ + ⟨(x : ℚ)⟩ : Fl rnd) = ⟨(T : ℚ)⟩ := by
    ext
    rw [Fl.add_val, ← hT]
    push_cast
    rfl
  have e1 : rnd ((R : ℚ) - (T : ℚ)) = (R : ℚ) - (T : ℚ) := by
    have := h.exact (isDouble_int h1)
    rwa [Int.cast_sub] at this
  have e2 : rnd ((R : ℚ) - (T : ℚ) + x) = (R : ℚ) - (T : ℚ) + x := by
    have := h.exact (isDouble_int h2)
    rwa [Int.cast_add, Int.cast_sub] at this
  have e3 := h.exact (isDouble_int h3)
  have hc : (⟨(c : ℚ)⟩ + ((⟨(R : ℚ)⟩ - ⟨(T : ℚ)⟩) + ⟨(x : ℚ)⟩) : Fl rnd) = ⟨((c + (R - T + x) : ℤ) : ℚ)⟩ := by
    ext
    simp only [Fl.add_val, Fl.sub_val]
    rw [e1, e2]
    rw [← e3]
    push_cast
    rfl
  rw [hT', hc]

/-- **C125 is false**: with every rounding to nearest, the mean of eleven times the sample 7505999378950827 is 7505999378950828, greater than all
samples. (The same holds for the samples times 2^-52, about 1.667, as for other scales.) -/
theorem C125_mean_between_false (h : RoundsToNearest rnd) :
    IsDouble 7505999378950827 ∧
    samplesMeanR (List.replicate 11 (⟨7505999378950827⟩ : Fl rnd)) 11 = .ok ⟨7505999378950828⟩ := by
  refine ⟨by have := isDouble_int (n := 7505999378950827) (by norm_num); exact_mod_cast this, ?_⟩
  have r1 : rnd (22517998136852481) = 22517998136852480 := by
    have := h.eq_of (q := 22517998136852481) (k := 54) (M := 5629499534213120) (by norm_num) (by norm_num) (by norm_num)
      (by norm_num [abs_of_pos, abs_of_neg]) (by norm_num [abs_of_pos, abs_of_neg]) (by norm_num [abs_of_pos, abs_of_neg])
    rw [this]
    norm_num
  have r2 : rnd (30023997515803307) = 30023997515803308 := by
    have := h.eq_of (q := 30023997515803307) (k := 54) (M := 7505999378950827) (by norm_num) (by norm_num) (by norm_num)
      (by norm_num [abs_of_pos, abs_of_neg]) (by norm_num [abs_of_pos, abs_of_neg]) (by norm_num [abs_of_pos, abs_of_neg])
    rw [this]
    norm_num
  have r3 : rnd (37529996894754135) = 37529996894754136 := by
    have := h.eq_of (q := 37529996894754135) (k := 55) (M := 4691249611844267) (by norm_num) (by norm_num) (by norm_num)
      (by norm_num [abs_of_pos, abs_of_neg]) (by norm_num [abs_of_pos, abs_of_neg]) (by norm_num [abs_of_pos, abs_of_neg])
    rw [this]
    norm_num
  have r4 : rnd (45035996273704963) = 45035996273704960 := by
    have := h.eq_of (q := 45035996273704963) (k := 55) (M := 5629499534213120) (by norm_num) (by norm_num) (by norm_num)
      (by norm_num [abs_of_pos, abs_of_neg]) (by norm_num [abs_of_pos, abs_of_neg]) (by norm_num [abs_of_pos, abs_of_neg])
    rw [this]
    norm_num
  have r5 : rnd (52541995652655787) = 52541995652655784 := by
    have := h.eq_of (q := 52541995652655787) (k := 55) (M := 6567749456581973) (by norm_num) (by norm_num) (by norm_num)
      (by norm_num [abs_of_pos, abs_of_neg]) (by norm_num [abs_of_pos, abs_of_neg]) (by norm_num [abs_of_pos, abs_of_neg])
    rw [this]
    norm_num
  have r6 : rnd (60047995031606611) = 60047995031606608 := by
    have := h.eq_of (q := 60047995031606611) (k := 55) (M := 7505999378950826) (by norm_num) (by norm_num) (by norm_num)
      (by norm_num [abs_of_pos, abs_of_neg]) (by norm_num [abs_of_pos, abs_of_neg]) (by norm_num [abs_of_pos, abs_of_neg])
    rw [this]
    norm_num
  have r7 : rnd (67553994410557435) = 67553994410557432 := by
    have := h.eq_of (q := 67553994410557435) (k := 55) (M := 8444249301319679) (by norm_num) (by norm_num) (by norm_num)
      (by norm_num [abs_of_pos, abs_of_neg]) (by norm_num [abs_of_pos, abs_of_neg]) (by norm_num [abs_of_pos, abs_of_neg])
    rw [this]
    norm_num
  have r8 : rnd (75059993789508259) = 75059993789508256 := by
    have := h.eq_of (q := 75059993789508259) (k := 56) (M := 4691249611844266) (by norm_num) (by norm_num) (by norm_num)
      (by norm_num [abs_of_pos, abs_of_neg]) (by norm_num [abs_of_pos, abs_of_neg]) (by norm_num [abs_of_pos, abs_of_neg])
    rw [this]
    norm_num
  have r9 : rnd (82565993168459083) = 82565993168459088 := by
    have := h.eq_of (q := 82565993168459083) (k := 56) (M := 5160374573028693) (by norm_num) (by norm_num) (by norm_num)
      (by norm_num [abs_of_pos, abs_of_neg]) (by norm_num [abs_of_pos, abs_of_neg]) (by norm_num [abs_of_pos, abs_of_neg])
    rw [this]
    norm_num
  have r10 : rnd (82565993168459097) = 82565993168459104 := by
    have := h.eq_of (q := 82565993168459097) (k := 56) (M := 5160374573028694) (by norm_num) (by norm_num) (by norm_num)
      (by norm_num [abs_of_pos, abs_of_neg]) (by norm_num [abs_of_pos, abs_of_neg]) (by norm_num [abs_of_pos, abs_of_neg])
    rw [this]
    norm_num
  have r11 : rnd (82565993168459104 / 11) = 7505999378950828 := by
    have := h.eq_of (q := 82565993168459104 / 11) (k := 52) (M := 7505999378950828) (by norm_num) (by norm_num) (by norm_num)
      (by norm_num [abs_of_pos, abs_of_neg]) (by norm_num [abs_of_pos, abs_of_neg]) (by norm_num [abs_of_pos, abs_of_neg])
    rw [this]
    norm_num
  have r0 : rnd ((7505999378950827 + 7505999378950827 : ℤ) : ℚ) = ((15011998757901654 : ℤ) : ℚ) := by
    have h1 := (isDouble_int (n := 7505999378950827) (by norm_num)).two_mul (le_doubleMax_of (by norm_num))
    have h2 := h.exact h1
    norm_num at h2 ⊢
    exact h2
  have s0 := f64SumLoop_ints h (n := 11) (len := 9) (x := 7505999378950827) (R := 7505999378950827) (T := 15011998757901654) (c := 0) (by norm_num) (by norm_num)
    r0 (by norm_num) (by norm_num) (by norm_num)
  norm_num at s0
  have s1 := f64SumLoop_ints h (n := 11) (len := 8) (x := 7505999378950827) (R := 15011998757901654) (T := 22517998136852480) (c := 0) (by norm_num) (by norm_num)
    (by push_cast; norm_num; exact r1) (by norm_num) (by norm_num) (by norm_num)
  norm_num at s1
  have s2 := f64SumLoop_ints h (n := 11) (len := 7) (x := 7505999378950827) (R := 22517998136852480) (T := 30023997515803308) (c := 1) (by norm_num) (by norm_num)
    (by push_cast; norm_num; exact r2) (by norm_num) (by norm_num) (by norm_num)
  norm_num at s2
  have s3 := f64SumLoop_ints h (n := 11) (len := 6) (x := 7505999378950827) (R := 30023997515803308) (T := 37529996894754136) (c := 0) (by norm_num) (by norm_num)
    (by push_cast; norm_num; exact r3) (by norm_num) (by norm_num) (by norm_num)
  norm_num at s3
  have s4 := f64SumLoop_ints h (n := 11) (len := 5) (x := 7505999378950827) (R := 37529996894754136) (T := 45035996273704960) (c := -1) (by norm_num) (by norm_num)
    (by push_cast; norm_num; exact r4) (by norm_num) (by norm_num) (by norm_num)
  norm_num at s4
  have s5 := f64SumLoop_ints h (n := 11) (len := 4) (x := 7505999378950827) (R := 45035996273704960) (T := 52541995652655784) (c := 2) (by norm_num) (by norm_num)
    (by push_cast; norm_num; exact r5) (by norm_num) (by norm_num) (by norm_num)
  norm_num at s5
  have s6 := f64SumLoop_ints h (n := 11) (len := 3) (x := 7505999378950827) (R := 52541995652655784) (T := 60047995031606608) (c := 5) (by norm_num) (by norm_num)
    (by push_cast; norm_num; exact r6) (by norm_num) (by norm_num) (by norm_num)
  norm_num at s6
  have s7 := f64SumLoop_ints h (n := 11) (len := 2) (x := 7505999378950827) (R := 60047995031606608) (T := 67553994410557432) (c := 8) (by norm_num) (by norm_num)
    (by push_cast; norm_num; exact r7) (by norm_num) (by norm_num) (by norm_num)
  norm_num at s7
  have s8 := f64SumLoop_ints h (n := 11) (len := 1) (x := 7505999378950827) (R := 67553994410557432) (T := 75059993789508256) (c := 11) (by norm_num) (by norm_num)
    (by push_cast; norm_num; exact r8) (by norm_num) (by norm_num) (by norm_num)
  norm_num at s8
  have s9 := f64SumLoop_ints h (n := 11) (len := 0) (x := 7505999378950827) (R := 75059993789508256) (T := 82565993168459088) (c := 14) (by norm_num) (by norm_num)
    (by push_cast; norm_num; exact r9) (by norm_num) (by norm_num) (by norm_num)
  norm_num at s9
  have e0 : ∀ xs : Buf (Fl rnd), f64Sum xs 11 = (do
      let result ← rd xs 10
      f64SumLoop xs 10 result 0) := fun _ => rfl
  have e : samplesMeanR (List.replicate 11 (⟨7505999378950827⟩ : Fl rnd)) 11 = (do
      let sum ← f64SumLoop (List.replicate 11 (⟨7505999378950827⟩ : Fl rnd)) 10 ⟨7505999378950827⟩ ⟨0⟩
      return sum / ((11 : ℕ) : Fl rnd)) := by
    rw [samplesMeanR, e0, rd_eq_ok (by simp), ok_bind', List.getElem_replicate]
    rfl
  rw [e, s0, s1, s2, s3, s4, s5, s6, s7, s8, s9, f64SumLoop, ok_bind', pure_eq_ok]
  refine congrArg Except.ok ?_
  ext
  rw [Fl.div_val, Fl.add_val, Fl.natCast_val]
  norm_num
  rw [r10, r11]

end Sp
