import Verif.Lemmas.Float
import Verif.Model.Statistics
import Mathlib.Algebra.Order.BigOperators.Group.List

/-!
# C118 The compensated sum in floating point arithmetic

`f64Sum` is the model of `sph_f64_sum` over any arithmetic; here it is that of `double`, `Fl`.
-/

set_option linter.unusedSectionVars false

namespace Sp
variable {rnd : ℚ → ℚ}

/-! ### Specification -/

/-- The exact sum. -/
def exactSum (xs : List (Fl rnd)) : ℚ := (xs.map Fl.val).sum

/-- The exact sum of the absolute values. -/
def absSum (xs : List (Fl rnd)) : ℚ := (xs.map fun x => |x.val|).sum

/-- Addition from the last to the first element in floating point arithmetic, without compensation. -/
def plainSum : List (Fl rnd) → Fl rnd
  | [] => 0
  | x :: rest => plainSum rest + x

/-- The accuracy that a compensated sum has: the error is that of one rounding of the exact result, except for terms of second order. -/
def Compensated (xs : List (Fl rnd)) (r : ℚ) : Prop :=
  |r - exactSum xs| ≤ |exactSum xs| / 2 ^ 53 + 2 * (xs.length / 2 ^ 53) ^ 2 * absSum xs

/-! ### Proof -/

/-- The correction term is exactly the error of the addition. -/
theorem RoundsToNearest.fast_two_sum (h : RoundsToNearest rnd) {a b : ℚ} (ha : IsDouble a) (hb : IsDouble b) (hab : |b| ≤ a)
    (hq : |a + b| ≤ doubleMax) : rnd (rnd (a - rnd (a + b)) + b) = a + b - rnd (a + b) := by
  have ha0 : 0 ≤ a := (abs_nonneg b).trans hab
  rw [h.exact (h.sum_diff ha hb ha0 hab hq)]
  have : a - rnd (a + b) + b = a + b - rnd (a + b) := by ring
  rw [this]
  exact h.exact (h.sum_error ha hb (by rwa [abs_of_nonneg ha0]) hq)

/-- The state of the loop after `k` additions: `s` is the exact sum, `A` the sum of absolute values. -/
structure SumState (k u : ℚ) (R c s A : ℚ) : Prop where
  result : IsDouble R
  correction : IsDouble c
  bound : ∃ E, R + E = s ∧ |c - E| ≤ 2 * k ^ 2 * u ^ 2 * A ∧ |E| ≤ 2 * k * u * A
  size : |R| ≤ (1 + 2 * k * u) * A
  sum : |s| ≤ A

theorem sumState_step (h : RoundsToNearest rnd) {k u R c s A x e : ℚ} (hu : u = 1 / 2 ^ 53) (hk : 0 ≤ k) (hku : 2 * (k + 1) * u ≤ 1)
    (st : SumState k u R c s A) (hx : IsDouble x) (hmax : 2 * (A + |x|) ≤ doubleMax) (he : e = R + x - rnd (R + x)) (hed : IsDouble e) :
    SumState (k + 1) u (rnd (R + x)) (rnd (c + e)) (s + x) (A + |x|) := by
  obtain ⟨hR, hc, ⟨E, hE1, hE2, hE3⟩, hsz, hs⟩ := st
  have hu0 : 0 < u := by rw [hu]; norm_num
  have hu1 : u ≤ 1 / 8 := by rw [hu]; norm_num
  have hA : 0 ≤ A := (abs_nonneg s).trans hs
  have hx0 := abs_nonneg x
  have hku0 : 0 ≤ k * u := mul_nonneg hk hu0.le
  have hRx : |R + x| ≤ (1 + 2 * k * u) * (A + |x|) := by
    have := abs_add_le R x
    nlinarith
  have hA' : 0 ≤ A + |x| := by linarith
  have hRx2 : |R + x| ≤ 2 * (A + |x|) := by nlinarith
  have herr : |e| ≤ u * |R + x| := by
    have := h.error_add hR hx (hRx2.trans hmax)
    rw [he, hu]
    linarith
  have herr2 : |e| ≤ 2 * u * (A + |x|) := by nlinarith
  have hce : |c + e| ≤ 2 * k ^ 2 * u ^ 2 * A + 2 * k * u * A + 2 * u * (A + |x|) := by
    have h1 : c + e = (c - E) + E + e := by ring
    have h2 := abs_add_le ((c - E) + E) e
    have h3 := abs_add_le (c - E) E
    rw [h1]
    linarith
  have hce2 : |c + e| ≤ (2 * k ^ 2 * u ^ 2 + 2 * (k + 1) * u) * (A + |x|) := by
    have h1 : 0 ≤ 2 * k ^ 2 * u ^ 2 * |x| := by positivity
    have h2 : 0 ≤ 2 * k * u * |x| := by positivity
    linarith
  have hk2 : 2 * k ^ 2 * u ^ 2 ≤ 1 := by nlinarith
  have hce3 : |c + e| ≤ doubleMax := by
    refine hce2.trans (le_trans ?_ hmax)
    nlinarith
  have hcr : |c + e - rnd (c + e)| ≤ u * |c + e| := by
    have := h.error_add hc hed hce3
    rw [hu]
    linarith
  refine ⟨h.double _ (hRx2.trans hmax), h.double _ hce3, ⟨E + e, ?_, ?_, ?_⟩, ?_, ?_⟩
  · rw [he]
    linarith
  · have h1 : rnd (c + e) - (E + e) = (c - E) - (c + e - rnd (c + e)) := by ring
    have h2 := abs_sub (c - E) (c + e - rnd (c + e))
    rw [h1]
    have h3 : 2 * k ^ 2 * u ^ 2 * A ≤ 2 * k ^ 2 * u ^ 2 * (A + |x|) := by
      have : 0 ≤ 2 * k ^ 2 * u ^ 2 * |x| := by positivity
      linarith
    have h4 : u * |c + e| ≤ u * ((2 * k ^ 2 * u ^ 2 + 2 * (k + 1) * u) * (A + |x|)) := mul_le_mul_of_nonneg_left hce2 hu0.le
    have h5 : 2 * k ^ 2 * u ^ 2 + u * (2 * k ^ 2 * u ^ 2 + 2 * (k + 1) * u) ≤ 2 * (k + 1) ^ 2 * u ^ 2 := by
      have : k * (k * u) ≤ k * 1 := mul_le_mul_of_nonneg_left (by nlinarith) hk
      nlinarith [sq_nonneg u]
    have h6 := mul_le_mul_of_nonneg_right h5 hA'
    linarith
  · have h2 := abs_add_le E e
    have h3 : 0 ≤ 2 * k * u * |x| := by positivity
    linarith
  · have h1 : rnd (R + x) = (R + x) - (R + x - rnd (R + x)) := by ring
    have h2 := abs_sub (R + x) (R + x - rnd (R + x))
    rw [← he] at h2
    rw [h1, ← he]
    have h3 : u * |R + x| ≤ u * ((1 + 2 * k * u) * (A + |x|)) := mul_le_mul_of_nonneg_left hRx hu0.le
    have h4 : (1 + 2 * k * u) + u * (1 + 2 * k * u) ≤ 1 + 2 * (k + 1) * u := by nlinarith
    have h5 := mul_le_mul_of_nonneg_right h4 hA'
    linarith
  · have := abs_add_le s x
    linarith

theorem sumState_final (h : RoundsToNearest rnd) {k u R c s A : ℚ} (hu : u = 1 / 2 ^ 53) (hk : 0 ≤ k) (hku : 2 * (k + 1) * u ≤ 1)
    (st : SumState k u R c s A) (hmax : 2 * A ≤ doubleMax) :
    |rnd (c + R) - s| ≤ u * |s| + 2 * ((k + 1) * u) ^ 2 * A := by
  obtain ⟨hR, hc, ⟨E, hE1, hE2, hE3⟩, hsz, hs⟩ := st
  have hu0 : 0 < u := by rw [hu]; norm_num
  have hu1 : u ≤ 1 / 8 := by rw [hu]; norm_num
  have hA : 0 ≤ A := (abs_nonneg s).trans hs
  have hku0 : 0 ≤ k * u := mul_nonneg hk hu0.le
  have h1 : c + R - s = c - E := by linarith
  have hcr : |c + R| ≤ |s| + 2 * k ^ 2 * u ^ 2 * A := by
    have h2 : c + R = s + (c - E) := by linarith
    have h3 := abs_add_le s (c - E)
    rw [h2]
    linarith
  have hk2 : 2 * k ^ 2 * u ^ 2 ≤ 1 := by nlinarith
  have hle : |c + R| ≤ doubleMax := by nlinarith
  have herr : |c + R - rnd (c + R)| ≤ u * |c + R| := by
    have := h.error_add hc hR hle
    rw [hu]
    linarith
  have h2 : rnd (c + R) - s = (c - E) - (c + R - rnd (c + R)) := by linarith
  have h3 := abs_sub (c - E) (c + R - rnd (c + R))
  rw [h2]
  have h4 : u * |c + R| ≤ u * (|s| + 2 * k ^ 2 * u ^ 2 * A) := mul_le_mul_of_nonneg_left hcr hu0.le
  have h5 : 2 * k ^ 2 * u ^ 2 + u * (2 * k ^ 2 * u ^ 2) ≤ 2 * ((k + 1) * u) ^ 2 := by
    have : k * (k * u) ≤ k * 1 := mul_le_mul_of_nonneg_left (by nlinarith) hk
    nlinarith [sq_nonneg u]
  have h6 := mul_le_mul_of_nonneg_right h5 hA
  linarith

theorem correction_exact (h : RoundsToNearest rnd) {R x : ℚ} (hR : IsDouble R) (hx : IsDouble x) (h0 : 0 ≤ R + x) (hq : |R + x| ≤ doubleMax) :
    (if R ≥ x then rnd (rnd (R - rnd (R + x)) + x) else rnd (rnd (x - rnd (R + x)) + R)) = R + x - rnd (R + x) ∧
    IsDouble (R + x - rnd (R + x)) := by
  by_cases hc : R ≥ x
  · have hab : |x| ≤ R := abs_le.2 ⟨by linarith, hc⟩
    rw [if_pos hc]
    exact ⟨h.fast_two_sum hR hx hab hq, h.sum_error hR hx (hab.trans (le_abs_self R)) hq⟩
  · have hab : |R| ≤ x := abs_le.2 ⟨by linarith, by linarith⟩
    rw [if_neg hc, add_comm R x] at *
    exact ⟨h.fast_two_sum hx hR hab hq, h.sum_error hx hR (hab.trans (le_abs_self x)) hq⟩

theorem f64SumLoop_state (h : RoundsToNearest rnd) (xs : List (Fl rnd)) (hd : ∀ x ∈ xs, IsDouble x.val) (hn : xs.length ≤ 2 ^ 52)
    (hmax : 2 * absSum xs ≤ doubleMax)
    (hpos : ∀ t, t <:+ xs → 0 ≤ (plainSum t).val) :
    ∀ len (R c : Fl rnd), len < xs.length → R = plainSum (xs.drop len) →
      SumState (xs.length - len - 1 : ℚ) (1 / 2 ^ 53) R.val c.val (exactSum (xs.drop len)) (absSum (xs.drop len)) →
      ∃ r, f64SumLoop xs len R c = .ok r ∧ Compensated xs r.val := by
  have hnq : (xs.length : ℚ) ≤ 4503599627370496 := by exact_mod_cast hn
  intro len
  induction len with
  | zero =>
    intro R c hlen hR st
    refine ⟨c + R, rfl, ?_⟩
    have hl : (1 : ℚ) ≤ xs.length := by exact_mod_cast hlen
    rw [List.drop_zero] at st
    have := sumState_final h rfl (by push_cast; linarith) (by push_cast; norm_num; linarith) st hmax
    rw [Compensated, Fl.add_val]
    push_cast at this
    have e : ((xs.length : ℚ) - 0 - 1 + 1) * (1 / 2 ^ 53) = xs.length / 2 ^ 53 := by ring
    rw [e] at this
    linarith
  | succ len ih =>
    intro R c hlen hR st
    have hl : (len : ℚ) + 2 ≤ xs.length := by exact_mod_cast hlen
    have hdrop : xs.drop len = xs[len] :: xs.drop (len + 1) := List.drop_eq_getElem_cons (by omega)
    have hx := hd xs[len] (List.getElem_mem _)
    have hA : absSum (xs.drop len) = absSum (xs.drop (len + 1)) + |xs[len].val| := by
      rw [hdrop, absSum, absSum, List.map_cons, List.sum_cons, add_comm]
    have hS : exactSum (xs.drop len) = exactSum (xs.drop (len + 1)) + xs[len].val := by
      rw [hdrop, exactSum, exactSum, List.map_cons, List.sum_cons, add_comm]
    have hle : absSum (xs.drop len) ≤ absSum xs := by
      have : absSum xs = absSum (xs.take len) + absSum (xs.drop len) := by
        conv_lhs => rw [← List.take_append_drop len xs]
        simp [absSum]
      have h0 : 0 ≤ absSum (xs.take len) := by
        refine List.sum_nonneg ?_
        intro a ha
        obtain ⟨b, _, rfl⟩ := List.mem_map.1 ha
        exact abs_nonneg _
      linarith
    have hmax' : 2 * (absSum (xs.drop (len + 1)) + |xs[len].val|) ≤ doubleMax := by linarith
    have hk0 : (0 : ℚ) ≤ (xs.length : ℚ) - ((len + 1 : ℕ) : ℚ) - 1 := by push_cast; linarith
    have hku : 2 * ((xs.length : ℚ) - ((len + 1 : ℕ) : ℚ) - 1 + 1) * (1 / 2 ^ 53) ≤ 1 := by
      push_cast
      have : (0 : ℚ) ≤ len := Nat.cast_nonneg _
      norm_num
      linarith
    have hsize : |R.val + xs[len].val| ≤ doubleMax := by
      have h1 := st.size
      have h2 := abs_add_le R.val xs[len].val
      have h3 : 0 ≤ absSum (xs.drop (len + 1)) := (abs_nonneg _).trans st.sum
      have h4 := abs_nonneg xs[len].val
      nlinarith
    have h0 : 0 ≤ R.val + xs[len].val := by
      by_contra hneg
      rw [not_le] at hneg
      have h1 := hpos (xs.drop len) (List.drop_suffix _ _)
      rw [hdrop, plainSum, ← hR, Fl.add_val] at h1
      have h2 := h.nearest _ _ hsize (h.double _ hsize)
      have h3 := h.error_add st.result hx hsize
      rw [abs_of_neg hneg, abs_of_nonpos (by linarith)] at h3
      norm_num at h3
      linarith
    obtain ⟨hcor, hed⟩ := correction_exact h st.result hx h0 hsize
    rw [f64SumLoop, rd_eq_ok (by omega), ok_bind']
    refine ih _ _ (by omega) ?_ ?_
    · rw [hdrop, plainSum, hR]
    · rw [hS, hA]
      have hst := sumState_step h rfl hk0 hku st hx hmax' rfl hed
      have e : (xs.length : ℚ) - ((len + 1 : ℕ) : ℚ) - 1 + 1 = xs.length - len - 1 := by push_cast; ring
      rw [e] at hst
      have hc' : (c + (if R ≥ xs[len] then (R - (R + xs[len])) + xs[len] else (xs[len] - (R + xs[len])) + R)).val =
          rnd (c.val + (R.val + xs[len].val - rnd (R.val + xs[len].val))) := by
        rw [Fl.add_val, ← hcor]
        congr 2
        simp only [ge_iff_le, Fl.le_def]
        split <;> rfl
      rw [hc']
      exact hst

/-- **C118, partial**: the error of the compensated sum is that of one rounding of the exact result except for terms of second order, whenever no
intermediate result of the addition from the last to the first element is negative. Missing: negative intermediate results. -/
theorem C118_running_sums_partial (h : RoundsToNearest rnd) {xs : List (Fl rnd)} (hne : xs ≠ []) (hd : ∀ x ∈ xs, IsDouble x.val)
    (hn : xs.length ≤ 2 ^ 52) (hmax : 2 * absSum xs ≤ doubleMax) (hpos : ∀ t, t <:+ xs → 0 ≤ (plainSum t).val) :
    ∃ r, f64Sum xs xs.length = .ok r ∧ Compensated xs r.val := by
  obtain ⟨n, hl⟩ : ∃ n, xs.length = n + 1 := ⟨xs.length - 1, by have := List.length_pos_iff.2 hne; omega⟩
  have hx := hd xs[n] (List.getElem_mem _)
  have hdrop : xs.drop n = [xs[n]] := by
    rw [List.drop_eq_getElem_cons (by omega), List.drop_eq_nil_of_le (by omega)]
  rw [hl, f64Sum, rd_eq_ok (by omega), ok_bind']
  refine f64SumLoop_state h xs hd hn hmax hpos n _ _ (by omega) ?_ ?_
  · rw [hdrop, plainSum, plainSum]
    ext
    rw [Fl.add_val, Fl.zero_val, zero_add, h.exact hx]
  · have hk : (xs.length : ℚ) - n - 1 = 0 := by rw [hl]; push_cast; ring
    rw [hdrop, hk]
    refine ⟨hx, .zero, ⟨0, ?_, ?_, ?_⟩, ?_, ?_⟩ <;> simp [exactSum, absSum]

theorem plainSum_nonneg (h : RoundsToNearest rnd) : ∀ (n : Nat) (xs : List (Fl rnd)), xs.length ≤ n → n ≤ 2 ^ 52 →
    (∀ x ∈ xs, IsDouble x.val) → (∀ x ∈ xs, 0 ≤ x.val) → 2 * absSum xs ≤ doubleMax →
    IsDouble (plainSum xs).val ∧ 0 ≤ (plainSum xs).val ∧ (plainSum xs).val ≤ (1 + 2 * n * (1 / 2 ^ 53)) * absSum xs := by
  intro n
  induction n with
  | zero =>
    intro xs hl _ _ _ _
    have : xs = [] := List.length_eq_zero_iff.1 (by omega)
    rw [this]
    exact ⟨.zero, le_refl _, by simp [plainSum, absSum]⟩
  | succ n ih =>
    intro xs hl hn hd h0 hmax
    have hnq : (n : ℚ) + 1 ≤ 4503599627370496 := by exact_mod_cast hn
    rcases xs with _ | ⟨x, rest⟩
    · exact ⟨.zero, le_refl _, by simp [plainSum, absSum]⟩
    have hx0 := h0 x (by simp)
    have hA : absSum (x :: rest) = x.val + absSum rest := by simp [absSum, abs_of_nonneg hx0]
    have hA0 : 0 ≤ absSum rest := by
      refine List.sum_nonneg ?_
      intro a ha
      obtain ⟨b, _, rfl⟩ := List.mem_map.1 ha
      exact abs_nonneg _
    rw [hA] at hmax ⊢
    obtain ⟨i1, i2, i3⟩ := ih rest (by simpa using hl) (by omega) (fun y hy => hd y (by simp [hy])) (fun y hy => h0 y (by simp [hy]))
      (by linarith)
    have hp : 0 ≤ (plainSum rest).val + x.val := by linarith
    set N : ℚ := (n : ℚ) with hN
    have hN0 : 0 ≤ N := Nat.cast_nonneg _
    have hu : (0 : ℚ) < 1 / 2 ^ 53 := by norm_num
    have hNu : 2 * (N + 1) * (1 / 2 ^ 53) ≤ 1 := by norm_num; linarith
    obtain ⟨u, hu'⟩ : ∃ u : ℚ, u = 1 / 2 ^ 53 := ⟨_, rfl⟩
    rw [← hu'] at i3 hu hNu ⊢
    have hsz : (plainSum rest).val + x.val ≤ (1 + 2 * N * u) * (x.val + absSum rest) := by
      have : 0 ≤ 2 * N * u * x.val := by positivity
      nlinarith
    have hq : |(plainSum rest).val + x.val| ≤ doubleMax := by
      rw [abs_of_nonneg hp]
      nlinarith
    have herr := h.error_add i1 (hd x (by simp)) hq
    refine ⟨h.double _ hq, h.nonneg hq hp, ?_⟩
    rw [plainSum, Fl.add_val]
    push_cast
    rw [abs_of_nonneg hp] at herr
    have h1 : ((plainSum rest).val + x.val) / 2 ^ 53 = u * ((plainSum rest).val + x.val) := by rw [hu']; ring
    rw [h1] at herr
    have h2 := (abs_le.1 herr).1
    have h3 : u * ((plainSum rest).val + x.val) ≤ u * ((1 + 2 * N * u) * (x.val + absSum rest)) := mul_le_mul_of_nonneg_left hsz hu.le
    have h4 : (1 + 2 * N * u) + u * (1 + 2 * N * u) ≤ 1 + 2 * (N + 1) * u := by nlinarith
    have h5 := mul_le_mul_of_nonneg_right h4 (show 0 ≤ x.val + absSum rest by linarith)
    linarith

theorem absSum_of_nonneg {xs : List (Fl rnd)} (h0 : ∀ x ∈ xs, 0 ≤ x.val) : absSum xs = exactSum xs := by
  rw [absSum, exactSum]
  congr 1
  exact List.map_congr_left fun x hx => abs_of_nonneg (h0 x hx)

theorem absSum_suffix {t xs : List (Fl rnd)} (h : t <:+ xs) : absSum t ≤ absSum xs := by
  obtain ⟨p, rfl⟩ := h
  have h0 : 0 ≤ absSum p := by
    refine List.sum_nonneg ?_
    intro a ha
    obtain ⟨b, _, rfl⟩ := List.mem_map.1 ha
    exact abs_nonneg _
  have : absSum (p ++ t) = absSum p + absSum t := by simp [absSum]
  linarith

/-- **C118, partial**: for numbers that are not negative the relative error of the sum of up to 2^52 numbers is that of one rounding, except for a
term of second order. -/
theorem C118_nonnegative_partial (h : RoundsToNearest rnd) {xs : List (Fl rnd)} (hne : xs ≠ []) (hd : ∀ x ∈ xs, IsDouble x.val)
    (h0 : ∀ x ∈ xs, 0 ≤ x.val) (hn : xs.length ≤ 2 ^ 52) (hmax : 2 * exactSum xs ≤ doubleMax) :
    ∃ r, f64Sum xs xs.length = .ok r ∧
      |r.val - exactSum xs| ≤ (1 / 2 ^ 53 + 2 * (xs.length / 2 ^ 53) ^ 2) * exactSum xs := by
  have ha := absSum_of_nonneg h0
  rw [← ha] at hmax
  obtain ⟨r, h1, h2⟩ := C118_running_sums_partial h hne hd hn hmax (fun t ht =>
    (plainSum_nonneg h (2 ^ 52) t (ht.length_le.trans hn) (le_refl _) (fun x hx => hd x (ht.subset hx)) (fun x hx => h0 x (ht.subset hx))
      (le_trans (mul_le_mul_of_nonneg_left (absSum_suffix ht) (by norm_num)) hmax)).2.1)
  refine ⟨r, h1, ?_⟩
  rw [Compensated, ha] at h2
  have h3 : 0 ≤ exactSum xs := by
    rw [← ha]
    exact absSum_suffix (List.nil_suffix)
  rw [abs_of_nonneg h3] at h2
  linarith

/-- The hypotheses, for numbers of which plain addition loses the small ones. -/
example : ∃ r : Fl nearestDouble, f64Sum [⟨1⟩, ⟨1⟩, ⟨2 ^ 60⟩] 3 = .ok r ∧
    |r.val - exactSum (rnd := nearestDouble) [⟨1⟩, ⟨1⟩, ⟨2 ^ 60⟩]| ≤
      (1 / 2 ^ 53 + 2 * ((3 : Nat) / 2 ^ 53) ^ 2) * exactSum (rnd := nearestDouble) [⟨1⟩, ⟨1⟩, ⟨2 ^ 60⟩] := by
  refine C118_nonnegative_partial nearestDouble_rounds (xs := [⟨1⟩, ⟨1⟩, ⟨2 ^ 60⟩]) (by simp) ?_ ?_ (by norm_num) ?_
  · intro x hx
    simp only [List.mem_cons, List.not_mem_nil, or_false] at hx
    have h1 : IsDouble 1 := ⟨1, 0, by norm_num, by norm_num, by norm_num, by norm_num⟩
    have h2 : IsDouble (2 ^ 60) := ⟨1, 60, by norm_num, by norm_num, by norm_num, by norm_num⟩
    rcases hx with rfl | rfl | rfl
    · exact h1
    · exact h1
    · exact h2
  · intro x hx
    simp only [List.mem_cons, List.not_mem_nil, or_false] at hx
    rcases hx with rfl | rfl | rfl <;> norm_num
  · refine le_trans ?_ (le_doubleMax (e := 62) (by norm_num))
    norm_num [exactSum]

/-- **C118 is false**: the code compares the numbers and not their absolute values. With every rounding to nearest, the sum of 2^60, -2^60 and 1 is
0, and the accuracy that the correction is there for is not reached. -/
theorem C118_negative_false (h : RoundsToNearest rnd) :
    f64Sum ([⟨2 ^ 60⟩, ⟨-2 ^ 60⟩, ⟨1⟩] : List (Fl rnd)) 3 = .ok 0 ∧
    ¬ Compensated ([⟨2 ^ 60⟩, ⟨-2 ^ 60⟩, ⟨1⟩] : List (Fl rnd)) 0 := by
  have d60 : IsDouble (2 ^ 60) := ⟨1, 60, by norm_num, by norm_num, by norm_num, by norm_num⟩
  have r1 : rnd (1 + -2 ^ 60) = -2 ^ 60 := by
    have := h.eq_of (q := 1 + -2 ^ 60) (k := 59) (M := -2 ^ 53) (by norm_num) (by norm_num) (by norm_num)
      (by norm_num [abs_of_pos, abs_of_neg]) (by norm_num [abs_of_pos, abs_of_neg]) (by norm_num [abs_of_pos, abs_of_neg])
    rw [this]
    norm_num
  have r2 : rnd (1 - -2 ^ 60) = 2 ^ 60 := by
    have := h.eq_of (q := 1 - -2 ^ 60) (k := 60) (M := 2 ^ 52) (by norm_num) (by norm_num) (by norm_num)
      (by norm_num [abs_of_pos, abs_of_neg]) (by norm_num [abs_of_pos, abs_of_neg]) (by norm_num [abs_of_pos, abs_of_neg])
    rw [this]
    norm_num
  constructor
  · have e : f64Sum ([⟨2 ^ 60⟩, ⟨-2 ^ 60⟩, ⟨1⟩] : List (Fl rnd)) 3 =
        f64SumLoop ([⟨2 ^ 60⟩, ⟨-2 ^ 60⟩, ⟨1⟩] : List (Fl rnd)) 2 ⟨1⟩ 0 := rfl
    have e2 : f64SumLoop ([⟨2 ^ 60⟩, ⟨-2 ^ 60⟩, ⟨1⟩] : List (Fl rnd)) 2 ⟨1⟩ 0 =
        f64SumLoop ([⟨2 ^ 60⟩, ⟨-2 ^ 60⟩, ⟨1⟩] : List (Fl rnd)) 1 ⟨-2 ^ 60⟩ 0 := by
      rw [f64SumLoop, rd_eq_ok (by simp), ok_bind']
      simp only [List.getElem_cons_succ, List.getElem_cons_zero]
      congr 1
      · ext
        exact r1
      · rw [if_pos (by rw [ge_iff_le, Fl.le_def]; norm_num)]
        ext
        simp only [Fl.add_val, Fl.sub_val, Fl.zero_val, r1, r2]
        rw [show (2 : ℚ) ^ 60 + -2 ^ 60 = 0 by norm_num, h.zero, add_zero, h.zero]
    have e3 : f64SumLoop ([⟨2 ^ 60⟩, ⟨-2 ^ 60⟩, ⟨1⟩] : List (Fl rnd)) 1 ⟨-2 ^ 60⟩ 0 =
        f64SumLoop ([⟨2 ^ 60⟩, ⟨-2 ^ 60⟩, ⟨1⟩] : List (Fl rnd)) 0 0 0 := by
      have r3 : rnd (-2 ^ 60 + 2 ^ 60) = 0 := by rw [show (-2 ^ 60 + 2 ^ 60 : ℚ) = 0 by norm_num, h.zero]
      conv_lhs => rw [f64SumLoop, rd_eq_ok (by simp), ok_bind']
      simp only [List.getElem_cons_succ, List.getElem_cons_zero]
      congr 1
      · ext
        exact r3
      · rw [if_neg (by rw [ge_iff_le, Fl.le_def]; norm_num)]
        ext
        simp only [Fl.add_val, Fl.sub_val, Fl.zero_val, r3]
        rw [sub_zero, h.exact d60, show (2 : ℚ) ^ 60 + -2 ^ 60 = 0 by norm_num, h.zero, add_zero, h.zero]
    rw [e, e2, e3, f64SumLoop]
    congr 1
    ext
    simp [h.zero]
  · rw [Compensated]
    norm_num [exactSum, absSum]

end Sp
