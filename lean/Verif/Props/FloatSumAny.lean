import Verif.Props.FloatSum

/-!
# C118 for numbers of any sign

The correction of `sph_f64_sum` can be wrong, but it is never large: the sum is as accurate as a plain one up to a factor.
-/

set_option linter.unusedSectionVars false

namespace Sp
variable {rnd : ℚ → ℚ}

/-- The state of the loop after `k` additions: `s` is the exact sum, `A` the sum of absolute values. -/
private structure AnyState (k u : ℚ) (R c s A : ℚ) : Prop where
  result : IsDouble R
  correction : IsDouble c
  error : |R - s| ≤ 2 * k * u * A
  small : |c| ≤ 4 * k * u * A
  sum : |s| ≤ A

/-- What is added to the correction, whichever number is the larger. -/
private theorem correction_small (h : RoundsToNearest rnd) {u M a b : ℚ} (hu : u = 1 / 2 ^ 53) (ha : IsDouble a) (hb : IsDouble b)
    (hab : |a + b| ≤ M) (hbM : |b| ≤ M) (hM : 4 * M ≤ doubleMax) :
    IsDouble (rnd (rnd (a - rnd (a + b)) + b)) ∧ |rnd (rnd (a - rnd (a + b)) + b)| ≤ 9 / 4 * u * M := by
  have hu0 : 0 < u := by rw [hu]; norm_num
  have hu1 : u ≤ 1 / 64 := by rw [hu]; norm_num
  have hM0 : 0 ≤ M := (abs_nonneg _).trans hbM
  have hq : |a + b| ≤ doubleMax := by linarith
  have e1 := h.error_add ha hb hq
  rw [div_eq_mul_one_div, ← hu] at e1
  have hd1 := h.double _ hq
  have e1' : |a + b - rnd (a + b)| ≤ u * M := e1.trans (by nlinarith only [hab, hu0])
  set t := rnd (a + b)
  have h1 : |a - t| ≤ (1 + u) * M := by
    have : a - t = (a + b - t) - b := by ring
    rw [this]
    refine (abs_sub _ _).trans ?_
    linarith
  have hq2 : |a + -t| ≤ doubleMax := by
    rw [← sub_eq_add_neg]
    nlinarith only [h1, hM, hM0, hu1]
  have e2 := h.error_add ha hd1.neg hq2
  rw [div_eq_mul_one_div, ← hu, ← sub_eq_add_neg] at e2
  have hd2 := h.double _ hq2
  rw [← sub_eq_add_neg] at hd2
  have e2' : |a - t - rnd (a - t)| ≤ u * ((1 + u) * M) := e2.trans (by nlinarith only [h1, hu0])
  set v := rnd (a - t)
  have h2 : |v + b| ≤ u * M + u * ((1 + u) * M) := by
    have : v + b = (a + b - t) - (a - t - v) := by ring
    rw [this]
    exact (abs_sub _ _).trans (add_le_add e1' e2')
  have h3 : u * M + u * ((1 + u) * M) ≤ 33 / 16 * u * M := by
    have : 0 ≤ u * M := mul_nonneg hu0.le hM0
    nlinarith only [this, hu1]
  have h4 : |v + b| ≤ 33 / 16 * u * M := h2.trans h3
  have hq3 : |v + b| ≤ doubleMax := by nlinarith only [h4, hM, hM0, hu1, hu0]
  have e3 := h.error_add hd2 hb hq3
  rw [div_eq_mul_one_div, ← hu] at e3
  refine ⟨h.double _ hq3, ?_⟩
  have : rnd (v + b) = (v + b) - (v + b - rnd (v + b)) := by ring
  rw [this]
  refine (abs_sub _ _).trans ?_
  have h5 : |v + b| * u ≤ 33 / 16 * u * M * u := mul_le_mul_of_nonneg_right h4 hu0.le
  have h6 : 0 ≤ u * M := mul_nonneg hu0.le hM0
  nlinarith only [e3, h4, h5, h6, hu1]

private theorem anyState_step (h : RoundsToNearest rnd) {k u R c s A x : ℚ} (hu : u = 1 / 2 ^ 53) (hk : 0 ≤ k) (hku : 8 * (k + 1) * u ≤ 1)
    (st : AnyState k u R c s A) (hx : IsDouble x) (hmax : 8 * (A + |x|) ≤ doubleMax) :
    AnyState (k + 1) u (rnd (R + x))
      (rnd (c + (if R ≥ x then rnd (rnd (R - rnd (R + x)) + x) else rnd (rnd (x - rnd (R + x)) + R)))) (s + x) (A + |x|) := by
  obtain ⟨hR, hc, hE, hcs, hs⟩ := st
  have hu0 : 0 < u := by rw [hu]; norm_num
  have hu1 : u ≤ 1 / 64 := by rw [hu]; norm_num
  have hA : 0 ≤ A := (abs_nonneg s).trans hs
  have hx0 := abs_nonneg x
  have hku0 : 0 ≤ k * u := mul_nonneg hk hu0.le
  have hku1 : k * u ≤ 1 / 8 := by nlinarith only [hku, hu0]
  have hRs : |R| ≤ 5 / 4 * A := by
    have e : R = (R - s) + s := by ring
    have := abs_add_le (R - s) s
    rw [← e] at this
    have : 2 * k * u * A ≤ 1 / 4 * A := mul_le_mul_of_nonneg_right (by linarith) hA
    linarith
  set B := A + |x| with hB
  have hB0 : 0 ≤ B := by linarith
  have hRB : |R| ≤ 5 / 4 * B := by linarith
  have hxB : |x| ≤ 5 / 4 * B := by linarith
  have hRx : |R + x| ≤ 5 / 4 * B := (abs_add_le _ _).trans (by linarith)
  have hq : |R + x| ≤ doubleMax := by linarith
  obtain ⟨d1, d2⟩ : IsDouble (if R ≥ x then rnd (rnd (R - rnd (R + x)) + x) else rnd (rnd (x - rnd (R + x)) + R)) ∧
      |if R ≥ x then rnd (rnd (R - rnd (R + x)) + x) else rnd (rnd (x - rnd (R + x)) + R)| ≤ 9 / 4 * u * (5 / 4 * B) := by
    split
    · exact correction_small h hu hR hx hRx hxB (by linarith)
    · rw [add_comm R x]
      exact correction_small h hu hx hR (by rw [add_comm]; exact hRx) hRB (by linarith)
  generalize (if R ≥ x then rnd (rnd (R - rnd (R + x)) + x) else rnd (rnd (x - rnd (R + x)) + R)) = d at *
  have hAB : 4 * k * u * A ≤ 4 * k * u * B := mul_le_mul_of_nonneg_left (by linarith) (by linarith)
  have hcd : |c + d| ≤ (4 * k * u + 45 / 16 * u) * B := (abs_add_le _ _).trans (by linarith)
  have hcq : |c + d| ≤ doubleMax := by
    refine hcd.trans ?_
    have : (4 * k * u + 45 / 16 * u) * B ≤ 1 * B := mul_le_mul_of_nonneg_right (by linarith) hB0
    linarith
  have hr1 := h.error_add hR hx hq
  have hr2 := h.error_add hc d1 hcq
  rw [div_eq_mul_one_div, ← hu] at hr1 hr2
  refine ⟨h.double _ hq, h.double _ hcq, ?_, ?_, (abs_add_le _ _).trans (by linarith)⟩
  · have e : rnd (R + x) - (s + x) = (R - s) - (R + x - rnd (R + x)) := by ring
    rw [e]
    refine (abs_sub _ _).trans ?_
    have g1 : |R + x| * u ≤ 5 / 4 * B * u := mul_le_mul_of_nonneg_right hRx hu0.le
    have g2 : 0 ≤ u * B := mul_nonneg hu0.le hB0
    linarith
  · have e : rnd (c + d) = (c + d) - (c + d - rnd (c + d)) := by ring
    rw [e]
    refine (abs_sub _ _).trans ?_
    have g1 : |c + d| * u ≤ (4 * k * u + 45 / 16 * u) * B * u := mul_le_mul_of_nonneg_right hcd hu0.le
    have g2 : 0 ≤ u * B := mul_nonneg hu0.le hB0
    have g3 : (4 * k * u + 45 / 16 * u) * B * u ≤ 5 / 8 * (u * B) := by
      have : (4 * k * u + 45 / 16 * u) * (u * B) ≤ 5 / 8 * (u * B) := mul_le_mul_of_nonneg_right (by linarith) g2
      linarith
    linarith

private theorem anyLoop (h : RoundsToNearest rnd) (xs : List (Fl rnd)) (hd : ∀ x ∈ xs, IsDouble x.val) (hn : xs.length ≤ 2 ^ 50)
    (hmax : 8 * absSum xs ≤ doubleMax) :
    ∀ len (R c : Fl rnd), len < xs.length →
      AnyState (xs.length - len - 1 : ℚ) (1 / 2 ^ 53) R.val c.val (exactSum (xs.drop len)) (absSum (xs.drop len)) →
      ∃ r, f64SumLoop xs len R c = .ok r ∧ IsDouble r.val ∧ |r.val - exactSum xs| ≤ 6 * xs.length / 2 ^ 53 * absSum xs := by
  have hnq : (xs.length : ℚ) ≤ 1125899906842624 := by exact_mod_cast hn
  intro len
  induction len with
  | zero =>
    intro R c hlen st
    refine ⟨c + R, rfl, ?_⟩
    have hl : (1 : ℚ) ≤ xs.length := by exact_mod_cast hlen
    rw [List.drop_zero] at st
    obtain ⟨hR, hc, hE, hcs, hs⟩ := st
    rw [Fl.add_val]
    push_cast at hE hcs
    generalize exactSum xs = s at *
    generalize absSum xs = A at *
    generalize R.val = R at *
    generalize c.val = c at *
    generalize (xs.length : ℚ) = n at *
    have hA : 0 ≤ A := (abs_nonneg s).trans hs
    rw [sub_zero] at hE hcs
    have g0 : (n - 1) * (1 / 2 ^ 53) * A ≤ 1 / 8 * A := mul_le_mul_of_nonneg_right (by norm_num; linarith) hA
    have g1 : |c + R| ≤ 7 / 4 * A := by
      have e : c + R = c + ((R - s) + s) := by ring
      have h1 := abs_add_le c ((R - s) + s)
      have h2 := abs_add_le (R - s) s
      rw [e]
      linarith
    have hq : |c + R| ≤ doubleMax := by linarith
    have he := h.error_add hc hR hq
    refine ⟨h.double _ hq, ?_⟩
    have e : rnd (c + R) - s = c + (R - s) - (c + R - rnd (c + R)) := by ring
    rw [e]
    refine (abs_sub _ _).trans ?_
    have h1 := abs_add_le c (R - s)
    have h2 : |c + R| / 2 ^ 53 ≤ 7 / 4 * A / 2 ^ 53 := div_le_div_of_nonneg_right g1 (by norm_num)
    have h3 : 0 ≤ A / 2 ^ 53 := div_nonneg hA (by norm_num)
    have e2 : 6 * n / 2 ^ 53 * A = 2 * (n - 1) * (1 / 2 ^ 53) * A + 4 * (n - 1) * (1 / 2 ^ 53) * A + 6 * (A / 2 ^ 53) := by ring
    have e3 : 7 / 4 * A / 2 ^ 53 = 7 / 4 * (A / 2 ^ 53) := by ring
    rw [e2]
    linarith
  | succ len ih =>
    intro R c hlen st
    have hl : (len : ℚ) + 2 ≤ xs.length := by exact_mod_cast hlen
    have hdrop : xs.drop len = xs[len] :: xs.drop (len + 1) := List.drop_eq_getElem_cons (by omega)
    have hx := hd xs[len] (List.getElem_mem _)
    have hA : absSum (xs.drop len) = absSum (xs.drop (len + 1)) + |xs[len].val| := by
      rw [hdrop, absSum, absSum, List.map_cons, List.sum_cons, add_comm]
    have hS : exactSum (xs.drop len) = exactSum (xs.drop (len + 1)) + xs[len].val := by
      rw [hdrop, exactSum, exactSum, List.map_cons, List.sum_cons, add_comm]
    have hle : absSum (xs.drop len) ≤ absSum xs := absSum_suffix (List.drop_suffix _ _)
    have hk0 : (0 : ℚ) ≤ (xs.length : ℚ) - ((len + 1 : ℕ) : ℚ) - 1 := by push_cast; linarith
    have hku : 8 * ((xs.length : ℚ) - ((len + 1 : ℕ) : ℚ) - 1 + 1) * (1 / 2 ^ 53) ≤ 1 := by
      push_cast
      have : (0 : ℚ) ≤ len := Nat.cast_nonneg _
      norm_num
      linarith
    have hst := anyState_step h rfl hk0 hku st hx (by rw [← hA]; linarith)
    rw [f64SumLoop, rd_eq_ok (by omega), ok_bind']
    refine ih _ _ (by omega) ?_
    rw [hS, hA]
    have e : (xs.length : ℚ) - ((len + 1 : ℕ) : ℚ) - 1 + 1 = xs.length - len - 1 := by push_cast; ring
    rw [e] at hst
    have hc' : (c + (if R ≥ xs[len] then (R - (R + xs[len])) + xs[len] else (xs[len] - (R + xs[len])) + R)).val =
        rnd (c.val + (if R.val ≥ xs[len].val then rnd (rnd (R.val - rnd (R.val + xs[len].val)) + xs[len].val) else
          rnd (rnd (xs[len].val - rnd (R.val + xs[len].val)) + R.val))) := by
      rw [Fl.add_val]
      congr 2
      simp only [ge_iff_le, Fl.le_def]
      split <;> rfl
    rw [hc']
    exact hst

/-- **C118, partial**: for numbers of any sign the sum of `n` numbers differs from the exact one by no more than `6 * n / 2^53` times the sum
of the absolute values. This is the accuracy of a plain sum up to a factor; what is missing is that of a compensated one, which the code does not have
(`C118_negative_false`). -/
theorem C118_any_signs_partial (h : RoundsToNearest rnd) {xs : List (Fl rnd)} (hne : xs ≠ []) (hd : ∀ x ∈ xs, IsDouble x.val)
    (hn : xs.length ≤ 2 ^ 50) (hmax : 8 * absSum xs ≤ doubleMax) :
    ∃ r, f64Sum xs xs.length = .ok r ∧ IsDouble r.val ∧ |r.val - exactSum xs| ≤ 6 * xs.length / 2 ^ 53 * absSum xs := by
  obtain ⟨n, hl⟩ : ∃ n, xs.length = n + 1 := ⟨xs.length - 1, by have := List.length_pos_iff.2 hne; omega⟩
  have hx := hd xs[n] (List.getElem_mem _)
  have hdrop : xs.drop n = [xs[n]] := by
    rw [List.drop_eq_getElem_cons (by omega), List.drop_eq_nil_of_le (by omega)]
  have := anyLoop h xs hd hn hmax n xs[n] 0 (by omega) (by
    have hk : (xs.length : ℚ) - n - 1 = 0 := by rw [hl]; push_cast; ring
    rw [hdrop, hk]
    refine ⟨hx, .zero, ?_, ?_, ?_⟩ <;> simp [exactSum, absSum])
  rw [hl, f64Sum, rd_eq_ok (by omega), ok_bind', ← hl]
  exact this

/-- The hypotheses, for the numbers for which the correction is wrong. -/
example : (∀ x ∈ ([⟨2 ^ 60⟩, ⟨-2 ^ 60⟩, ⟨1⟩] : List (Fl nearestDouble)), IsDouble x.val) ∧
    8 * absSum ([⟨2 ^ 60⟩, ⟨-2 ^ 60⟩, ⟨1⟩] : List (Fl nearestDouble)) ≤ doubleMax := by
  constructor
  · intro x hx
    simp only [List.mem_cons, List.not_mem_nil, or_false] at hx
    rcases hx with rfl | rfl | rfl
    · exact ⟨1, 60, by norm_num, by norm_num, by norm_num, by norm_num⟩
    · exact ⟨-1, 60, by norm_num, by norm_num, by norm_num, by norm_num⟩
    · exact ⟨1, 0, by norm_num, by norm_num, by norm_num, by norm_num⟩
  · have h1 : (2 : ℚ) ^ (70 : ℤ) ≤ doubleMax := le_doubleMax (by norm_num)
    refine le_trans ?_ h1
    norm_num [absSum, abs_of_pos, abs_of_neg]

end Sp
