import Verif.Lemmas.FloatAverage

/-!
# C123: the moving average in floating point arithmetic

The numbers are of type `Fl rnd` (Spec/Float.lean), whose operations round to a nearest double.
-/

set_option linter.unusedSectionVars false

namespace Sp
variable {rnd : ℚ → ℚ}

theorem getD_val (l : List (Fl rnd)) (n : Nat) : (l.map Fl.val).getD n 0 = (l.getD n 0).val := by
  rw [List.getD, List.getD, List.getElem?_map]
  cases l[n]? <;> rfl

theorem extended_val (inp : List (Fl rnd)) (prev next : Option (List (Fl rnd))) (j : ℤ) :
    extended (inp.map Fl.val) (prev.map (·.map Fl.val)) (next.map (·.map Fl.val)) j = (extended inp prev next j).val := by
  unfold extended
  rw [List.length_map]
  split
  · cases prev with
    | none => simp only [Option.map_none, getD_val, Fl.neg_val]
    | some p => simp only [Option.map_some, getD_val]
  · split
    · simp only [getD_val]
    · cases next with
      | none => simp only [Option.map_none, getD_val, Fl.neg_val]
      | some p => simp only [Option.map_some, getD_val]

theorem getD_double {l : List (Fl rnd)} {M : ℚ} (hM : 0 ≤ M) (h : ∀ x ∈ l, IsDouble x.val ∧ |x.val| ≤ M) (n : Nat) :
    IsDouble (l.getD n 0).val ∧ |(l.getD n 0).val| ≤ M := by
  rcases lt_or_ge n l.length with hn | hn
  · rw [getD_of_lt hn]
    exact h _ (List.getElem_mem hn)
  · rw [List.getD_eq_default _ _ hn]
    exact ⟨.zero, by simpa using hM⟩

theorem extended_double {inp q : List (Fl rnd)} {prev : Option (List (Fl rnd))} {M : ℚ} (hM : 0 ≤ M)
    (h1 : ∀ x ∈ inp, IsDouble x.val ∧ |x.val| ≤ M) (h2 : ∀ p, prev = some p → ∀ x ∈ p, IsDouble x.val ∧ |x.val| ≤ M)
    (h3 : ∀ x ∈ q, IsDouble x.val ∧ |x.val| ≤ M) (j : ℤ) :
    IsDouble (extended inp prev (some q) j).val ∧ |(extended inp prev (some q) j).val| ≤ M := by
  unfold extended
  split
  · cases prev with
    | none =>
      have := getD_double hM h1 (-j).toNat
      exact ⟨this.1.neg, by simpa using this.2⟩
    | some p => exact getD_double hM (h2 p rfl) _
  · split
    · exact getD_double hM h1 _
    · exact getD_double hM h3 _

/-- **C123, partial**: each mean is as close to the exact mean over the window as the roundings of all windows before it allow: the bound is relative to
the largest absolute value `M` of the whole input, and grows with the position. Missing: a bound by the values in the window
(`C123_moving_average_false`). -/
theorem C123_moving_average_partial (h : RoundsToNearest rnd) {inp out q : List (Fl rnd)} {prev : Option (List (Fl rnd))} {radius : Nat} {M : ℚ}
    (hw : 2 * radius + 1 ≤ inp.length) (h32 : inp.length < 4294967296) (hout : inp.length ≤ out.length)
    (hprev : ∀ p, prev = some p → p.length = inp.length) (hq : radius ≤ q.length)
    (h1 : ∀ x ∈ inp, IsDouble x.val ∧ |x.val| ≤ M) (h2 : ∀ p, prev = some p → ∀ x ∈ p, IsDouble x.val ∧ |x.val| ≤ M)
    (h3 : ∀ x ∈ q, IsDouble x.val ∧ |x.val| ≤ M) (hmax : (4 * radius + 6) * M ≤ doubleMax) :
    ∃ out', movingAverage inp inp.length prev (some q) radius out = .ok out' ∧ out'.length = out.length ∧
      (∀ i, i < inp.length → ∃ v, out'[i]? = some v ∧ IsDouble v.val ∧
        |v.val - windowMean (extended (inp.map Fl.val) (prev.map (·.map Fl.val)) (some (q.map Fl.val))) radius i| ≤
          (8 * (radius + i) + 2) * M / 2 ^ 53 + (2 : ℚ) ^ (-1075 : ℤ)) ∧
      ∀ i, inp.length ≤ i → out'[i]? = out[i]? := by
  have hM : 0 ≤ M := (abs_nonneg _).trans (h1 _ (List.getElem_mem (show 0 < inp.length by omega))).2
  set e := extended inp prev (some q) with he
  have hde : ∀ j, IsDouble (e j).val ∧ |(e j).val| ≤ M := extended_double hM h1 h2 h3
  have hval : ∀ j, extended (inp.map Fl.val) (prev.map (·.map Fl.val)) (some (q.map Fl.val)) j = (e j).val := extended_val inp prev (some q)
  have hneg : prev = none → ∀ x ∈ inp, x * -1 = -x := by
    intro _ x hx
    ext
    change rnd (x.val * -1) = -x.val
    rw [mul_neg_one, h.exact (h1 x hx).1.neg]
  have hmax' : (2 * ((2 * radius + 1 : Nat) : ℚ) + 4) * M ≤ doubleMax := by
    refine (le_of_eq ?_).trans hmax
    push_cast
    ring
  set W : ℚ := ((2 * radius + 1 : Nat) : ℚ) with hWdef
  have hW : 1 ≤ W := by
    rw [hWdef]
    exact_mod_cast (by omega : 1 ≤ 2 * radius + 1)
  -- the first sum
  have hfirst : ∃ n0, n0 ≤ radius ∧ IsDouble (averageFirst e prev radius).val ∧
      |(averageFirst e prev radius).val - windowSum (fun j => (e j).val) radius 0| ≤ n0 * (4 * (W + 1) * M / 2 ^ 53) := by
    cases hp : prev with
    | some p =>
      have := averageStart_error h (fun j => (hde j).1) (fun j => (hde j).2) (by omega) hmax' radius (le_refl _)
      exact ⟨radius, le_refl _, this.2, this.1⟩
    | none =>
      refine ⟨0, Nat.zero_le _, (hde 0).1, ?_⟩
      have hz : ∀ m, m ≤ radius → windowSum (fun j => (e j).val) m 0 = (e 0).val := by
        intro m
        induction m with
        | zero => intro _; simp [windowSum]
        | succ m ih =>
          intro hm
          rw [windowSum_zero_succ, ih (by omega)]
          have e1 : (e (-((m : ℤ) + 1))).val = -(inp.getD (m + 1) 0).val := by
            rw [he, hp, extended, if_pos (by omega)]
            have : (- -((m : ℤ) + 1)).toNat = m + 1 := by omega
            simp only [this, Fl.neg_val]
          have e2 : (e ((m : ℤ) + 1)).val = (inp.getD (m + 1) 0).val := by
            rw [he]
            unfold extended
            rw [if_neg (by omega), if_pos (by omega)]
            have : ((m : ℤ) + 1).toNat = m + 1 := by omega
            rw [this]
          rw [e1, e2]
          ring
      rw [hz radius (le_refl _), averageFirst]
      simp
  obtain ⟨n0, hn0, hsd, hse⟩ := hfirst
  have herr := averageSum_error h (fun j => (hde j).1) (fun j => (hde j).2) hmax' hsd hse
  set s := averageFirst e prev radius with hs
  have key := movingAverage_lawfree (o := fun i => out.getD i 0) hneg hw h32 hout hprev hq
  rw [← eq_tab out 0] at key
  refine ⟨_, key, tab_length, ?_, ?_⟩
  · intro i hi
    obtain ⟨b1, b2⟩ := herr i (by omega)
    refine ⟨_, by rw [tab_getElem?, if_pos (by omega), if_pos hi], ?_⟩
    rw [← he, ← hs]
    have hwin : windowMean (extended (inp.map Fl.val) (prev.map (·.map Fl.val)) (some (q.map Fl.val))) radius i =
        windowSum (fun j => (e j).val) radius i / W := by
      rw [windowMean, windowSum]
      simp only [hval]
      rfl
    rw [hwin]
    change IsDouble (rnd ((averageSum e radius s i).val / W)) ∧ _
    set a := (averageSum e radius s i).val with ha
    set w := windowSum (fun j => (e j).val) radius i with hw'
    have hww : |w| ≤ W * M := windowSum_le (fun j => (hde j).2) radius i
    have hWp : 0 < W := by linarith only [hW]
    have hhalf := average_bound_half hW hM (show n0 + i ≤ 2 ^ 40 by omega)
    have ea : |a| ≤ 3 / 2 * (W * M) := by
      have e1 := abs_add_le (a - w) w
      rw [sub_add_cancel] at e1
      linarith only [e1, b1, hhalf, hww]
    have eaW : |a / W| ≤ 3 / 2 * M := by
      rw [abs_div, abs_of_pos hWp, div_le_iff₀ hWp]
      linarith only [ea]
    have ham : |a / W| ≤ doubleMax := by
      have : 3 / 2 * M ≤ (4 * radius + 6) * M := by
        have h0 : (0 : ℚ) ≤ radius * M := mul_nonneg (Nat.cast_nonneg _) hM
        linarith only [h0, hM]
      linarith only [this, eaW, hmax]
    have eg := h.error_gen ham
    refine ⟨h.double _ ham, ?_⟩
    change |rnd (a / W) - w / W| ≤ _
    have ed : |a / W - w / W| ≤ ((n0 + i : Nat) : ℚ) * (8 * M / 2 ^ 53) := by
      rw [← sub_div, abs_div, abs_of_pos hWp, div_le_iff₀ hWp]
      refine b1.trans ?_
      rw [mul_assoc ((n0 + i : Nat) : ℚ)]
      refine mul_le_mul_of_nonneg_left ?_ (Nat.cast_nonneg _)
      have : M ≤ W * M := le_mul_of_one_le_left hM hW
      linarith only [this]
    have en : ((n0 + i : Nat) : ℚ) * (8 * M / 2 ^ 53) ≤ (radius + i) * (8 * M / 2 ^ 53) := by
      refine mul_le_mul_of_nonneg_right ?_ (by positivity)
      exact_mod_cast (by omega : n0 + i ≤ radius + i)
    have e1 := abs_add_le (-(a / W - rnd (a / W))) (a / W - w / W)
    rw [abs_neg, show -(a / W - rnd (a / W)) + (a / W - w / W) = rnd (a / W) - w / W by ring] at e1
    linarith only [e1, eg, ed, en, eaW, hM]
  · intro i hi
    rw [tab_getElem?, if_neg (show ¬ i < inp.length by omega)]
    by_cases h2 : i < out.length
    · rw [if_pos h2, getD_of_lt h2, List.getElem?_eq_getElem h2]
    · rw [if_neg h2, List.getElem?_eq_none (by omega)]

/-- The hypotheses are met: three values, the second one a third, rounded; without previous values, and with a following value. -/
example (h : RoundsToNearest rnd) : ∃ a b c : Fl rnd,
    movingAverage [⟨1⟩, ⟨rnd (1 / 3)⟩, ⟨2⟩] 3 none (some [⟨-1⟩]) 1 [0, 0, 0, ⟨7⟩] = .ok [a, b, c, ⟨7⟩] ∧ |b.val - (1 + rnd (1 / 3) + 2) / 3| ≤ 37 / 2 ^ 53 := by
  have h18 : (20 : ℚ) ≤ doubleMax := by
    have := le_doubleMax (e := 5) (by norm_num)
    norm_num at this
    linarith only [this]
  have hm : |(1 / 3 : ℚ)| ≤ doubleMax := by
    rw [abs_of_pos (by norm_num)]
    linarith only [h18]
  have d1 : IsDouble 1 := by simpa using isDouble_nat (n := 1) (by norm_num)
  have d2 : IsDouble 2 := by simpa using isDouble_nat (n := 2) (by norm_num)
  have r1 := h.abs_le hm d1 (by norm_num [abs_of_pos])
  obtain ⟨out, o1, o2, o3, o4⟩ := C123_moving_average_partial h (inp := [⟨1⟩, ⟨rnd (1 / 3)⟩, ⟨2⟩]) (out := [0, 0, 0, ⟨7⟩]) (q := [⟨-1⟩]) (prev := none)
    (radius := 1) (M := 2) (by simp) (by simp) (by simp) (by simp) (by simp)
    (by
      intro x hx
      simp only [List.mem_cons, List.not_mem_nil, or_false] at hx
      rcases hx with rfl | rfl | rfl
      · exact ⟨d1, by norm_num⟩
      · exact ⟨h.double _ hm, by linarith only [r1]⟩
      · exact ⟨d2, by norm_num⟩)
    (by simp)
    (by
      intro x hx
      simp only [List.mem_cons, List.not_mem_nil, or_false] at hx
      subst hx
      exact ⟨d1.neg, by norm_num⟩)
    (by push_cast; linarith only [h18])
  match out, o2 with
  | [a, b, c, d], _ =>
    have hd : d = ⟨7⟩ := by simpa using o4 3 (by simp)
    obtain ⟨v, v1, -, v2⟩ := o3 1 (by simp)
    have hv : b = v := by simpa using v1
    refine ⟨a, b, c, by subst hd; exact o1, ?_⟩
    have hw : windowMean (extended ([⟨1⟩, ⟨rnd (1 / 3)⟩, ⟨2⟩].map (Fl.val (rnd := rnd))) none (some ([⟨-1⟩].map (Fl.val (rnd := rnd))))) 1 ((1 : ℕ) : ℤ) =
        (1 + rnd (1 / 3) + 2) / 3 := by
      simp [windowMean, Finset.sum_range_succ, extended]
    rw [Option.map_none, hw, ← hv] at v2
    have hη : (2 : ℚ) ^ (-1075 : ℤ) ≤ 1 / 2 ^ 53 := by
      have : (2 : ℚ) ^ (-1075 : ℤ) ≤ (2 : ℚ) ^ (-53 : ℤ) := two_zpow_le (by norm_num)
      refine this.trans (le_of_eq ?_)
      norm_num
    push_cast at v2
    linarith only [v2, hη]

/-- **C123 is false** as a statement about the values in the window: with radius zero the exact result is the input, but after one large value
all following values come out as 0 instead of 1, however long the input is. -/
theorem C123_moving_average_false (h : RoundsToNearest rnd) (n : Nat) (hn : n + 1 < 4294967296) :
    (∀ i : ℕ, i < n + 1 → windowMean (extended ((2 ^ 60 : ℚ) :: List.replicate n 1) none (some [])) 0 i =
      ((2 ^ 60 : ℚ) :: List.replicate n 1).getD i 0) ∧
    movingAverage ((⟨2 ^ 60⟩ : Fl rnd) :: List.replicate n 1) (n + 1) none (some []) 0 (List.replicate (n + 1) 0) =
      .ok (⟨2 ^ 60⟩ :: List.replicate n 0) := by
  constructor
  · intro i hi
    rw [windowMean]
    simp only [Nat.mul_zero, Nat.zero_add, Finset.range_one, Finset.sum_singleton, Nat.cast_zero, Nat.cast_one, div_one, sub_zero, add_zero]
    rw [extended, if_neg (by omega), if_pos (by simp; omega), Int.toNat_natCast]
  · set inp : List (Fl rnd) := ⟨2 ^ 60⟩ :: List.replicate n 1 with hinp
    have hl : inp.length = n + 1 := by simp [hinp]
    have d60 : IsDouble (2 ^ 60) := ⟨1, 60, by norm_num, by norm_num, by norm_num, by norm_num⟩
    have d1 : IsDouble 1 := by simpa using isDouble_nat (n := 1) (by norm_num)
    have hneg : (none : Option (List (Fl rnd))) = none → ∀ x ∈ inp, x * -1 = -x := by
      intro _ x hx
      ext
      change rnd (x.val * -1) = -x.val
      rw [mul_neg_one]
      rw [hinp, List.mem_cons, List.mem_replicate] at hx
      rcases hx with rfl | ⟨_, rfl⟩
      · exact h.exact d60.neg
      · exact h.exact d1.neg
    have key := movingAverage_lawfree (prev := none) (q := []) (r := 0) (N := n + 1) (o := fun _ => 0) hneg (by omega) (by omega) (by omega)
      (by simp) (by simp)
    rw [hl] at key
    rw [tab_replicate, key]
    set e := extended inp none (some []) with he
    have e0 : e 0 = ⟨2 ^ 60⟩ := by
      rw [he, extended, if_neg (by omega), if_pos (by omega)]
      rfl
    have e1 : ∀ k : ℕ, k + 1 < n + 1 → e ((k : ℤ) + 1) = 1 := by
      intro k hk
      rw [he, extended, if_neg (by omega), if_pos (by omega), show ((k : ℤ) + 1).toNat = k + 1 by omega, hinp, List.getD_cons_succ,
        getD_of_lt (by simp; omega), List.getElem_replicate]
    have hr1 : rnd (2 ^ 60 + 1) = 2 ^ 60 := by
      have := h.eq_of (q := 2 ^ 60 + 1) (k := 59) (M := 2 ^ 53) (by norm_num) (by norm_num) (by norm_num)
        (by norm_num [abs_of_pos, abs_of_neg]) (by norm_num [abs_of_pos, abs_of_neg]) (by norm_num [abs_of_pos, abs_of_neg])
      rw [this]
      norm_num
    have hsum : ∀ k : ℕ, k + 1 < n + 1 → averageSum e 0 (averageFirst e none 0) (k + 1) = 0 := by
      intro k
      induction k with
      | zero =>
        intro hk
        have := e1 0 hk
        norm_num at this
        ext
        simp only [averageSum, averageFirst, Nat.cast_zero, zero_add, add_zero, sub_zero, e0, this]
        change rnd (rnd (2 ^ 60 + 1) - 2 ^ 60) = 0
        rw [hr1, sub_self, h.zero]
      | succ k ih =>
        intro hk
        have a1 := e1 (k + 1) (by omega)
        have a2 := e1 k (by omega)
        rw [averageSum, ih (by omega)]
        push_cast at a1 ⊢
        rw [add_zero, a1, sub_zero, a2]
        ext
        change rnd (rnd (0 + 1) - 1) = 0
        rw [zero_add, h.exact d1, sub_self, h.zero]
    refine congrArg Except.ok ?_
    apply List.ext_getElem?
    intro i
    rw [tab_getElem?]
    rcases lt_or_ge i (n + 1) with hi | hi
    · rw [if_pos hi, if_pos hi]
      cases i with
      | zero =>
        simp only [averageSum, averageFirst, e0, List.getElem?_cons_zero]
        refine congrArg some ?_
        ext
        change rnd (2 ^ 60 / ((2 * 0 + 1 : ℕ) : ℚ)) = 2 ^ 60
        rw [Nat.mul_zero, Nat.zero_add, Nat.cast_one, div_one, h.exact d60]
      | succ i =>
        rw [hsum i hi, List.getElem?_cons_succ, List.getElem?_replicate, if_pos (by omega)]
        refine congrArg some ?_
        ext
        change rnd (0 / ((2 * 0 + 1 : ℕ) : ℚ)) = 0
        rw [zero_div, h.zero]
    · rw [if_neg (by omega), List.getElem?_eq_none (by simp; omega)]

end Sp
