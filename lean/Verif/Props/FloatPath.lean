import Verif.Lemmas.FloatLine

/-!
# C120: lines of paths in floating point arithmetic

The result of each floating point operation is rounded to a nearest double (Spec/Float.lean).
-/

set_option linter.unusedSectionVars false

namespace Sp
variable {rnd : ℚ → ℚ}

/-- `out` goes from `y0` at position `x0` to `y1` at position `x1` (which is not included): it begins with exactly `y0`, never leaves the range between
`y0` and `y1`, does not turn back, and is as close to the straight line as a few roundings allow. -/
structure LineSamples (out : List ℚ) (x0 x1 : Nat) (y0 y1 : ℚ) : Prop where
  first : out[x0]? = some y0
  double : ∀ j v, x0 ≤ j → j < x1 → out[j]? = some v → IsDouble v
  between : ∀ j v, x0 ≤ j → j < x1 → out[j]? = some v → min y0 y1 ≤ v ∧ v ≤ max y0 y1
  monotone : ∀ i j v w, x0 ≤ i → i ≤ j → j < x1 → out[i]? = some v → out[j]? = some w → (y0 ≤ y1 → v ≤ w) ∧ (y1 ≤ y0 → w ≤ v)
  close : ∀ j v, x0 ≤ j → j < x1 → out[j]? = some v →
    |v - lineThrough x0 y0 x1 y1 j| ≤ 8 * max |y0| |y1| / 2 ^ 53 + (2 : ℚ) ^ (-1074 : ℤ)

private theorem pathX_point (length pc : Nat) (xs : List Nat) (y : Buf ℚ) (k : Nat) :
    (pathPoint length pc (xs.map Nat.cast) y k).x = (pathX length pc xs k : ℚ) := by
  rw [pathPoint, pathX]
  simp only
  split
  · simp
  · split
    · rfl
    · simp only [List.getD_eq_getElem?_getD, List.getElem?_map]
      cases xs[k - 1]? <;> simp

private theorem lineSamples_of {out : List ℚ} (h : RoundsToNearest rnd) {p q : Point} {A E : Nat} (hAE : A < E) (hlim : E < 4294967296)
    (hp : IsDouble p.y) (hq : IsDouble q.y) (hp4 : 4 * |p.y| ≤ doubleMax) (hq4 : 4 * |q.y| ≤ doubleMax)
    (hout : ∀ j, A ≤ j → j < E → out[j]? = some (lineValueR rnd p q A E j)) : LineSamples out A E p.y q.y := by
  have fr : ∀ j, A ≤ j → j < E → _ := fun j j1 j2 => fraction_bounds h (k := j - A) (n := E - A) (by omega) (by omega)
  refine ⟨?_, ?_, ?_, ?_, ?_⟩
  · rw [hout A (le_refl _) hAE, lineValueR, Nat.sub_self, Nat.cast_zero, zero_div, h.zero, lerp_zero h hp]
  · intro j v j1 j2 hv
    rw [hout j j1 j2, Option.some.injEq] at hv
    obtain ⟨f1, f2, _⟩ := fr j j1 j2
    rw [← hv, lineValueR, linearlyInterpolateR]
    rcases le_total p.y q.y with hab | hab
    · exact h.double _ (lerp_steps h hp hq hp4 hq4 hab f1 f2).2.2.2.2.1
    · have := (lerp_steps h.mirror hp.neg hq.neg (by rwa [abs_neg]) (by rwa [abs_neg]) (neg_le_neg hab) f1 f2).2.2.2.2.1
      refine h.double _ ?_
      rw [← abs_neg]
      refine le_trans (le_of_eq ?_) this
      simp only [mirror]
      rw [show -(-q.y - -p.y) = q.y - p.y by ring]
      congr 1
      rw [show ∀ t d : ℚ, -(t * -d) = t * d by intros; ring]
      ring
  · intro j v j1 j2 hv
    rw [hout j j1 j2, Option.some.injEq] at hv
    obtain ⟨f1, f2, _⟩ := fr j j1 j2
    rw [← hv]
    exact lerp_between h hp hq hp4 hq4 f1 f2
  · intro i j v w i1 ij j2 hv hw
    rw [hout i i1 (by omega), Option.some.injEq] at hv
    rw [hout j (by omega) j2, Option.some.injEq] at hw
    obtain ⟨f1, f2, _⟩ := fr i i1 (by omega)
    obtain ⟨g1, g2, _⟩ := fr j (by omega) j2
    have hn0 : (0 : ℚ) < ((E - A : Nat) : ℚ) := by exact_mod_cast (by omega : 0 < E - A)
    have hn1 : (1 : ℚ) ≤ ((E - A : Nat) : ℚ) := by exact_mod_cast (by omega : 1 ≤ E - A)
    have hq : ∀ m : Nat, m < E - A → |((m : Nat) : ℚ) / ((E - A : Nat) : ℚ)| ≤ doubleMax := by
      intro m hm
      have hm' : (m : ℚ) ≤ ((E - A : Nat) : ℚ) := by exact_mod_cast hm.le
      rw [abs_of_nonneg (by positivity)]
      refine le_trans ?_ (le_doubleMax (e := 0) (by norm_num))
      rw [zpow_zero]
      exact (div_le_one hn0).2 hm'
    have hle : ((i - A : Nat) : ℚ) / ((E - A : Nat) : ℚ) ≤ ((j - A : Nat) : ℚ) / ((E - A : Nat) : ℚ) := by
      refine div_le_div_of_nonneg_right ?_ hn0.le
      exact_mod_cast (by omega : i - A ≤ j - A)
    have hts := h.mono (hq _ (by omega)) (hq _ (by omega)) hle
    rw [← hv, ← hw]
    exact ⟨fun hab => lerp_mono_up h hp ‹_› hp4 hq4 hab f1 hts g2, fun hab => lerp_mono_down h hp ‹_› hp4 hq4 hab f1 hts g2⟩
  · intro j v j1 j2 hv
    rw [hout j j1 j2, Option.some.injEq] at hv
    obtain ⟨f1, f2, f3⟩ := fr j j1 j2
    have hn0 : (0 : ℚ) < ((E - A : Nat) : ℚ) := by exact_mod_cast (by omega : 0 < E - A)
    have hj : ((j - A : Nat) : ℚ) ≤ ((E - A : Nat) : ℚ) := by exact_mod_cast (by omega : j - A ≤ E - A)
    have hx0 : 0 ≤ ((j - A : Nat) : ℚ) / ((E - A : Nat) : ℚ) := by positivity
    rw [← hv, lineThrough, ← Nat.cast_sub j1, ← Nat.cast_sub hAE.le]
    exact lerp_error h hp hq hp4 hq4 f1 f2 hx0 ((div_le_one hn0).2 hj) f3 (le_max_left _ _) (le_max_right _ _)

/-- **C120.** `sp_path_samples` without curvature, computed with doubles: between each two points the samples begin with exactly the y of the first
point, stay between the two y, go in one direction only, and differ from the straight line by at most about 2^-50 times the larger y. -/
theorem C120_path_samples (h : RoundsToNearest rnd) (curves : Generator) {length pc : Nat} {xs : List Nat} {y : Buf ℚ} {c : Option (Buf ℚ)}
    (h2 : 2 ≤ pc) (h24 : pc ≤ 24) (hx : pc - 2 ≤ xs.length) (hy : pc ≤ y.length) (hc : NoCurve c pc) (hlen : length < 4294967296)
    (hinc : ∀ k, k + 1 < pc → pathX length pc xs k < pathX length pc xs (k + 1)) (hd : ∀ v ∈ y, IsDouble v ∧ 4 * |v| ≤ doubleMax) :
    ∃ out, pathSamplesBy (generateR rnd curves) length pc (xs.map Nat.cast) y c = .ok out ∧ out.length = length ∧
      ∀ k, k + 1 < pc → LineSamples out (pathX length pc xs k) (pathX length pc xs (k + 1)) (y.getD k 0) (y.getD (k + 1) 0) := by
  have e := pathSamplesR_eq h curves h2 h24 (x := xs.map Nat.cast) (by simpa using hx) hy hc hlen
    (fun k _ => pathX_point length pc xs y k) hinc
  refine ⟨_, e, by simp, ?_⟩
  have hup : ∀ n k, k + n = pc - 1 → pathX length pc xs k ≤ length := by
    intro n
    induction n with
    | zero =>
      intro k hk
      rw [pathX, if_neg (by omega), if_pos (by omega)]
    | succ n ih =>
      intro k hk
      have := ih (k + 1) (by omega)
      have := hinc k (by omega)
      omega
  intro k hk
  have hk1 := hup (pc - 1 - (k + 1)) (k + 1) (by omega)
  have m1 : y.getD k 0 ∈ y := by rw [getD_of_lt (show k < List.length y by omega)]; exact List.getElem_mem _
  have m2 : y.getD (k + 1) 0 ∈ y := by rw [getD_of_lt (show k + 1 < List.length y by omega)]; exact List.getElem_mem _
  refine lineSamples_of h (p := pathPoint length pc (xs.map Nat.cast) y k) (q := pathPoint length pc (xs.map Nat.cast) y (k + 1)) (hinc k hk) (by omega)
    (hd _ m1).1 (hd _ m2).1 (hd _ m1).2 (hd _ m2).2 ?_
  intro j j1 j2
  rw [tab_getElem?, if_pos (by omega), pathValueR_eq (k := k) (fun k hk => hinc k (by omega)) (by omega) j1 j2]

/-- The hypotheses are met, and the values of the end points are not reached or passed by rounding: from 0 up to 1/3, rounded, and down to -1. -/
example (h : RoundsToNearest rnd) (curves : Generator) :
    ∃ out, pathSamplesBy (generateR rnd curves) 10 3 [3] [0, rnd (1 / 3), -1] none = .ok out ∧ LineSamples out 0 3 0 (rnd (1 / 3)) ∧
      LineSamples out 3 10 (rnd (1 / 3)) (-1) := by
  have h1m : (1 : ℚ) ≤ doubleMax / 4 := by
    have := le_doubleMax (e := 2) (by norm_num)
    norm_num at this
    linarith
  have hm : |(1 / 3 : ℚ)| ≤ doubleMax := by norm_num [abs_of_pos]; linarith
  have hr := h.abs_le hm (isDouble_nat (n := 1) (by norm_num)) (by norm_num [abs_of_pos])
  norm_num at hr
  obtain ⟨out, o1, _, o3⟩ := C120_path_samples h curves (length := 10) (pc := 3) (xs := [3]) (y := [0, rnd (1 / 3), -1]) (c := none) (by norm_num) (by norm_num)
    (by simp) (by simp) (.inl rfl) (by norm_num)
    (by
      intro k hk
      rcases (by omega : k = 0 ∨ k = 1) with rfl | rfl <;> simp [pathX])
    (by
      intro v hv
      simp only [List.mem_cons, List.not_mem_nil, or_false] at hv
      rcases hv with rfl | rfl | rfl
      · exact ⟨.zero, by simp; linarith⟩
      · exact ⟨h.double _ hm, by linarith⟩
      · exact ⟨by simpa using (isDouble_nat (n := 1) (by norm_num)).neg, by simp; linarith⟩)
  have a1 := o3 0 (by norm_num)
  have a2 := o3 1 (by norm_num)
  simp only [pathX] at a1 a2
  exact ⟨out, by simpa using o1, by simpa using a1, by simpa using a2⟩

end Sp
