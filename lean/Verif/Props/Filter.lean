import Verif.Lemmas.Filter

/-! # Impulse responses: C07, C08, C93, C94 -/

set_option linter.unusedSectionVars false

namespace Sp

/-! ### C07 -/

/-- C07, inversion: the frequency response becomes that of a pure delay minus the original response, and the inversion of the result
is the original kernel. -/
theorem C07_inversion {a : List ℝ} (hodd : a.length % 2 = 1) (h32 : a.length < 4294967296) :
    ∃ b, spectralInversion a a.length = .ok b ∧ b.length = a.length ∧
      (∀ f, response b f = delayResponse ((a.length - 1) / 2) f - response a f) ∧
      (Symmetric a → Symmetric b) ∧ spectralInversion b b.length = .ok a := by
  generalize hn : a.length = n at *
  have ha : a = tab n fun i => a.getD i 0 := by rw [← hn]; exact eq_tab a 0
  generalize hg : (fun i => a.getD i 0) = g at *
  refine ⟨tab n fun k => if k = (n - 1) / 2 then -g k + 1 else -g k, ?_, tab_length, ?_, ?_, ?_⟩
  · rw [ha]
    exact spectralInversion_tab (by omega) h32
  · intro f
    rw [ha, response_tab, response_tab, delayResponse_eq]
    have e : ∀ t, (((if t = (n - 1) / 2 then -g t + 1 else -g t : ℝ)) : ℂ) * fexp f ^ t =
        (if t = (n - 1) / 2 then fexp f ^ t else 0) - (g t : ℂ) * fexp f ^ t := by
      intro t
      split_ifs
      · push_cast; ring
      · push_cast; ring
    simp only [e]
    rw [Finset.sum_sub_distrib, Finset.sum_ite_eq', if_pos (Finset.mem_range.2 (by omega))]
  · intro hs
    refine symmetric_tab fun i hi => ?_
    have := hs i (by omega)
    rw [ha, tab_length, tab_getElem?, tab_getElem?, if_pos hi, if_pos (by omega)] at this
    injection this with this
    rw [← this]
    by_cases h : i = (n - 1) / 2
    · rw [if_pos h, if_pos (by omega)]
    · rw [if_neg h, if_neg (by omega)]
  · rw [tab_length, spectralInversion_tab (by omega) h32, ha]
    congr 1
    refine tab_congr fun k _ => ?_
    split_ifs
    · ring
    · ring

/-- C07, reversal: the frequency response is mirrored at a quarter of the sampling rate (complex conjugated, as for every real signal
with time running in the same direction), elements at odd indices are negated and the others unchanged, and the reversal of the
result is the original kernel. -/
theorem C07_reversal {a : List ℝ} (hodd : a.length % 2 = 1) :
    ∃ b, spectralReversal a a.length = .ok b ∧ b.length = a.length ∧
      (∀ f, response b f = (starRingEnd ℂ) (response a (1 / 2 - f))) ∧
      (∀ i, i < a.length → b.getD i 0 = if i % 2 = 1 then -a.getD i 0 else a.getD i 0) ∧
      spectralReversal b b.length = .ok a := by
  generalize hn : a.length = n at *
  have ha : a = tab n fun i => a.getD i 0 := by rw [← hn]; exact eq_tab a 0
  generalize hg : (fun i => a.getD i 0) = g at *
  have hg' : ∀ i, a.getD i 0 = g i := fun i => congrFun hg i
  have hc : ∀ k, (k < n ∧ (n - k) % 2 = 0) ↔ (k < n ∧ k % 2 = 1) := by intro k; omega
  refine ⟨tab n fun k => if k < n ∧ (n - k) % 2 = 0 then -g k else g k, ?_, tab_length, ?_, ?_, ?_⟩
  · rw [ha]
    exact spectralReversal_tab n le_rfl
  · intro f
    rw [ha, response_tab, response_tab, map_sum]
    refine Finset.sum_congr rfl fun t ht => ?_
    have ht' := Finset.mem_range.1 ht
    rw [map_mul, map_pow, conj_fexp, Complex.conj_ofReal, neg_sub, sub_eq_add_neg, fexp_add, mul_pow, fexp_neg_half_pow]
    by_cases h : t % 2 = 1
    · rw [if_pos ((hc t).2 ⟨ht', h⟩), Odd.neg_one_pow (Nat.odd_iff.2 h)]
      push_cast
      ring
    · rw [if_neg (by omega), Even.neg_one_pow (Nat.even_iff.2 (by omega))]
      ring
  · intro i hi
    rw [getD_tab, if_pos hi, hg']
    exact if_congr (by omega) rfl rfl
  · rw [tab_length, spectralReversal_tab n le_rfl, ha]
    congr 1
    refine tab_congr fun k _ => ?_
    split_ifs
    · ring
    · rfl

/-- A kernel with three elements. -/
example : spectralInversion [(1 : ℚ) / 4, 1 / 2, 1 / 4] 3 = .ok [-1 / 4, 1 / 2, -1 / 4] ∧
    spectralReversal [(1 : ℚ) / 4, 1 / 2, 1 / 4, 2, 5] 5 = .ok [1 / 4, -1 / 2, 1 / 4, -2, 5] := by decide +kernel

/-! ### C08 -/

theorem lp_facts {junk c t : ℝ} {hp : Bool} {ir : Buf ℝ} (h : lpHpIr junk c t hp = .ok ir) :
    ∃ n g, ir = tab n g ∧ 3 ≤ n ∧ n < 4294967296 ∧ n % 2 = 1 ∧ 4 / t ≤ n ∧ (n : ℝ) < max (4 / t) 0 + 2 ∧ irLength t = .ok n ∧
      (∀ i, i < n → g i = g (n - 1 - i)) ∧ ∑ i ∈ Finset.range n, g i = if hp then 0 else 1 := by
  obtain ⟨n, hl, h3, h32, hodd, h0, rfl⟩ := lpHpIr_ok h
  have hk := irLength_ok hl
  refine ⟨n, _, rfl, h3, h32, hodd, hk.2.2.1, hk.2.2.2, hl, ?_, ?_⟩
  · intro i hi
    rw [sincKernel_symm hi h3]
    cases hp
    · rfl
    · simp only [if_true]
      by_cases h : i = (n - 1) / 2
      · rw [if_pos h, if_pos (by omega)]
      · rw [if_neg h, if_neg (by omega)]
  · have hone : ∑ i ∈ Finset.range n, sincKernel c n i / kernelSum c n = 1 := by
      simp only [div_eq_mul_inv]
      rw [← Finset.sum_mul]
      exact mul_inv_cancel₀ h0
    cases hp
    · simpa using hone
    · simp only [if_true]
      have e : ∀ k, (if k = (n - 1) / 2 then -(sincKernel c n k / kernelSum c n) + 1 else -(sincKernel c n k / kernelSum c n)) =
          (if k = (n - 1) / 2 then (1 : ℝ) else 0) - sincKernel c n k / kernelSum c n := by
        intro k
        split_ifs <;> ring
      simp only [e]
      rw [Finset.sum_sub_distrib, Finset.sum_ite_eq', if_pos (Finset.mem_range.2 (by omega)), hone, sub_self]

/-- C08, low-pass: whenever a kernel is created (in particular no division by zero), its length is odd and at least
`4 / transition`, it is symmetric, and its sum is one. -/
theorem C08_low_pass {junk cutoff transition : ℝ} {ir : List ℝ} (h : lpHpIr junk cutoff transition false = .ok ir) :
    Odd ir.length ∧ 4 / transition ≤ ir.length ∧ Symmetric ir ∧ ir.sum = 1 := by
  obtain ⟨n, g, rfl, h3, h32, hodd, h4, _, _, hs, hsum⟩ := lp_facts h
  rw [tab_length, sum_tab]
  exact ⟨Nat.odd_iff.2 hodd, h4, symmetric_tab hs, by simpa using hsum⟩

/-- C08, high-pass: the same, and the sum is zero; the length is the length of the low-pass kernel for the same transition. -/
theorem C08_high_pass {junk cutoff transition : ℝ} {ir : List ℝ} (h : lpHpIr junk cutoff transition true = .ok ir) :
    Odd ir.length ∧ 4 / transition ≤ ir.length ∧ Symmetric ir ∧ ir.sum = 0 ∧
      ∀ cutoff' ir', lpHpIr junk cutoff' transition false = .ok ir' → ir'.length = ir.length := by
  obtain ⟨n, g, rfl, h3, h32, hodd, h4, _, hl, hs, hsum⟩ := lp_facts h
  rw [tab_length, sum_tab]
  refine ⟨Nat.odd_iff.2 hodd, h4, symmetric_tab hs, by simpa using hsum, ?_⟩
  intro c' ir' h'
  obtain ⟨n', g', rfl, _, _, _, _, _, hl', _, _⟩ := lp_facts h'
  rw [hl] at hl'
  injection hl' with hl'
  rw [tab_length, hl']

/-- C08: the kernels exist at least for all cutoffs for which the sinc has no sign change inside of the window. -/
theorem C08_defined (junk : ℝ) {cutoff transition : ℝ} (hp : Bool) (h0 : 0 < transition) (h4 : transition < 4)
    (h32 : 4 / transition ≤ 4294967295) (hc : |cutoff| * (4 / transition + 1) ≤ 1) :
    ∃ ir, lpHpIr junk cutoff transition hp = .ok ir := by
  have hx : 1 < 4 / transition := by rw [lt_div_iff₀ h0]; linarith
  have hcl : ⌈4 / transition⌉ ≤ 4294967295 := Int.ceil_le.2 (by exact_mod_cast h32)
  have hcl1 : 1 < ⌈4 / transition⌉ := Int.lt_ceil.2 (by exact_mod_cast hx)
  obtain ⟨len, hl⟩ : ∃ len, irLength transition = .ok len := by
    rw [irLength, divOf, if_neg (ne_of_gt h0)]
    simp only [ok_bind']
    rw [ceilTime_real, timeOfSample, if_neg]
    · exact ⟨_, rfl⟩
    · rintro (h | h)
      · have : ⌈4 / transition⌉ ≤ -1 := by exact_mod_cast h
        omega
      · have : (4294967296 : ℤ) ≤ ⌈4 / transition⌉ := by exact_mod_cast h
        omega
  obtain ⟨hodd, hlt, hge, hub⟩ := irLength_ok hl
  have h3 : 3 ≤ len := by
    have : (1 : ℝ) < len := by linarith
    have : 1 < len := by exact_mod_cast this
    omega
  have hpos := kernelSum_pos (c := cutoff) h3 hodd (by
    rw [max_eq_left (by linarith)] at hub
    have : |cutoff| * ((len : ℝ) - 1) ≤ |cutoff| * (4 / transition + 1) :=
      mul_le_mul_of_nonneg_left (by linarith) (abs_nonneg _)
    linarith)
  rw [lpHpIr_eq hl h3 hlt, if_neg (ne_of_gt hpos)]
  cases hp <;> exact ⟨_, rfl⟩

/-- A transition of a half: the kernel exists for a cutoff of a tenth of the sampling rate. -/
example : ∃ ir, lpHpIr 7 0.1 0.5 true = .ok ir ∧ Odd ir.length ∧ 8 ≤ (ir.length : ℝ) ∧ Symmetric ir ∧ ir.sum = 0 := by
  obtain ⟨ir, h⟩ := C08_defined 7 (cutoff := 0.1) (transition := 0.5) true (by norm_num) (by norm_num) (by norm_num)
    (by rw [abs_of_pos (by norm_num)]; norm_num)
  have := C08_high_pass h
  refine ⟨ir, h, this.1, ?_, this.2.2.1, this.2.2.2.1⟩
  have h4 := this.2.1
  norm_num at h4
  exact_mod_cast h4

theorem bpBr_reject {junk cl ch tl th : ℝ} {ir : List ℝ} {k : Nat} (h0 : 0 < cl) (h1 : ch < 1 / 2)
    (h : bpBrIr junk cl ch tl th true = .ok (ir, k)) :
    ∃ lp hp, lpHpIr junk cl tl false = .ok lp ∧ lpHpIr junk ch th true = .ok hp ∧ irAdd lp hp = .ok ir ∧ k = 1 := by
  rw [bpBrIr, if_pos rfl, if_neg (by simpa using h0), if_neg (by rw [not_le]; norm_num; linarith)] at h
  cases e1 : lpHpIr junk cl tl false with
  | error e => rw [e1] at h; cases h
  | ok lp =>
    rw [e1] at h
    cases e2 : lpHpIr junk ch th true with
    | error e => rw [e2] at h; cases h
    | ok hp =>
      rw [e2] at h
      cases e3 : irAdd lp hp with
      | error e => simp only [ok_bind', e3] at h; cases h
      | ok out =>
        simp only [ok_bind', e3, pure_eq_ok] at h
        injection h with h
        injection h with h4 h5
        subst h4
        exact ⟨lp, hp, rfl, rfl, e3, h5.symm⟩

theorem bpBr_pass {junk cl ch tl th : ℝ} {ir : List ℝ} {k : Nat} (h0 : 0 < cl) (h1 : ch < 1 / 2)
    (h : bpBrIr junk cl ch tl th false = .ok (ir, k)) :
    ∃ lp hp, lpHpIr junk ch th false = .ok lp ∧ lpHpIr junk cl tl true = .ok hp ∧
      convolveOne lp lp.length hp hp.length (List.replicate (sub32 (u32 (lp.length + hp.length)) 1) 0) = .ok ir ∧ k = 3 := by
  rw [bpBrIr, if_neg (by simp), if_neg (by simpa using h0), if_neg (by rw [not_le]; norm_num; linarith)] at h
  cases e1 : lpHpIr junk cl tl true with
  | error e => rw [e1] at h; cases h
  | ok hp =>
    rw [e1] at h
    cases e2 : lpHpIr junk ch th false with
    | error e => rw [e2] at h; cases h
    | ok lp =>
      rw [e2] at h
      simp only [ok_bind'] at h
      cases e3 : convolveOne lp lp.length hp hp.length (List.replicate (sub32 (u32 (lp.length + hp.length)) 1) 0) with
      | error e => rw [e3] at h; cases h
      | ok out =>
        rw [e3] at h
        simp only [ok_bind', pure_eq_ok] at h
        injection h with h
        injection h with h4 h5
        subst h4
        exact ⟨lp, hp, rfl, rfl, e3, h5.symm⟩

/-- C93, band-reject: with both cutoffs inside of the range, the response is the sum of the responses of the low-pass kernel for the
lower and of the high-pass kernel for the higher cutoff, the shorter one delayed so that the centers are aligned. -/
theorem C93_band_reject_response {junk cl ch tl th : ℝ} {ir : List ℝ} {k : Nat} (h0 : 0 < cl) (h1 : ch < 1 / 2)
    (h : bpBrIr junk cl ch tl th true = .ok (ir, k)) :
    ∃ lp hp, lpHpIr junk cl tl false = .ok lp ∧ lpHpIr junk ch th true = .ok hp ∧ ir.length = max lp.length hp.length ∧
      ∀ f, response ir f = delayResponse ((ir.length - lp.length) / 2) f * response lp f +
        delayResponse ((ir.length - hp.length) / 2) f * response hp f := by
  obtain ⟨lp, hp, e1, e2, e3, _⟩ := bpBr_reject h0 h1 h
  refine ⟨lp, hp, e1, e2, ?_⟩
  obtain ⟨n, g, rfl, h3, h32, hodd, _⟩ := lp_facts e1
  obtain ⟨n', g', rfl, h3', h32', hodd', _⟩ := lp_facts e2
  rw [irAdd_tab h32 h32' (by omega) (by omega)] at e3
  by_cases hc : n > n'
  · rw [if_pos hc] at e3
    injection e3 with e3
    subst e3
    rw [tab_length, tab_length, tab_length]
    refine ⟨by omega, fun f => ?_⟩
    rw [response_addMiddle (by omega), Nat.sub_self, show (n - 1) / 2 - (n' - 1) / 2 = (n - n') / 2 by omega, delayResponse_eq 0]
    simp
  · rw [if_neg hc] at e3
    injection e3 with e3
    subst e3
    rw [tab_length, tab_length, tab_length]
    refine ⟨by omega, fun f => ?_⟩
    rw [response_addMiddle (by omega), Nat.sub_self, show (n' - 1) / 2 - (n - 1) / 2 = (n' - n) / 2 by omega, delayResponse_eq 0]
    simp [add_comm]

theorem pass_facts {junk cl ch tl th : ℝ} {ir : List ℝ} {k : Nat} (h0 : 0 < cl) (h1 : ch < 1 / 2)
    (hl : 4 / tl ≤ 1073741824) (hh : 4 / th ≤ 1073741824)
    (h : bpBrIr junk cl ch tl th false = .ok (ir, k)) :
    ∃ n g n' g', lpHpIr junk ch th false = .ok (tab n g) ∧ lpHpIr junk cl tl true = .ok (tab n' g') ∧
      0 < n ∧ n % 2 = 1 ∧ n' % 2 = 1 ∧ (∀ i, i < n → g i = g (n - 1 - i)) ∧ (∀ i, i < n' → g' i = g' (n' - 1 - i)) ∧
      ir = tab (n + n' - 1) fun k => ∑ i ∈ Finset.range n, if i ≤ k then g i * (tab n' g').getD (k - i) 0 else 0 := by
  obtain ⟨lp, hp, e1, e2, e3, _⟩ := bpBr_pass h0 h1 h
  obtain ⟨n, g, rfl, h3, h32, hodd, _, hub, _, hs, _⟩ := lp_facts e1
  obtain ⟨n', g', rfl, h3', h32', hodd', _, hub', _, hs', _⟩ := lp_facts e2
  have b1 : n < 1073741826 := by
    have : (n : ℝ) < 1073741826 := lt_of_lt_of_le hub (by
      have : max (4 / th) 0 ≤ 1073741824 := max_le hh (by norm_num)
      linarith)
    exact_mod_cast this
  have b2 : n' < 1073741826 := by
    have : (n' : ℝ) < 1073741826 := lt_of_lt_of_le hub' (by
      have : max (4 / tl) 0 ≤ 1073741824 := max_le hl (by norm_num)
      linarith)
    exact_mod_cast this
  rw [tab_length, tab_length, u32_of_lt (by omega), sub32_of_le (by omega) (by omega),
    convolveOne_kernel (by omega) (by omega)] at e3
  injection e3 with e3
  exact ⟨n, g, n', g', e1, e2, by omega, hodd, hodd', hs, hs', e3.symm⟩

/-- C93, band-pass: with both cutoffs inside of the range (and lengths that fit in 32 bits), the response is the product of the
response of the low-pass kernel for the higher and of the high-pass kernel for the lower cutoff. -/
theorem C93_band_pass_response {junk cl ch tl th : ℝ} {ir : List ℝ} {k : Nat} (h0 : 0 < cl) (h1 : ch < 1 / 2)
    (hl : 4 / tl ≤ 1073741824) (hh : 4 / th ≤ 1073741824)
    (h : bpBrIr junk cl ch tl th false = .ok (ir, k)) :
    ∃ lp hp, lpHpIr junk ch th false = .ok lp ∧ lpHpIr junk cl tl true = .ok hp ∧ ir.length = lp.length + hp.length - 1 ∧
      ∀ f, response ir f = response lp f * response hp f := by
  obtain ⟨n, g, n', g', e1, e2, hn, _, _, _, _, rfl⟩ := pass_facts h0 h1 hl hh h
  refine ⟨_, _, e1, e2, by rw [tab_length, tab_length, tab_length], fun f => ?_⟩
  rw [response_tab, response_tab, response_tab]
  exact convolve_response (fexp f) hn

/-- C08, band-reject: odd length, symmetric, sum one. -/
theorem C08_band_reject {junk cl ch tl th : ℝ} {ir : List ℝ} {k : Nat} (h0 : 0 < cl) (h1 : ch < 1 / 2)
    (h : bpBrIr junk cl ch tl th true = .ok (ir, k)) :
    Odd ir.length ∧ 4 / tl ≤ ir.length ∧ 4 / th ≤ ir.length ∧ Symmetric ir ∧ ir.sum = 1 := by
  have hr := C93_band_reject_response h0 h1 h
  obtain ⟨lp, hp, e1, e2, e3, _⟩ := bpBr_reject h0 h1 h
  obtain ⟨lp', hp', e1', e2', hlen, hr⟩ := hr
  rw [e1] at e1'
  rw [e2] at e2'
  injection e1' with e1'
  injection e2' with e2'
  subst e1' e2'
  have hl := C08_low_pass e1
  have hh := C08_high_pass e2
  have hsum : ir.sum = 1 := by
    have := hr 0
    rw [response_zero, response_zero, response_zero, hl.2.2.2, hh.2.2.2.1, delayResponse_eq, delayResponse_eq, fexp_zero] at this
    simp at this
    exact_mod_cast this
  have b1 : (lp.length : ℝ) ≤ ir.length := by rw [hlen]; exact_mod_cast le_max_left _ _
  have b2 : (hp.length : ℝ) ≤ ir.length := by rw [hlen]; exact_mod_cast le_max_right _ _
  refine ⟨?_, hl.2.1.trans b1, hh.2.1.trans b2, ?_, hsum⟩
  · rw [hlen]
    rcases max_choice lp.length hp.length with hm | hm
    · rw [hm]; exact hl.1
    · rw [hm]; exact hh.1
  · obtain ⟨n, g, rfl, h3, h32, hodd, _, _, _, hs, _⟩ := lp_facts e1
    obtain ⟨n', g', rfl, h3', h32', hodd', _, _, _, hs', _⟩ := lp_facts e2
    rw [irAdd_tab h32 h32' (by omega) (by omega)] at e3
    by_cases hc : n > n'
    · rw [if_pos hc] at e3
      injection e3 with e3
      subst e3
      exact symmetric_tab (addMiddle_symm (by omega) hodd hodd' hs hs')
    · rw [if_neg hc] at e3
      injection e3 with e3
      subst e3
      exact symmetric_tab (addMiddle_symm (by omega) hodd' hodd hs' hs)

/-- C08, band-pass: odd length, symmetric, sum zero. -/
theorem C08_band_pass {junk cl ch tl th : ℝ} {ir : List ℝ} {k : Nat} (h0 : 0 < cl) (h1 : ch < 1 / 2)
    (hl : 4 / tl ≤ 1073741824) (hh : 4 / th ≤ 1073741824)
    (h : bpBrIr junk cl ch tl th false = .ok (ir, k)) :
    Odd ir.length ∧ Symmetric ir ∧ ir.sum = 0 := by
  obtain ⟨lp, hp, e1, e2, _, hr⟩ := C93_band_pass_response h0 h1 hl hh h
  have hsum : ir.sum = 0 := by
    have := hr 0
    rw [response_zero, response_zero, response_zero, (C08_high_pass e2).2.2.2.1] at this
    simp at this
    exact_mod_cast this
  obtain ⟨n, g, n', g', _, _, hn, hodd, hodd', hs, hs', rfl⟩ := pass_facts h0 h1 hl hh h
  refine ⟨?_, symmetric_tab (convolve_symm hn hs hs'), hsum⟩
  rw [tab_length, Nat.odd_iff]
  omega

/-- C08, cutoffs outside of the range: nothing is rejected or passed on that side. -/
theorem C08_band_edges (junk cl ch tl th : ℝ) :
    (cl ≤ 0 → 1 / 2 ≤ ch → bpBrIr junk cl ch tl th true = .ok ([0], 1) ∧ bpBrIr junk cl ch tl th false = .ok ([1], 1)) ∧
    (cl ≤ 0 → ch < 1 / 2 → ∀ ir, lpHpIr junk ch th true = .ok ir → bpBrIr junk cl ch tl th true = .ok (ir, 1)) ∧
    (cl ≤ 0 → ch < 1 / 2 → ∀ ir, lpHpIr junk ch th false = .ok ir → bpBrIr junk cl ch tl th false = .ok (ir, 1)) ∧
    (0 < cl → 1 / 2 ≤ ch → ∀ ir, lpHpIr junk cl tl false = .ok ir → bpBrIr junk cl ch tl th true = .ok (ir, 1)) ∧
    (0 < cl → 1 / 2 ≤ ch → ∀ ir, lpHpIr junk cl tl true = .ok ir → bpBrIr junk cl ch tl th false = .ok (ir, 1)) := by
  have e : (0.5 : ℝ) = 1 / 2 := by norm_num
  refine ⟨fun h1 h2 => ⟨?_, ?_⟩, fun h1 h2 ir h => ?_, fun h1 h2 ir h => ?_, fun h1 h2 ir h => ?_, fun h1 h2 ir h => ?_⟩
  · rw [bpBrIr, if_pos rfl, if_pos h1, e, if_pos h2]
  · rw [bpBrIr, if_neg (by simp), if_pos h1, e, if_pos h2]
  · rw [bpBrIr, if_pos rfl, if_pos h1, e, if_neg (not_le.2 h2), h]; rfl
  · rw [bpBrIr, if_neg (by simp), if_pos h1, e, if_neg (not_le.2 h2), h]; rfl
  · rw [bpBrIr, if_pos rfl, if_neg (not_le.2 h1), e, if_pos h2, h]; rfl
  · rw [bpBrIr, if_neg (by simp), if_neg (not_le.2 h1), e, if_pos h2, h]; rfl

/-- Band-pass and band-reject kernels exist. -/
theorem band_example : (∃ ir k, bpBrIr (7 : ℝ) 0.05 0.09 0.5 0.4 true = .ok (ir, k)) ∧ ∃ ir k, bpBrIr (7 : ℝ) 0.05 0.09 0.5 0.4 false = .ok (ir, k) := by
  have h1 : ∀ b, ∃ ir, lpHpIr (7 : ℝ) 0.05 0.5 b = .ok ir := fun b =>
    C08_defined 7 b (by norm_num) (by norm_num) (by norm_num) (by rw [abs_of_pos (by norm_num)]; norm_num)
  have h2 : ∀ b, ∃ ir, lpHpIr (7 : ℝ) 0.09 0.4 b = .ok ir := fun b =>
    C08_defined 7 b (by norm_num) (by norm_num) (by norm_num) (by rw [abs_of_pos (by norm_num)]; norm_num)
  constructor
  · obtain ⟨lp, e1⟩ := h1 false
    obtain ⟨hp, e2⟩ := h2 true
    rw [bpBrIr, if_pos rfl, if_neg (by norm_num), if_neg (by norm_num), e1, e2]
    simp only [ok_bind']
    obtain ⟨n, g, rfl, h3, h32, _⟩ := lp_facts e1
    obtain ⟨n', g', rfl, h3', h32', _⟩ := lp_facts e2
    rw [irAdd_tab h32 h32' (by omega) (by omega)]
    by_cases hc : n > n'
    · rw [if_pos hc]; exact ⟨_, _, rfl⟩
    · rw [if_neg hc]; exact ⟨_, _, rfl⟩
  · obtain ⟨hp, e1⟩ := h1 true
    obtain ⟨lp, e2⟩ := h2 false
    rw [bpBrIr, if_neg (by simp), if_neg (by norm_num), if_neg (by norm_num), e1, e2]
    simp only [ok_bind']
    obtain ⟨n, g, rfl, h3, h32, _, _, hu, _⟩ := lp_facts e1
    obtain ⟨n', g', rfl, h3', h32', _, _, hu', _⟩ := lp_facts e2
    have b1 : n < 10 := by
      norm_num at hu
      exact_mod_cast hu
    have b2 : n' < 12 := by
      norm_num at hu'
      exact_mod_cast hu'
    rw [tab_length, tab_length, u32_of_lt (by omega), sub32_of_le (by omega) (by omega), convolveOne_kernel (by omega) (by omega)]
    exact ⟨_, _, rfl⟩

/-- Cutoffs and transitions that meet the hypotheses for band-reject. -/
example : ∃ ir k, bpBrIr (7 : ℝ) 0.05 0.09 0.5 0.4 true = .ok (ir, k) ∧ ir.sum = 1 := by
  obtain ⟨ir, k, h⟩ := band_example.1
  exact ⟨ir, k, h, (C08_band_reject (by norm_num) (by norm_num) h).2.2.2.2⟩

/-- And for band-pass. -/
example : ∃ ir k, bpBrIr (7 : ℝ) 0.05 0.09 0.5 0.4 false = .ok (ir, k) ∧ ir.sum = 0 := by
  obtain ⟨ir, k, h⟩ := band_example.2
  exact ⟨ir, k, h, (C08_band_pass (by norm_num) (by norm_num) (by norm_num) (by norm_num) h).2.2⟩

/-! ### C94 -/

/-- C94 is false: a band-pass kernel leaves the two arrays it is calculated from allocated, for all cutoffs inside of the range. -/
theorem C94_band_pass_leak_false {junk cl ch tl th : ℝ} {ir : List ℝ} {k : Nat} (h0 : 0 < cl) (h1 : ch < 1 / 2)
    (h : bpBrIr junk cl ch tl th false = .ok (ir, k)) : k = 3 := by
  obtain ⟨_, _, _, _, _, hk⟩ := bpBr_pass h0 h1 h
  exact hk

/-- The hypotheses are met. -/
example : ∃ ir, bpBrIr (7 : ℝ) 0.05 0.09 0.5 0.4 false = .ok (ir, 3) := by
  obtain ⟨ir, k, h⟩ := band_example.2
  have := C94_band_pass_leak_false (by norm_num) (by norm_num) h
  subst this
  exact ⟨ir, h⟩

/-- C94, the part that holds: for band-reject, and where a cutoff is outside of the range, the kernel is the only allocated array.
Missing: band-pass with both cutoffs inside of the range. -/
theorem C94_no_leak_partial {junk cl ch tl th : ℝ} {isReject : Bool} {ir : List ℝ} {k : Nat}
    (hc : isReject = true ∨ cl ≤ 0 ∨ 1 / 2 ≤ ch) (h : bpBrIr junk cl ch tl th isReject = .ok (ir, k)) : k = 1 := by
  have e : (0.5 : ℝ) = 1 / 2 := by norm_num
  have key : ∀ c t b, (do let ir ← lpHpIr junk c t b; pure (ir, 1) : C (Buf ℝ × Nat)) = .ok (ir, k) → k = 1 := by
    intro c t b h
    cases e1 : lpHpIr junk c t b with
    | error e => rw [e1] at h; cases h
    | ok x =>
      rw [e1] at h
      simp only [ok_bind', pure_eq_ok] at h
      injection h with h
      injection h with h4 h5
      exact h5.symm
  by_cases h0 : cl ≤ 0
  · by_cases h1 : 1 / 2 ≤ ch
    · have := (C08_band_edges junk cl ch tl th).1 h0 h1
      cases isReject
      · rw [this.2] at h; injection h with h; injection h with h4 h5; exact h5.symm
      · rw [this.1] at h; injection h with h; injection h with h4 h5; exact h5.symm
    · rw [bpBrIr, e] at h
      cases isReject
      · rw [if_neg (by simp), if_pos h0, if_neg h1] at h; exact key _ _ _ h
      · rw [if_pos rfl, if_pos h0, if_neg h1] at h; exact key _ _ _ h
  · by_cases h1 : 1 / 2 ≤ ch
    · rw [bpBrIr, e] at h
      cases isReject
      · rw [if_neg (by simp), if_neg h0, if_pos h1] at h; exact key _ _ _ h
      · rw [if_pos rfl, if_neg h0, if_pos h1] at h; exact key _ _ _ h
    · rcases hc with rfl | hc | hc
      · obtain ⟨_, _, _, _, _, hk⟩ := bpBr_reject (not_le.1 h0) (not_le.1 h1) h
        exact hk
      · exact absurd hc h0
      · exact absurd hc h1

end Sp
