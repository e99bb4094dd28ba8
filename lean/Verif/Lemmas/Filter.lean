import Verif.Model.Filter
import Verif.Spec.Filter
import Verif.Lemmas.FftBluestein
import Verif.Lemmas.PathSamples
import Verif.Props.Convolution
import Verif.Props.Statistics

/-! # Lemmas about impulse responses -/

set_option linter.unusedSectionVars false

namespace Sp

/-! ## Sums over tables -/

theorem getD_tab {S : Type} [Zero S] (n : Nat) (g : Nat → S) (i : Nat) : (tab n g).getD i 0 = if i < n then g i else 0 := by
  rw [List.getD, tab_getElem?]
  split_ifs <;> rfl

theorem sum_tab {M : Type} [AddCommMonoid M] (n : Nat) (g : Nat → M) : (tab n g).sum = ∑ i ∈ Finset.range n, g i := by
  induction n generalizing g with
  | zero => simp [tab]
  | succ n ih =>
    rw [Finset.sum_range_succ', tab_succ, List.sum_cons, ih, add_comm]

theorem response_eq (h : List ℝ) (f : ℝ) :
    response h f = ∑ t ∈ Finset.range h.length, (h.getD t 0 : ℂ) * fexp f ^ t := by
  rw [response]
  refine Finset.sum_congr rfl fun t _ => ?_
  rw [← fexp_pow, fexp]
  congr 2
  push_cast
  ring

theorem delayResponse_eq (d : Nat) (f : ℝ) : delayResponse d f = fexp f ^ d := by
  rw [delayResponse, ← fexp_pow, fexp]
  congr 1
  push_cast
  ring

theorem response_tab (n : Nat) (g : Nat → ℝ) (f : ℝ) :
    response (tab n g) f = ∑ t ∈ Finset.range n, (g t : ℂ) * fexp f ^ t := by
  rw [response_eq, tab_length]
  refine Finset.sum_congr rfl fun t ht => ?_
  rw [getD_tab, if_pos (Finset.mem_range.1 ht)]

theorem response_zero (h : List ℝ) : response h 0 = (h.sum : ℂ) := by
  rw [eq_tab h 0, response_tab, sum_tab, fexp_zero]
  simp

/-! ## Inversion and reversal -/

theorem negateAt_tab {S : Type} [Neg S] {N i : Nat} {f : Nat → S} (hi : i < N) :
    negateAt i (tab N f) = .ok (tab N fun k => if k = i then -f k else f k) := by
  rw [negateAt, rd_tab hi]
  simp only [ok_bind']
  rw [wr_tab _ hi]
  congr 1
  refine tab_congr fun k _ => ?_
  split_ifs with h
  · rw [h]
  · rfl

theorem spectralInversion_tab {S : Type} [Add S] [Neg S] [One S] {n : Nat} {f : Nat → S} (hn : 0 < n) (h32 : n < 4294967296) :
    spectralInversion (tab n f) n = .ok (tab n fun k => if k = (n - 1) / 2 then -f k + 1 else -f k) := by
  rw [spectralInversion]
  have key := forRange_states (fun i => tab n fun k => if k < i then -f k else f k) (Nat.zero_le n) (body := negateAt) (by
    intro i _ hi
    rw [negateAt_tab hi]
    congr 1
    refine tab_congr fun k _ => ?_
    by_cases h : k = i
    · subst h; rw [if_pos rfl, if_neg (by omega), if_pos (by omega)]
    · rw [if_neg h]; exact if_congr (by omega) rfl rfl)
  have e0 : (tab n fun k => if k < 0 then -f k else f k) = tab n f := tab_congr fun k _ => by rw [if_neg (by omega)]
  rw [e0] at key
  rw [key]
  simp only [ok_bind']
  rw [sub32_of_le (by omega) (by omega), addAt_tab _ (by omega)]
  congr 1
  refine tab_congr fun k hk => ?_
  rw [if_pos hk]

theorem spectralReversal_tab {S : Type} [Neg S] {N : Nat} (n : Nat) {f : Nat → S} (hn : n ≤ N) :
    spectralReversal (tab N f) n = .ok (tab N fun k => if k < n ∧ (n - k) % 2 = 0 then -f k else f k) := by
  induction n using Nat.strong_induction_on generalizing f with
  | _ n ih =>
    match n, ih, hn with
    | 0, _, _ =>
      rw [spectralReversal]
      congr 1
    | 1, _, _ =>
      rw [spectralReversal]
      congr 1
      exact tab_congr fun k _ => by rw [if_neg (by omega)]
    | n + 2, ih, hn =>
      rw [spectralReversal, negateAt_tab (by omega)]
      simp only [ok_bind']
      rw [ih n (by omega) (by omega)]
      congr 1
      refine tab_congr fun k _ => ?_
      by_cases h : k = n
      · subst h
        rw [if_neg (by omega), if_pos rfl, if_pos ⟨by omega, by omega⟩]
      · rw [if_neg h]
        exact if_congr (by omega) rfl rfl

theorem fexp_neg_half_pow (t : Nat) : fexp (-(1 / 2)) ^ t = (-1) ^ t := by
  have : fexp (-(1 / 2)) = -1 := by
    have h := fexp_add (1 / 2) (-1)
    have h1 : fexp (-1) = 1 := by simpa using fexp_int (-1)
    rw [h1, fexp_half, mul_one] at h
    rw [← h]
    norm_num
  rw [this]

/-! ## The kernels -/

noncomputable section

/-- The value of the window. -/
def blackman (a : ℝ) (width : Nat) : ℝ :=
  (0.42 - 0.5 * Real.cos (2 * Real.pi * a / (width - 1))) + 0.08 * Real.cos (4 * Real.pi * a / (width - 1))

theorem windowBlackman_eq {a : ℝ} {width : Nat} (h2 : 2 ≤ width) (h32 : width < 4294967296) :
    windowBlackman a width = .ok (blackman a width) := by
  have h : ((sub32 width 1 : ℕ) : ℝ) = (width : ℝ) - 1 := by
    rw [sub32_of_le (by omega) (by omega), Nat.cast_sub (by omega)]
    simp
  have h0 : (width : ℝ) - 1 ≠ 0 := by
    have : (2 : ℝ) ≤ width := by exact_mod_cast h2
    linarith
  rw [windowBlackman, h, divOf, divOf, if_neg h0, if_neg h0]
  rfl

theorem spSinc_real (a : ℝ) : spSinc a = if 0 = a then 1 else Real.sin (Real.pi * a) / (Real.pi * a) := rfl

theorem ceilTime_real (x : ℝ) : CeilTime.ceilTime x = timeOfSample ((⌈x⌉ : ℤ) : ℝ) := rfl

/-- The windowed sinc before the scaling. -/
def sincKernel (cutoff : ℝ) (len : Nat) (i : Nat) : ℝ :=
  blackman i len * spSinc (2 * cutoff * (i - ((len : ℝ) - 1) / 2))

def kernelSum (cutoff : ℝ) (len : Nat) : ℝ := ∑ i ∈ Finset.range len, sincKernel cutoff len i

theorem tab_loop {S : Type} {N n : Nat} {body : Nat → Buf S → C (Buf S)} {v z : Nat → S}
    (hbody : ∀ i o, i < n → o i = z i → body i (tab N o) = .ok (tab N fun a => if a = i then v i else o a)) :
    forRange 0 n body (tab N z) = .ok (tab N fun a => if a < n then v a else z a) := by
  have key := forRange_states (fun i => tab N fun a => if a < i then v a else z a) (Nat.zero_le n) (body := body) (by
    intro i _ hi
    rw [hbody i _ hi (if_neg (Nat.lt_irrefl i))]
    congr 1
    refine tab_congr fun a _ => ?_
    by_cases h : a = i
    · subst h; rw [if_pos rfl, if_pos (by omega)]
    · rw [if_neg h]; exact if_congr (by omega) rfl rfl)
  refine Eq.trans ?_ key
  congr 1

theorem lpHpIr_eq {junk cutoff transition : ℝ} {hp : Bool} {len : Nat} (hl : irLength transition = .ok len) (h3 : 3 ≤ len)
    (h32 : len < 4294967296) :
    lpHpIr junk cutoff transition hp =
      if kernelSum cutoff len = 0 then .error .divByZero
      else if hp then .ok (tab len fun k => if k = (len - 1) / 2 then -(sincKernel cutoff len k / kernelSum cutoff len) + 1
        else -(sincKernel cutoff len k / kernelSum cutoff len))
      else .ok (tab len fun k => sincKernel cutoff len k / kernelSum cutoff len) := by
  rw [lpHpIr, hl]
  simp only [ok_bind']
  rw [tab_replicate, tab_loop (v := sincKernel cutoff len) (by
    intro i o hi _
    rw [sincBody, windowBlackman_eq (by omega) h32]
    simp only [ok_bind']
    exact wr_tab _ hi)]
  simp only [ok_bind']
  rw [tab_congr (g := sincKernel cutoff len) (fun a ha => by rw [if_pos ha]), irFinish]
  have hs : f64Sum (tab len (sincKernel cutoff len)) len = .ok (kernelSum cutoff len) := by
    have := C50_sum (tab len (sincKernel cutoff len)) len (by omega) (by simp)
    rw [this, kernelSum, ← sum_tab, List.take_of_length_le (by simp)]
  rw [hs]
  simp only [ok_bind']
  by_cases h0 : kernelSum cutoff len = 0
  · rw [if_pos h0, h0]
    have : forRange 0 len (irScaleBody 0) (tab len (sincKernel cutoff len)) = .error .divByZero := by
      rw [forRange_head (by omega), irScaleBody, rd_tab (by omega)]
      simp only [ok_bind', if_pos]
      rfl
    rw [this]
    rfl
  · rw [if_neg h0, tab_loop (v := fun i => sincKernel cutoff len i / kernelSum cutoff len) (by
      intro i o hi ho
      rw [irScaleBody, rd_tab hi]
      simp only [ok_bind']
      rw [if_neg h0, ho]
      exact wr_tab _ hi)]
    simp only [ok_bind']
    rw [tab_congr (g := fun i => sincKernel cutoff len i / kernelSum cutoff len) (fun a ha => by rw [if_pos ha])]
    cases hp
    · rfl
    · simp only [if_true]
      exact spectralInversion_tab (by omega) h32

theorem irLength_ok {t : ℝ} {len : Nat} (h : irLength t = .ok len) :
    len % 2 = 1 ∧ len < 4294967296 ∧ 4 / t ≤ len ∧ (len : ℝ) < max (4 / t) 0 + 2 := by
  rw [irLength, divOf] at h
  by_cases h0 : t = 0
  · rw [if_pos h0] at h; cases h
  · rw [if_neg h0] at h
    simp only [ok_bind'] at h
    rw [ceilTime_real, timeOfSample] at h
    by_cases h1 : (((⌈4 / t⌉ : ℤ) : ℝ) ≤ -1 ∨ 4294967296 ≤ ((⌈4 / t⌉ : ℤ) : ℝ))
    · rw [if_pos h1] at h; cases h
    · rw [if_neg h1] at h
      simp only [ok_bind', pure_eq_ok, Int.floor_intCast] at h
      have hlo : (-1 : ℤ) < ⌈4 / t⌉ := by
        have := lt_of_not_ge (fun hc => h1 (Or.inl hc))
        exact_mod_cast this
      have hhi : ⌈4 / t⌉ < 4294967296 := by
        have := lt_of_not_ge (fun hc => h1 (Or.inr hc))
        exact_mod_cast this
      have hc := Int.le_ceil (4 / t)
      have hc2 := Int.ceil_lt_add_one (4 / t)
      generalize ⌈4 / t⌉ = z at *
      obtain ⟨m, rfl⟩ := Int.eq_ofNat_of_zero_le (by omega : 0 ≤ z)
      rw [Int.toNat_natCast] at h
      have hm : m < 4294967296 := by exact_mod_cast hhi
      have hcm : 4 / t ≤ (m : ℝ) := by exact_mod_cast hc
      have hcm2 : (m : ℝ) < max (4 / t) 0 + 1 := by
        have h5 : (m : ℝ) < 4 / t + 1 := by exact_mod_cast hc2
        have h6 := le_max_left (4 / t) 0
        linarith
      injection h with h
      by_cases he : m % 2 = 0
      · rw [if_pos he, u32_of_lt (by omega)] at h
        subst h
        refine ⟨by omega, by omega, ?_, ?_⟩ <;> push_cast <;> linarith
      · rw [if_neg he] at h
        subst h
        exact ⟨by omega, hm, hcm, by linarith⟩

theorem lpHpIr_ok {junk cutoff transition : ℝ} {hp : Bool} {ir : Buf ℝ} (h : lpHpIr junk cutoff transition hp = .ok ir) :
    ∃ len, irLength transition = .ok len ∧ 3 ≤ len ∧ len < 4294967296 ∧ len % 2 = 1 ∧ kernelSum cutoff len ≠ 0 ∧
      ir = tab len (fun k => if hp then (if k = (len - 1) / 2 then -(sincKernel cutoff len k / kernelSum cutoff len) + 1
        else -(sincKernel cutoff len k / kernelSum cutoff len)) else sincKernel cutoff len k / kernelSum cutoff len) := by
  have h' := h
  rw [lpHpIr] at h
  cases hl : irLength transition with
  | error e => rw [hl] at h; cases h
  | ok len =>
    have hok := irLength_ok hl
    have h3 : 3 ≤ len := by
      by_contra hc
      have h1 : len = 1 := by omega
      subst h1
      rw [hl] at h
      simp only [ok_bind'] at h
      rw [forRange_head (by omega), sincBody, windowBlackman, sub32_of_le (by omega) (by omega)] at h
      simp [divOf] at h
    rw [lpHpIr_eq hl h3 hok.2.1] at h'
    refine ⟨len, rfl, h3, hok.2.1, hok.1, ?_⟩
    by_cases h0 : kernelSum cutoff len = 0
    · rw [if_pos h0] at h'; cases h'
    · rw [if_neg h0] at h'
      refine ⟨h0, ?_⟩
      cases hp
      · simp only [Bool.false_eq_true, if_false] at h' ⊢
        injection h' with h'
        exact h'.symm
      · simp only [if_true] at h' ⊢
        injection h' with h'
        exact h'.symm

theorem blackman_symm {i len : Nat} (hi : i < len) (h3 : 3 ≤ len) : blackman ((len - 1 - i : ℕ) : ℝ) len = blackman i len := by
  have h0 : (len : ℝ) - 1 ≠ 0 := by
    have : (3 : ℝ) ≤ len := by exact_mod_cast h3
    linarith
  have e : ((len - 1 - i : ℕ) : ℝ) = (len : ℝ) - 1 - i := by
    rw [Nat.cast_sub (by omega), Nat.cast_sub (by omega)]
    simp
  rw [blackman, blackman, e]
  have e1 : 2 * Real.pi * ((len : ℝ) - 1 - i) / (len - 1) = 2 * Real.pi - 2 * Real.pi * i / (len - 1) := by field_simp
  have e2 : 4 * Real.pi * ((len : ℝ) - 1 - i) / (len - 1) = 2 * Real.pi + (2 * Real.pi - 4 * Real.pi * i / (len - 1)) := by
    field_simp
    ring
  rw [e1, e2, Real.cos_two_pi_sub, add_comm (2 * Real.pi), Real.cos_add_two_pi, Real.cos_two_pi_sub]

theorem spSinc_neg (a : ℝ) : spSinc (-a) = spSinc a := by
  rw [spSinc_real, spSinc_real]
  by_cases h : a = 0
  · subst h; simp
  · rw [if_neg (fun hc => h (neg_eq_zero.1 hc.symm)), if_neg (fun hc => h hc.symm), mul_neg, Real.sin_neg, neg_div_neg_eq]

theorem sincKernel_symm {c : ℝ} {i len : Nat} (hi : i < len) (h3 : 3 ≤ len) :
    sincKernel c len (len - 1 - i) = sincKernel c len i := by
  have e : ((len - 1 - i : ℕ) : ℝ) = (len : ℝ) - 1 - i := by
    rw [Nat.cast_sub (by omega), Nat.cast_sub (by omega)]
    simp
  rw [sincKernel, sincKernel, blackman_symm hi h3, e, ← spSinc_neg]
  congr 2
  ring

theorem symmetric_tab {n : Nat} {g : Nat → ℝ} (h : ∀ i, i < n → g i = g (n - 1 - i)) : Symmetric (tab n g) := by
  intro i hi
  rw [tab_length] at *
  rw [tab_getElem?, tab_getElem?, if_pos hi, if_pos (by omega), h i hi]

theorem blackman_nonneg (a : ℝ) (w : Nat) : 0 ≤ blackman a w := by
  rw [blackman, show 4 * Real.pi * a / ((w : ℝ) - 1) = 2 * (2 * Real.pi * a / ((w : ℝ) - 1)) by ring, Real.cos_two_mul]
  have h1 := Real.cos_le_one (2 * Real.pi * a / ((w : ℝ) - 1))
  generalize Real.cos (2 * Real.pi * a / ((w : ℝ) - 1)) = c at *
  nlinarith

theorem spSinc_nonneg {x : ℝ} (h : |x| ≤ 1) : 0 ≤ spSinc x := by
  rw [spSinc_real]
  split_ifs with h0
  · norm_num
  · have hx := abs_le.1 h
    have hp := Real.pi_pos
    rcases lt_or_gt_of_ne (fun hc => h0 hc.symm : x ≠ 0) with hn | hn
    · refine div_nonneg_of_nonpos ?_ (by nlinarith)
      exact Real.sin_nonpos_of_nonpos_of_neg_pi_le (by nlinarith) (by nlinarith)
    · exact div_nonneg (Real.sin_nonneg_of_nonneg_of_le_pi (by nlinarith) (by nlinarith)) (by nlinarith)

theorem kernel_same_sign {c : ℝ} {len : Nat} (h3 : 3 ≤ len) (hodd : len % 2 = 1) (hc : |c| * (len - 1) ≤ 1) :
    sincKernel c len ((len - 1) / 2) = 1 ∧ ∀ i, i < len → 0 ≤ sincKernel c len i := by
  have hlen : (3 : ℝ) ≤ len := by exact_mod_cast h3
  have hmid : sincKernel c len ((len - 1) / 2) = 1 := by
    obtain ⟨m, rfl⟩ : ∃ m, len = 2 * m + 1 := ⟨len / 2, by omega⟩
    have e : (2 * m + 1 - 1) / 2 = m := by omega
    have hm : (m : ℝ) ≠ 0 := by
      have : 0 < m := by omega
      positivity
    rw [sincKernel, e, blackman]
    push_cast
    have e1 : 2 * Real.pi * (m : ℝ) / (2 * m + 1 - 1) = Real.pi := by field_simp; ring
    have e2 : 4 * Real.pi * (m : ℝ) / (2 * m + 1 - 1) = 2 * Real.pi := by field_simp; ring
    have e3 : 2 * c * ((m : ℝ) - (2 * m + 1 - 1) / 2) = 0 := by ring
    rw [e1, e2, e3, spSinc, if_pos rfl, Real.cos_pi, Real.cos_two_pi]
    norm_num
  have hnn : ∀ i, i < len → 0 ≤ sincKernel c len i := by
    intro i hi
    have hi' : (i : ℝ) ≤ len - 1 := by
      have : i + 1 ≤ len := hi
      have : ((i + 1 : ℕ) : ℝ) ≤ len := by exact_mod_cast this
      push_cast at this
      linarith
    have hi0 : (0 : ℝ) ≤ i := Nat.cast_nonneg i
    refine mul_nonneg (blackman_nonneg _ _) (spSinc_nonneg ?_)
    rw [abs_mul, abs_mul]
    have h2 : |(i : ℝ) - ((len : ℝ) - 1) / 2| ≤ ((len : ℝ) - 1) / 2 := by
      rw [abs_le]
      constructor <;> linarith
    have h3 : |(2 : ℝ)| = 2 := abs_of_pos (by norm_num)
    rw [h3]
    calc 2 * |c| * |(i : ℝ) - ((len : ℝ) - 1) / 2| ≤ 2 * |c| * (((len : ℝ) - 1) / 2) :=
          mul_le_mul_of_nonneg_left h2 (by positivity)
      _ = |c| * (len - 1) := by ring
      _ ≤ 1 := hc
  exact ⟨hmid, hnn⟩

theorem kernelSum_pos {c : ℝ} {len : Nat} (h3 : 3 ≤ len) (hodd : len % 2 = 1) (hc : |c| * (len - 1) ≤ 1) : 0 < kernelSum c len := by
  obtain ⟨hmid, hnn⟩ := kernel_same_sign h3 hodd hc
  rw [kernelSum]
  refine Finset.sum_pos' (fun i hi => hnn i (Finset.mem_range.1 hi)) ⟨(len - 1) / 2, Finset.mem_range.2 (by omega), ?_⟩
  rw [hmid]
  norm_num

/-! ## Combination of two kernels -/

theorem irAddBody_loop {S : Type} [Add S] {na nb s : Nat} {f g : Nat → S} (hs : s + nb ≤ na) :
    forRange s (nb + s) (irAddBody (tab nb g) s) (tab na f) =
      .ok (tab na fun i => if s ≤ i ∧ i < nb + s then g (i - s) + f i else f i) := by
  have key := forRange_states (fun m => tab na fun i => if s ≤ i ∧ i < m then g (i - s) + f i else f i)
    (show s ≤ nb + s by omega) (body := irAddBody (tab nb g) s) (by
    intro i hi1 hi
    rw [irAddBody, rd_tab (by omega), rd_tab (by omega)]
    simp only [ok_bind']
    rw [wr_tab _ (by omega), if_neg (by omega)]
    congr 1
    refine tab_congr fun a _ => ?_
    by_cases h : a = i
    · subst h; rw [if_pos rfl, if_pos ⟨by omega, by omega⟩]
    · rw [if_neg h]; exact if_congr (by omega) rfl rfl)
  refine Eq.trans ?_ key
  congr 1
  exact tab_congr fun a _ => by rw [if_neg (by omega)]

/-- The addition of a kernel with `nb` elements to the middle of another. -/
def addMiddle {S : Type} [Add S] (s nb : Nat) (f g : Nat → S) (i : Nat) : S := if s ≤ i ∧ i < nb + s then g (i - s) + f i else f i

theorem irAdd_tab {S : Type} [Add S] {na nb : Nat} {f g : Nat → S} (ha : na < 4294967296) (hb : nb < 4294967296) (ha0 : 0 < na) (hb0 : 0 < nb) :
    irAdd (tab na f) (tab nb g) =
      if na > nb then .ok (tab na (addMiddle ((na - 1) / 2 - (nb - 1) / 2) nb f g))
      else .ok (tab nb (addMiddle ((nb - 1) / 2 - (na - 1) / 2) na g f)) := by
  rw [irAdd, tab_length, tab_length, sub32_of_le (a := na) (by omega) (by omega), sub32_of_le (a := nb) (by omega) (by omega)]
  by_cases h : na > nb
  · rw [if_pos h, if_pos h, sub32_of_le (by omega) (by omega)]
    dsimp only
    rw [u32_of_lt (by omega)]
    exact irAddBody_loop (by omega)
  · rw [if_neg h, if_neg h, sub32_of_le (by omega) (by omega)]
    dsimp only
    rw [u32_of_lt (by omega)]
    exact irAddBody_loop (by omega)

theorem response_addMiddle {na nb s : Nat} {f g : Nat → ℝ} (hs : s + nb ≤ na) (r : ℝ) :
    response (tab na (addMiddle s nb f g)) r = response (tab na f) r + delayResponse s r * response (tab nb g) r := by
  rw [response_tab, response_tab, response_tab, delayResponse_eq]
  have e : ∀ t, ((addMiddle s nb f g t : ℝ) : ℂ) * fexp r ^ t =
      (f t : ℂ) * fexp r ^ t + (if s ≤ t ∧ t < nb + s then (g (t - s) : ℂ) * fexp r ^ t else 0) := by
    intro t
    rw [addMiddle]
    split_ifs
    · push_cast; ring
    · rw [add_zero]
  simp only [e]
  rw [Finset.sum_add_distrib]
  congr 1
  obtain ⟨d, rfl⟩ := Nat.exists_eq_add_of_le hs
  rw [Finset.sum_range_add, Finset.sum_range_add, Finset.sum_eq_zero (s := Finset.range s), zero_add,
    Finset.sum_eq_zero (s := Finset.range d), add_zero, Finset.mul_sum]
  · refine Finset.sum_congr rfl fun j hj => ?_
    have := Finset.mem_range.1 hj
    rw [if_pos ⟨by omega, by omega⟩, Nat.add_sub_cancel_left, pow_add]
    ring
  · intro j hj
    rw [if_neg (by omega)]
  · intro j hj
    have := Finset.mem_range.1 hj
    rw [if_neg (by omega)]

theorem addMiddle_symm {na nb : Nat} {f g : Nat → ℝ} (hle : nb ≤ na) (hao : na % 2 = 1) (hbo : nb % 2 = 1)
    (hf : ∀ i, i < na → f i = f (na - 1 - i)) (hg : ∀ i, i < nb → g i = g (nb - 1 - i)) (i : Nat) (hi : i < na) :
    addMiddle ((na - 1) / 2 - (nb - 1) / 2) nb f g i = addMiddle ((na - 1) / 2 - (nb - 1) / 2) nb f g (na - 1 - i) := by
  rw [addMiddle, addMiddle]
  by_cases h : (na - 1) / 2 - (nb - 1) / 2 ≤ i ∧ i < nb + ((na - 1) / 2 - (nb - 1) / 2)
  · rw [if_pos h, if_pos ⟨by omega, by omega⟩, hg (i - ((na - 1) / 2 - (nb - 1) / 2)) (by omega), ← hf i hi]
    congr 2
    omega
  · rw [if_neg h, if_neg (by omega), ← hf i hi]

theorem convolve_response {na nb : Nat} {f g : Nat → ℝ} (w : ℂ) (ha : 0 < na) :
    ∑ k ∈ Finset.range (na + nb - 1), ((∑ i ∈ Finset.range na, if i ≤ k then f i * (tab nb g).getD (k - i) 0 else 0 : ℝ) : ℂ) * w ^ k =
      (∑ i ∈ Finset.range na, (f i : ℂ) * w ^ i) * ∑ j ∈ Finset.range nb, (g j : ℂ) * w ^ j := by
  rw [Finset.sum_mul_sum]
  simp only [Complex.ofReal_sum, Finset.sum_mul]
  rw [Finset.sum_comm]
  refine Finset.sum_congr rfl fun i hi => ?_
  have hi' := Finset.mem_range.1 hi
  obtain ⟨d, hd⟩ : ∃ d, na + nb - 1 = i + nb + d := ⟨na - 1 - i, by omega⟩
  rw [hd, Finset.sum_range_add, Finset.sum_range_add, Finset.sum_eq_zero (s := Finset.range i), zero_add,
    Finset.sum_eq_zero (s := Finset.range d), add_zero]
  · refine Finset.sum_congr rfl fun j hj => ?_
    rw [if_pos (by omega), Nat.add_sub_cancel_left, getD_tab, if_pos (Finset.mem_range.1 hj), pow_add]
    push_cast
    ring
  · intro j _
    rw [if_pos (by omega), getD_tab, if_neg (by omega)]
    simp
  · intro j hj
    have := Finset.mem_range.1 hj
    rw [if_neg (by omega)]
    simp

theorem convolve_symm {na nb : Nat} {f g : Nat → ℝ} (ha : 0 < na)
    (hf : ∀ i, i < na → f i = f (na - 1 - i)) (hg : ∀ i, i < nb → g i = g (nb - 1 - i)) (k : Nat) (hk : k < na + nb - 1) :
    (∑ i ∈ Finset.range na, if i ≤ k then f i * (tab nb g).getD (k - i) 0 else 0 : ℝ) =
      ∑ i ∈ Finset.range na, if i ≤ na + nb - 1 - 1 - k then f i * (tab nb g).getD (na + nb - 1 - 1 - k - i) 0 else 0 := by
  rw [← Finset.sum_range_reflect]
  refine Finset.sum_congr rfl fun i hi => ?_
  have hi' := Finset.mem_range.1 hi
  rw [getD_tab, getD_tab, ← hf i hi']
  by_cases h1 : na - 1 - i ≤ k
  · rw [if_pos h1]
    by_cases h2 : k - (na - 1 - i) < nb
    · rw [if_pos h2, if_pos (by omega), if_pos (by omega), hg _ h2]
      congr 2
      omega
    · rw [if_neg h2, if_neg (by omega), mul_zero]
  · rw [if_neg h1]
    by_cases h2 : i ≤ na + nb - 1 - 1 - k
    · rw [if_pos h2, if_neg (by omega), mul_zero]
    · rw [if_neg h2]

theorem convAcc_congr_both {a a' b b' : Nat → ℝ} {bLen k : Nat} {init : ℝ} (n : Nat) (ha : ∀ i, i < n → a i = a' i)
    (hb : ∀ j, j < bLen → b j = b' j) : convAcc a b bLen k init n = convAcc a' b' bLen k init n := by
  induction n with
  | zero => rfl
  | succ n ih =>
    rw [convAcc, convAcc, ih fun i hi => ha i (by omega), ha n (by omega)]
    by_cases h : n ≤ k ∧ k - n < bLen
    · rw [if_pos h, if_pos h, hb _ h.2]
    · rw [if_neg h, if_neg h]

theorem convolveOne_kernel {na nb : Nat} {f g : Nat → ℝ} (ha : 0 < na) (h32 : na + nb ≤ 4294967296) :
    convolveOne (tab na f) na (tab nb g) nb (List.replicate (na + nb - 1) 0) =
      .ok (tab (na + nb - 1) fun k => ∑ i ∈ Finset.range na, if i ≤ k then f i * (tab nb g).getD (k - i) 0 else 0) := by
  rw [tab_replicate, convolveOne_tab le_rfl le_rfl (by omega) (by omega)]
  congr 1
  refine tab_congr fun k hk => ?_
  have := convAcc_eq_sum (tab na f) (tab nb g) k 0 na
  rw [zero_add] at this
  rw [tab_length] at this
  refine Eq.trans ?_ (this.trans ?_)
  · refine convAcc_congr_both na (fun i hi => ?_) (fun j hj => ?_)
    · rw [getD_tab, if_pos hi]
    · rw [getD_tab, if_pos hj]
  · refine Finset.sum_congr rfl fun i hi => ?_
    rw [getD_tab na, if_pos (Finset.mem_range.1 hi)]

end

end Sp
