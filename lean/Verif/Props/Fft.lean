import Verif.Lemmas.FftBluestein

/-! # The Fourier transform: C71, C72 -/

set_option linter.unusedSectionVars false

noncomputable section

namespace Sp

theorem lists_cbuf {re im : List ℝ} (h : im.length = re.length) : (re, im) = cbuf re.length (complexAt re im) := by
  rw [cbuf]
  congr 1
  · exact eq_tab re 0
  · rw [← h]
    exact eq_tab im 0

theorem complexAt_cbuf {N : Nat} {z : Nat → ℂ} {k : Nat} (hk : k < N) : complexAt (cbuf N z).1 (cbuf N z).2 k = z k := by
  rw [complexAt, cbuf]
  apply Complex.ext
  · simp [List.getD, tab_getElem?, hk]
  · simp [List.getD, tab_getElem?, hk]

theorem cbuf_getElem? {re im : List ℝ} {z : Nat → ℂ} {k : Nat} (h : im.length = re.length) (hz : z k = complexAt re im k) :
    (cbuf re.length z).1[k]? = re[k]? ∧ (cbuf re.length z).2[k]? = im[k]? := by
  have e := lists_cbuf h
  have e1 : re = tab re.length fun i => (complexAt re im i).re := congrArg Prod.fst e
  have e2 : im = tab re.length fun i => (complexAt re im i).im := congrArg Prod.snd e
  constructor
  · refine Eq.trans ?_ (congrArg (fun l : List ℝ => l[k]?) e1).symm
    show (tab re.length fun i => (z i).re)[k]? = (tab re.length fun i => (complexAt re im i).re)[k]?
    rw [tab_getElem?, tab_getElem?, hz]
  · refine Eq.trans ?_ (congrArg (fun l : List ℝ => l[k]?) e2).symm
    show (tab re.length fun i => (z i).im)[k]? = (tab re.length fun i => (complexAt re im i).im)[k]?
    rw [tab_getElem?, tab_getElem?, hz]

theorem cbuf_length (N : Nat) (z : Nat → ℂ) : (cbuf N z).1.length = N ∧ (cbuf N z).2.length = N := by
  simp [cbuf]

/-- C71. For every length that the parameter type can hold, power of two or not, and arrays with at least that many elements:
`sp_fft` succeeds, the elements are the discrete Fourier transform of the elements before, and elements behind the length are
unchanged. -/
theorem C71_dft {n : Nat} {re im : List ℝ} (hn : n < 4294967296) (hlen : im.length = re.length) (hle : n ≤ re.length) :
    ∃ re' im', spFft n re im = .ok (0, re', im') ∧ re'.length = re.length ∧ im'.length = im.length ∧
      (∀ k, k < n → complexAt re' im' k = dft n (complexAt re im) k) ∧
      ∀ k, n ≤ k → re'[k]? = re[k]? ∧ im'[k]? = im[k]? := by
  refine ⟨(cbuf re.length fun a => if a < n then dft n (complexAt re im) a else complexAt re im a).1,
    (cbuf re.length fun a => if a < n then dft n (complexAt re im) a else complexAt re im a).2, ?_, (cbuf_length _ _).1,
    by rw [(cbuf_length _ _).2, hlen], ?_, ?_⟩
  · rw [spFft, lists_cbuf hlen, fftTransform_cbuf hn hle]
    rfl
  · intro k hk
    rw [complexAt_cbuf (by omega), if_pos hk]
  · intro k hk
    exact cbuf_getElem? hlen (if_neg (by omega))

/-- Twelve elements of longer arrays; the element 0 of the transform is the sum. -/
example : ∃ re' im', spFft 12 (List.replicate 20 1) (List.replicate 20 2) = .ok (0, re', im') ∧
    complexAt re' im' 0 = 12 * ⟨1, 2⟩ := by
  obtain ⟨re', im', e, _, _, h, _⟩ := C71_dft (n := 12) (re := List.replicate 20 1) (im := List.replicate 20 2)
    (by norm_num) (by simp) (by simp)
  refine ⟨re', im', e, ?_⟩
  rw [h 0 (by norm_num), dft]
  have : ∀ t ∈ Finset.range 12, complexAt (List.replicate 20 1) (List.replicate 20 2) t *
      Complex.exp (-2 * Real.pi * Complex.I * t * (0 : ℕ) / (12 : ℕ)) = ⟨1, 2⟩ := by
    intro t ht
    have ht' := Finset.mem_range.1 ht
    have h1 : (List.replicate 20 (1 : ℝ)).getD t 0 = 1 := by
      rw [List.getD, List.getElem?_replicate, if_pos (by omega)]; rfl
    have h2 : (List.replicate 20 (2 : ℝ)).getD t 0 = 2 := by
      rw [List.getD, List.getElem?_replicate, if_pos (by omega)]; rfl
    rw [complexAt, h1, h2]
    simp
  rw [Finset.sum_congr rfl this]
  simp

/-- C72. `sp_ffti` applied to the result of `sp_fft` multiplies every element by the length, for every length. -/
theorem C72_inverse {n : Nat} {re im : List ℝ} (hn : n < 4294967296) (hlen : im.length = re.length) (hle : n ≤ re.length) :
    ∃ re1 im1 re2 im2, spFft n re im = .ok (0, re1, im1) ∧ spFfti n re1 im1 = .ok (0, re2, im2) ∧
      re2.length = re.length ∧ im2.length = im.length ∧
      (∀ k, k < n → complexAt re2 im2 k = n * complexAt re im k) ∧
      ∀ k, n ≤ k → re2[k]? = re[k]? ∧ im2[k]? = im[k]? := by
  have e1 := fftTransform_cbuf hn hle (complexAt re im)
  have e2 := fftTransform_cbuf hn hle fun a => swapRI (if a < n then dft n (complexAt re im) a else complexAt re im a)
  have hv : (cbuf re.length fun a => if a < n then
      dft n (fun a => swapRI (if a < n then dft n (complexAt re im) a else complexAt re im a)) a
      else swapRI (if a < n then dft n (complexAt re im) a else complexAt re im a)) =
      cbuf re.length fun a => swapRI (if a < n then n * complexAt re im a else complexAt re im a) := by
    refine cbuf_congr fun a _ => ?_
    by_cases h : a < n
    · rw [if_pos h, if_pos h, dft_swap, ← idft_dft _ h, idft, idft]
      congr 1
      exact Finset.sum_congr rfl fun t ht => by rw [if_pos (Finset.mem_range.1 ht)]
    · rw [if_neg h, if_neg h, if_neg h]
  rw [hv] at e2
  refine ⟨(cbuf re.length fun a => if a < n then dft n (complexAt re im) a else complexAt re im a).1,
    (cbuf re.length fun a => if a < n then dft n (complexAt re im) a else complexAt re im a).2,
    (cbuf re.length fun a => if a < n then n * complexAt re im a else complexAt re im a).1,
    (cbuf re.length fun a => if a < n then n * complexAt re im a else complexAt re im a).2, ?_, ?_, (cbuf_length _ _).1,
    by rw [(cbuf_length _ _).2, hlen], ?_, ?_⟩
  · rw [spFft, lists_cbuf hlen, e1]
    rfl
  · rw [spFfti, cbuf_swap, e2]
    rfl
  · intro k hk
    rw [complexAt_cbuf (by omega), if_pos hk]
  · intro k hk
    exact cbuf_getElem? hlen (if_neg (by omega))

/-- An array with three elements. -/
example : ∃ re1 im1 re2 im2, spFft 3 [1, 2, 5] [0, 0, 1] = .ok (0, re1, im1) ∧ spFfti 3 re1 im1 = .ok (0, re2, im2) ∧
    complexAt re2 im2 2 = ⟨15, 3⟩ := by
  obtain ⟨re1, im1, re2, im2, e1, e2, _, _, h, _⟩ := C72_inverse (n := 3) (re := [1, 2, 5]) (im := [0, 0, 1])
    (by norm_num) rfl (by simp)
  refine ⟨re1, im1, re2, im2, e1, e2, ?_⟩
  rw [h 2 (by norm_num)]
  apply Complex.ext <;> simp [complexAt] <;> norm_num

end Sp
