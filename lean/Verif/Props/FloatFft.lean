import Verif.Lemmas.FftBluesteinError

/-!
# C133 The Fourier transform in floating point arithmetic

`spFft` and `spFfti` are the models of `sp_fft` and `sp_ffti` over any arithmetic; here it is that of `double`, `Fl`, with a math
library of the accuracy `TrigAccurate`.
-/

set_option linter.unusedSectionVars false

noncomputable section

namespace Sp
variable {rnd : ℚ → ℚ}

/-! ### Specification -/

/-- The complex number that two arrays of samples have at an index. -/
def sampleAt (re im : List (Fl rnd)) (i : Nat) : ℂ := complexAt (realValues re) (realValues im) i

/-- The sum of the absolute values of the first `n` complex numbers. -/
def spectrumBound (n : Nat) (re im : List (Fl rnd)) : ℝ := ∑ i ∈ Finset.range n, ‖sampleAt re im i‖

/-! ### Proof -/

/-- The pair at an index. -/
def pairAt (re im : List (Fl rnd)) (i : Nat) : Fl rnd × Fl rnd := (re.getD i 0, im.getD i 0)

theorem realValues_getD (x : List (Fl rnd)) (i : Nat) : (realValues x).getD i 0 = ((x.getD i 0).val : ℝ) := by
  rw [realValues, List.getD, List.getD, List.getElem?_map]
  cases x[i]? with
  | none => exact Rat.cast_zero.symm
  | some v => rfl

theorem cval_pairAt (re im : List (Fl rnd)) (i : Nat) : cval (pairAt re im i) = sampleAt re im i := by
  rw [sampleAt, complexAt, realValues_getD, realValues_getD]
  rfl

theorem lists_gbuf {re im : List (Fl rnd)} (h : im.length = re.length) : (re, im) = gbuf re.length (pairAt re im) := by
  rw [gbuf]
  congr 1
  · exact eq_tab re 0
  · rw [← h]
    exact eq_tab im 0

theorem pairAt_gbuf {N : Nat} {z : Nat → Fl rnd × Fl rnd} {k : Nat} (hk : k < N) : pairAt (gbuf N z).1 (gbuf N z).2 k = z k := by
  rw [pairAt, gbuf]
  simp [List.getD, tab_getElem?, hk]

theorem gbuf_getElem? {re im : List (Fl rnd)} {z : Nat → Fl rnd × Fl rnd} {k : Nat} (h : im.length = re.length)
    (hz : z k = pairAt re im k) : (gbuf re.length z).1[k]? = re[k]? ∧ (gbuf re.length z).2[k]? = im[k]? := by
  have e := lists_gbuf h
  have e1 : re = tab re.length fun i => (pairAt re im i).1 := congrArg Prod.fst e
  have e2 : im = tab re.length fun i => (pairAt re im i).2 := congrArg Prod.snd e
  constructor
  · refine Eq.trans ?_ (congrArg (fun l : List (Fl rnd) => l[k]?) e1).symm
    show (tab re.length fun i => (z i).1)[k]? = (tab re.length fun i => (pairAt re im i).1)[k]?
    rw [tab_getElem?, tab_getElem?, hz]
  · refine Eq.trans ?_ (congrArg (fun l : List (Fl rnd) => l[k]?) e2).symm
    show (tab re.length fun i => (z i).2)[k]? = (tab re.length fun i => (pairAt re im i).2)[k]?
    rw [tab_getElem?, tab_getElem?, hz]

/-- The transform of `n` elements succeeds and has errors of at most `c` times the sum of the absolute values and `η`. -/
def FftError (rnd : ℚ → ℚ) [Trig (Fl rnd)] (n : Nat) (c η K : ℝ) : Prop :=
  ∀ re im : List (Fl rnd), im.length = re.length → n ≤ re.length → K * spectrumBound n re im + K ≤ ((doubleMax : ℚ) : ℝ) →
    ∃ re' im', fftTransform 2 n (re, im) = .ok (true, re', im') ∧ re'.length = re.length ∧ im'.length = im.length ∧
      (∀ k, k < n → ‖sampleAt re' im' k - dft n (sampleAt re im) k‖ ≤ c * spectrumBound n re im + η) ∧
      ∀ k, n ≤ k → re'[k]? = re[k]? ∧ im'[k]? = im[k]?

theorem fftError_of_gbuf [Trig (Fl rnd)] {n : Nat} {c η K : ℝ}
    (h : ∀ (N : Nat) (x : Nat → Fl rnd × Fl rnd), n ≤ N → K * ∑ i ∈ Finset.range n, ‖cval (x i)‖ + K ≤ fmax →
      ∃ z, fftTransform 2 n (gbuf N x) = .ok (true, gbuf N z) ∧
        (∀ k, k < n → ‖cval (z k) - dft n (fun i => cval (x i)) k‖ ≤ c * ∑ i ∈ Finset.range n, ‖cval (x i)‖ + η) ∧
        ∀ k, n ≤ k → z k = x k) : FftError rnd n c η K := by
  intro re im hlen hle hmax
  have hX : (fun i => cval (pairAt re im i)) = sampleAt re im := funext fun i => cval_pairAt re im i
  have hs : ∑ i ∈ Finset.range n, ‖cval (pairAt re im i)‖ = spectrumBound n re im := by
    simp only [cval_pairAt]
    rfl
  obtain ⟨z, e, h1, h2⟩ := h re.length (pairAt re im) hle (by rw [hs]; exact hmax)
  rw [hs] at h1
  refine ⟨(gbuf re.length z).1, (gbuf re.length z).2, ?_, by simp [gbuf], by simp [gbuf, hlen], ?_, ?_⟩
  · rw [lists_gbuf hlen]
    exact e
  · intro k hk
    rw [← cval_pairAt, pairAt_gbuf (by omega), ← hX]
    exact h1 k hk
  · intro k hk
    exact gbuf_getElem? hlen (h2 k hk)

theorem fftError_pow (h : RoundsToNearest rnd) [Trig (Fl rnd)] (ht : TrigAccurate rnd) {L : Nat} (hL : L ≤ 31) :
    FftError rnd (2 ^ L) (L / 2 ^ 45) ((2 : ℝ) ^ (-1020 : ℤ)) 64 :=
  fftError_of_gbuf fun _ x hN hmax => fftTransform_pow_fl h ht (by omega) hN 1 x hmax

theorem fftError_any (h : RoundsToNearest rnd) [Trig (Fl rnd)] (ht : TrigAccurate rnd) {n : Nat} (hn : n < 4294967296) :
    FftError rnd n (n / 2 ^ 35) ((2 : ℝ) ^ (-950 : ℤ)) (2 ^ 80) := by
  refine fftError_of_gbuf fun N x hN hmax => ?_
  rcases Nat.eq_zero_or_pos n with rfl | hn0
  · exact ⟨x, by rw [fftTransform, if_pos rfl]; rfl, fun k hk => by omega, fun _ _ => rfl⟩
  have hT : 0 ≤ ∑ i ∈ Finset.range n, ‖cval (x i)‖ := Finset.sum_nonneg fun _ _ => norm_nonneg _
  by_cases hp : n &&& (n - 1) = 0
  · obtain ⟨L, hL⟩ := (Nat.and_sub_one_eq_zero_iff_isPowerOfTwo (by omega)).1 hp
    have hL31 : L ≤ 31 := by
      by_contra hc
      have : 2 ^ 32 ≤ 2 ^ L := Nat.pow_le_pow_right (by omega) (by omega)
      omega
    have hLn : (L : ℝ) ≤ n := by
      rw [hL]
      exact_mod_cast Nat.lt_two_pow_self.le
    subst hL
    obtain ⟨z, e, h1, h2⟩ := fftTransform_pow_fl h ht (by omega) hN 1 x (by linarith)
    refine ⟨z, e, fun k hk => (h1 k hk).trans (add_le_add ?_ ?_), h2⟩
    · refine mul_le_mul_of_nonneg_right ?_ hT
      have : (0 : ℝ) ≤ L := by positivity
      linarith
    · exact zpow_le_zpow_right₀ (by norm_num) (by norm_num)
  · obtain ⟨z, e, h1, h2⟩ := fftBluestein_fl h ht hn0 hn hN 0 x hmax
    exact ⟨z, by rw [fftTransform, if_neg (by omega), if_neg hp]; exact e, h1, h2⟩

theorem sampleAt_swap (re im : List (Fl rnd)) : sampleAt im re = fun a => swapRI (sampleAt re im a) := rfl

theorem spectrumBound_swap (n : Nat) (re im : List (Fl rnd)) : spectrumBound n im re = spectrumBound n re im := by
  rw [spectrumBound, sampleAt_swap]
  exact Finset.sum_congr rfl fun i _ => norm_swapRI _

theorem round_trip [Trig (Fl rnd)] {n : Nat} {c η K : ℝ} (hF : FftError rnd n c η K) (hn : n < 4294967296) (hc0 : 0 ≤ c) (hc1 : c ≤ 1)
    (hη0 : 0 ≤ η) (hη1 : η ≤ 1) (hK : 0 ≤ K) {re im : List (Fl rnd)} (hlen : im.length = re.length) (hle : n ≤ re.length)
    (hmax : 2 ^ 34 * K * spectrumBound n re im + 2 ^ 34 * K ≤ ((doubleMax : ℚ) : ℝ)) :
    ∃ re1 im1 re2 im2, spFft n re im = .ok (0, re1, im1) ∧ spFfti n re1 im1 = .ok (0, re2, im2) ∧
      re2.length = re.length ∧ im2.length = im.length ∧
      (∀ k, k < n → ‖sampleAt re2 im2 k - n * sampleAt re im k‖ ≤ n * (4 * c * spectrumBound n re im + 8 * η)) ∧
      ∀ k, n ≤ k → re2[k]? = re[k]? ∧ im2[k]? = im[k]? := by
  have hT : 0 ≤ spectrumBound n re im := Finset.sum_nonneg fun _ _ => norm_nonneg _
  have hKT : 0 ≤ K * spectrumBound n re im := by positivity
  obtain ⟨re1, im1, e1, l1, l1', r1, s1⟩ := hF re im hlen hle (by linarith)
  generalize hTd : spectrumBound n re im = T at *
  have hn' : (n : ℝ) ≤ 2 ^ 32 := by
    have : (n : ℝ) ≤ 4294967296 := by exact_mod_cast hn.le
    linarith
  have hn0 : (0 : ℝ) ≤ n := by positivity
  have hcT : c * T ≤ T := mul_le_of_le_one_left hT hc1
  have hcT0 : 0 ≤ c * T := by positivity
  have hB : spectrumBound n re1 im1 ≤ n * (T + (c * T + η)) := by
    rw [spectrumBound]
    have : ∀ k ∈ Finset.range n, ‖sampleAt re1 im1 k‖ ≤ T + (c * T + η) := by
      intro k hk
      have a1 := r1 k (Finset.mem_range.1 hk)
      have a2 := norm_dft_le n (sampleAt re im) k
      have a3 := norm_add_le (sampleAt re1 im1 k - dft n (sampleAt re im) k) (dft n (sampleAt re im) k)
      rw [sub_add_cancel] at a3
      rw [show ∑ i ∈ Finset.range n, ‖sampleAt re im i‖ = T from hTd] at a2
      linarith
    refine (Finset.sum_le_sum this).trans (le_of_eq ?_)
    rw [Finset.sum_const, Finset.card_range, nsmul_eq_mul]
  have hB2 : spectrumBound n re1 im1 ≤ 2 ^ 32 * (2 * T + 1) :=
    hB.trans (mul_le_mul hn' (by linarith) (by positivity) (by positivity))
  have hB3 : K * spectrumBound n re1 im1 ≤ K * (2 ^ 32 * (2 * T + 1)) := mul_le_mul_of_nonneg_left hB2 hK
  obtain ⟨im2, re2, e2, l2, l2', r2, s2⟩ := hF im1 re1 (by omega) (by omega) (by rw [spectrumBound_swap]; linarith)
  rw [spectrumBound_swap] at r2
  refine ⟨re1, im1, re2, im2, by rw [spFft, e1]; rfl, by rw [spFfti, e2]; rfl, by omega, by omega, ?_, ?_⟩
  · intro k hk
    have b1 := r2 k hk
    rw [sampleAt_swap re2 im2, sampleAt_swap re1 im1, dft_swap] at b1
    have b2 : ‖sampleAt re2 im2 k - idft n (sampleAt re1 im1) k‖ ≤ c * spectrumBound n re1 im1 + η := by
      rw [← norm_swapRI]
      exact b1
    have b3 := norm_idft_sub_le n (sampleAt re1 im1) (dft n (sampleAt re im)) k
    rw [idft_dft _ hk] at b3
    have b4 : ∑ i ∈ Finset.range n, ‖sampleAt re1 im1 i - dft n (sampleAt re im) i‖ ≤ n * (c * T + η) := by
      refine (Finset.sum_le_sum fun i hi => r1 i (Finset.mem_range.1 hi)).trans (le_of_eq ?_)
      rw [Finset.sum_const, Finset.card_range, nsmul_eq_mul]
    have b5 := norm_add_le (sampleAt re2 im2 k - idft n (sampleAt re1 im1) k)
      (idft n (sampleAt re1 im1) k - (n : ℂ) * sampleAt re im k)
    rw [sub_add_sub_cancel] at b5
    have b6 : c * spectrumBound n re1 im1 ≤ c * (n * (T + (c * T + η))) := mul_le_mul_of_nonneg_left hB hc0
    have b7 : c * (n * (T + (c * T + η))) ≤ n * (c * (2 * T) + η) := by
      have : c * (n * (T + (c * T + η))) = n * (c * (T + c * T) + c * η) := by ring
      rw [this]
      refine mul_le_mul_of_nonneg_left ?_ hn0
      have q1 : c * (T + c * T) ≤ c * (2 * T) := mul_le_mul_of_nonneg_left (by linarith) hc0
      have q2 : c * η ≤ η := mul_le_of_le_one_left hη0 hc1
      linarith
    have b8 : η ≤ n * η := by
      have : (1 : ℝ) ≤ n := by exact_mod_cast (by omega : 1 ≤ n)
      exact le_mul_of_one_le_left hη0 this
    have b10 : 0 ≤ (n : ℝ) * (c * T) := by positivity
    have b11 : 0 ≤ (n : ℝ) * η := by positivity
    have c1 : (n : ℝ) * (4 * c * T + 8 * η) = 4 * (n * (c * T)) + 8 * (n * η) := by ring
    have c2 : (n : ℝ) * (c * T + η) = n * (c * T) + n * η := by ring
    have c3 : (n : ℝ) * (c * (2 * T) + η) = 2 * (n * (c * T)) + n * η := by ring
    rw [c1]
    rw [c2] at b4
    rw [c3] at b7
    linarith
  · intro k hk
    have q1 := s1 k hk
    have q2 := s2 k hk
    exact ⟨q2.2.trans q1.1, q2.1.trans q1.2⟩

/-- C133. `sp_fft` in double precision, for every length: it succeeds; every element differs from the discrete Fourier transform of
the samples by at most `n / 2 ^ 35` times the sum of the absolute values of the samples, and an underflow. Elements behind the
length are unchanged. -/
theorem C133_fft (h : RoundsToNearest rnd) [Trig (Fl rnd)] (ht : TrigAccurate rnd) {n : Nat} {re im : List (Fl rnd)} (hn : n < 4294967296)
    (hlen : im.length = re.length) (hle : n ≤ re.length) (hmax : 2 ^ 80 * spectrumBound n re im + 2 ^ 80 ≤ ((doubleMax : ℚ) : ℝ)) :
    ∃ re' im', spFft n re im = .ok (0, re', im') ∧ re'.length = re.length ∧ im'.length = im.length ∧
      (∀ k, k < n → ‖sampleAt re' im' k - dft n (sampleAt re im) k‖ ≤ n / 2 ^ 35 * spectrumBound n re im + (2 : ℝ) ^ (-950 : ℤ)) ∧
      ∀ k, n ≤ k → re'[k]? = re[k]? ∧ im'[k]? = im[k]? := by
  obtain ⟨re', im', e, r⟩ := fftError_any h ht hn re im hlen hle hmax
  refine ⟨re', im', ?_, r⟩
  rw [spFft, e]
  rfl

/-- C133. `sp_fft` in double precision for a power of two: the error is at most `log2(n) / 2 ^ 45` times the sum of the absolute
values of the samples, and an underflow. -/
theorem C133_fft_power (h : RoundsToNearest rnd) [Trig (Fl rnd)] (ht : TrigAccurate rnd) {L : Nat} {re im : List (Fl rnd)} (hL : L ≤ 31)
    (hlen : im.length = re.length) (hle : 2 ^ L ≤ re.length) (hmax : 64 * spectrumBound (2 ^ L) re im + 64 ≤ ((doubleMax : ℚ) : ℝ)) :
    ∃ re' im', spFft (2 ^ L) re im = .ok (0, re', im') ∧ re'.length = re.length ∧ im'.length = im.length ∧
      (∀ k, k < 2 ^ L → ‖sampleAt re' im' k - dft (2 ^ L) (sampleAt re im) k‖ ≤
        L / 2 ^ 45 * spectrumBound (2 ^ L) re im + (2 : ℝ) ^ (-1020 : ℤ)) ∧
      ∀ k, 2 ^ L ≤ k → re'[k]? = re[k]? ∧ im'[k]? = im[k]? := by
  obtain ⟨re', im', e, r⟩ := fftError_pow h ht hL re im hlen hle hmax
  refine ⟨re', im', ?_, r⟩
  rw [spFft, e]
  rfl

/-- C133. `sp_ffti` applied to the result of `sp_fft`, for every length, gives the samples multiplied by the length, except for
`n / 2 ^ 33` times the sum of the absolute values of the samples, multiplied by the length, and an underflow. -/
theorem C133_round_trip (h : RoundsToNearest rnd) [Trig (Fl rnd)] (ht : TrigAccurate rnd) {n : Nat} {re im : List (Fl rnd)}
    (hn : n < 4294967296) (hlen : im.length = re.length) (hle : n ≤ re.length)
    (hmax : 2 ^ 114 * spectrumBound n re im + 2 ^ 114 ≤ ((doubleMax : ℚ) : ℝ)) :
    ∃ re1 im1 re2 im2, spFft n re im = .ok (0, re1, im1) ∧ spFfti n re1 im1 = .ok (0, re2, im2) ∧
      re2.length = re.length ∧ im2.length = im.length ∧
      (∀ k, k < n → ‖sampleAt re2 im2 k - n * sampleAt re im k‖ ≤
        n * (n / 2 ^ 33 * spectrumBound n re im + (2 : ℝ) ^ (-947 : ℤ))) ∧
      ∀ k, n ≤ k → re2[k]? = re[k]? ∧ im2[k]? = im[k]? := by
  have hn' : (n : ℝ) ≤ 4294967296 := by exact_mod_cast hn.le
  obtain ⟨re1, im1, re2, im2, e1, e2, l1, l2, r, s⟩ := round_trip (fftError_any h ht hn) hn (by positivity)
    (by linarith) (by positivity) (zpow_le_one_of_nonpos₀ (by norm_num) (by norm_num)) (by positivity) hlen hle (by linarith)
  refine ⟨re1, im1, re2, im2, e1, e2, l1, l2, fun k hk => (r k hk).trans (le_of_eq ?_), s⟩
  have e8 : (2 : ℝ) ^ (-947 : ℤ) = 8 * (2 : ℝ) ^ (-950 : ℤ) := by
    rw [show (8 : ℝ) = 2 ^ (3 : ℤ) by norm_num, ← zpow_add₀ (by norm_num)]
    norm_num
  rw [e8]
  congr 2
  congr 1
  ring

/-- C133. The same for powers of two, with `log2(n) / 2 ^ 43`. -/
theorem C133_round_trip_power (h : RoundsToNearest rnd) [Trig (Fl rnd)] (ht : TrigAccurate rnd) {L : Nat} {re im : List (Fl rnd)}
    (hL : L ≤ 31) (hlen : im.length = re.length) (hle : 2 ^ L ≤ re.length)
    (hmax : 2 ^ 40 * spectrumBound (2 ^ L) re im + 2 ^ 40 ≤ ((doubleMax : ℚ) : ℝ)) :
    ∃ re1 im1 re2 im2, spFft (2 ^ L) re im = .ok (0, re1, im1) ∧ spFfti (2 ^ L) re1 im1 = .ok (0, re2, im2) ∧
      re2.length = re.length ∧ im2.length = im.length ∧
      (∀ k, k < 2 ^ L → ‖sampleAt re2 im2 k - 2 ^ L * sampleAt re im k‖ ≤
        2 ^ L * (L / 2 ^ 43 * spectrumBound (2 ^ L) re im + (2 : ℝ) ^ (-1017 : ℤ))) ∧
      ∀ k, 2 ^ L ≤ k → re2[k]? = re[k]? ∧ im2[k]? = im[k]? := by
  have hn : 2 ^ L < 4294967296 := lt_of_le_of_lt (Nat.pow_le_pow_right (by omega) hL) (by norm_num)
  have hL' : (L : ℝ) ≤ 31 := by exact_mod_cast hL
  obtain ⟨re1, im1, re2, im2, e1, e2, l1, l2, r, s⟩ := round_trip (fftError_pow h ht hL) hn (by positivity)
    (by linarith) (by positivity) (zpow_le_one_of_nonpos₀ (by norm_num) (by norm_num)) (by positivity) hlen hle (by linarith)
  refine ⟨re1, im1, re2, im2, e1, e2, l1, l2, fun k hk => ?_, s⟩
  have := r k hk
  push_cast at this
  refine this.trans (le_of_eq ?_)
  have e8 : (2 : ℝ) ^ (-1017 : ℤ) = 8 * (2 : ℝ) ^ (-1020 : ℤ) := by
    rw [show (8 : ℝ) = 2 ^ (3 : ℤ) by norm_num, ← zpow_add₀ (by norm_num)]
    norm_num
  rw [e8]
  congr 2
  congr 1
  ring

/-! ### A case -/

/-- A real number between -1 and 1 rounded to 60 binary digits and then to a double. -/
def libmResult (v : ℝ) : Fl nearestDouble := ⟨nearestDouble ((⌊v * 2 ^ 60⌋ : ℤ) / 2 ^ 60)⟩

theorem libmResult_error {v : ℝ} (hv : |v| ≤ 1) : |((libmResult v).val : ℝ) - v| ≤ 1 / 2 ^ 52 := by
  have h1 := Int.floor_le (v * 2 ^ 60)
  have h2 := Int.lt_floor_add_one (v * 2 ^ 60)
  obtain ⟨hv1, hv2⟩ := abs_le.1 hv
  generalize hm : ⌊v * 2 ^ 60⌋ = m at *
  have e1 : v - 1 / 2 ^ 60 ≤ (m : ℝ) / 2 ^ 60 := by
    rw [le_div_iff₀ (by norm_num), sub_mul]
    linarith
  have e2 : (m : ℝ) / 2 ^ 60 ≤ v := by
    rw [div_le_iff₀ (by norm_num)]
    linarith
  have h3 : |(((m : ℚ) / 2 ^ 60 : ℚ) : ℝ)| ≤ 2 := by
    push_cast
    rw [abs_le]
    constructor <;> linarith
  have h4 := rnd_real nearestDouble_rounds (q := (m : ℚ) / 2 ^ 60) (h3.trans (le_trans (by norm_num) (fmax_ge (e := 1) (by norm_num))))
  have he := feta_le
  have h5 : libmResult v = ⟨nearestDouble ((m : ℚ) / 2 ^ 60)⟩ := by rw [libmResult, hm]
  rw [h5]
  show |((nearestDouble ((m : ℚ) / 2 ^ 60) : ℚ) : ℝ) - v| ≤ _
  push_cast at h3 h4
  have h6 : |(m : ℝ) / 2 ^ 60| ≤ 1 + 1 / 2 ^ 60 := by
    rw [abs_le]
    constructor <;> linarith
  rw [fu] at h4
  rw [abs_le] at h4 ⊢
  constructor <;> linarith [h4.1, h4.2]

/-- A math library with correct rounding of approximations with 60 digits. -/
local instance libm : Trig (Fl nearestDouble) := ⟨⟨884279719003555 / 281474976710656⟩, fun x => libmResult (Real.cos x.val), fun x => libmResult (Real.sin x.val)⟩

theorem libm_accurate : TrigAccurate nearestDouble :=
  ⟨rfl, fun x _ => libmResult_error (Real.abs_cos_le_one _), fun x _ => libmResult_error (Real.abs_sin_le_one _)⟩

theorem spectrumBound_two (a b : ℚ) : spectrumBound (rnd := nearestDouble) (2 ^ 1) [⟨a⟩, ⟨b⟩] [⟨0⟩, ⟨0⟩] = |(a : ℝ)| + |(b : ℝ)| := by
  have : ∀ v : ℝ, ‖(⟨v, 0⟩ : ℂ)‖ = |v| := fun v => Complex.norm_real v
  rw [spectrumBound, show 2 ^ 1 = 2 from rfl, Finset.sum_range_succ, Finset.sum_range_one]
  simp [sampleAt, complexAt, realValues, this]

/-- Two samples: the transform of 1, 3 is 4, -2, except for rounding. -/
example : ∃ re' im', spFft (S := Fl nearestDouble) (2 ^ 1) [⟨1⟩, ⟨3⟩] [⟨0⟩, ⟨0⟩] = .ok (0, re', im') ∧
    ‖sampleAt re' im' 0 - 4‖ ≤ (1 : ℕ) / 2 ^ 45 * 4 + (2 : ℝ) ^ (-1020 : ℤ) := by
  have hb := spectrumBound_two 1 3
  have hb' : spectrumBound (rnd := nearestDouble) (2 ^ 1) [⟨1⟩, ⟨3⟩] [⟨0⟩, ⟨0⟩] = 4 := by
    rw [hb]
    norm_num
  obtain ⟨re', im', e, _, _, r, _⟩ := C133_fft_power nearestDouble_rounds libm_accurate (L := 1) (re := [⟨1⟩, ⟨3⟩]) (im := [⟨0⟩, ⟨0⟩])
    (by norm_num) rfl (by simp) (by
      rw [hb']
      exact le_trans (by norm_num) (fmax_ge (e := 10) (by norm_num)))
  refine ⟨re', im', e, ?_⟩
  have := r 0 (by norm_num)
  rw [hb'] at this
  have hd : dft (2 ^ 1) (sampleAt (rnd := nearestDouble) [⟨1⟩, ⟨3⟩] [⟨0⟩, ⟨0⟩]) 0 = 4 := by
    rw [dft, show 2 ^ 1 = 2 from rfl, Finset.sum_range_succ, Finset.sum_range_one]
    apply Complex.ext <;> simp [sampleAt, complexAt, realValues] <;> norm_num
  rwa [hd] at this

theorem spectrumBound_three : spectrumBound (rnd := nearestDouble) 3 [⟨1⟩, ⟨3⟩, ⟨-2⟩] [⟨0⟩, ⟨0⟩, ⟨0⟩] = 6 := by
  have : ∀ v : ℝ, ‖(⟨v, 0⟩ : ℂ)‖ = |v| := fun v => Complex.norm_real v
  rw [spectrumBound, Finset.sum_range_succ, Finset.sum_range_succ, Finset.sum_range_one]
  simp [sampleAt, complexAt, realValues, this]
  norm_num

/-- Three samples, there and back. -/
example : ∃ re1 im1 re2 im2, spFft (S := Fl nearestDouble) 3 [⟨1⟩, ⟨3⟩, ⟨-2⟩] [⟨0⟩, ⟨0⟩, ⟨0⟩] = .ok (0, re1, im1) ∧
    spFfti 3 re1 im1 = .ok (0, re2, im2) ∧
    ‖sampleAt re2 im2 1 - 9‖ ≤ (3 : ℕ) * ((3 : ℕ) / 2 ^ 33 * 6 + (2 : ℝ) ^ (-947 : ℤ)) := by
  obtain ⟨re1, im1, re2, im2, e1, e2, _, _, r, _⟩ := C133_round_trip nearestDouble_rounds libm_accurate (n := 3) (re := [⟨1⟩, ⟨3⟩, ⟨-2⟩])
    (im := [⟨0⟩, ⟨0⟩, ⟨0⟩]) (by norm_num) rfl (by simp) (by
      rw [spectrumBound_three]
      exact le_trans (by norm_num) (fmax_ge (e := 120) (by norm_num)))
  refine ⟨re1, im1, re2, im2, e1, e2, ?_⟩
  have := r 1 (by norm_num)
  rw [spectrumBound_three] at this
  have hd : (3 : ℕ) * sampleAt (rnd := nearestDouble) [⟨1⟩, ⟨3⟩, ⟨-2⟩] [⟨0⟩, ⟨0⟩, ⟨0⟩] 1 = 9 := by
    apply Complex.ext <;> simp [sampleAt, complexAt, realValues] <;> norm_num
  rwa [hd] at this

end Sp
