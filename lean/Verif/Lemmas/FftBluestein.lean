import Verif.Lemmas.FftRadix2

/-! # Lemmas about the convolution and the Bluestein transform -/

set_option linter.unusedSectionVars false

noncomputable section

namespace Sp

/-! ## The inverse transform -/

/-- Real and imaginary part exchanged. -/
def swapRI (z : ℂ) : ℂ := ⟨z.im, z.re⟩

theorem swapRI_eq (z : ℂ) : swapRI z = Complex.I * (starRingEnd ℂ) z := by
  apply Complex.ext <;> simp [swapRI]

theorem swapRI_swapRI (z : ℂ) : swapRI (swapRI z) = z := rfl

theorem cbuf_swap (N : Nat) (z : Nat → ℂ) : ((cbuf N z).2, (cbuf N z).1) = cbuf N fun a => swapRI (z a) := rfl

theorem conj_fexp (r : ℝ) : (starRingEnd ℂ) (fexp r) = fexp (-r) := by
  apply Complex.ext
  · rw [Complex.conj_re, fexp_re, fexp_re, mul_neg, Real.cos_neg]
  · rw [Complex.conj_im, fexp_im, fexp_im, mul_neg, Real.sin_neg]

/-- The inverse discrete Fourier transform without the scaling. -/
def idft (n : Nat) (x : Nat → ℂ) (k : Nat) : ℂ := ∑ t ∈ Finset.range n, x t * fexp (-((t * k : ℝ) / n))

theorem dft_swap (n : Nat) (x : Nat → ℂ) (k : Nat) : dft n (fun a => swapRI (x a)) k = swapRI (idft n x k) := by
  rw [dft_eq, idft, swapRI_eq, map_sum, Finset.mul_sum]
  refine Finset.sum_congr rfl fun t _ => ?_
  rw [swapRI_eq, map_mul, conj_fexp, neg_neg]
  ring

theorem fexp_eq_one {r : ℝ} (h : fexp r = 1) : ∃ k : ℤ, r = k := by
  rw [fexp, Complex.exp_eq_one_iff] at h
  obtain ⟨k, hk⟩ := h
  refine ⟨-k, ?_⟩
  have h1 : (2 * (Real.pi : ℂ) * Complex.I) ≠ 0 := Complex.two_pi_I_ne_zero
  have h2 : (2 * (Real.pi : ℂ) * Complex.I) * (r : ℂ) = (2 * (Real.pi : ℂ) * Complex.I) * ((-k : ℤ) : ℂ) := by
    have : -((2 * (Real.pi : ℂ) * Complex.I) * (r : ℂ)) = (k : ℂ) * (2 * Real.pi * Complex.I) := by rw [← hk]; ring
    rw [← neg_neg ((2 * (Real.pi : ℂ) * Complex.I) * (r : ℂ)), this]
    push_cast
    ring
  have h3 := mul_left_cancel₀ h1 h2
  exact_mod_cast h3

theorem fexp_pow (r : ℝ) (q : Nat) : fexp (q * r) = fexp r ^ q := by
  induction q with
  | zero => simp [fexp_zero]
  | succ q ih => rw [pow_succ, ← ih, ← fexp_add]; congr 1; push_cast; ring

theorem fexp_sum {m : Nat} (hm : 0 < m) (d : ℤ) :
    ∑ q ∈ Finset.range m, fexp (q * ((d : ℝ) / m)) = if (m : ℤ) ∣ d then (m : ℂ) else 0 := by
  have hm0 : (m : ℝ) ≠ 0 := by positivity
  by_cases h : (m : ℤ) ∣ d
  · rw [if_pos h]
    obtain ⟨k, rfl⟩ := h
    have : ∀ q ∈ Finset.range m, fexp (q * ((((m : ℤ) * k : ℤ) : ℝ) / m)) = 1 := by
      intro q _
      have e : ((q : ℝ) * ((((m : ℤ) * k : ℤ) : ℝ) / m)) = ((q * k : ℤ) : ℝ) := by
        push_cast
        field_simp
      rw [e, fexp_int]
    rw [Finset.sum_congr rfl this]
    simp
  · rw [if_neg h]
    simp only [fexp_pow]
    have h1 : fexp ((d : ℝ) / m) ≠ 1 := by
      intro he
      obtain ⟨k, hk⟩ := fexp_eq_one he
      apply h
      refine ⟨k, ?_⟩
      rw [div_eq_iff hm0] at hk
      have : (d : ℝ) = ((m * k : ℤ) : ℝ) := by push_cast; rw [hk]; ring
      exact_mod_cast this
    have h2 : fexp ((d : ℝ) / m) ^ m = 1 := by
      rw [← fexp_pow, mul_div_cancel₀ _ hm0, fexp_int]
    have h3 := mul_geom_sum (fexp ((d : ℝ) / m)) m
    rw [h2, sub_self] at h3
    rcases mul_eq_zero.1 h3 with h4 | h4
    · exact absurd (sub_eq_zero.1 h4) h1
    · exact h4

theorem idft_dft {n : Nat} (x : Nat → ℂ) {k : Nat} (hk : k < n) : idft n (dft n x) k = n * x k := by
  have hn : 0 < n := by omega
  have e : idft n (dft n x) k = ∑ t ∈ Finset.range n, x t * ∑ q ∈ Finset.range n, fexp (q * ((((t : ℤ) - k : ℤ) : ℝ) / n)) := by
    rw [idft]
    simp only [dft_eq, Finset.sum_mul, Finset.mul_sum]
    rw [Finset.sum_comm]
    refine Finset.sum_congr rfl fun t _ => Finset.sum_congr rfl fun q _ => ?_
    rw [mul_assoc, ← fexp_add]
    congr 2
    push_cast
    ring
  rw [e]
  simp only [fexp_sum hn]
  rw [Finset.sum_eq_single k]
  · simp
    ring
  · intro t ht htk
    have ht' := Finset.mem_range.1 ht
    rw [if_neg, mul_zero]
    intro hd
    have := Int.eq_zero_of_abs_lt_dvd hd (by rw [abs_lt]; omega)
    omega
  · intro h
    exact absurd (Finset.mem_range.2 hk) h

theorem idft_mul {m : Nat} (a b : Nat → ℂ) {k : Nat} (hk : k < m) :
    idft m (fun q => dft m a q * dft m b q) k = m * ∑ t ∈ Finset.range m, a t * b ((k + m - t) % m) := by
  have hm : 0 < m := by omega
  have e : idft m (fun q => dft m a q * dft m b q) k =
      ∑ t ∈ Finset.range m, ∑ u ∈ Finset.range m, a t * b u *
        ∑ q ∈ Finset.range m, fexp (q * ((((t : ℤ) + u - k : ℤ) : ℝ) / m)) := by
    rw [idft]
    simp only [dft_eq, Finset.sum_mul_sum, Finset.sum_mul, Finset.mul_sum]
    refine Eq.trans ?_ Finset.sum_comm
    rw [Finset.sum_comm]
    refine Finset.sum_congr rfl fun u _ => ?_
    rw [Finset.sum_comm]
    refine Finset.sum_congr rfl fun t _ => Finset.sum_congr rfl fun q _ => ?_
    rw [mul_mul_mul_comm, ← fexp_add, mul_assoc, ← fexp_add]
    congr 2
    push_cast
    ring
  rw [e, Finset.mul_sum]
  refine Finset.sum_congr rfl fun t ht => ?_
  have ht' := Finset.mem_range.1 ht
  simp only [fexp_sum hm]
  have hu : (k + m - t) % m < m := Nat.mod_lt _ hm
  rw [Finset.sum_eq_single ((k + m - t) % m)]
  · rw [if_pos]
    · ring
    · have h1 := Nat.div_add_mod (k + m - t) m
      refine ⟨1 - ((k + m - t) / m : ℕ), ?_⟩
      generalize (k + m - t) % m = r at *
      generalize (k + m - t) / m = q at *
      have h2 : ((m * q + r : ℕ) : ℤ) = ((k + m - t : ℕ) : ℤ) := by rw [h1]
      rw [Nat.cast_sub (by omega)] at h2
      push_cast at h2
      rw [mul_sub]
      linarith
  · intro u hu1 hne
    have hu' := Finset.mem_range.1 hu1
    rw [if_neg, mul_zero]
    rintro ⟨c, hc⟩
    apply hne
    have h3 : (u : ℤ) = ((k + m - t : ℕ) : ℤ) + m * (c - 1) := by
      rw [Nat.cast_sub (by omega)]
      push_cast
      linarith
    have h4 : (u : ℤ) % m = ((k + m - t : ℕ) : ℤ) % m := by rw [h3, Int.add_mul_emod_self_left]
    have h5 : u % m = (k + m - t) % m := by exact_mod_cast h4
    rw [← h5, Nat.mod_eq_of_lt hu']
  · intro h
    exact absurd (Finset.mem_range.2 hu) h

/-! ## Element by element loops -/

theorem cbuf_replicate (N : Nat) : ((List.replicate N 0, List.replicate N 0) : CBuf) = cbuf N fun _ => 0 := by
  rw [tab_replicate]
  rfl

theorem wr_cbuf {N i : Nat} {z : Nat → ℂ} (v : ℂ) (hi : i < N) :
    (wr (cbuf N z).1 i v.re = .ok (cbuf N fun a => if a = i then v else z a).1) ∧
    (wr (cbuf N z).2 i v.im = .ok (cbuf N fun a => if a = i then v else z a).2) := by
  constructor
  · refine (wr_tab _ hi).trans ?_
    congr 1
    refine tab_congr fun a _ => ?_
    dsimp only
    split_ifs <;> rfl
  · refine (wr_tab _ hi).trans ?_
    congr 1
    refine tab_congr fun a _ => ?_
    dsimp only
    split_ifs <;> rfl

theorem loop_cbuf {N n : Nat} {body : Nat → CBuf → C CBuf} {v z : Nat → ℂ}
    (hbody : ∀ i o, i < n → o i = z i → body i (cbuf N o) = .ok (cbuf N fun a => if a = i then v i else o a)) :
    forRange 0 n body (cbuf N z) = .ok (cbuf N fun a => if a < n then v a else z a) := by
  have key := forRange_states (fun i => cbuf N fun a => if a < i then v a else z a) (Nat.zero_le n) (body := body) (by
    intro i _ hi
    rw [hbody i _ hi (if_neg (Nat.lt_irrefl i))]
    congr 1
    refine cbuf_congr fun a _ => ?_
    by_cases h : a = i
    · subst h; rw [if_pos rfl, if_pos (by omega)]
    · rw [if_neg h]; exact if_congr (by omega) rfl rfl)
  refine Eq.trans ?_ key
  congr 1

theorem chirpTable_eq {n : Nat} (hn0 : 0 < n) (hn : n < 4294967296) :
    forRange 0 n (chirpTableBody n) (List.replicate n 0, List.replicate n 0) =
      .ok (cbuf n fun i => fexp (-((i * i : ℝ) / (2 * n)))) := by
  rw [cbuf_replicate]
  refine (loop_cbuf (v := fun i => fexp (-((i * i : ℝ) / (2 * n)))) ?_).trans ?_
  · intro i o hi _
    have hii : i * i < 18446744073709551616 := by
      calc i * i ≤ 4294967295 * 4294967295 := Nat.mul_le_mul (by omega) (by omega)
        _ < _ := by norm_num
    rw [chirpTableBody, Nat.mod_eq_of_lt hii, Nat.mod_eq_of_lt (by omega : n * 2 < 18446744073709551616)]
    have hn' : (n : ℝ) ≠ 0 := by positivity
    have he : fexp (-((i * i : ℝ) / (2 * n))) = fexp (-(((i * i % (n * 2) : ℕ) : ℝ) / (2 * n))) := by
      have h1 := Nat.div_add_mod (i * i) (n * 2)
      have h2 : ((i * i : ℕ) : ℝ) = ((n * 2 * (i * i / (n * 2)) + i * i % (n * 2) : ℕ) : ℝ) := by rw [h1]
      push_cast at h2
      rw [h2]
      generalize i * i / (n * 2) = q at *
      generalize i * i % (n * 2) = r at *
      have e : (-((n * 2 * (q : ℝ) + (r : ℝ)) / (2 * (n : ℝ)))) = ((-(q : ℤ) : ℤ) : ℝ) + -((r : ℝ) / (2 * n)) := by
        push_cast
        field_simp
        ring
      rw [e, fexp_add, fexp_int, one_mul]
    have hr : Trig.cos (Trig.pi * ((i * i % (n * 2) : ℕ) : ℝ) / n) = (fexp (-((i * i : ℝ) / (2 * n)))).re := by
      show Real.cos (Real.pi * ((i * i % (n * 2) : ℕ) : ℝ) / n) = _
      rw [he, fexp_re, mul_neg, Real.cos_neg]
      congr 1
      field_simp
    have hi' : Trig.sin (Trig.pi * ((i * i % (n * 2) : ℕ) : ℝ) / n) = (fexp (-((i * i : ℝ) / (2 * n)))).im := by
      show Real.sin (Real.pi * ((i * i % (n * 2) : ℕ) : ℝ) / n) = _
      rw [he, fexp_im, mul_neg, Real.sin_neg, neg_neg]
      congr 1
      field_simp
    rw [hr, hi', (wr_cbuf _ hi).1, (wr_cbuf _ hi).2]
    rfl
  · congr 1
    exact cbuf_congr fun a h => by rw [if_pos h]

theorem chirpMultiply_eq {N n T X : Nat} {w x z : Nat → ℂ} (hT : n ≤ T) (hX : n ≤ X) (hN : n ≤ N) :
    forRange 0 n (chirpMultiplyBody (cbuf T w) (cbuf X x)) (cbuf N z) =
      .ok (cbuf N fun a => if a < n then x a * (starRingEnd ℂ) (w a) else z a) := by
  refine loop_cbuf (v := fun i => x i * (starRingEnd ℂ) (w i)) ?_
  intro i o hi _
  rw [chirpMultiplyBody]
  have e1 : (x i).re * (w i).re + (x i).im * (w i).im = (x i * (starRingEnd ℂ) (w i)).re := by
    rw [Complex.mul_re, Complex.conj_re, Complex.conj_im]; ring
  have e2 : -(x i).re * (w i).im + (x i).im * (w i).re = (x i * (starRingEnd ℂ) (w i)).im := by
    rw [Complex.mul_im, Complex.conj_re, Complex.conj_im]; ring
  have r1 : rd (cbuf X x).1 i = .ok (x i).re := rd_tab (by omega)
  have r2 : rd (cbuf X x).2 i = .ok (x i).im := rd_tab (by omega)
  have r3 : rd (cbuf T w).1 i = .ok (w i).re := rd_tab (by omega)
  have r4 : rd (cbuf T w).2 i = .ok (w i).im := rd_tab (by omega)
  rw [r1, r2, r3, r4]
  simp only [ok_bind']
  rw [e1, e2, (wr_cbuf _ (by omega)).1, (wr_cbuf _ (by omega)).2]
  rfl

theorem chirpFirst_eq {T N : Nat} {w z : Nat → ℂ} (hT : 0 < T) (hN : 0 < N) :
    chirpFirst (cbuf T w) (cbuf N z) = .ok (cbuf N fun a => if a = 0 then w 0 else z a) := by
  rw [chirpFirst]
  have r3 : rd (cbuf T w).1 0 = .ok (w 0).re := rd_tab (by omega)
  have r4 : rd (cbuf T w).2 0 = .ok (w 0).im := rd_tab (by omega)
  rw [r3, r4]
  simp only [ok_bind']
  rw [(wr_cbuf _ (by omega)).1, (wr_cbuf _ (by omega)).2]
  rfl

theorem chirpMirror_eq {n m : Nat} {w : Nat → ℂ} (hn : 0 < n) (hm : n < m / 2) :
    forRange 1 n (chirpMirrorBody (cbuf n w) m) (cbuf m fun a => if a = 0 then w 0 else 0) =
      .ok (cbuf m fun a => if a < n then w a else if m - n < a then w (m - a) else 0) := by
  have key := forRange_states (fun i => cbuf m fun a => if a < i then w a else if m - i < a then w (m - a) else 0)
    (show 1 ≤ n by omega) (body := chirpMirrorBody (cbuf n w) m) (by
    intro i h1 hi
    rw [chirpMirrorBody]
    have r3 : rd (cbuf n w).1 i = .ok (w i).re := rd_tab (by omega)
    have r4 : rd (cbuf n w).2 i = .ok (w i).im := rd_tab (by omega)
    rw [r3, r4]
    simp only [ok_bind']
    rw [(wr_cbuf _ (by omega)).1, (wr_cbuf _ (by omega)).2]
    simp only [ok_bind']
    rw [(wr_cbuf _ (by omega)).1, (wr_cbuf _ (by omega)).2]
    simp only [ok_bind', pure_eq_ok, Prod.mk.eta]
    congr 1
    refine cbuf_congr fun a ha => ?_
    by_cases h : a = i
    · subst h; rw [if_pos rfl, if_pos (by omega)]
    · rw [if_neg h]
      by_cases h2 : a = m - i
      · subst h2
        rw [if_pos rfl, if_neg (by omega), if_pos (by omega)]
        congr 1
        omega
      · rw [if_neg h2]
        exact if_congr (by omega) rfl (if_congr (by omega) rfl rfl))
  refine Eq.trans ?_ key
  congr 1
  refine cbuf_congr fun a ha => ?_
  by_cases h : a = 0
  · subst h; rw [if_pos rfl, if_pos (by omega)]
  · rw [if_neg h, if_neg (by omega), if_neg (by omega)]

/-! ## The convolution -/

theorem fftConvolve_eq {m : Nat} (hm : m < 2305843009213693952) {transform : Nat → CBuf → C (Bool × CBuf)}
    (htr : ∀ z, transform m (cbuf m z) = .ok (true, cbuf m (dft m z))) (a b o : Nat → ℂ) :
    fftConvolve transform m (cbuf m a) (cbuf m b) (cbuf m o) =
      .ok (true, cbuf m fun k => ∑ t ∈ Finset.range m, a t * b ((k + m - t) % m)) := by
  rw [fftConvolve, if_neg (by omega), htr]
  simp only [ok_bind', Bool.not_true, Bool.false_eq_true, if_false]
  rw [htr]
  simp only [ok_bind', Bool.not_true, Bool.false_eq_true, if_false]
  rw [loop_cbuf (v := fun q => dft m a q * dft m b q) (by
    intro i z hi hz
    rw [fftMultiplyBody]
    have r1 : rd (cbuf m z).1 i = .ok (dft m a i).re := by rw [← hz]; exact rd_tab hi
    have r2 : rd (cbuf m z).2 i = .ok (dft m a i).im := by rw [← hz]; exact rd_tab hi
    have r3 : rd (cbuf m (dft m b)).1 i = .ok (dft m b i).re := rd_tab hi
    have r4 : rd (cbuf m (dft m b)).2 i = .ok (dft m b i).im := rd_tab hi
    rw [r1, r2, r3, r4]
    simp only [ok_bind']
    have e1 : (dft m a i).re * (dft m b i).re - (dft m a i).im * (dft m b i).im = (dft m a i * dft m b i).re :=
      (Complex.mul_re _ _).symm
    have e2 : (dft m a i).im * (dft m b i).re + (dft m a i).re * (dft m b i).im = (dft m a i * dft m b i).im := by
      rw [Complex.mul_im]; ring
    rw [e1, e2, (wr_cbuf _ hi).1, (wr_cbuf _ hi).2]
    rfl)]
  simp only [ok_bind']
  rw [cbuf_swap, htr]
  simp only [ok_bind', Bool.not_true, Bool.false_eq_true, if_false]
  rw [cbuf_swap]
  rw [loop_cbuf (v := fun k => ∑ t ∈ Finset.range m, a t * b ((k + m - t) % m)) (by
    intro i z hi _
    have hv : swapRI (dft m (fun a_1 => swapRI (if a_1 < m then dft m a a_1 * dft m b a_1 else dft m a a_1)) i) =
        m * ∑ t ∈ Finset.range m, a t * b ((i + m - t) % m) := by
      rw [dft_swap, swapRI_swapRI, ← idft_mul a b hi, idft, idft]
      exact Finset.sum_congr rfl fun q hq => by rw [if_pos (Finset.mem_range.1 hq)]
    generalize dft m (fun a_1 => swapRI (if a_1 < m then dft m a a_1 * dft m b a_1 else dft m a a_1)) = D at *
    rw [fftScaleBody]
    have r1 : rd (cbuf m fun a => swapRI (D a)).1 i = .ok (swapRI (D i)).re := rd_tab hi
    have r2 : rd (cbuf m fun a => swapRI (D a)).2 i = .ok (swapRI (D i)).im := rd_tab hi
    rw [r1, r2, hv]
    simp only [ok_bind']
    generalize (∑ t ∈ Finset.range m, a t * b ((i + m - t) % m)) = c
    have hm0 : (m : ℝ) ≠ 0 := by
      have : 0 < m := by omega
      positivity
    have e1 : ((m : ℂ) * c).re / m = c.re := by
      rw [Complex.mul_re, Complex.natCast_re, Complex.natCast_im]; field_simp; ring
    have e2 : ((m : ℂ) * c).im / m = c.im := by
      rw [Complex.mul_im, Complex.natCast_re, Complex.natCast_im]; field_simp; ring
    rw [e1, e2, (wr_cbuf _ hi).1, (wr_cbuf _ hi).2]
    rfl)]
  simp only [ok_bind', pure_eq_ok]
  congr 2
  exact cbuf_congr fun k hk => by rw [if_pos hk]

/-! ## The Bluestein transform -/

theorem fftLength_eq {n : Nat} (hn : n < 4294967296) (fuel j : Nat) (hj : j ≤ 33) (hf : 33 < fuel + j) :
    ∃ j', j' ≤ 33 ∧ n < 2 ^ j' / 2 ∧ fftLength n fuel (2 ^ j) = .ok (some (2 ^ j')) := by
  induction fuel generalizing j with
  | zero => omega
  | succ fuel ih =>
    rw [fftLength]
    have hb : 2 ^ j ≤ 2 ^ 33 := Nat.pow_le_pow_right (by omega) hj
    by_cases h : 2 ^ j / 2 ≤ n
    · rw [if_pos h, if_neg (by omega), ← Nat.pow_succ]
      have hj2 : j < 33 := by
        rcases Nat.lt_or_ge j 33 with h | h
        · exact h
        · have : j = 33 := by omega
          subst this
          norm_num at h
          omega
      exact ih (j + 1) (by omega) (by omega)
    · rw [if_neg h]
      exact ⟨j, hj, by omega, rfl⟩

theorem bluestein_sum {n m k : Nat} (hn : 0 < n) (hm : n < m / 2) (hk : k < n) (x : Nat → ℂ) :
    (∑ t ∈ Finset.range m, (if t < n then x t * (starRingEnd ℂ) (fexp (-((t * t : ℝ) / (2 * n)))) else 0) *
      (fun a : Nat => if a < n then fexp (-((a * a : ℝ) / (2 * n))) else
        if m - n < a then fexp (-((((m - a : ℕ) : ℝ) * ((m - a : ℕ) : ℝ)) / (2 * n))) else 0) ((k + m - t) % m)) *
      (starRingEnd ℂ) (fexp (-((k * k : ℝ) / (2 * n)))) = dft n x k := by
  rw [dft_eq, Finset.sum_mul]
  have hn' : (n : ℝ) ≠ 0 := by positivity
  obtain ⟨d, rfl⟩ := Nat.exists_eq_add_of_le (show n ≤ m by omega)
  rw [Finset.sum_range_add, Finset.sum_eq_zero (s := Finset.range d), add_zero]
  · refine Finset.sum_congr rfl fun t ht => ?_
    have ht' := Finset.mem_range.1 ht
    rw [if_pos ht', conj_fexp, conj_fexp, neg_neg, neg_neg]
    have hb : (fun a : Nat => if a < n then fexp (-((a * a : ℝ) / (2 * n))) else
        if n + d - n < a then fexp (-((((n + d - a : ℕ) : ℝ) * ((n + d - a : ℕ) : ℝ)) / (2 * n))) else 0) ((k + (n + d) - t) % (n + d)) =
        fexp (-((((k : ℝ) - t) * ((k : ℝ) - t)) / (2 * n))) := by
      by_cases h : t ≤ k
      · have e : (k + (n + d) - t) % (n + d) = k - t := by
          rw [show k + (n + d) - t = k - t + (n + d) by omega, Nat.add_mod_right, Nat.mod_eq_of_lt (by omega)]
        dsimp only
        rw [e, if_pos (by omega), Nat.cast_sub h]
      · have e : (k + (n + d) - t) % (n + d) = n + d - (t - k) := by
          rw [Nat.mod_eq_of_lt (by omega)]
          omega
        dsimp only
        rw [e, if_neg (by omega), if_pos (by omega), show n + d - (n + d - (t - k)) = t - k by omega,
          Nat.cast_sub (by omega)]
        congr 1
        ring
    rw [hb, mul_assoc, mul_assoc, ← fexp_add, ← fexp_add]
    congr 2
    field_simp
    ring
  · intro t _
    rw [if_neg (by omega)]
    simp

theorem fftBluestein_cbuf {n N : Nat} (hn0 : 0 < n) (hn : n < 4294967296) (hN : n ≤ N) (x : Nat → ℂ)
    {transform : Nat → CBuf → C (Bool × CBuf)}
    (htr : ∀ j z, j < 62 → transform (2 ^ j) (cbuf (2 ^ j) z) = .ok (true, cbuf (2 ^ j) (dft (2 ^ j) z))) :
    fftBluestein transform n (cbuf N x) = .ok (true, cbuf N fun a => if a < n then dft n x a else x a) := by
  rw [fftBluestein]
  obtain ⟨j, hj, hm, e⟩ := fftLength_eq hn 65 0 (by omega) (by omega)
  rw [Nat.pow_zero] at e
  have hb : 2 ^ j ≤ 2 ^ 33 := Nat.pow_le_pow_right (by omega) hj
  have htr' := fun z => htr j z (by omega)
  rw [e]
  generalize 2 ^ j = m at *
  simp only [ok_bind']
  rw [if_neg (by omega), chirpTable_eq hn0 hn]
  simp only [ok_bind']
  rw [cbuf_replicate, chirpMultiply_eq le_rfl hN (by omega)]
  simp only [ok_bind']
  rw [chirpFirst_eq hn0 (by omega)]
  simp only [ok_bind']
  rw [chirpMirror_eq (w := fun i => fexp (-((i * i : ℝ) / (2 * n)))) hn0 hm]
  simp only [ok_bind']
  rw [fftConvolve_eq (by omega) htr']
  simp only [ok_bind', Bool.not_true, Bool.false_eq_true, if_false]
  rw [chirpMultiply_eq le_rfl (by omega) hN]
  simp only [ok_bind', pure_eq_ok]
  congr 2
  refine cbuf_congr fun k _ => ?_
  by_cases h : k < n
  · rw [if_pos h, if_pos h]
    exact bluestein_sum hn0 hm h x
  · rw [if_neg h, if_neg h]

theorem and_pred_pow (L : Nat) : 2 ^ L &&& (2 ^ L - 1) = 0 := by
  rw [Nat.and_two_pow_sub_one_eq_mod, Nat.mod_self]

theorem fftTransform_pow {N L : Nat} (x : Nat → ℂ) (d : Nat) (hL : L < 62) (hN : 2 ^ L ≤ N) :
    fftTransform (d + 1) (2 ^ L) (cbuf N x) = .ok (true, cbuf N fun a => if a < 2 ^ L then dft (2 ^ L) x a else x a) := by
  have := Nat.two_pow_pos L
  rw [fftTransform, if_neg (by omega), if_pos (and_pred_pow L), fftRadix2_cbuf x hL hN]

theorem fftTransform_cbuf {n N : Nat} (hn : n < 4294967296) (hN : n ≤ N) (x : Nat → ℂ) :
    fftTransform 2 n (cbuf N x) = .ok (true, cbuf N fun a => if a < n then dft n x a else x a) := by
  rcases Nat.eq_zero_or_pos n with rfl | hn0
  · rw [fftTransform, if_pos rfl, pure_eq_ok]
    congr 2
  · by_cases h : n &&& (n - 1) = 0
    · have h2 := (Nat.and_sub_one_eq_zero_iff_isPowerOfTwo (by omega)).1 h
      obtain ⟨L, rfl⟩ := h2
      refine fftTransform_pow x 1 ?_ hN
      by_contra hc
      have : 2 ^ 62 ≤ 2 ^ L := Nat.pow_le_pow_right (by omega) (by omega)
      omega
    · rw [fftTransform, if_neg (by omega), if_neg h]
      refine fftBluestein_cbuf hn0 hn hN x ?_
      intro j z hj
      rw [fftTransform_pow z 0 hj le_rfl]
      congr 2
      exact cbuf_congr fun a ha => by rw [if_pos ha]

end Sp
