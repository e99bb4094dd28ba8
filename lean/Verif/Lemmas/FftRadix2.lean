import Verif.Lemmas.FftBits
import Verif.Spec.Fft
import Mathlib.Algebra.BigOperators.Group.Finset.Basic
import Mathlib.Analysis.SpecialFunctions.Complex.Log
import Mathlib.Tactic.FieldSimp

/-! # Lemmas about the radix 2 transform -/

set_option linter.unusedSectionVars false

noncomputable section

namespace Sp

/-- The arrays with the real and imaginary parts. -/
def cbuf (N : Nat) (z : Nat → ℂ) : CBuf := (tab N fun i => (z i).re, tab N fun i => (z i).im)

theorem cbuf_congr {N : Nat} {z z' : Nat → ℂ} (h : ∀ i, i < N → z i = z' i) : cbuf N z = cbuf N z' := by
  rw [cbuf, cbuf]
  congr 1
  · exact tab_congr fun i hi => by rw [h i hi]
  · exact tab_congr fun i hi => by rw [h i hi]

/-- `exp(-2 * pi * i * r)`. -/
def fexp (r : ℝ) : ℂ := Complex.exp (-2 * Real.pi * Complex.I * r)

theorem fexp_add (a b : ℝ) : fexp (a + b) = fexp a * fexp b := by
  rw [fexp, fexp, fexp, ← Complex.exp_add]
  congr 1
  push_cast
  ring

theorem fexp_zero : fexp 0 = 1 := by simp [fexp]

theorem fexp_int (k : ℤ) : fexp k = 1 := by
  rw [fexp, Complex.exp_eq_one_iff]
  exact ⟨-k, by push_cast; ring⟩

theorem fexp_nat (k : ℕ) : fexp k = 1 := by
  have := fexp_int k
  simpa using this

theorem fexp_half : fexp (1 / 2) = -1 := by
  rw [fexp]
  have : (-2 * (Real.pi : ℂ) * Complex.I * ((1 / 2 : ℝ) : ℂ)) = -(Real.pi * Complex.I) := by push_cast; ring
  rw [this, Complex.exp_neg, Complex.exp_pi_mul_I]
  norm_num

theorem fexp_re (r : ℝ) : (fexp r).re = Real.cos (2 * Real.pi * r) := by
  rw [fexp]
  have : (-2 * (Real.pi : ℂ) * Complex.I * (r : ℂ)) = ((-(2 * Real.pi * r) : ℝ) : ℂ) * Complex.I := by push_cast; ring
  rw [this, Complex.exp_ofReal_mul_I_re, Real.cos_neg]

theorem fexp_im (r : ℝ) : (fexp r).im = -Real.sin (2 * Real.pi * r) := by
  rw [fexp]
  have : (-2 * (Real.pi : ℂ) * Complex.I * (r : ℂ)) = ((-(2 * Real.pi * r) : ℝ) : ℂ) * Complex.I := by push_cast; ring
  rw [this, Complex.exp_ofReal_mul_I_im, Real.sin_neg]

theorem dft_eq (n : Nat) (x : Nat → ℂ) (k : Nat) :
    dft n x k = ∑ t ∈ Finset.range n, x t * fexp ((t * k : ℝ) / n) := by
  rw [dft]
  refine Finset.sum_congr rfl fun t _ => ?_
  rw [fexp]
  congr 2
  push_cast
  ring

/-! ## The permutation -/

theorem fftSwap_tab {N i j : Nat} {f : Nat → ℝ} (hi : i < N) (hj : j < N) :
    fftSwap (tab N f) i j = .ok (tab N fun k => if k = j then f i else if k = i then f j else f k) := by
  rw [fftSwap, rd_tab hi, rd_tab hj]
  simp only [ok_bind']
  rw [wr_tab _ hi]
  simp only [ok_bind']
  rw [wr_tab _ hj]

theorem permute_cbuf {N L : Nat} {z : Nat → ℂ} (hL : L < 64) (hN : 2 ^ L ≤ N) :
    forRange 0 (2 ^ L) (fftPermuteBody L) (cbuf N z) = .ok (cbuf N fun a => if a < 2 ^ L then z (rev L a) else z a) := by
  have key := forRange_states (fun i => cbuf N fun a => if a < 2 ^ L ∧ (a < i ∨ rev L a < i) then z (rev L a) else z a)
    (Nat.zero_le (2 ^ L)) (body := fftPermuteBody L) (by
      intro i _ hi
      rw [fftPermuteBody, reverseBits_eq hL]
      simp only [ok_bind']
      have hj := rev_lt L i
      have hji := rev_rev L i hi
      have hrevj : ∀ a, a < 2 ^ L → rev L a = i → a = rev L i := by
        intro a ha h
        rw [← h, rev_rev L a ha]
      by_cases hij : rev L i > i
      · rw [if_pos hij, cbuf]
        dsimp only
        rw [fftSwap_tab (by omega) (by omega), fftSwap_tab (by omega) (by omega)]
        simp only [ok_bind', pure_eq_ok]
        congr 1
        refine Eq.trans ?_ (cbuf_congr (z := fun a => if a = rev L i then z i else if a = i then z (rev L i) else
          if a < 2 ^ L ∧ (a < i ∨ rev L a < i) then z (rev L a) else z a) ?_)
        · rw [cbuf]
          have e1 : ¬ (i < 2 ^ L ∧ (i < i ∨ rev L i < i)) := by omega
          have e2 : ¬ (rev L i < 2 ^ L ∧ (rev L i < i ∨ rev L (rev L i) < i)) := by rw [hji]; omega
          simp only [if_neg e1, if_neg e2]
          congr 1
          · exact tab_congr fun a _ => by split_ifs <;> rfl
          · exact tab_congr fun a _ => by split_ifs <;> rfl
        · intro a ha
          by_cases h1 : a = rev L i
          · subst h1
            rw [if_pos rfl, hji, if_pos ⟨hj, by omega⟩]
          · rw [if_neg h1]
            by_cases h2 : a = i
            · subst h2
              rw [if_pos rfl, if_pos ⟨hi, by omega⟩]
            · rw [if_neg h2]
              by_cases h3 : a < 2 ^ L
              · have h4 : rev L a ≠ i := fun h => h1 (hrevj a h3 h)
                exact if_congr (by omega) rfl rfl
              · rw [if_neg (by tauto), if_neg (by tauto)]
      · rw [if_neg hij]
        rw [pure_eq_ok]
        congr 1
        refine cbuf_congr fun a ha => ?_
        by_cases h3 : a < 2 ^ L
        · by_cases h1 : a = rev L i
          · subst h1
            rw [hji]
            by_cases h : rev L i = i
            · rw [h, ite_self, ite_self]
            · rw [if_pos ⟨hj, by omega⟩, if_pos ⟨hj, by omega⟩]
          · have h4 : rev L a ≠ i := fun h => h1 (hrevj a h3 h)
            by_cases h2 : a = i
            · subst h2
              rw [if_pos ⟨hi, by omega⟩, if_pos ⟨hi, by omega⟩]
            · exact if_congr (by omega) rfl rfl
        · rw [if_neg (by tauto), if_neg (by tauto)])
  refine Eq.trans ?_ (key.trans ?_)
  · congr 1
    exact cbuf_congr fun a _ => by rw [if_neg (by omega)]
  · congr 1
    refine cbuf_congr fun a _ => if_congr ?_ rfl rfl
    constructor
    · exact fun h => h.1
    · exact fun h => ⟨h, Or.inl h⟩

/-! ## The butterflies -/

/-- The tables. -/
def twiddle (n T : Nat) : CBuf :=
  (tab T fun i => Real.cos (2 * Real.pi * i / n), tab T fun i => Real.sin (2 * Real.pi * i / n))

theorem fftTable_eq (n T : Nat) :
    forRange 0 T (fftTableBody n) (List.replicate T 0, List.replicate T 0) = .ok (twiddle n T) := by
  have key := forRange_states (fun i => ((tab T fun a => if a < i then Real.cos (2 * Real.pi * a / n) else 0,
    tab T fun a => if a < i then Real.sin (2 * Real.pi * a / n) else 0) : CBuf)) (Nat.zero_le T) (body := fftTableBody n) (by
      intro i _ hi
      rw [fftTableBody]
      dsimp only
      rw [wr_tab _ hi, wr_tab _ hi]
      simp only [ok_bind', pure_eq_ok]
      congr 2
      · refine tab_congr fun a _ => ?_
        by_cases h : a = i
        · subst h; rw [if_pos rfl, if_pos (by omega)]; rfl
        · rw [if_neg h]; exact if_congr (by omega) rfl rfl
      · refine tab_congr fun a _ => ?_
        by_cases h : a = i
        · subst h; rw [if_pos rfl, if_pos (by omega)]; rfl
        · rw [if_neg h]; exact if_congr (by omega) rfl rfl)
  refine Eq.trans ?_ (key.trans ?_)
  · congr 1
    have h0 : List.replicate T (0 : ℝ) = tab T fun _ => 0 := tab_replicate T 0
    rw [h0]
    congr 1
  · congr 1
    rw [twiddle]
    congr 1
    · exact tab_congr fun a h => by rw [if_pos h]
    · exact tab_congr fun a h => by rw [if_pos h]

theorem butterfly_cbuf {n T N H step i h : Nat} {z : Nat → ℂ} (hT : h * step < T) (hN : i + h + H < N) (hH : 0 < H) :
    fftButterfly (twiddle n T) H step i h (cbuf N z) =
      .ok (cbuf N fun a => if a = i + h then z (i + h) + fexp ((h * step : ℕ) / n) * z (i + h + H)
        else if a = i + h + H then z (i + h) - fexp ((h * step : ℕ) / n) * z (i + h + H) else z a) := by
  rw [fftButterfly, twiddle, cbuf]
  dsimp only
  rw [rd_tab hT, rd_tab hT, rd_tab hN, rd_tab hN]
  simp only [ok_bind']
  rw [rd_tab (by omega), rd_tab (by omega)]
  simp only [ok_bind']
  rw [wr_tab _ hN, wr_tab _ hN]
  simp only [ok_bind']
  rw [addAt_tab _ (by omega), addAt_tab _ (by omega)]
  simp only [ok_bind', pure_eq_ok]
  have er := fexp_re ((h * step : ℕ) / n)
  have ei := fexp_im ((h * step : ℕ) / n)
  rw [← mul_div_assoc] at er ei
  congr 1
  rw [cbuf]
  congr 1
  · refine tab_congr fun a _ => ?_
    by_cases h1 : a = i + h
    · rw [if_pos h1, if_neg (by omega), if_pos h1, Complex.add_re, Complex.mul_re, er, ei, h1]
      ring
    · rw [if_neg h1, if_neg h1]
      by_cases h2 : a = i + h + H
      · rw [if_pos h2, if_pos h2, Complex.sub_re, Complex.mul_re, er, ei]
        ring
      · rw [if_neg h2, if_neg h2]
  · refine tab_congr fun a _ => ?_
    by_cases h1 : a = i + h
    · rw [if_pos h1, if_neg (by omega), if_pos h1, Complex.add_im, Complex.mul_im, er, ei, h1]
      ring
    · rw [if_neg h1, if_neg h1]
      by_cases h2 : a = i + h + H
      · rw [if_pos h2, if_pos h2, Complex.sub_im, Complex.mul_im, er, ei]
        ring
      · rw [if_neg h2, if_neg h2]

theorem block_cbuf {n T N H step b : Nat} {z : Nat → ℂ} (hT : H * step ≤ T) (hs : 0 < step) (hN : b * (2 * H) + 2 * H ≤ N) :
    fftBlock (twiddle n T) (2 * H) step b (cbuf N z) =
      .ok (cbuf N fun a =>
        if b * (2 * H) ≤ a ∧ a < b * (2 * H) + H then z a + fexp (((a - b * (2 * H)) * step : ℕ) / n) * z (a + H)
        else if b * (2 * H) + H ≤ a ∧ a < b * (2 * H) + H + H then
          z (a - H) - fexp (((a - H - b * (2 * H)) * step : ℕ) / n) * z a
        else z a) := by
  rw [fftBlock, Nat.mul_div_cancel_left H (by omega : 0 < 2)]
  generalize b * (2 * H) = i at *
  have key := forRange_states (fun h => cbuf N fun a =>
        if i ≤ a ∧ a < i + h then z a + fexp (((a - i) * step : ℕ) / n) * z (a + H)
        else if i + H ≤ a ∧ a < i + H + h then
          z (a - H) - fexp (((a - H - i) * step : ℕ) / n) * z a
        else z a) (Nat.zero_le H) (body := fftButterfly (twiddle n T) H step i) (by
      intro h _ hh
      have hstep : h * step < T := by
        have : (h + 1) * step ≤ H * step := Nat.mul_le_mul_right _ hh
        rw [Nat.add_mul] at this
        omega
      rw [butterfly_cbuf hstep (by omega) (by omega)]
      congr 1
      refine cbuf_congr fun a ha => ?_
      rw [if_neg (by omega : ¬ (i ≤ i + h ∧ i + h < i + h)), if_neg (by omega : ¬ (i + H ≤ i + h ∧ i + h < i + H + h)),
        if_neg (by omega : ¬ (i ≤ i + h + H ∧ i + h + H < i + h)),
        if_neg (by omega : ¬ (i + H ≤ i + h + H ∧ i + h + H < i + H + h))]
      by_cases h1 : a = i + h
      · subst h1
        rw [if_pos rfl, if_pos ⟨by omega, by omega⟩, Nat.add_sub_cancel_left]
      · rw [if_neg h1]
        by_cases h2 : a = i + h + H
        · subst h2
          rw [if_pos rfl, if_neg (by omega), if_pos ⟨by omega, by omega⟩, Nat.add_sub_cancel, Nat.add_sub_cancel_left]
        · rw [if_neg h2]
          exact if_congr (by omega) rfl (if_congr (by omega) rfl rfl))
  refine Eq.trans ?_ key
  congr 1
  exact cbuf_congr fun a _ => by rw [if_neg (by omega), if_neg (by omega)]

/-- One stage: all butterflies of one size, `H` half of the size. -/
def bfly (H : Nat) (z : Nat → ℂ) (a : Nat) : ℂ :=
  if a % (2 * H) < H then z a + fexp ((a % (2 * H) : ℕ) / ((2 * H : ℕ) : ℝ)) * z (a + H)
  else z (a - H) - fexp ((a % (2 * H) - H : ℕ) / ((2 * H : ℕ) : ℝ)) * z a

theorem blocks_cbuf {N H step B : Nat} {z : Nat → ℂ} (hs : 0 < step) (hH : 0 < H)
    (hBN : B * (2 * H) ≤ N) :
    forRange 0 B (fftBlock (twiddle (2 * H * step) (H * step)) (2 * H) step) (cbuf N z) =
      .ok (cbuf N fun a => if a < B * (2 * H) then bfly H z a else z a) := by
  have hfe : ∀ m : Nat, (((m * step : ℕ) : ℝ) / ((2 * H * step : ℕ) : ℝ)) = (m : ℝ) / ((2 * H : ℕ) : ℝ) := by
    intro m
    have : (step : ℝ) ≠ 0 := by positivity
    push_cast
    field_simp
  have key := forRange_states (fun b => cbuf N fun a => if a < b * (2 * H) then bfly H z a else z a)
    (Nat.zero_le B) (body := fftBlock (twiddle (2 * H * step) (H * step)) (2 * H) step) (by
      intro b _ hb
      have hb' : b * (2 * H) + 2 * H ≤ B * (2 * H) := by
        calc b * (2 * H) + 2 * H = (b + 1) * (2 * H) := by ring
          _ ≤ _ := Nat.mul_le_mul_right _ hb
      rw [block_cbuf le_rfl hs (by omega)]
      congr 1
      refine cbuf_congr fun a ha => ?_
      rw [Nat.add_mul, Nat.one_mul]
      by_cases h1 : b * (2 * H) ≤ a ∧ a < b * (2 * H) + 2 * H
      · have hm : a % (2 * H) = a - b * (2 * H) := by
          obtain ⟨r, rfl⟩ := Nat.exists_eq_add_of_le h1.1
          rw [Nat.add_sub_cancel_left, Nat.add_comm, Nat.add_mul_mod_self_right, Nat.mod_eq_of_lt (by omega)]
        rw [if_pos (by omega : a < b * (2 * H) + 2 * H), bfly, hm]
        by_cases h2 : a - b * (2 * H) < H
        · rw [if_pos h2, if_pos ⟨by omega, by omega⟩, if_neg (by omega), if_neg (by omega), hfe]
        · rw [if_neg h2, if_neg (by omega), if_pos ⟨by omega, by omega⟩, if_neg (by omega), if_neg (by omega), hfe,
            Nat.sub_right_comm]
      · rw [if_neg (by omega), if_neg (by omega)]
        exact if_congr (by omega) rfl rfl)
  refine Eq.trans ?_ key
  congr 1
  exact cbuf_congr fun a _ => by rw [if_neg (by omega)]

/-! ## The stages -/

/-- The content of the arrays after `s` stages. -/
def stageZ (M s : Nat) (x : Nat → ℂ) (a : Nat) : ℂ :=
  ∑ t ∈ Finset.range (2 ^ s), x (rev M (a / 2 ^ s) + 2 ^ M * t) * fexp ((t * (a % 2 ^ s) : ℕ) / ((2 ^ s : ℕ) : ℝ))

theorem stageZ_zero (M : Nat) (x : Nat → ℂ) (a : Nat) : stageZ M 0 x a = x (rev M a) := by
  simp [stageZ, fexp_zero]

theorem stageZ_last (L : Nat) (x : Nat → ℂ) {a : Nat} (ha : a < 2 ^ L) : stageZ 0 L x a = dft (2 ^ L) x a := by
  rw [stageZ, dft_eq]
  refine Finset.sum_congr rfl fun t _ => ?_
  rw [rev, Nat.mod_eq_of_lt ha]
  simp

theorem sum_even_odd (H : Nat) (f : Nat → ℂ) :
    ∑ t ∈ Finset.range (2 * H), f t = ∑ u ∈ Finset.range H, f (2 * u) + ∑ u ∈ Finset.range H, f (2 * u + 1) := by
  induction H with
  | zero => simp
  | succ H ih =>
    rw [show 2 * (H + 1) = 2 * H + 1 + 1 by ring, Finset.sum_range_succ, Finset.sum_range_succ, ih, Finset.sum_range_succ,
      Finset.sum_range_succ]
    ring

theorem rev_even (M q : Nat) : rev (M + 1) (2 * q) = rev M q := by
  rw [rev, show 2 * q % 2 = 0 by omega, show 2 * q / 2 = q by omega]
  simp

theorem rev_odd (M q : Nat) : rev (M + 1) (2 * q + 1) = 2 ^ M + rev M q := by
  rw [rev, show (2 * q + 1) % 2 = 1 by omega, show (2 * q + 1) / 2 = q by omega]
  simp

theorem stageZ_split (M s q r : Nat) (hr : r < 2 ^ (s + 1)) (x : Nat → ℂ) :
    stageZ M (s + 1) x (2 ^ (s + 1) * q + r) =
      ∑ u ∈ Finset.range (2 ^ s), x (rev M q + 2 ^ (M + 1) * u) * fexp ((u * r : ℕ) / ((2 ^ s : ℕ) : ℝ)) +
      fexp (r / ((2 * 2 ^ s : ℕ) : ℝ)) *
      ∑ u ∈ Finset.range (2 ^ s), x (2 ^ M + rev M q + 2 ^ (M + 1) * u) * fexp ((u * r : ℕ) / ((2 ^ s : ℕ) : ℝ)) := by
  rw [stageZ, Nat.mul_add_mod, Nat.mod_eq_of_lt hr, Nat.mul_add_div (Nat.two_pow_pos _), Nat.div_eq_of_lt hr, Nat.add_zero]
  have h2 : 2 ^ (s + 1) = 2 * 2 ^ s := by ring
  have hp : (2 ^ s : ℝ) ≠ 0 := by positivity
  rw [h2, sum_even_odd, Finset.mul_sum]
  congr 1
  · refine Finset.sum_congr rfl fun u _ => ?_
    congr 2
    · ring_nf
    · push_cast
      field_simp
  · refine Finset.sum_congr rfl fun u _ => ?_
    rw [mul_left_comm, ← fexp_add]
    congr 2
    · ring_nf
    · push_cast
      field_simp
      ring

theorem stageZ_part (M s q r : Nat) (hr : r < 2 ^ s) (x : Nat → ℂ) :
    stageZ M s x (2 ^ s * q + r) =
      ∑ u ∈ Finset.range (2 ^ s), x (rev M q + 2 ^ M * u) * fexp ((u * r : ℕ) / ((2 ^ s : ℕ) : ℝ)) := by
  rw [stageZ, Nat.mul_add_mod, Nat.mod_eq_of_lt hr, Nat.mul_add_div (Nat.two_pow_pos _), Nat.div_eq_of_lt hr, Nat.add_zero]

theorem stageZ_succ (M s : Nat) (x : Nat → ℂ) (a : Nat) : stageZ M (s + 1) x a = bfly (2 ^ s) (stageZ (M + 1) s x) a := by
  have h2 : 2 ^ (s + 1) = 2 * 2 ^ s := by ring
  have hr : a % 2 ^ (s + 1) < 2 ^ (s + 1) := Nat.mod_lt _ (Nat.two_pow_pos _)
  have ha : a = 2 ^ (s + 1) * (a / 2 ^ (s + 1)) + a % 2 ^ (s + 1) := (Nat.div_add_mod _ _).symm
  rw [bfly, ← h2]
  generalize a % 2 ^ (s + 1) = r at *
  generalize a / 2 ^ (s + 1) = q at *
  subst ha
  have hp : (2 ^ s : ℝ) ≠ 0 := by positivity
  rw [stageZ_split M s q r hr]
  by_cases h : r < 2 ^ s
  · rw [if_pos h, show 2 ^ (s + 1) * q + r = 2 ^ s * (2 * q) + r by ring,
      show 2 ^ s * (2 * q) + r + 2 ^ s = 2 ^ s * (2 * q + 1) + r by ring, stageZ_part _ _ _ _ h, stageZ_part _ _ _ _ h,
      rev_even, rev_odd, h2]
  · obtain ⟨r', rfl⟩ := Nat.exists_eq_add_of_le (not_lt.1 h)
    have hr' : r' < 2 ^ s := by omega
    rw [if_neg h, show 2 ^ (s + 1) * q + (2 ^ s + r') - 2 ^ s = 2 ^ s * (2 * q) + r' by
        rw [← Nat.add_assoc, Nat.add_right_comm, Nat.add_sub_cancel]; ring,
      show 2 ^ (s + 1) * q + (2 ^ s + r') = 2 ^ s * (2 * q + 1) + r' by ring, stageZ_part _ _ _ _ hr',
      stageZ_part _ _ _ _ hr', rev_even, rev_odd, h2, Nat.add_sub_cancel_left]
    have e1 : ∀ u : Nat, fexp ((u * (2 ^ s + r') : ℕ) / ((2 ^ s : ℕ) : ℝ)) = fexp ((u * r' : ℕ) / ((2 ^ s : ℕ) : ℝ)) := by
      intro u
      rw [show (((u * (2 ^ s + r') : ℕ) : ℝ) / ((2 ^ s : ℕ) : ℝ)) = (u : ℝ) + (u * r' : ℕ) / ((2 ^ s : ℕ) : ℝ) by
        push_cast; field_simp, fexp_add, fexp_nat, one_mul]
    have e2 : fexp (((2 ^ s + r' : ℕ) : ℝ) / ((2 * 2 ^ s : ℕ) : ℝ)) = -fexp ((r' : ℝ) / ((2 * 2 ^ s : ℕ) : ℝ)) := by
      rw [show (((2 ^ s + r' : ℕ) : ℝ) / ((2 * 2 ^ s : ℕ) : ℝ)) = 1 / 2 + (r' : ℝ) / ((2 * 2 ^ s : ℕ) : ℝ) by
        push_cast; field_simp, fexp_add, fexp_half, neg_one_mul]
    rw [e2, neg_mul, ← sub_eq_add_neg]
    simp only [e1]

theorem stages_cbuf {N L : Nat} (x y : Nat → ℂ) (hL : L < 62) (hN : 2 ^ L ≤ N) (M s fuel : Nat) (hM : M + 1 + s = L) (hf : M < fuel) :
    fftStages (twiddle (2 ^ L) (2 ^ L / 2)) (2 ^ L) fuel (2 ^ (s + 1)) (cbuf N fun a => if a < 2 ^ L then stageZ (M + 1) s x a else y a) =
      .ok (cbuf N fun a => if a < 2 ^ L then stageZ 0 L x a else y a) := by
  have step : ∀ M s, M + 1 + s = L →
      forRange 0 ((2 ^ L + 2 ^ (s + 1) - 1) / 2 ^ (s + 1)) (fftBlock (twiddle (2 ^ L) (2 ^ L / 2)) (2 ^ (s + 1)) (2 ^ L / 2 ^ (s + 1)))
        (cbuf N fun a => if a < 2 ^ L then stageZ (M + 1) s x a else y a) =
      .ok (cbuf N fun a => if a < 2 ^ L then stageZ M (s + 1) x a else y a) := by
    intro M s hM
    have h2 : 2 ^ (s + 1) = 2 * 2 ^ s := by ring
    have hn : 2 ^ L = 2 * 2 ^ s * 2 ^ M := by rw [← hM, Nat.pow_add, Nat.pow_succ]; ring
    have hs := Nat.two_pow_pos s
    have hMp := Nat.two_pow_pos M
    have e1 : 2 ^ L / 2 ^ (s + 1) = 2 ^ M := by rw [hn, h2, Nat.mul_div_cancel_left _ (by omega)]
    have e2 : (2 ^ L + 2 ^ (s + 1) - 1) / 2 ^ (s + 1) = 2 ^ M := by
      rw [hn, h2, Nat.add_sub_assoc (by omega), Nat.mul_add_div (by omega), Nat.div_eq_of_lt (by omega), Nat.add_zero]
    have e3 : 2 ^ L / 2 = 2 ^ s * 2 ^ M := by
      rw [hn, Nat.mul_assoc, Nat.mul_div_cancel_left _ (by omega)]
    have e4 : 2 ^ M * (2 * 2 ^ s) = 2 ^ L := by rw [hn, Nat.mul_comm]
    have := blocks_cbuf (N := N) (H := 2 ^ s) (step := 2 ^ M) (B := 2 ^ M)
      (z := fun a => if a < 2 ^ L then stageZ (M + 1) s x a else y a) hMp hs (by rw [e4]; exact hN)
    rw [e1, e2, e3, h2]
    rw [← hn, e4] at this
    rw [this]
    congr 1
    refine cbuf_congr fun a ha => ?_
    by_cases h : a < 2 ^ L
    · rw [if_pos h, if_pos h, stageZ_succ, bfly, bfly]
      have hq : a / (2 * 2 ^ s) < 2 ^ M := by
        rw [Nat.div_lt_iff_lt_mul (by omega), e4]
        exact h
      have hda := Nat.div_add_mod a (2 * 2 ^ s)
      have hub : 2 * 2 ^ s * (a / (2 * 2 ^ s)) + 2 * 2 ^ s ≤ 2 ^ L := by
        calc 2 * 2 ^ s * (a / (2 * 2 ^ s)) + 2 * 2 ^ s = 2 * 2 ^ s * (a / (2 * 2 ^ s) + 1) := by ring
          _ ≤ 2 * 2 ^ s * 2 ^ M := Nat.mul_le_mul_left _ hq
          _ = _ := hn.symm
      by_cases hr : a % (2 * 2 ^ s) < 2 ^ s
      · rw [if_pos hr, if_pos hr, if_pos h, if_pos (by omega)]
      · rw [if_neg hr, if_neg hr, if_pos h, if_pos (by omega)]
    · rw [if_neg h, if_neg h, if_neg h]
  have hle : ∀ M s, M + 1 + s = L → 2 ^ (s + 1) ≤ 2 ^ L := fun M s h => Nat.pow_le_pow_right (by omega) (by omega)
  induction M generalizing s fuel with
  | zero =>
    obtain ⟨fuel, rfl⟩ : ∃ f, fuel = f + 1 := ⟨fuel - 1, by omega⟩
    have hs : s + 1 = L := by omega
    rw [fftStages, if_pos (hle 0 s hM), step 0 s hM]
    simp only [ok_bind']
    rw [hs, if_pos rfl, pure_eq_ok]
  | succ M ih =>
    obtain ⟨fuel, rfl⟩ : ∃ f, fuel = f + 1 := ⟨fuel - 1, by omega⟩
    rw [fftStages, if_pos (hle (M + 1) s hM), step (M + 1) s hM]
    simp only [ok_bind']
    have hlt : 2 ^ (s + 1) < 2 ^ L := Nat.pow_lt_pow_right (by omega) (by omega)
    have hL' : 2 ^ L ≤ 2 ^ 62 := Nat.pow_le_pow_right (by omega) (by omega)
    rw [if_neg (by omega), Nat.mod_eq_of_lt (by omega), show 2 * 2 ^ (s + 1) = 2 ^ (s + 1 + 1) by ring]
    exact ih (s + 1) fuel (by omega) (by omega)

/-- The radix 2 transform. -/
theorem fftRadix2_cbuf {N L : Nat} (x : Nat → ℂ) (hL : L < 62) (hN : 2 ^ L ≤ N) :
    fftRadix2 (2 ^ L) (cbuf N x) = .ok (true, cbuf N fun a => if a < 2 ^ L then dft (2 ^ L) x a else x a) := by
  have hL' : 2 ^ L ≤ 2 ^ 61 := Nat.pow_le_pow_right (by omega) (by omega)
  rw [fftRadix2, fftLevels_pow]
  rw [Nat.one_shiftLeft, Nat.mod_eq_of_lt (by omega), if_neg (by omega), if_neg (by omega), fftTable_eq]
  simp only [ok_bind']
  rw [permute_cbuf (by omega) hN]
  simp only [ok_bind']
  rcases Nat.eq_zero_or_pos L with rfl | hpos
  · rw [fftStages, if_neg (by norm_num)]
    simp only [pure_eq_ok, ok_bind']
    congr 2
    refine cbuf_congr fun a _ => ?_
    by_cases h : a < 2 ^ 0
    · rw [if_pos h, if_pos h, ← stageZ_last 0 x h, stageZ_zero]
    · rw [if_neg h, if_neg h]
  · obtain ⟨M, rfl⟩ : ∃ M, L = M + 1 := ⟨L - 1, by omega⟩
    have := stages_cbuf x x hL hN M 0 64 rfl (by omega)
    have e : (cbuf N fun a => if a < 2 ^ (M + 1) then stageZ (M + 1) 0 x a else x a) =
        cbuf N fun a => if a < 2 ^ (M + 1) then x (rev (M + 1) a) else x a :=
      cbuf_congr fun a _ => by rw [stageZ_zero]
    rw [e] at this
    have h2 : 2 ^ (0 + 1) = 2 := by norm_num
    rw [h2] at this
    rw [this]
    simp only [ok_bind', pure_eq_ok]
    congr 2
    refine cbuf_congr fun a _ => ?_
    by_cases h : a < 2 ^ (M + 1)
    · rw [if_pos h, if_pos h, stageZ_last _ _ h]
    · rw [if_neg h, if_neg h]

end Sp
