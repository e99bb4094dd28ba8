import Verif.Props.FloatSpectrum

/-! # C180: the spectrum of filtered tones -/

set_option linter.unusedSectionVars false

noncomputable section

namespace Sp
variable {rnd : ℚ → ℚ}

private theorem real_at {n : Nat} {x : Buf (Fl rnd)} {i : Nat} (hi : i < n) :
    sampleAt x (List.replicate n 0) i = (((x.getD i 0).val : ℝ) : ℂ) := by
  rw [sampleAt, complexAt, realValues, realValues, List.getD_eq_getElem?_getD, List.getD_eq_getElem?_getD, List.getElem?_map, List.getElem?_map,
    List.getElem?_replicate, if_pos hi, List.getD_eq_getElem?_getD]
  cases x[i]? with
  | none =>
    apply Complex.ext
    · simp
    · simp
  | some v =>
    apply Complex.ext
    · simp
    · simp

/-- The tones from time `m` on. -/
private def later (m : Nat) (tones : List (SineTone (Fl rnd))) : List (SineTone (Fl rnd)) := tones.map fun x => { x with phase := x.phase + x.frq * m }

private theorem chordAt_later (rate m : Nat) (tones : List (SineTone (Fl rnd))) (y : ℝ) : chordAt rate (later m tones) y = chordAt rate tones (m + y) := by
  unfold chordAt later
  rw [List.map_map]
  congr 1
  refine List.map_congr_left fun x _ => ?_
  simp only [Function.comp]
  push_cast
  ring_nf

/-- The exact amplitudes, for tones that began earlier. -/
private theorem later_exact {rate n k m : Nat} (hr : 2 ≤ rate) (hk : 2 * k < n) {tones : List (SineTone (Fl rnd))} (hf : WholePeriods rate n tones) :
    (∀ x, (tones.filter fun y => y.frq * n = k * rate) = [x] → 2 / n * ‖dft n (fun t => ((chordAt rate tones (m + t) : ℝ) : ℂ)) k‖ = |(x.amp.val : ℝ)|) ∧
    ((∀ x ∈ tones, x.frq * n ≠ k * rate) → 2 / n * ‖dft n (fun t => ((chordAt rate tones (m + t) : ℝ) : ℂ)) k‖ = 0) := by
  have hf' : WholePeriods rate n (later m tones) := by
    intro x hx
    obtain ⟨y, hy, rfl⟩ := List.mem_map.1 hx
    exact hf y hy
  obtain ⟨c1, c2⟩ := C177_exact hr hk hf'
  simp only [chordAt_later] at c1 c2
  refine ⟨fun x hx => ?_, fun h => c2 fun x hx => ?_⟩
  · refine c1 { x with phase := x.phase + x.frq * m } ?_
    unfold later
    rw [List.filter_map]
    have : ((fun y : SineTone (Fl rnd) => decide (y.frq * n = k * rate)) ∘ fun x : SineTone (Fl rnd) => { x with phase := x.phase + x.frq * m }) =
      fun y : SineTone (Fl rnd) => decide (y.frq * n = k * rate) := rfl
    rw [this, hx]
    rfl
  · obtain ⟨y, hy, rfl⟩ := List.mem_map.1 hx
    exact h y hy

/-- The spectrum of samples that are near to tones. -/
private theorem spectrum_near (h : RoundsToNearest rnd) [Trig (Fl rnd)] (ht : TrigAccurate rnd) {rate n s d N : Nat} (hr : 2 ≤ rate) (hn : n < 4294967296)
    {kept : List (SineTone (Fl rnd))} (hf : WholePeriods rate n kept) (hamp : ChordValid rate kept) (hK : kept.length ≤ N) (hN : N ≤ 2 ^ 20) {out : Buf (Fl rnd)} (hd : d ≤ s)
    {ε : ℝ} (hε : 0 ≤ ε) (hε2 : ε ≤ 2 ^ 30)
    (hy : ∀ i, s ≤ i → i < s + n → ∃ y, out[i]? = some y ∧ |(y.val : ℝ) - chordAt rate kept ((i : ℝ) - d)| ≤ ε) :
    ∃ re im, spFft n ((out.drop s).take n) (List.replicate n 0) = .ok (0, re, im) ∧ re.length = n ∧ im.length = n ∧ ∀ k, 2 * k < n →
      (∀ x, (kept.filter fun y => y.frq * n = k * rate) = [x] → |2 / n * ‖sampleAt re im k‖ - abs (x.amp.val : ℝ)| ≤ 3 * ε + n * (N + 1) / 2 ^ 34) ∧
      ((∀ x ∈ kept, x.frq * n ≠ k * rate) → 2 / n * ‖sampleAt re im k‖ ≤ 3 * ε + n * (N + 1) / 2 ^ 34) := by
  generalize hx : (out.drop s).take n = x
  have hget : ∀ i, i < n → |((x.getD i 0).val : ℝ) - chordAt rate kept (((s - d : Nat) : ℝ) + i)| ≤ ε := by
    intro i hi
    obtain ⟨y, y1, y2⟩ := hy (s + i) (by omega) (by omega)
    rw [← hx, List.getD_eq_getElem?_getD, List.getElem?_take, if_pos hi, List.getElem?_drop, y1, Option.getD_some]
    have e : ((s + i : Nat) : ℝ) - d = ((s - d : Nat) : ℝ) + i := by
      rw [Nat.cast_sub hd]
      push_cast
      ring
    rwa [e] at y2
  have hlen : x.length = n := by
    rcases Nat.eq_zero_or_pos n with h0 | h0
    · rw [← hx, h0]
      rfl
    · obtain ⟨y, y1, -⟩ := hy (s + n - 1) (by omega) (by omega)
      have := (List.getElem?_eq_some_iff.1 y1).1
      rw [← hx, List.length_take, List.length_drop]
      omega
  have hKR : (kept.length : ℝ) ≤ N := by exact_mod_cast hK
  have hNR : (N : ℝ) ≤ 2 ^ 20 := by exact_mod_cast hN
  have habs : ∀ i, i < n → |((x.getD i 0).val : ℝ)| ≤ N + ε := by
    intro i hi
    have a1 := hget i hi
    have a2 := (chordAt_abs rate kept (((s - d : Nat) : ℝ) + i)).trans (chordAmp_le hamp).2
    rw [abs_le] at a1 a2 ⊢
    constructor <;> linarith
  have hb : spectrumBound n x (List.replicate n 0) ≤ n * (N + ε) := by
    unfold spectrumBound
    refine (Finset.sum_le_sum (g := fun _ => (N : ℝ) + ε) fun i hi => ?_).trans (by rw [Finset.sum_const, Finset.card_range, nsmul_eq_mul])
    rw [real_at (Finset.mem_range.1 hi), Complex.norm_real, Real.norm_eq_abs]
    exact habs i (Finset.mem_range.1 hi)
  have hn' : (n : ℝ) ≤ 2 ^ 32 := by
    have : n ≤ 2 ^ 32 := by omega
    exact_mod_cast this
  have hmax : 2 ^ 80 * spectrumBound n x (List.replicate n 0) + 2 ^ 80 ≤ ((doubleMax : ℚ) : ℝ) := by
    have e1 : (n : ℝ) * (N + ε) ≤ 2 ^ 32 * 2 ^ 31 := mul_le_mul hn' (by linarith [(by norm_num : (2 : ℝ) ^ 20 + 2 ^ 30 ≤ 2 ^ 31)]) (by positivity) (by norm_num)
    have e2 := fmax_ge (e := 200) (by norm_num)
    rw [fmax] at e2
    have e3 : (2 : ℝ) ^ 80 * (2 ^ 32 * 2 ^ 31) + 2 ^ 80 ≤ (2 : ℝ) ^ (200 : ℤ) := by norm_num
    linarith
  obtain ⟨re, im, f1, f2, f3, f4, -⟩ := C133_fft h ht (n := n) (re := x) (im := List.replicate n 0) hn (by simp [hlen]) (by omega) hmax
  refine ⟨re, im, f1, by rw [f2, hlen], by rw [f3, List.length_replicate], fun k hk => ?_⟩
  have hn1 : (1 : ℝ) ≤ n := by exact_mod_cast (by omega : 1 ≤ n)
  have a1 : ‖dft n (sampleAt x (List.replicate n 0)) k - dft n (fun t => ((chordAt rate kept (((s - d : Nat) : ℝ) + t) : ℝ) : ℂ)) k‖ ≤ n * ε := by
    refine (norm_dft_sub_le _ _ _ _).trans ((Finset.sum_le_sum (g := fun _ => ε) fun i hi => ?_).trans (by rw [Finset.sum_const, Finset.card_range, nsmul_eq_mul]))
    rw [real_at (Finset.mem_range.1 hi), ← Complex.ofReal_sub, Complex.norm_real, Real.norm_eq_abs]
    exact hget i (Finset.mem_range.1 hi)
  have a2 : ‖sampleAt re im k - dft n (fun t => ((chordAt rate kept (((s - d : Nat) : ℝ) + t) : ℝ) : ℂ)) k‖ ≤
      n / 2 ^ 35 * (n * (N + ε)) + (2 : ℝ) ^ (-950 : ℤ) + n * ε := by
    refine (norm_sub_le_norm_sub_add_norm_sub _ (dft n (sampleAt x (List.replicate n 0)) k) _).trans (add_le_add ((f4 k (by omega)).trans ?_) a1)
    exact add_le_add (mul_le_mul_of_nonneg_left hb (by positivity)) le_rfl
  have hδ : (2 : ℝ) ^ (-950 : ℤ) ≤ 1 / 2 ^ 50 := by
    rw [show (1 : ℝ) / 2 ^ 50 = 2 ^ (-50 : ℤ) by norm_num]
    exact zpow_le_zpow_right₀ (by norm_num) (by norm_num)
  have a4 : |2 / n * ‖sampleAt re im k‖ - 2 / n * ‖dft n (fun t => ((chordAt rate kept (((s - d : Nat) : ℝ) + t) : ℝ) : ℂ)) k‖| ≤ 3 * ε + n * (N + 1) / 2 ^ 34 := by
    rw [← mul_sub, abs_mul, abs_of_pos (by positivity : (0 : ℝ) < 2 / n)]
    have b1 := (abs_norm_sub_norm_le (sampleAt re im k) (dft n (fun t => ((chordAt rate kept (((s - d : Nat) : ℝ) + t) : ℝ) : ℂ)) k)).trans a2
    refine (mul_le_mul_of_nonneg_left b1 (by positivity : (0 : ℝ) ≤ 2 / n)).trans ?_
    generalize (2 : ℝ) ^ (-950 : ℤ) = z at *
    have e : 2 / (n : ℝ) * (n / 2 ^ 35 * (n * (N + ε)) + z + n * ε) = n * N / 2 ^ 34 + n / 2 ^ 34 * ε + 2 / n * z + 2 * ε := by
      field_simp
    rw [e]
    have b2 : (n : ℝ) / 2 ^ 34 * ε ≤ 1 * ε := mul_le_mul_of_nonneg_right (by rw [div_le_one (by norm_num)]; linarith [(by norm_num : (2 : ℝ) ^ 32 ≤ 2 ^ 34)]) hε
    have b3 : 2 / (n : ℝ) * z ≤ n / 2 ^ 34 := by
      have c1 : 2 / (n : ℝ) ≤ 2 := by rw [div_le_iff₀ (by linarith)]; linarith
      have c2 : 2 / (n : ℝ) * z ≤ 2 / n * (1 / 2 ^ 50) := mul_le_mul_of_nonneg_left hδ (by positivity)
      have c3 : 2 / (n : ℝ) * (1 / 2 ^ 50) ≤ 2 * (1 / 2 ^ 50) := mul_le_mul_of_nonneg_right c1 (by norm_num)
      have c4 : (1 : ℝ) / 2 ^ 34 ≤ n / 2 ^ 34 := div_le_div_of_nonneg_right hn1 (by norm_num)
      linarith [(by norm_num : (2 : ℝ) * (1 / 2 ^ 50) ≤ 1 / 2 ^ 34)]
    have b4 : (n : ℝ) * (N + 1) / 2 ^ 34 = n * N / 2 ^ 34 + n / 2 ^ 34 := by ring
    rw [b4]
    linarith
  obtain ⟨c1, c2⟩ := later_exact (m := s - d) hr hk hf
  refine ⟨fun y hy => ?_, fun h => ?_⟩
  · rw [c1 y hy] at a4
    exact a4
  · rw [c2 h, sub_zero] at a4
    exact (le_abs_self _).trans a4

private theorem error_bounds {rate : Nat} {tones : List (SineTone (Fl rnd))} (hp : ChordValid rate tones) (hl : tones.length ≤ 2 ^ 20) {q : ℝ} (hq : 0 ≤ q) (hq1 : q ≤ 1) :
    0 ≤ q * chordAmp tones + ((tones.length : ℝ) + 1) ^ 2 / 2 ^ 37 ∧ q * chordAmp tones + ((tones.length : ℝ) + 1) ^ 2 / 2 ^ 37 ≤ 2 ^ 30 := by
  obtain ⟨a1, a2⟩ := chordAmp_le hp
  have hT : (tones.length : ℝ) ≤ 2 ^ 20 := by exact_mod_cast hl
  have h0 : (0 : ℝ) ≤ tones.length := Nat.cast_nonneg _
  refine ⟨by positivity, ?_⟩
  have b1 : q * chordAmp tones ≤ 1 * 2 ^ 20 := mul_le_mul hq1 (a2.trans hT) a1 (by norm_num)
  have b2 : ((tones.length : ℝ) + 1) ^ 2 ≤ (2 ^ 21) ^ 2 := pow_le_pow_left₀ (by linarith) (by linarith [(by norm_num : (2 : ℝ) ^ 20 + 1 ≤ 2 ^ 21)]) 2
  have b3 : ((tones.length : ℝ) + 1) ^ 2 / 2 ^ 37 ≤ (2 ^ 21) ^ 2 / 2 ^ 37 := div_le_div_of_nonneg_right b2 (by norm_num)
  linarith [(by norm_num : (1 : ℝ) * 2 ^ 20 + (2 ^ 21) ^ 2 / 2 ^ 37 ≤ 2 ^ 30)]

/-- **C180, low-pass.** A program plays tones together with `sp_sine` block by block, filters the blocks, and transforms `n` samples of the output with `sp_fft`, from sample
`s` on, where the kernel is filled. The tones have whole periods in `n` samples. For each element of the first half of the spectrum, the absolute value multiplied by
`2 / n` is the amplitude of the tone with this frequency that the filter is made to keep, and small if there is none. -/
theorem C180_low_pass {F : Type} [DecidableEq F] (h : RoundsToNearest rnd) [Trig (Fl rnd)] (ht : TrigAccurate rnd) (ht' : LibmAccurate rnd)
    {rate : Nat} (hr : 2 ≤ rate) (heven : rate % 2 = 0) (hr2 : rate < 4294967296) {table lfo : Buf (Fl rnd)} (hi : sineTables rate = .ok (table, lfo))
    (junk junk' : Fl rnd) {c t : Fl rnd} (hc : IsDouble c.val) (t0 : 1 / 2 ^ 20 ≤ t.val) (h0 : t.val ≤ c.val) (h1 : c.val ≤ 1 / 2) :
    ∃ ir : List (Fl rnd), lpHpIr junk c t false = .ok ir ∧
      ∀ (irOf : F → List UInt8 → Option (Buf (Fl rnd))) (kind : F) (args : List UInt8), irOf kind args = some ir →
      ∀ sizes : List Nat, (∀ s ∈ sizes, s + ir.length ≤ 4294967296) →
      ∀ tones : List (SineTone (Fl rnd)), ChordValid rate tones → tones.length ≤ 2 ^ 20 →
      (∀ x ∈ tones, x.frq ≤ (c.val - t.val) * rate ∨ (c.val + t.val) * rate ≤ x.frq ∧ 2 * x.frq ≤ rate) →
      ∀ s n, ir.length ≤ s + 1 → s + n ≤ sizes.sum → n < 4294967296 → WholePeriods rate n tones →
      ∃ blocks rs re im, chordBlocks table rate sizes tones = .ok blocks ∧ filterCalls irOf junk' (blocks.map fun x => (x, kind, args)) none = .ok rs ∧
        spFft n (((rs.map fun r => r.out).flatten.drop s).take n) (List.replicate n 0) = .ok (0, re, im) ∧ re.length = n ∧ im.length = n ∧ ∀ k, 2 * k < n →
        (∀ x, ((tones.filter fun x => x.frq ≤ (c.val - t.val) * rate).filter fun y => y.frq * n = k * rate) = [x] →
          |2 / n * ‖sampleAt re im k‖ - abs (x.amp.val : ℝ)| ≤
            3 * (1 / 60 * chordAmp tones + ((tones.length : ℝ) + 1) ^ 2 / 2 ^ 37) + n * (tones.length + 1) / 2 ^ 34) ∧
        ((∀ x ∈ tones.filter fun x => x.frq ≤ (c.val - t.val) * rate, x.frq * n ≠ k * rate) →
          2 / n * ‖sampleAt re im k‖ ≤ 3 * (1 / 60 * chordAmp tones + ((tones.length : ℝ) + 1) ^ 2 / 2 ^ 37) + n * (tones.length + 1) / 2 ^ 34) := by
  obtain ⟨ir, i1, i2⟩ := C175_low_pass (F := F) h ht ht' hr heven hr2 hi junk junk' hc t0 h0 h1
  refine ⟨ir, i1, fun irOf kind args hir sizes hs tones hp hl hb s n h1 h2 hn hf => ?_⟩
  obtain ⟨blocks, rs, b1, -, b3, -, b5⟩ := i2 irOf kind args hir sizes hs tones hp hl hb
  obtain ⟨e1, e2⟩ := error_bounds hp hl (q := 1 / 60) (by norm_num) (by norm_num)
  obtain ⟨re, im, f⟩ := spectrum_near h ht hr hn (kept := tones.filter fun x => x.frq ≤ (c.val - t.val) * rate) (s := s) (d := (ir.length - 1) / 2) (N := tones.length)
    (fun x hx => hf x (List.mem_of_mem_filter hx)) (fun x hx => hp x (List.mem_of_mem_filter hx)) (List.length_filter_le _ _) hl (by omega) e1 e2
    (fun i i1 i2 => b5 i (by omega) (by omega))
  exact ⟨blocks, rs, re, im, b1, b3, f⟩

/-- **C180, high-pass.** A program plays tones together with `sp_sine` block by block, filters the blocks, and transforms `n` samples of the output with `sp_fft`, from sample
`s` on, where the kernel is filled. The tones have whole periods in `n` samples. For each element of the first half of the spectrum, the absolute value multiplied by
`2 / n` is the amplitude of the tone with this frequency that the filter is made to keep, and small if there is none. -/
theorem C180_high_pass {F : Type} [DecidableEq F] (h : RoundsToNearest rnd) [Trig (Fl rnd)] (ht : TrigAccurate rnd) (ht' : LibmAccurate rnd)
    {rate : Nat} (hr : 2 ≤ rate) (heven : rate % 2 = 0) (hr2 : rate < 4294967296) {table lfo : Buf (Fl rnd)} (hi : sineTables rate = .ok (table, lfo))
    (junk junk' : Fl rnd) {c t : Fl rnd} (hc : IsDouble c.val) (t0 : 1 / 2 ^ 20 ≤ t.val) (h0 : t.val ≤ c.val) (h1 : c.val ≤ 1 / 2) :
    ∃ ir : List (Fl rnd), lpHpIr junk c t true = .ok ir ∧
      ∀ (irOf : F → List UInt8 → Option (Buf (Fl rnd))) (kind : F) (args : List UInt8), irOf kind args = some ir →
      ∀ sizes : List Nat, (∀ s ∈ sizes, s + ir.length ≤ 4294967296) →
      ∀ tones : List (SineTone (Fl rnd)), ChordValid rate tones → tones.length ≤ 2 ^ 20 →
      (∀ x ∈ tones, x.frq ≤ (c.val - t.val) * rate ∨ (c.val + t.val) * rate ≤ x.frq ∧ 2 * x.frq ≤ rate) →
      ∀ s n, ir.length ≤ s + 1 → s + n ≤ sizes.sum → n < 4294967296 → WholePeriods rate n tones →
      ∃ blocks rs re im, chordBlocks table rate sizes tones = .ok blocks ∧ filterCalls irOf junk' (blocks.map fun x => (x, kind, args)) none = .ok rs ∧
        spFft n (((rs.map fun r => r.out).flatten.drop s).take n) (List.replicate n 0) = .ok (0, re, im) ∧ re.length = n ∧ im.length = n ∧ ∀ k, 2 * k < n →
        (∀ x, ((tones.filter fun x => (c.val + t.val) * rate ≤ x.frq).filter fun y => y.frq * n = k * rate) = [x] →
          |2 / n * ‖sampleAt re im k‖ - abs (x.amp.val : ℝ)| ≤
            3 * (1 / 60 * chordAmp tones + ((tones.length : ℝ) + 1) ^ 2 / 2 ^ 37) + n * (tones.length + 1) / 2 ^ 34) ∧
        ((∀ x ∈ tones.filter fun x => (c.val + t.val) * rate ≤ x.frq, x.frq * n ≠ k * rate) →
          2 / n * ‖sampleAt re im k‖ ≤ 3 * (1 / 60 * chordAmp tones + ((tones.length : ℝ) + 1) ^ 2 / 2 ^ 37) + n * (tones.length + 1) / 2 ^ 34) := by
  obtain ⟨ir, i1, i2⟩ := C175_high_pass (F := F) h ht ht' hr heven hr2 hi junk junk' hc t0 h0 h1
  refine ⟨ir, i1, fun irOf kind args hir sizes hs tones hp hl hb s n h1 h2 hn hf => ?_⟩
  obtain ⟨blocks, rs, b1, -, b3, -, b5⟩ := i2 irOf kind args hir sizes hs tones hp hl hb
  obtain ⟨e1, e2⟩ := error_bounds hp hl (q := 1 / 60) (by norm_num) (by norm_num)
  obtain ⟨re, im, f⟩ := spectrum_near h ht hr hn (kept := tones.filter fun x => (c.val + t.val) * rate ≤ x.frq) (s := s) (d := (ir.length - 1) / 2) (N := tones.length)
    (fun x hx => hf x (List.mem_of_mem_filter hx)) (fun x hx => hp x (List.mem_of_mem_filter hx)) (List.length_filter_le _ _) hl (by omega) e1 e2
    (fun i i1 i2 => b5 i (by omega) (by omega))
  exact ⟨blocks, rs, re, im, b1, b3, f⟩

/-- **C180, band-pass.** A program plays tones together with `sp_sine` block by block, filters the blocks, and transforms `n` samples of the output with `sp_fft`, from sample
`s` on, where the kernel is filled. The tones have whole periods in `n` samples. For each element of the first half of the spectrum, the absolute value multiplied by
`2 / n` is the amplitude of the tone with this frequency that the filter is made to keep, and small if there is none. -/
theorem C180_band_pass {F : Type} [DecidableEq F] (h : RoundsToNearest rnd) [Trig (Fl rnd)] (ht : TrigAccurate rnd) (ht' : LibmAccurate rnd)
    {rate : Nat} (hr : 2 ≤ rate) (heven : rate % 2 = 0) (hr2 : rate < 4294967296) {table lfo : Buf (Fl rnd)} (hi : sineTables rate = .ok (table, lfo))
    (junk junk' : Fl rnd) {cl ch tl th : Fl rnd} (hcl : IsDouble cl.val) (hch : IsDouble ch.val) (tl0 : 1 / 2 ^ 20 ≤ tl.val) (th0 : 1 / 2 ^ 20 ≤ th.val)
    (h0 : tl.val ≤ cl.val) (hm : cl.val + tl.val ≤ ch.val - th.val) (h1 : ch.val < 1 / 2) :
    ∃ ir : List (Fl rnd), bpBrIr junk cl ch tl th false = .ok (ir, 3) ∧
      ∀ (irOf : F → List UInt8 → Option (Buf (Fl rnd))) (kind : F) (args : List UInt8), irOf kind args = some ir →
      ∀ sizes : List Nat, (∀ s ∈ sizes, s + ir.length ≤ 4294967296) →
      ∀ tones : List (SineTone (Fl rnd)), ChordValid rate tones → tones.length ≤ 2 ^ 20 →
      (∀ x ∈ tones, x.frq ≤ (cl.val - tl.val) * rate ∨ (cl.val + tl.val) * rate ≤ x.frq ∧ x.frq ≤ (ch.val - th.val) * rate ∨
        (ch.val + th.val) * rate ≤ x.frq ∧ 2 * x.frq ≤ rate) →
      ∀ s n, ir.length ≤ s + 1 → s + n ≤ sizes.sum → n < 4294967296 → WholePeriods rate n tones →
      ∃ blocks rs re im, chordBlocks table rate sizes tones = .ok blocks ∧ filterCalls irOf junk' (blocks.map fun x => (x, kind, args)) none = .ok rs ∧
        spFft n (((rs.map fun r => r.out).flatten.drop s).take n) (List.replicate n 0) = .ok (0, re, im) ∧ re.length = n ∧ im.length = n ∧ ∀ k, 2 * k < n →
        (∀ x, ((tones.filter fun x => (cl.val + tl.val) * rate ≤ x.frq ∧ x.frq ≤ (ch.val - th.val) * rate).filter fun y => y.frq * n = k * rate) = [x] →
          |2 / n * ‖sampleAt re im k‖ - abs (x.amp.val : ℝ)| ≤
            3 * (1 / 40 * chordAmp tones + ((tones.length : ℝ) + 1) ^ 2 / 2 ^ 37) + n * (tones.length + 1) / 2 ^ 34) ∧
        ((∀ x ∈ tones.filter fun x => (cl.val + tl.val) * rate ≤ x.frq ∧ x.frq ≤ (ch.val - th.val) * rate, x.frq * n ≠ k * rate) →
          2 / n * ‖sampleAt re im k‖ ≤ 3 * (1 / 40 * chordAmp tones + ((tones.length : ℝ) + 1) ^ 2 / 2 ^ 37) + n * (tones.length + 1) / 2 ^ 34) := by
  obtain ⟨ir, i1, i2⟩ := C175_band_pass (F := F) h ht ht' hr heven hr2 hi junk junk' hcl hch tl0 th0 h0 hm h1
  refine ⟨ir, i1, fun irOf kind args hir sizes hs tones hp hl hb s n h1 h2 hn hf => ?_⟩
  obtain ⟨blocks, rs, b1, -, b3, -, b5⟩ := i2 irOf kind args hir sizes hs tones hp hl hb
  obtain ⟨e1, e2⟩ := error_bounds hp hl (q := 1 / 40) (by norm_num) (by norm_num)
  obtain ⟨re, im, f⟩ := spectrum_near h ht hr hn (kept := tones.filter fun x => (cl.val + tl.val) * rate ≤ x.frq ∧ x.frq ≤ (ch.val - th.val) * rate) (s := s) (d := (ir.length - 1) / 2) (N := tones.length)
    (fun x hx => hf x (List.mem_of_mem_filter hx)) (fun x hx => hp x (List.mem_of_mem_filter hx)) (List.length_filter_le _ _) hl (by omega) e1 e2
    (fun i i1 i2 => b5 i (by omega) (by omega))
  exact ⟨blocks, rs, re, im, b1, b3, f⟩

/-- **C180, band-reject.** A program plays tones together with `sp_sine` block by block, filters the blocks, and transforms `n` samples of the output with `sp_fft`, from sample
`s` on, where the kernel is filled. The tones have whole periods in `n` samples. For each element of the first half of the spectrum, the absolute value multiplied by
`2 / n` is the amplitude of the tone with this frequency that the filter is made to keep, and small if there is none. -/
theorem C180_band_reject {F : Type} [DecidableEq F] (h : RoundsToNearest rnd) [Trig (Fl rnd)] (ht : TrigAccurate rnd) (ht' : LibmAccurate rnd)
    {rate : Nat} (hr : 2 ≤ rate) (heven : rate % 2 = 0) (hr2 : rate < 4294967296) {table lfo : Buf (Fl rnd)} (hi : sineTables rate = .ok (table, lfo))
    (junk junk' : Fl rnd) {cl ch tl th : Fl rnd} (hcl : IsDouble cl.val) (hch : IsDouble ch.val) (tl0 : 1 / 2 ^ 20 ≤ tl.val) (th0 : 1 / 2 ^ 20 ≤ th.val)
    (h0 : tl.val ≤ cl.val) (hm : cl.val + tl.val ≤ ch.val - th.val) (h1 : ch.val < 1 / 2) :
    ∃ ir : List (Fl rnd), bpBrIr junk cl ch tl th true = .ok (ir, 1) ∧
      ∀ (irOf : F → List UInt8 → Option (Buf (Fl rnd))) (kind : F) (args : List UInt8), irOf kind args = some ir →
      ∀ sizes : List Nat, (∀ s ∈ sizes, s + ir.length ≤ 4294967296) →
      ∀ tones : List (SineTone (Fl rnd)), ChordValid rate tones → tones.length ≤ 2 ^ 20 →
      (∀ x ∈ tones, x.frq ≤ (cl.val - tl.val) * rate ∨ (cl.val + tl.val) * rate ≤ x.frq ∧ x.frq ≤ (ch.val - th.val) * rate ∨
        (ch.val + th.val) * rate ≤ x.frq ∧ 2 * x.frq ≤ rate) →
      ∀ s n, ir.length ≤ s + 1 → s + n ≤ sizes.sum → n < 4294967296 → WholePeriods rate n tones →
      ∃ blocks rs re im, chordBlocks table rate sizes tones = .ok blocks ∧ filterCalls irOf junk' (blocks.map fun x => (x, kind, args)) none = .ok rs ∧
        spFft n (((rs.map fun r => r.out).flatten.drop s).take n) (List.replicate n 0) = .ok (0, re, im) ∧ re.length = n ∧ im.length = n ∧ ∀ k, 2 * k < n →
        (∀ x, ((tones.filter fun x => ¬ ((cl.val + tl.val) * rate ≤ x.frq ∧ x.frq ≤ (ch.val - th.val) * rate)).filter fun y => y.frq * n = k * rate) = [x] →
          |2 / n * ‖sampleAt re im k‖ - abs (x.amp.val : ℝ)| ≤
            3 * (1 / 30 * chordAmp tones + ((tones.length : ℝ) + 1) ^ 2 / 2 ^ 37) + n * (tones.length + 1) / 2 ^ 34) ∧
        ((∀ x ∈ tones.filter fun x => ¬ ((cl.val + tl.val) * rate ≤ x.frq ∧ x.frq ≤ (ch.val - th.val) * rate), x.frq * n ≠ k * rate) →
          2 / n * ‖sampleAt re im k‖ ≤ 3 * (1 / 30 * chordAmp tones + ((tones.length : ℝ) + 1) ^ 2 / 2 ^ 37) + n * (tones.length + 1) / 2 ^ 34) := by
  obtain ⟨ir, i1, i2⟩ := C175_band_reject (F := F) h ht ht' hr heven hr2 hi junk junk' hcl hch tl0 th0 h0 hm h1
  refine ⟨ir, i1, fun irOf kind args hir sizes hs tones hp hl hb s n h1 h2 hn hf => ?_⟩
  obtain ⟨blocks, rs, b1, -, b3, -, b5⟩ := i2 irOf kind args hir sizes hs tones hp hl hb
  obtain ⟨e1, e2⟩ := error_bounds hp hl (q := 1 / 30) (by norm_num) (by norm_num)
  obtain ⟨re, im, f⟩ := spectrum_near h ht hr hn (kept := tones.filter fun x => ¬ ((cl.val + tl.val) * rate ≤ x.frq ∧ x.frq ≤ (ch.val - th.val) * rate)) (s := s) (d := (ir.length - 1) / 2) (N := tones.length)
    (fun x hx => hf x (List.mem_of_mem_filter hx)) (fun x hx => hp x (List.mem_of_mem_filter hx)) (List.length_filter_le _ _) hl (by omega) e1 e2
    (fun i i1 i2 => b5 i (by omega) (by omega))
  exact ⟨blocks, rs, re, im, b1, b3, f⟩

/-! ### A case -/

attribute [local instance] kernelLibm

/-- Three tones of 440, 660 and 12000 hertz together at a rate of 48000 through a low-pass with the cutoff 1/16, that is 3000 hertz, in three blocks. The spectrum of 4800
samples of the output has the first two tones at the elements 44 and 66 and nothing of the third at the element 1200. -/
example : ∃ (table lfo ir re im : Buf (Fl nearestDouble)) (a b c : SineTone (Fl nearestDouble)), sineTables 48000 = .ok (table, lfo) ∧
    lpHpIr (⟨7⟩ : Fl nearestDouble) ⟨1 / 16⟩ ⟨1 / 32⟩ false = .ok ir ∧ (a.frq, b.frq, c.frq) = (440, 660, 12000) ∧
    (a.amp.val, b.amp.val, c.amp.val) = (1 / 2, -1 / 2, 1 / 2) ∧ ∃ blocks rs,
    chordBlocks table 48000 [4000000, 0, 1000000] [a, b, c] = .ok blocks ∧
    filterCalls (fun (_ : Unit) _ => some ir) ⟨5⟩ (blocks.map fun x => (x, (), [])) none = .ok rs ∧
    spFft 4800 (((rs.map fun r => r.out).flatten.drop 4500000).take 4800) (List.replicate 4800 0) = .ok (0, re, im) ∧
    |2 / ((4800 : Nat) : ℝ) * ‖sampleAt re im 44‖ - 1 / 2| ≤ 1 / 13 ∧ |2 / ((4800 : Nat) : ℝ) * ‖sampleAt re im 66‖ - 1 / 2| ≤ 1 / 13 ∧
    2 / ((4800 : Nat) : ℝ) * ‖sampleAt re im 1200‖ ≤ 1 / 13 := by
  have hd : IsDouble (1 / 16) := ⟨1, -4, by norm_num, by norm_num, by norm_num, by norm_num⟩
  have hu : u32 (48000 * sineLfoFactor) = 4800000 := by decide
  obtain ⟨table, t1, -⟩ := C81_double_partial nearestDouble_rounds kernelLibm_trig (size := 48000) (out := List.replicate 48000 0) (by norm_num) (by norm_num)
    (by norm_num) (by rw [List.length_replicate])
  obtain ⟨lfo, l1, -⟩ := C81_double_partial nearestDouble_rounds kernelLibm_trig (size := 4800000) (out := List.replicate 4800000 0) (by norm_num)
    (by norm_num) (by norm_num) (by rw [List.length_replicate])
  have hi : sineTables (S := Fl nearestDouble) 48000 = .ok (table, lfo) := by
    rw [sineTables, t1, hu, l1, ok_bind', ok_bind']
    rfl
  obtain ⟨ir, i1, i2⟩ := C180_low_pass (F := Unit) nearestDouble_rounds kernelLibm_trig kernelLibm_accurate (rate := 48000) (by norm_num) (by norm_num)
    (by norm_num) hi ⟨7⟩ ⟨5⟩ (c := ⟨1 / 16⟩) (t := ⟨1 / 32⟩) hd (by norm_num) (by norm_num) (by norm_num)
  have hl : ir.length ≤ 4194307 := by
    obtain ⟨k, k1, k2, -⟩ := C169_double_tone_low_pass (F := Unit) nearestDouble_rounds kernelLibm_accurate ⟨7⟩ (c := ⟨1 / 16⟩)
      (t := ⟨1 / 32⟩) hd (by norm_num) (by norm_num) (by norm_num)
    rw [i1] at k1
    rw [Except.ok.inj k1]
    exact k2
  let a : SineTone (Fl nearestDouble) := ⟨⟨1 / 2⟩, 440, 7⟩
  let b : SineTone (Fl nearestDouble) := ⟨⟨-1 / 2⟩, 660, 0⟩
  let c : SineTone (Fl nearestDouble) := ⟨⟨1 / 2⟩, 12000, 5⟩
  obtain ⟨blocks, rs, re, im, b1, b3, b4, -, -, b5⟩ := i2 (fun _ _ => some ir) () [] rfl [4000000, 0, 1000000] (by
    intro s hs
    simp only [List.mem_cons, List.not_mem_nil, or_false] at hs
    omega) [a, b, c] (by
    intro x hx
    simp only [List.mem_cons, List.not_mem_nil, or_false] at hx
    rcases hx with rfl | rfl | rfl <;> simp only [a, b, c] <;> norm_num [abs_of_pos, abs_of_neg]) (by simp) (by
    intro x hx
    simp only [List.mem_cons, List.not_mem_nil, or_false] at hx
    rcases hx with rfl | rfl | rfl
    · left; norm_num [a]
    · left; norm_num [b]
    · right; norm_num [c]) 4500000 4800 (by omega) (by simp) (by norm_num) (by
    intro x hx
    simp only [List.mem_cons, List.not_mem_nil, or_false] at hx
    rcases hx with rfl | rfl | rfl <;> simp only [a, b, c] <;> norm_num)
  have e : [a, b, c].filter (fun x => (x.frq : ℚ) ≤ ((⟨1 / 16⟩ : Fl nearestDouble).val - (⟨1 / 32⟩ : Fl nearestDouble).val) * ((48000 : Nat) : ℚ)) = [a, b] := by
    rw [List.filter_cons_of_pos (by norm_num [a]), List.filter_cons_of_pos (by norm_num [b]), List.filter_cons_of_neg (by norm_num [c]), List.filter_nil]
  have ea : chordAmp [a, b, c] = 3 / 2 := by
    simp only [chordAmp, a, b, c, List.map_cons, List.map_nil, List.sum_cons, List.sum_nil]
    push_cast
    norm_num [abs_of_pos, abs_of_neg]
  have el : [a, b, c].length = 3 := rfl
  simp only [e, ea, el] at b5
  refine ⟨table, lfo, ir, re, im, a, b, c, hi, i1, rfl, rfl, blocks, rs, b1, b3, b4, ?_, ?_, ?_⟩
  · have f := (b5 44 (by norm_num)).1 a (by
      rw [List.filter_cons_of_pos (by norm_num [a]), List.filter_cons_of_neg (by norm_num [b]), List.filter_nil])
    have ev : abs ((a.amp.val : ℚ) : ℝ) = 1 / 2 := by
      simp only [a]
      push_cast
      rw [abs_of_pos (by norm_num)]
    rw [ev] at f
    refine f.trans ?_
    norm_num
  · have f := (b5 66 (by norm_num)).1 b (by
      rw [List.filter_cons_of_neg (by norm_num [a]), List.filter_cons_of_pos (by norm_num [b]), List.filter_nil])
    have ev : abs ((b.amp.val : ℚ) : ℝ) = 1 / 2 := by
      simp only [b]
      push_cast
      rw [abs_of_neg (by norm_num)]
      norm_num
    rw [ev] at f
    refine f.trans ?_
    norm_num
  · have f := (b5 1200 (by norm_num)).2 (by
      intro x hx
      simp only [List.mem_cons, List.not_mem_nil, or_false] at hx
      rcases hx with rfl | rfl <;> simp only [a, b] <;> omega)
    refine f.trans ?_
    norm_num

end Sp
