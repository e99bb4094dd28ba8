import Verif.Props.FloatScore
import Verif.Props.WaveDefaults
import Verif.Lemmas.FloatSinc

/-! # C113 in double precision -/

set_option linter.unusedSectionVars false

noncomputable section

namespace Sp
variable {rnd : ℚ → ℚ}

/-- One sample: the product of amplitude, modulation and table value is added. -/
private theorem sample_error (h : RoundsToNearest rnd) {x amp m v : Fl rnd} {s : ℝ} (hx : |x.val| ≤ 2 ^ 50) (ha : |amp.val| ≤ 1) (hm : |m.val| ≤ 1)
    (hv : |(v.val : ℝ) - s| ≤ 1 / 2 ^ 48) (hs : |s| ≤ 1) :
    |((x + amp * m * v).val : ℝ) - (x.val + amp.val * m.val * s)| ≤ 1 / 2 ^ 47 + |(x.val : ℝ)| / 2 ^ 53 := by
  have he := feta_le
  have he0 := feta_pos
  have hx' : |(x.val : ℝ)| ≤ 2 ^ 50 := by exact_mod_cast hx
  have ha' : |(amp.val : ℝ)| ≤ 1 := by exact_mod_cast ha
  have hm' : |(m.val : ℝ)| ≤ 1 := by exact_mod_cast hm
  have ham : |(amp.val : ℝ) * m.val| ≤ 1 := by rw [abs_mul]; exact mul_le_one₀ ha' (abs_nonneg _) hm'
  have e1 := rnd_near h (q := amp.val * m.val) (v := amp.val * m.val) (e := 0) (b := 1) ham (by norm_num) (by norm_num) (by push_cast; simp)
  have e2 := mul_near e1 hv ham hs
  have e3 := rnd_near h (q := rnd (amp.val * m.val) * v.val) (v := amp.val * m.val * s) (e := 1 / 2 ^ 48 + 3 / 2 ^ 53) (b := 1)
    (by rw [abs_mul]; exact mul_le_one₀ ham (abs_nonneg _) hs) (by norm_num) (by norm_num) (by
      push_cast
      refine e2.trans ?_
      generalize feta = η at *
      nlinarith)
  have e4 := rnd_near h (q := x.val + rnd (rnd (amp.val * m.val) * v.val)) (v := x.val + amp.val * m.val * s) (e := 1 / 2 ^ 48 + 5 / 2 ^ 53)
    (b := |(x.val : ℝ)| + 1) (by
      refine (abs_add_le _ _).trans (add_le_add_right ?_ _)
      rw [abs_mul]; exact mul_le_one₀ ham (abs_nonneg _) hs) (by linarith [(by norm_num : (2 : ℝ) ^ 50 + 1 ≤ 2 ^ 60)]) (by norm_num) (by
      push_cast
      rw [add_sub_add_left_eq_sub]
      refine e3.trans ?_
      generalize feta = η at *
      linarith)
  show |((rnd (x.val + rnd (rnd (amp.val * m.val) * v.val)) : ℚ) : ℝ) - _| ≤ _
  refine e4.trans ?_
  have e5 : (|(x.val : ℝ)| + 1 + (1 / 2 ^ 48 + 5 / 2 ^ 53)) / 2 ^ 53 = |(x.val : ℝ)| / 2 ^ 53 + (1 + (1 / 2 ^ 48 + 5 / 2 ^ 53)) / 2 ^ 53 := by ring
  rw [e5]
  generalize feta = η at *
  linarith

/-- The table in double precision, for all phases. -/
private theorem table_get (h : RoundsToNearest rnd) [Trig (Fl rnd)] (ht : TrigAccurate rnd) {size : Nat} (h2 : 2 ≤ size) (heven : size % 2 = 0)
    (hs : size < 4294967296) :
    ∃ table : Buf (Fl rnd), sinePeriod size (List.replicate size 0) = .ok table ∧ table.length = size ∧
      ∀ n : Nat, |((table.getD (n % size) 0).val : ℝ) - Real.sin (2 * Real.pi * n / size)| ≤ 1 / 2 ^ 48 := by
  obtain ⟨t, h1, h3, h4, _⟩ := C81_double_partial h ht (size := size) (out := List.replicate size 0) h2 heven hs (by simp)
  refine ⟨t, h1, by simpa using h3, fun n => ?_⟩
  obtain ⟨v, v1, v2⟩ := h4 _ (Nat.mod_lt n (by omega))
  rw [List.getD_eq_getElem?_getD, v1, Option.getD_some, ← sin_mod (by omega)]
  exact v2

private theorem wave_double (h : RoundsToNearest rnd) {rate size frq p : Nat} {amp : Fl rnd} {amod out table : Buf (Fl rnd)} (hr : 0 < rate) (hl : table.length = rate)
    (ht : ∀ n : Nat, |((table.getD (n % rate) 0).val : ℝ) - Real.sin (2 * Real.pi * n / rate)| ≤ 1 / 2 ^ 48)
    (hf : rate + frq ≤ 4294967296) (hp : p < rate) (hout : size ≤ out.length) (ha : size ≤ amod.length)
    (hamp : |amp.val| ≤ 1) (hmod : ∀ m ∈ amod, |m.val| ≤ 1) (ho : ∀ x ∈ out, |x.val| ≤ 2 ^ 50) :
    ∃ out', wave size table rate amp (some amod) frq none (some p) out = .ok (some ((p + frq * size) % rate), out') ∧ out'.length = out.length ∧
      (∀ i x m, i < size → out[i]? = some x → amod[i]? = some m → ∃ y, out'[i]? = some y ∧
        |(y.val : ℝ) - (x.val + amp.val * m.val * Real.sin (2 * Real.pi * (p + frq * i) / rate))| ≤ 1 / 2 ^ 47 + |(x.val : ℝ)| / 2 ^ 53) ∧
      ∀ i, size ≤ i → out'[i]? = out[i]? := by
  have e := wave_eq (z := (0 : Fl rnd)) (amp := amp) (frq := frq) (fmod := none) (n := out.length) (amod := some amod) (f := fun i => out.getD i 0) hout
    (phsState := some p) (wvf := table) (by rw [hl]; exact hp) (by intro x hx; cases hx; exact ha) (fun x hx => by cases hx)
  rw [← eq_tab out 0, hl] at e
  have hph : ∀ n, phaseAfter rate (optGet none frq) p 0 n = (p + frq * n) % rate := fun n => phaseAfter_const hr hf p 0 n hp
  simp only [Option.getD_some, Option.map_some, hph] at e
  refine ⟨_, e, by simp, fun i x m hi hx hm => ?_, fun i hi => ?_⟩
  · refine ⟨_, by rw [tab_getElem?, if_pos (by omega), if_pos hi], ?_⟩
    have e1 : out.getD i 0 = x := by rw [List.getD_eq_getElem?_getD, hx, Option.getD_some]
    have e2 : optGet (some amod) amp i = m := by
      show amod.getD i amp = m
      rw [List.getD_eq_getElem?_getD, hm, Option.getD_some]
    rw [e1, e2]
    have h3 := ht (p + frq * i)
    push_cast at h3
    exact sample_error h (ho x (List.mem_of_getElem? hx)) hamp (hmod m (List.mem_of_getElem? hm)) h3 (Real.abs_sin_le_one _)
  · rw [tab_getElem?]
    by_cases h : i < out.length
    · rw [if_pos h, if_neg (by omega), List.getD_eq_getElem?_getD, List.getElem?_eq_getElem h, Option.getD_some]
    · rw [if_neg h, List.getElem?_eq_none (by omega)]

/-- **C113, sp_sine in double precision, partial.** With the table that `sp_initialize` computes with a math library of the usual accuracy, each sample is
the exact sum except for an error of at most `2 ^ -47` plus one rounding of what was there before, and the phase is exact, for blocks of any number and length.
Missing: odd sampling rates, no amplitude modulation. -/
theorem C113_double_sine_partial (h : RoundsToNearest rnd) [Trig (Fl rnd)] (ht : TrigAccurate rnd) {rate size frq p : Nat} {amp : Fl rnd}
    {amod out : Buf (Fl rnd)} (hr : 2 ≤ rate) (heven : rate % 2 = 0) (hf : rate + frq ≤ 4294967296) (hr2 : rate < 4294967296) (hp : p < rate)
    (hout : size ≤ out.length) (ha : size ≤ amod.length) (hamp : |amp.val| ≤ 1) (hmod : ∀ m ∈ amod, |m.val| ≤ 1) (ho : ∀ x ∈ out, |x.val| ≤ 2 ^ 50)
    {table lfo : Buf (Fl rnd)} (hi : sineTables rate = .ok (table, lfo)) :
    ∃ out', sine table rate size amp (some amod) frq none (some p) out = .ok (some ((p + frq * size) % rate), out') ∧ out'.length = out.length ∧
      (∀ i x m, i < size → out[i]? = some x → amod[i]? = some m → ∃ y, out'[i]? = some y ∧
        |(y.val : ℝ) - (x.val + amp.val * m.val * Real.sin (2 * Real.pi * (p + frq * i) / rate))| ≤ 1 / 2 ^ 47 + |(x.val : ℝ)| / 2 ^ 53) ∧
      ∀ i, size ≤ i → out'[i]? = out[i]? := by
  obtain ⟨t, t1, t2, t3⟩ := table_get h ht hr heven hr2
  have : t = table := by
    unfold sineTables at hi
    rw [t1, ok_bind'] at hi
    obtain ⟨b, _, hb⟩ := bind_eq_ok.1 hi
    exact (Prod.mk.inj (Except.ok.inj hb)).1
  subst this
  exact wave_double h (by omega) t2 t3 hf hp hout ha hamp hmod ho

/-- **C113, sp_sine_lfo in double precision, partial.** `frq` is in units of a hundredth hertz. Missing: no amplitude modulation. -/
theorem C113_double_lfo_partial (h : RoundsToNearest rnd) [Trig (Fl rnd)] (ht : TrigAccurate rnd) {rate size frq p : Nat} {amp : Fl rnd}
    {amod out : Buf (Fl rnd)} (hr : 0 < rate) (hf : rate * 100 + frq ≤ 4294967295) (hp : p < rate * 100)
    (hout : size ≤ out.length) (ha : size ≤ amod.length) (hamp : |amp.val| ≤ 1) (hmod : ∀ m ∈ amod, |m.val| ≤ 1) (ho : ∀ x ∈ out, |x.val| ≤ 2 ^ 50)
    {table lfo : Buf (Fl rnd)} (hi : sineTables rate = .ok (table, lfo)) :
    ∃ out', sineLfo lfo rate size amp (some amod) frq none (some p) out = .ok (some ((p + frq * size) % (rate * 100)), out') ∧ out'.length = out.length ∧
      (∀ i x m, i < size → out[i]? = some x → amod[i]? = some m → ∃ y, out'[i]? = some y ∧
        |(y.val : ℝ) - (x.val + amp.val * m.val * Real.sin (2 * Real.pi * ((p + frq * i) / 100) / rate))| ≤ 1 / 2 ^ 47 + |(x.val : ℝ)| / 2 ^ 53) ∧
      ∀ i, size ≤ i → out'[i]? = out[i]? := by
  have hu : u32 (rate * sineLfoFactor) = rate * 100 := u32_of_lt (by show rate * 100 < _; omega)
  obtain ⟨t, t1, t2, t3⟩ := table_get h ht (size := rate * 100) (by omega) (by omega) (by omega)
  have : t = lfo := by
    unfold sineTables at hi
    rw [hu, t1] at hi
    obtain ⟨a, _, hb⟩ := bind_eq_ok.1 hi
    exact (Prod.mk.inj (Except.ok.inj hb)).2
  subst this
  obtain ⟨o, o1, o2, o3, o4⟩ := wave_double h (rate := rate * 100) (frq := frq) (by omega) t2 t3 (by omega) hp hout ha hamp hmod ho
  refine ⟨o, ?_, o2, fun i x m hi hx hm => ?_, o4⟩
  · unfold sineLfo
    rw [hu]
    exact o1
  · obtain ⟨y, y1, y2⟩ := o3 i x m hi hx hm
    refine ⟨y, y1, ?_⟩
    have e : 2 * Real.pi * (((p : ℝ) + frq * i) / 100) / rate = 2 * Real.pi * (p + frq * i) / ((rate * 100 : Nat) : ℝ) := by
      push_cast
      field_simp
    rw [e]
    exact y2

/-- **C112 in double precision.** The wave event with the default configuration for which only frequency and envelope were set: on each of the channels it
adds the sine with that frequency times the envelope, with an error of at most `2 ^ -47` plus one rounding of what was there before. -/
theorem C112_double_tone (h : RoundsToNearest rnd) [Trig (Fl rnd)] (ht : TrigAccurate rnd) {ok : Nat → Prop} {rate frq limit onset duration : Nat}
    {env : Buf (Fl rnd)} (hr : 2 ≤ rate) (heven : rate % 2 = 0) (hr2 : rate < 4294967296)
    (hf : rate + frq ≤ 4294967296) (hl : 0 < limit) (henv : duration ≤ env.length) (ht' : onset + duration < 4294967296) (hv : ∀ m ∈ env, |m.val| ≤ 1) :
    ∃ table c, sinePeriod rate (List.replicate rate 0) = .ok table ∧ waveDefaults limit table rate = .ok c ∧
      ∃ F : Nat → Sound (Fl rnd), Plays ok waveCb limit (eventSchedule ⟨0, 0, true, false, withTone c frq env⟩ onset duration none) F ∧
        ∀ p ch i x, ch < limit → |x.val| ≤ 2 ^ 50 →
          |((F p ch i x).val : ℝ) - (x.val + (env.getD i 0).val * Real.sin (2 * Real.pi * frq * ((i - p : Nat) : ℝ) / rate))| ≤
            1 / 2 ^ 47 + |(x.val : ℝ)| / 2 ^ 53 := by
  obtain ⟨table, t1, t2, t3⟩ := table_get h ht hr heven hr2
  obtain ⟨c, c1, c2⟩ := wavePrepare_tone hl table rate frq env
  refine ⟨table, c, t1, c1, _, C22_wave_events (c := ⟨table, rate, limit, tab limit fun i => ⟨some env, 1, i, none, frq, 0, none, true⟩⟩) 0 ?_ ?_, ?_⟩
  · rw [C111_schedule_partial rfl rfl ht']
    simpa using c2
  · rw [C111_schedule_partial rfl rfl ht']
    refine ⟨t2, by simp, ?_⟩
    intro cc hcc
    simp only [tab, List.mem_map, List.mem_range] at hcc
    obtain ⟨i, hi, rfl⟩ := hcc
    exact ⟨⟨env, rfl, by simpa using henv⟩, by simp [OptLen], by simp [OptLen], by simp only; omega, hi⟩
  · intro p ch i x hch hx
    unfold WaveConfig.mix
    rw [foldl_channel (fun i => ⟨some env, 1, i, none, frq, 0, none, true⟩) WaveChannel.channel _ (fun _ => rfl), if_pos hch]
    unfold WaveChannel.value WaveChannel.index WaveChannel.phaseAt
    simp only [optGet]
    have : phaseAfter rate (WaveChannel.change (⟨some env, 1, ch, none, frq, 0, none, true⟩ : WaveChannel (Fl rnd))) 0 p (i - p) = (frq * (i - p)) % rate := by
      have := phaseAfter_const (w := rate) (f := frq) (by omega) hf 0 p (i - p) (by omega)
      rw [Nat.zero_add] at this
      exact this
    rw [this]
    have h3 := t3 (frq * (i - p))
    have he : |(env.getD i 0).val| ≤ 1 := by
      rw [List.getD_eq_getElem?_getD]
      cases e : env[i]? with
      | none => simp
      | some m => exact hv m (List.mem_of_getElem? e)
    have key := sample_error h (amp := 1) (m := env.getD i 0) hx (by simp) he h3 (Real.abs_sin_le_one _)
    rw [Fl.one_val, Rat.cast_one, one_mul, Nat.cast_mul, ← mul_assoc] at key
    exact key

/-- **C112, files in double precision.** What `sp_render_file` writes for such an event: samples that are within `2 ^ -47` of the envelope times the sine,
and silence before the onset, in the format of the file. -/
theorem C112_double_tone_file (h : RoundsToNearest rnd) [Trig (Fl rnd)] (ht : TrigAccurate rnd) {F : Type} (fmt : FloatFmt (Fl rnd) F) {fuel : Nat}
    (hfuel : 1 < fuel) {header : Buf Nat} (hh : header.length = 40) (new : Addr) {rate frq limit onset duration : Nat} {env : Buf (Fl rnd)} (hr : 2 ≤ rate)
    (heven : rate % 2 = 0) (hf : rate + frq ≤ 4294967296) (hl : 0 < limit) (henv : duration ≤ env.length) (hd : 0 < duration)
    (hv : ∀ m ∈ env, |m.val| ≤ 1) (hrate : rate * limit * 4 < 4294967296) (hsize : 36 + 4 * ((onset + duration) * limit) < 4294967296) :
    ∃ table c, sinePeriod rate (List.replicate rate 0) = .ok table ∧ waveDefaults limit table rate = .ok c ∧ ∃ s : Nat → Nat → Fl rnd,
      renderFile waveCb fmt fuel header none new (eventSchedule ⟨0, 0, true, false, withTone c frq env⟩ onset duration none) limit rate =
        .ok (0, wavFile limit rate (frameBytes fmt limit (onset + duration) s)) ∧
      ∀ ch k, ch < limit → k < onset + duration →
        (k < onset → s ch k = 0) ∧
        (onset ≤ k → |((s ch k).val : ℝ) - (env.getD (k - onset) 0).val * Real.sin (2 * Real.pi * frq * ((k - onset : Nat) : ℝ) / rate)| ≤ 1 / 2 ^ 47) := by
  have ht' : onset + duration < 4294967296 := by
    have := Nat.le_mul_of_pos_right (onset + duration) hl
    omega
  have hr2 : rate < 4294967296 := by
    have := Nat.le_mul_of_pos_right rate hl
    omega
  obtain ⟨table, c, t1, c1, G, g1, g2⟩ := C112_double_tone (ok := fun _ => True) h ht (onset := onset) (duration := duration) hr heven hr2 hf hl henv ht' hv
  refine ⟨table, c, t1, c1, ?_⟩
  rw [C111_schedule_partial rfl rfl ht'] at g1 ⊢
  refine ⟨_, C33_render_file fmt hfuel hh new (fun _ _ _ _ _ => trivial) trivial g1 (.inl trivial) (by simp only; omega) (by simp only; omega)
    (by simpa using ht') hl (by omega) hrate (by simpa using hsize), ?_⟩
  intro ch k hch hk
  refine ⟨fun hk' => ?_, fun hk' => ?_⟩
  · unfold soundAt
    rw [if_neg (fun h' => absurd h'.1 (by simp only; omega))]
  · unfold soundAt
    simp only
    rw [if_pos ⟨hk', hk⟩]
    have := g2 0 ch (k - onset) 0 hch (by simp)
    rw [Fl.zero_val, Rat.cast_zero, abs_zero, zero_div, add_zero, zero_add, Nat.sub_zero] at this
    simpa using this

attribute [local instance] libm

/-- 440 Hz at 48000, two channels, half a second, from sample 100 on. -/
example {F : Type} (fmt : FloatFmt (Fl nearestDouble) F) : ∃ table c, sinePeriod 48000 (List.replicate 48000 0) = .ok table ∧
    waveDefaults 2 table 48000 = .ok c ∧ ∃ s : Nat → Nat → Fl nearestDouble,
      renderFile waveCb fmt 2 (List.replicate 40 7) none 1 (eventSchedule ⟨0, 0, true, false, withTone c 440 (List.replicate 24000 ⟨1 / 2⟩)⟩ 100 24000 none) 2
        48000 = .ok (0, wavFile 2 48000 (frameBytes fmt 2 (100 + 24000) s)) := by
  obtain ⟨t, c, h1, h2, s, h3, -⟩ := C112_double_tone_file nearestDouble_rounds libm_accurate fmt (fuel := 2) (by omega) (header := List.replicate 40 7) (by simp) 1
    (rate := 48000) (frq := 440) (limit := 2) (onset := 100) (duration := 24000) (env := List.replicate 24000 ⟨1 / 2⟩) (by omega) (by omega) (by omega)
    (by omega) (by rw [List.length_replicate]) (by omega) (by intro m hm; rw [(List.mem_replicate.1 hm).2]; norm_num [abs_of_pos]) (by omega) (by omega)
  exact ⟨t, c, h1, h2, s, h3⟩

/-- Two samples of 440 Hz at 44100, added to 1/2. -/
example : ∃ table lfo : Buf (Fl nearestDouble), sineTables 44100 = .ok (table, lfo) ∧ ∃ out',
    sine table 44100 2 ⟨1⟩ (some [⟨1⟩, ⟨1 / 2⟩]) 440 none (some 44000) [⟨1 / 2⟩, ⟨1 / 2⟩] = .ok (some 780, out') ∧ ∃ y, out'[1]? = some y ∧
      |(y.val : ℝ) - (1 / 2 + 1 * (1 / 2) * Real.sin (2 * Real.pi * 44440 / 44100))| ≤ 1 / 2 ^ 46 := by
  obtain ⟨t, t1, -, -⟩ := table_get nearestDouble_rounds libm_accurate (size := 44100) (by norm_num) (by norm_num) (by norm_num)
  obtain ⟨l, l1, -, -⟩ := table_get nearestDouble_rounds libm_accurate (size := 44100 * 100) (by norm_num) (by norm_num) (by norm_num)
  have hi : sineTables 44100 = .ok (t, l) := by
    unfold sineTables
    rw [t1, ok_bind', show u32 (44100 * sineLfoFactor) = 44100 * 100 from u32_of_lt (by decide), l1]
    rfl
  obtain ⟨o, o1, -, o2, -⟩ := C113_double_sine_partial nearestDouble_rounds libm_accurate (size := 2) (frq := 440) (p := 44000) (amp := ⟨1⟩)
    (amod := [⟨1⟩, ⟨1 / 2⟩]) (out := [⟨1 / 2⟩, ⟨1 / 2⟩]) (by norm_num) (by norm_num) (by norm_num) (by norm_num) (by norm_num) (by simp) (by simp) (by norm_num)
    (by intro m hm; simp at hm; rcases hm with rfl | rfl <;> norm_num [abs_of_pos]) (by intro m hm; simp at hm; rcases hm with rfl | rfl; norm_num [abs_of_pos]) hi
  refine ⟨t, l, hi, o, o1, ?_⟩
  obtain ⟨y, y1, y2⟩ := o2 1 _ _ (by norm_num) rfl rfl
  refine ⟨y, y1, ?_⟩
  have e : ((44000 : Nat) : ℝ) + ((440 : Nat) : ℝ) * ((1 : Nat) : ℝ) = 44440 := by norm_num
  rw [e] at y2
  push_cast at y2
  refine y2.trans ?_
  rw [abs_of_pos (by norm_num)]
  norm_num

end Sp
