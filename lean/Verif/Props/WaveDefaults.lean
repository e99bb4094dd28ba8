import Verif.Model.WaveDefaults
import Verif.Props.Wave
import Verif.Props.EventTree
import Verif.Props.Render
import Verif.Props.Extra
import Verif.Props.ArraysSelect

/-!
# C111: scheduling of events, C112: default wave events are sine tones, C113: sine oscillators
-/

set_option linter.unusedSectionVars false

namespace Sp

/-! ### C111 -/

/-- **C111, partial.** A new event, with start and end zero, plays from the onset for the duration, with the given configuration if there is one,
and otherwise as before. Missing: events whose end is set. -/
theorem C111_schedule_partial {D : Type} {e : Event D} (h0 : e.start = 0) (h1 : e.stop = 0) {onset duration : Nat}
    (h : onset + duration < 4294967296) (config : Option D) :
    eventSchedule e onset duration config = ⟨onset, onset + duration, e.prep, e.hasFree, config.getD e.data⟩ := by
  unfold eventSchedule
  simp only [h0, h1, Nat.zero_add]
  rw [u32_of_lt h, u32_of_lt h, u32_of_lt (by omega)]
  cases config <;> rfl

/-- **C111, groups and moving.** For an event with start zero that has a length, duration zero moves the event by the onset; any other duration makes
it longer. -/
theorem C111_schedule_length {D : Type} {e : Event D} (h0 : e.start = 0) {onset duration : Nat}
    (h : e.stop + onset + duration < 4294967296) (config : Option D) :
    (eventSchedule e onset duration config).start = onset ∧
    (eventSchedule e onset duration config).stop - (eventSchedule e onset duration config).start = e.stop + duration := by
  have : ∀ c : Option D, eventSchedule e onset duration c = ⟨onset, e.stop + (onset + duration), e.prep, e.hasFree, c.getD e.data⟩ := by
    intro c
    unfold eventSchedule
    simp only [h0, Nat.zero_add]
    rw [u32_of_lt (n := onset + duration) (by omega), u32_of_lt (by omega), u32_of_lt (by omega)]
    cases c <;> rfl
  rw [this]
  exact ⟨rfl, by simp only; omega⟩

/-- **C111 is false for events whose end is set**: an event of length 10, for example a group, that is scheduled at 100 with duration 5 plays for 15
samples. Only the start is mentioned as being assumed to be zero. -/
theorem C111_end_set_false : eventSchedule ⟨0, 10, true, false, ()⟩ 100 5 none = ⟨100, 115, true, false, ()⟩ := rfl

/-! ### C112 -/

theorem waveDefaults_eq {S : Type} [Zero S] [One S] {limit : Nat} (h : 0 < limit) (table : Buf S) (rate : Nat) :
    waveDefaults limit table rate = .ok ⟨table, rate, limit,
      tab limit fun i => { (waveChannelZero : WaveChannel S) with
        amp := 1
        channel := i
        use := i == 0 }⟩ := by
  unfold waveDefaults
  simp only [tab_replicate]
  rw [rd_tab h, ok_bind', wr_tab _ h, ok_bind']
  have key := forRange_states (fun n => tab limit fun i => { (waveChannelZero : WaveChannel S) with
      amp := if i < n then 1 else 0
      channel := if i < n then i else 0
      use := i == 0 }) (Nat.zero_le limit) (body := fun i ccs => do
    let cc ← rd ccs i
    let ccs ← wr ccs i { cc with amp := 1 }
    let cc ← rd ccs i
    wr ccs i { cc with channel := i }) (by
      intro i _ hi
      rw [rd_tab hi, ok_bind', wr_tab _ hi, ok_bind', rd_tab hi, ok_bind', wr_tab _ hi]
      congr 1
      refine tab_congr fun k _ => ?_
      by_cases hk : k = i
      · subst hk
        simp
      · simp only [if_neg hk]
        have : k < i + 1 ↔ k < i := by omega
        simp only [this])
  have e0 : (tab limit fun i => if i = 0 then { (waveChannelZero : WaveChannel S) with use := true } else waveChannelZero) =
      tab limit fun i => { (waveChannelZero : WaveChannel S) with
        amp := if i < 0 then 1 else 0
        channel := if i < 0 then i else 0
        use := i == 0 } := by
    refine tab_congr fun k _ => ?_
    by_cases hk : k = 0
    · subst hk; rfl
    · simp [hk, waveChannelZero]
  rw [e0, key]
  simp only [ok_bind', pure_eq_ok]
  congr 2
  exact tab_congr fun i hi => by simp [hi]

/-- The configuration in which the user sets frequency and envelope of the first channel. -/
def withTone {S : Type} (c : WaveConfig S) (frq : Nat) (env : Buf S) : WaveConfig S :=
  { c with channelConfig := c.channelConfig.modify 0 fun cc => { cc with
      frq := frq
      amod := some env } }

theorem wavePrepare_tone {S : Type} [Add S] [Mul S] [Zero S] [One S] {limit : Nat} (h : 0 < limit) (table : Buf S) (rate frq : Nat) (env : Buf S) :
    ∃ c, waveDefaults limit table rate = .ok c ∧ wavePrepare (withTone c frq env) = .ok ⟨table, rate, limit,
      tab limit fun i => ⟨some env, 1, i, none, frq, 0, none, true⟩⟩ := by
  refine ⟨_, waveDefaults_eq h table rate, ?_⟩
  have hget : ∀ i, i < limit → (withTone (⟨table, rate, limit, tab limit fun i => { (waveChannelZero : WaveChannel S) with
        amp := 1
        channel := i
        use := i == 0 }⟩) frq env).channelConfig[i]? = some (if i = 0 then ⟨some env, 1, 0, none, frq, 0, none, true⟩
          else ⟨none, 1, i, none, 0, 0, none, false⟩) := by
    intro i hi
    unfold withTone
    simp only [List.getElem?_modify]
    rw [tab_getElem?, if_pos hi]
    by_cases h0 : i = 0
    · subst h0; rfl
    · simp [h0, Ne.symm h0, waveChannelZero]
  obtain ⟨c', e1, e2, e3, e4, e5, e6, e7⟩ := C14_defaults (c := withTone (⟨table, rate, limit, tab limit fun i => { (waveChannelZero : WaveChannel S) with
        amp := 1
        channel := i
        use := i == 0 }⟩) frq env) (by simp [withTone])
  rw [e1]
  congr 1
  obtain ⟨w, ws, cc, ccs⟩ := c'
  simp only at e2 e3 e4 e5 e6 e7
  have hl : ccs.length = limit := by rw [e5]; simp [withTone]
  have hcc : ccs = tab limit fun i => ⟨some env, 1, i, none, frq, 0, none, true⟩ := by
    apply List.ext_getElem?
    intro i
    rw [tab_getElem?]
    by_cases hi : i < limit
    · rw [if_pos hi]
      by_cases h0 : i = 0
      · subst h0
        rw [e6 0 (.inl rfl), hget 0 hi, if_pos rfl]
      · obtain ⟨cc', q1, q2, _⟩ := e7 i _ _ (by omega) (by simpa [withTone] using hi) (hget i hi) (hget 0 h)
        rw [q1, q2 (by rw [if_neg h0]), if_pos rfl, if_neg h0]
    · rw [if_neg hi, List.getElem?_eq_none (by omega)]
  subst hcc
  subst e2 e3 e4
  rfl

theorem phaseAfter_const {w f : Nat} (hw : 0 < w) (h : w + f ≤ 4294967296) (p a n : Nat) (hp : p < w) :
    phaseAfter w (fun _ => f) p a n = (p + f * n) % w := by
  induction n with
  | zero => simp [phaseAfter, Nat.mod_eq_of_lt hp]
  | succ n ih =>
    simp only [phaseAfter]
    rw [ih, Nat.mod_eq_of_lt (a := _ + f) (by have := Nat.mod_lt (p + f * n) hw; omega), Nat.mod_add_mod, Nat.mul_succ, Nat.add_assoc]

theorem sin_mod {w : Nat} (hw : 0 < w) (n : Nat) : Real.sin (2 * Real.pi * ((n % w : Nat) : ℝ) / w) = Real.sin (2 * Real.pi * n / w) := by
  have h0 : (w : ℝ) ≠ 0 := by exact_mod_cast hw.ne'
  have e : (n : ℝ) = ((n % w : Nat) : ℝ) + w * ((n / w : Nat) : ℝ) := by exact_mod_cast (Nat.mod_add_div n w).symm
  rw [← Real.sin_add_nat_mul_two_pi _ (n / w)]
  congr 1
  rw [e]
  field_simp

theorem foldl_channel {S A : Type} [Add S] (g : Nat → A) (ch : A → Nat) (v : A → S) (hg : ∀ i, ch (g i) = i) {n c : Nat} (x : S) :
    (tab n g).foldl (fun x a => if ch a = c then x + v a else x) x = if c < n then x + v (g c) else x := by
  induction n with
  | zero => rfl
  | succ n ih =>
    unfold tab at ih ⊢
    rw [List.range_succ, List.map_append, List.foldl_append, ih]
    simp only [List.map_cons, List.map_nil, List.foldl_cons, List.foldl_nil, hg]
    by_cases h1 : c < n
    · rw [if_pos h1, if_neg (by omega), if_pos (by omega)]
    · rw [if_neg h1]
      by_cases h2 : n = c
      · subst h2
        rw [if_pos rfl, if_pos (by omega)]
      · rw [if_neg h2, if_neg (by omega)]

/-- The sine table that `sp_initialize` makes. -/
theorem sineTable_get {rate : Nat} (h : 2 ≤ rate) (heven : rate % 2 = 0) :
    ∃ table, sinePeriod rate (List.replicate rate 0) = .ok table ∧ table.length = rate ∧
      ∀ n, table.getD (n % rate) 0 = Real.sin (2 * Real.pi * n / rate) := by
  obtain ⟨t, h1, h2, h3, _⟩ := C81_even_partial (size := rate) (out := List.replicate rate 0) h heven (by simp)
  refine ⟨t, h1, by simpa using h2, fun n => ?_⟩
  rw [List.getD_eq_getElem?_getD, h3 _ (Nat.mod_lt _ (by omega)), Option.getD_some, sin_mod (by omega)]

/-- **C112.** The wave event with the default configuration for which the user has set only frequency and envelope, with the sine table of
`sp_initialize` for an even sampling rate: on each of the channels it plays the sine with that frequency times the envelope. Phase zero is where
playing begins. -/
theorem C112_default_tone {ok : Nat → Prop} {rate frq limit onset duration : Nat} {env : Buf ℝ} (hr : 2 ≤ rate) (heven : rate % 2 = 0)
    (hf : rate + frq ≤ 4294967296) (hl : 0 < limit) (henv : duration ≤ env.length) (ht : onset + duration < 4294967296) :
    ∃ table c, sinePeriod rate (List.replicate rate 0) = .ok table ∧ waveDefaults limit table rate = .ok c ∧
      ∃ F : Nat → Sound ℝ, Plays ok waveCb limit (eventSchedule ⟨0, 0, true, false, withTone c frq env⟩ onset duration none) F ∧
        ∀ p ch i x, ch < limit → F p ch i x = x + env.getD i 0 * Real.sin (2 * Real.pi * frq * ((i - p : Nat) : ℝ) / rate) := by
  obtain ⟨table, t1, t2, t3⟩ := sineTable_get hr heven
  obtain ⟨c, c1, c2⟩ := wavePrepare_tone hl table rate frq env
  refine ⟨table, c, t1, c1, _, C22_wave_events (c := ⟨table, rate, limit, tab limit fun i => ⟨some env, 1, i, none, frq, 0, none, true⟩⟩) 0 ?_ ?_, ?_⟩
  · rw [C111_schedule_partial rfl rfl ht]
    simpa using c2
  · rw [C111_schedule_partial rfl rfl ht]
    refine ⟨t2, by simp, ?_⟩
    intro cc hcc
    simp only [tab, List.mem_map, List.mem_range] at hcc
    obtain ⟨i, hi, rfl⟩ := hcc
    exact ⟨⟨env, rfl, by simpa using henv⟩, by simp [OptLen], by simp [OptLen], by simp only; omega, hi⟩
  · intro p ch i x hch
    unfold WaveConfig.mix
    rw [foldl_channel (fun i => ⟨some env, 1, i, none, frq, 0, none, true⟩) WaveChannel.channel _ (fun _ => rfl), if_pos hch]
    congr 1
    unfold WaveChannel.value WaveChannel.index WaveChannel.phaseAt
    simp only [optGet, one_mul]
    have : phaseAfter rate (WaveChannel.change (⟨some env, 1, ch, none, frq, 0, none, true⟩ : WaveChannel ℝ)) 0 p (i - p) = (frq * (i - p)) % rate := by
      have := phaseAfter_const (w := rate) (f := frq) (by omega) hf 0 p (i - p) (by omega)
      rw [Nat.zero_add] at this
      exact this
    rw [this, t3]
    congr 3
    push_cast
    ring

/-- **C112, files.** What `sp_render_file` writes for such an event. -/
theorem C112_tone_file {F : Type} (fmt : FloatFmt ℝ F) {fuel : Nat} (hfuel : 1 < fuel) {header : Buf Nat} (hh : header.length = 40) (new : Addr)
    {rate frq limit onset duration : Nat} {env : Buf ℝ} (hr : 2 ≤ rate) (heven : rate % 2 = 0)
    (hf : rate + frq ≤ 4294967296) (hl : 0 < limit) (henv : duration ≤ env.length) (hd : 0 < duration)
    (hrate : rate * limit * 4 < 4294967296) (hsize : 36 + 4 * ((onset + duration) * limit) < 4294967296) :
    ∃ table c, sinePeriod rate (List.replicate rate 0) = .ok table ∧ waveDefaults limit table rate = .ok c ∧
      renderFile waveCb fmt fuel header none new (eventSchedule ⟨0, 0, true, false, withTone c frq env⟩ onset duration none) limit rate =
        .ok (0, wavFile limit rate (frameBytes fmt limit (onset + duration) fun _ k =>
          if onset ≤ k then env.getD (k - onset) 0 * Real.sin (2 * Real.pi * frq * ((k - onset : Nat) : ℝ) / rate) else 0)) := by
  have ht : onset + duration < 4294967296 := by
    have := Nat.le_mul_of_pos_right (onset + duration) hl
    omega
  obtain ⟨table, c, t1, c1, G, g1, g2⟩ := C112_default_tone (ok := fun _ => True) (onset := onset) (duration := duration) hr heven hf hl henv ht
  refine ⟨table, c, t1, c1, ?_⟩
  rw [C111_schedule_partial rfl rfl ht] at g1 ⊢
  rw [C33_render_file fmt hfuel hh new (fun _ _ _ _ _ => trivial) trivial g1 (.inl trivial) (by simp only; omega) (by simp only; omega) (by simpa using ht) hl
    (by omega) hrate (by simpa using hsize)]
  congr 3
  refine frameBytes_congr fmt fun ch hch k hk => ?_
  unfold soundAt
  simp only at hk ⊢
  by_cases h : onset ≤ k
  · rw [if_pos ⟨h, hk⟩, if_pos h, g2 _ _ _ _ hch]
    simp
  · rw [if_neg (fun h' => h h'.1), if_neg h]

/-- Non-vacuity: 440 Hz at 48000, two channels, half a second, from sample 100 on. -/
example {F : Type} (fmt : FloatFmt ℝ F) : ∃ table c, sinePeriod 48000 (List.replicate 48000 0) = .ok table ∧ waveDefaults 2 table 48000 = .ok c ∧
    renderFile waveCb fmt 2 (List.replicate 40 7) none 1
      (eventSchedule ⟨0, 0, true, false, withTone c 440 (List.replicate 24000 (1 / 2))⟩ 100 24000 none) 2 48000 =
      .ok (0, wavFile 2 48000 (frameBytes fmt 2 (100 + 24000) fun _ k =>
        if 100 ≤ k then (List.replicate 24000 (1 / 2 : ℝ)).getD (k - 100) 0 * Real.sin (2 * Real.pi * (440 : ℕ) * ((k - 100 : Nat) : ℝ) / (48000 : ℕ)) else 0)) :=
  C112_tone_file fmt (by omega) (by simp) 1 (by omega) (by omega) (by omega) (by omega)
    (by rw [List.length_replicate]) (by omega) (by omega) (by omega)

/-- **C112 is false for fewer channels**: `sp_wave_event_config_defaults` sets the channel count to the limit for channels, so that for output with
fewer channels the event writes to a channel that does not exist. -/
theorem C112_fewer_channels_undefined {S : Type} [Add S] [Mul S] [Zero S] [One S] {limit rate frq nch n : Nat} {table env : Buf S} (hl : nch < limit)
    (hn : 0 < nch) (ht : table.length = rate) (hr : 0 < rate) (f : Nat → Nat → S) (stop : Nat) (hs : stop ≤ n) (he : stop ≤ env.length) :
    ∃ c c', waveDefaults limit table rate = .ok c ∧ wavePrepare (withTone c frq env) = .ok c' ∧
      waveGenerate 0 stop 0 c' (blk nch n f) = .error .outOfBounds := by
  obtain ⟨c, c1, c2⟩ := wavePrepare_tone (limit := limit) (by omega) table rate frq env
  refine ⟨c, _, c1, c2, ?_⟩
  subst ht
  unfold waveGenerate
  simp only
  let ch (i : Nat) : WaveChannel S := ⟨some env, 1, i, none, frq, 0, none, true⟩
  obtain ⟨s, e1, ⟨g, g1, g2⟩, f', g3⟩ := forRange_rule (fun j (s : Buf (WaveChannel S) × Buf (Buf S)) =>
      (∃ g, s.1 = tab limit g ∧ ∀ k, j ≤ k → g k = ch k) ∧ ∃ f', s.2 = blk nch n f') (Nat.zero_le nch)
    (body := waveEventChannel ⟨table, table.length, limit, tab limit ch⟩ 0 stop 0) (s := (tab limit ch, blk nch n f)) ⟨⟨ch, rfl, fun _ _ => rfl⟩, f, rfl⟩ (by
      rintro j ⟨_, _⟩ _ hj ⟨⟨g, rfl, g2⟩, f', rfl⟩
      have hok : (ch j).Ok table.length stop nch := ⟨⟨env, rfl, he⟩, by simp [OptLen, ch], by simp [OptLen, ch], hr, hj⟩
      refine ⟨(tab limit (fun k => if k = j then { ch j with phs := (ch j).phaseAt table.length 0 stop } else g k),
        blk nch n fun c k => if c = j then (if 0 ≤ k ∧ k < 0 + (stop - 0) then
          f' j k + (ch j).value table table.length (f 0 0) 0 (0 + (k - 0)) else f' j k) else f' c k), ?_, ⟨_, rfl, fun k hk => ?_⟩, _, rfl⟩
      · unfold waveEventChannel
        rw [rd_tab (by omega), ok_bind', g2 j (Nat.le_refl j)]
        unfold blk
        rw [rd_tab (show (ch j).channel < nch from hj), ok_bind',
          show (tab n (f' (ch j).channel)) = tab n (f' j) from rfl,
          waveEventLoop_eq hok (f 0 0) (Nat.zero_le _) (Nat.le_refl _) (by omega), ok_bind']
        simp only
        rw [wr_tab _ (by omega), ok_bind', wr_tab _ (show (ch j).channel < nch from hj), ok_bind']
        simp only [pure_eq_ok]
        congr 2
        refine tab_congr fun c _ => ?_
        by_cases hc : c = j
        · subst hc
          rw [if_pos (show c = (ch c).channel from rfl)]
          exact tab_congr fun k _ => (if_pos rfl).symm
        · rw [if_neg (show ¬ c = (ch j).channel from hc)]
          exact tab_congr fun k _ => (if_neg hc).symm
      · rw [if_neg (by omega)]
        exact g2 k (by omega))
  rw [forRange_split (mid := nch) (Nat.zero_le _) (by omega), e1]
  simp only [Except.bind]
  rw [forRange_head hl]
  have hstep : waveEventChannel ⟨table, table.length, limit, tab limit ch⟩ 0 stop 0 nch s = .error .outOfBounds := by
    unfold waveEventChannel
    rw [g1, g3, rd_tab hl, ok_bind', g2 nch (Nat.le_refl _)]
    have : rd (blk nch n f') (ch nch).channel = .error .outOfBounds := by
      unfold rd
      rw [List.getElem?_eq_none (by simp [blk, ch])]
    rw [this]
    rfl
  rw [hstep]
  rfl

/-- Non-vacuity: mono. -/
example : ∃ c c', waveDefaults 2 [(0 : Int), 1] 2 = .ok c ∧ wavePrepare (withTone c 1 [1, 1, 1]) = .ok c' ∧
    waveGenerate 0 3 0 c' (blk 1 3 fun _ _ => 0) = .error .outOfBounds :=
  C112_fewer_channels_undefined (nch := 1) (n := 3) (by omega) (by omega) rfl (by simp) _ 3 (by omega) (by simp)

/-! ### C113 -/

theorem wave_sine {rate size frq p : Nat} {amp : ℝ} {amod : Option (Buf ℝ)} {out table : Buf ℝ} (hr : 0 < rate) (hl : table.length = rate)
    (ht : ∀ n, table.getD (n % rate) 0 = Real.sin (2 * Real.pi * n / rate)) (hf : rate + frq ≤ 4294967296) (hp : p < rate)
    (hout : size ≤ out.length) (ha : OptLen amod size) :
    ∃ out', wave size table rate amp amod frq none (some p) out = .ok (some ((p + frq * size) % rate), out') ∧ out'.length = out.length ∧
      (∀ i, i < size → out'[i]? = (out[i]?).map fun x => x + amp * optGet amod amp i * Real.sin (2 * Real.pi * (p + frq * i) / rate)) ∧
      ∀ i, size ≤ i → out'[i]? = out[i]? := by
  have e := wave_eq (z := (0 : ℝ)) (amp := amp) (frq := frq) (fmod := none) (n := out.length) (amod := amod) (f := fun i => out.getD i 0) hout
    (phsState := some p) (wvf := table) (by rw [hl]; exact hp) ha (fun x hx => by cases hx)
  rw [← eq_tab out 0, hl] at e
  have hph : ∀ n, phaseAfter rate (optGet none frq) p 0 n = (p + frq * n) % rate := fun n => phaseAfter_const hr hf p 0 n hp
  simp only [Option.getD_some, Option.map_some, hph, ht] at e
  refine ⟨_, e, by simp, fun i hi => ?_, fun i hi => ?_⟩
  · rw [tab_getElem?, if_pos (by omega), if_pos hi, List.getElem?_eq_getElem (by omega), Option.map_some]
    congr 2
    · rw [List.getD_eq_getElem?_getD, List.getElem?_eq_getElem (by omega), Option.getD_some]
    · push_cast
      rfl
  · rw [tab_getElem?]
    by_cases h : i < out.length
    · rw [if_pos h, if_neg (by omega), List.getD_eq_getElem?_getD, List.getElem?_eq_getElem h, Option.getD_some]
    · rw [if_neg h, List.getElem?_eq_none (by omega)]

/-- **C113, sp_sine, partial.** With an even sampling rate and amplitude modulation `sp_sine` adds the sine with frequency `frq`, beginning with the
given phase, and leaves the phase for the next block. Missing: odd sampling rates, no amplitude modulation. -/
theorem C113_sine_partial {rate size frq p : Nat} {amp : ℝ} {amod out : Buf ℝ} (hr : 2 ≤ rate) (heven : rate % 2 = 0)
    (hf : rate + frq ≤ 4294967296) (hp : p < rate) (hout : size ≤ out.length) (ha : size ≤ amod.length)
    {table lfo : Buf ℝ} (hi : sineTables rate = .ok (table, lfo)) :
    ∃ out', sine table rate size amp (some amod) frq none (some p) out = .ok (some ((p + frq * size) % rate), out') ∧ out'.length = out.length ∧
      (∀ i, i < size → out'[i]? = (out[i]?).map fun x => x + amp * amod.getD i 0 * Real.sin (2 * Real.pi * (p + frq * i) / rate)) ∧
      ∀ i, size ≤ i → out'[i]? = out[i]? := by
  obtain ⟨t, t1, t2, t3⟩ := sineTable_get hr heven
  have : t = table := by
    unfold sineTables at hi
    rw [t1, ok_bind'] at hi
    obtain ⟨b, _, hb⟩ := bind_eq_ok.1 hi
    exact (Prod.mk.inj (Except.ok.inj hb)).1
  subst this
  obtain ⟨o, o1, o2, o3, o4⟩ := wave_sine (amp := amp) (amod := some amod) (by omega) t2 t3 hf hp hout (by intro x hx; cases hx; exact ha)
  refine ⟨o, o1, o2, fun i hi => ?_, o4⟩
  rw [o3 i hi, getD_of_lt (d := (0 : ℝ)) (show i < amod.length by omega)]
  simp only [optGet, getD_of_lt (d := amp) (show i < amod.length by omega)]

/-- **C113, sp_sine_lfo, partial.** `frq` is in units of a hundredth hertz. All sampling rates for which a hundred times the rate and `frq` fit in
`sp_time_t`. Missing: no amplitude modulation. -/
theorem C113_lfo_partial {rate size frq p : Nat} {amp : ℝ} {amod out : Buf ℝ} (hr : 0 < rate)
    (hf : rate * 100 + frq ≤ 4294967295) (hp : p < rate * 100) (hout : size ≤ out.length) (ha : size ≤ amod.length)
    {table lfo : Buf ℝ} (hi : sineTables rate = .ok (table, lfo)) :
    ∃ out', sineLfo lfo rate size amp (some amod) frq none (some p) out = .ok (some ((p + frq * size) % (rate * 100)), out') ∧
      out'.length = out.length ∧
      (∀ i, i < size → out'[i]? = (out[i]?).map fun x => x + amp * amod.getD i 0 * Real.sin (2 * Real.pi * ((p + frq * i) / 100) / rate)) ∧
      ∀ i, size ≤ i → out'[i]? = out[i]? := by
  have hu : u32 (rate * sineLfoFactor) = rate * 100 := u32_of_lt (by show rate * 100 < _; omega)
  obtain ⟨t, t1, t2, t3⟩ := sineTable_get (rate := rate * 100) (by omega) (by omega)
  have : t = lfo := by
    unfold sineTables at hi
    rw [hu, t1] at hi
    obtain ⟨a, _, hb⟩ := bind_eq_ok.1 hi
    exact (Prod.mk.inj (Except.ok.inj hb)).2
  subst this
  unfold sineLfo
  rw [hu]
  obtain ⟨o, o1, o2, o3, o4⟩ := wave_sine (amp := amp) (amod := some amod) (by omega) t2 t3 (frq := frq) (by omega) hp hout (by intro x hx; cases hx; exact ha)
  refine ⟨o, o1, o2, fun i hi => ?_, o4⟩
  rw [o3 i hi, getD_of_lt (d := (0 : ℝ)) (show i < amod.length by omega)]
  simp only [optGet, getD_of_lt (d := amp) (show i < amod.length by omega)]
  have e : (2 * Real.pi * ((p + frq * i : ℝ) / 100) / rate) = 2 * Real.pi * (p + frq * i) / ((rate * 100 : ℕ) : ℝ) := by
    push_cast
    have : (rate : ℝ) ≠ 0 := by exact_mod_cast hr.ne'
    field_simp
  rw [e]

/-- **C113, without amplitude modulation the amplitude is squared**, for both functions. -/
theorem C113_no_amod {rate size frq p : Nat} {amp : ℝ} {out : Buf ℝ} (hr : 2 ≤ rate) (heven : rate % 2 = 0)
    (hf : rate + frq ≤ 4294967296) (hp : p < rate) (hout : size ≤ out.length)
    {table lfo : Buf ℝ} (hi : sineTables rate = .ok (table, lfo)) :
    ∃ out', sine table rate size amp none frq none (some p) out = .ok (some ((p + frq * size) % rate), out') ∧
      ∀ i, i < size → out'[i]? = (out[i]?).map fun x => x + amp ^ 2 * Real.sin (2 * Real.pi * (p + frq * i) / rate) := by
  obtain ⟨t, t1, t2, t3⟩ := sineTable_get hr heven
  have : t = table := by
    unfold sineTables at hi
    rw [t1, ok_bind'] at hi
    obtain ⟨b, _, hb⟩ := bind_eq_ok.1 hi
    exact (Prod.mk.inj (Except.ok.inj hb)).1
  subst this
  obtain ⟨o, o1, o2, o3, o4⟩ := wave_sine (amp := amp) (amod := none) (by omega) t2 t3 hf hp hout (by intro x hx; cases hx)
  refine ⟨o, o1, fun i hi => ?_⟩
  rw [o3 i hi]
  simp only [optGet, pow_two]

/-- `sineTables` is defined, with tables of the right sizes. -/
theorem sineTables_ok {rate : Nat} (hr : 2 ≤ rate) (h : rate * 100 < 4294967296) :
    ∃ table lfo : Buf ℝ, sineTables rate = .ok (table, lfo) ∧ table.length = rate ∧ lfo.length = rate * 100 := by
  have hu : u32 (rate * sineLfoFactor) = rate * 100 := u32_of_lt (by show rate * 100 < _; omega)
  unfold sineTables
  rw [hu, tab_replicate, tab_replicate, sinePeriod_eq hr (Nat.le_refl _), ok_bind', sinePeriod_eq (by omega) (Nat.le_refl _), ok_bind']
  exact ⟨_, _, rfl, by simp, by simp⟩

/-- Non-vacuity: a sine with a quarter hertz at 48000, three samples. -/
example : ∃ table lfo out' : Buf ℝ, sineTables 48000 = .ok (table, lfo) ∧ sineLfo lfo 48000 3 1 (some [1, 1 / 2, 1]) 25 none (some 7) [0, 0, 5] =
    .ok (some 82, out') ∧ out'[1]? = some (0 + 1 * (1 / 2) * Real.sin (2 * Real.pi * ((7 + 25 * 1) / 100) / 48000)) := by
  obtain ⟨table, lfo, h, _⟩ := sineTables_ok (rate := 48000) (by omega) (by omega)
  obtain ⟨out', h1, _, h2, _⟩ := C113_lfo_partial (rate := 48000) (size := 3) (frq := 25) (p := 7) (amp := 1) (amod := [1, 1 / 2, 1]) (out := [0, 0, 5])
    (by omega) (by omega) (by omega) (by simp) (by simp) h
  refine ⟨table, lfo, out', h, h1, ?_⟩
  rw [h2 1 (by omega)]
  simp

/-! ### C59 -/

/-- **C59, unity gain, what is true**: if the largest absolute values of both are positive integers, then afterwards they are equal. -/
theorem C59_unity_gain_partial (b reference : Buf ℚ) (count M R : Nat) (hc : count ≤ b.length) (hr : count ≤ reference.length) (hM : 0 < M)
    (hM2 : M < 4294967296) (hR : 0 < R) (hR2 : R < 4294967296) (hmax : IsAbsMax b count M) (hmaxR : IsAbsMax reference count R) :
    ∃ b', samplesSetUnityGain b reference count = .ok b' ∧ IsAbsMax b' count R ∧
      b' = (b.take count).map (fun x => x * ((R : ℚ) / M)) ++ b.drop count := by
  obtain ⟨m, h1, _, _, h4⟩ := C59_samples_absolute_max_partial reference count hr
    (fun x hx => lt_of_le_of_lt (hmaxR.1 x hx) (by exact_mod_cast hR2))
  have hm : m = R := h4 R hmaxR.1 hmaxR.2
  subst hm
  unfold samplesSetUnityGain
  rw [h1, ok_bind']
  exact C59_set_gain_partial b count M m hc hM hM2 hmax (by exact_mod_cast hR)

/-- **C59 is false for unity gain**: a signal below one is never changed, whatever the reference. -/
theorem C59_unity_gain_below_one (b reference : Buf ℚ) (count : Nat) (hc : count ≤ b.length) (hr : count ≤ reference.length)
    (hb : ∀ x ∈ b.take count, |x| < 1) (hR : ∀ x ∈ reference.take count, |x| < 4294967296) :
    samplesSetUnityGain b reference count = .ok b := by
  obtain ⟨m, h1, _⟩ := C59_samples_absolute_max_partial reference count hr hR
  unfold samplesSetUnityGain
  rw [h1, ok_bind']
  exact (C59_samples_below_one b count m hc hb).2

/-- Non-vacuity. -/
example : samplesSetUnityGain [1 / 2, -1 / 4] [3, 0] 2 = .ok [1 / 2, -1 / 4] :=
  C59_unity_gain_below_one _ _ 2 (by simp) (by simp)
    (by intro x hx; simp at hx; rcases hx with rfl | rfl <;> norm_num [abs_lt])
    (by intro x hx; simp at hx; rcases hx with rfl | rfl <;> norm_num [abs_lt])

/-- **C112, several configurations**: `sp_wave_event_config_new_n` and `sp_noise_event_config_new_n` set all of the new configurations. -/
theorem C112_config_new {A : Type} (defaults : A) {count : Nat} {fresh : Buf A} (h : fresh.length = count) :
    configNewN defaults count fresh = .ok (List.replicate count defaults) := by
  subst h
  unfold configNewN
  have key := forRange_states (fun n => tab fresh.length fun i => if i < n then defaults else fresh.getD i defaults) (Nat.zero_le fresh.length)
    (body := fun i out => wr out i defaults) (by
      intro i _ hi
      rw [wr_tab _ hi]
      congr 1
      refine tab_congr fun k _ => ?_
      by_cases hk : k = i
      · rw [if_pos hk, if_pos (by omega)]
      · rw [if_neg hk]
        have : k < i + 1 ↔ k < i := by omega
        simp only [this])
  have e0 : (tab fresh.length fun i => if i < 0 then defaults else fresh.getD i defaults) = fresh := by
    refine Eq.trans (tab_congr fun i _ => if_neg (by omega)) (eq_tab fresh defaults).symm
  rw [e0] at key
  rw [key, tab_replicate]
  congr 1
  exact tab_congr fun i hi => if_pos hi

/-- Non-vacuity. -/
example : configNewN 5 3 [1, 2, 3] = .ok [5, 5, 5] := C112_config_new 5 rfl

/-! ### C97 -/

/-- **C97, sp_times_duplicate and sp_samples_duplicate**: the new array has the first `count` elements. -/
theorem C97_duplicate {S : Type} [Zero S] (a : Buf S) {count : Nat} (h : count ≤ a.length) : arrayDuplicate a count = .ok (a.take count) := by
  unfold arrayDuplicate memcpy
  rw [if_pos (by simpa using h)]
  simp

/-- Non-vacuity. -/
example : arrayDuplicate [4, 5, (6 : Int)] 2 = .ok [4, 5] := C97_duplicate _ (by simp)

end Sp
