import Verif.Lemmas.NoisePrepare
import Verif.Props.Render

/-!
# C22, C101, C102: noise events with random numbers and filters
-/

set_option linter.unusedSectionVars false

namespace Sp
variable {S ρ F : Type}
variable [Zero S] [Add S] [Mul S] [One S] [Neg S] [Max S] [Min S] [DecidableEq F]

/-- The lengths that noise events can generate: not empty and not longer than their buffers. -/
def NoiseLength (rate n : Nat) : Prop := 0 < n ∧ n ≤ 4 * rate

theorem noiseLength_shorter (rate : Nat) : Shorter (NoiseLength rate) := fun _ _ h h1 h2 => ⟨h1, by have := h.2; omega⟩

/-- The sound that a noise event with the random numbers that begin with `seed` plays from event time `p` on. -/
noncomputable def noiseEventSound (env : NoiseEnv S ρ F) (seed : ρ) (c : NoiseConfig S) (cs : List (NoiseChannel S))
    (len : Nat → Nat) (ir : Nat → List S) (p : Nat) : Sound S :=
  noiseSound cs c.channelCount (noiseFilters (randomAt env.next seed) (OwnFilter c.channelConfig) len ir c.channelCount) p

/-- **C102, a noise event with given seed is a seamless event**, for blocks that are not longer than four seconds: a noise event without
modulation of its filter parameters plays white noise, filtered with the convolution filters of its channels, limited,
with its amplitude envelopes. The convolution goes over the beginning of the event and over the borders of blocks. -/
theorem C102_noise_events_partial {env : NoiseEnv S ρ F} {e : Event (NoiseRun S ρ F)} {cs : List (NoiseChannel S)} {len : Nat → Nat}
    {ir : Nat → List S} {nch : Nat} (h : NoiseEventOk env e.data.config cs len ir nch (e.stop - e.start))
    (hprep : e.prep = true) (hle : e.start ≤ e.stop) (h32 : e.stop < 4294967296)
    (hf : e.data.filters = List.replicate e.data.config.channelConfig.length none) :
    Plays (NoiseLength env.rate) (noiseRunCb env) nch e (noiseEventSound env e.data.random e.data.config cs len ir) := by
  intro p hp
  refine ⟨fun _ _ => rfl, ?_⟩
  rw [if_pos hprep]
  obtain ⟨T, s', hT1, hT2, e1, hr⟩ := noiseRunPrepare_ok h hle h32 rfl hf
  have hs := noise_setup h e.data.random hT1 (e.stop - e.start)
  refine ⟨{ e with data := s' }, ?_, rfl, rfl, ?_⟩
  · intro w
    simp only [noiseRunCb, e1, ok_bind']
    rfl
  · refine ⟨fun e2 a => p ≤ a ∧ NoiseReady env e.data.random _ _ _ _ _ T (a - p) e2.data, ⟨Nat.le_refl p, by
      rw [Nat.sub_self]; exact hr⟩, ?_⟩
    rintro e2 a ⟨hpa, hr2⟩
    refine ⟨fun _ _ => rfl, ?_⟩
    intro b off n f hab hb hok hoff
    obtain ⟨s2, k1, k2⟩ := noiseRunBlock_ok hs (n := b - a) (bi := off) (ei := a) (N := n) (p := p) (pos := a - p)
      (hT2 _ (by omega) hok.2) (by omega) (by omega) hoff hr2 f
    refine ⟨{ e2 with data := s2 }, ?_, rfl, rfl, rfl, by omega, ?_⟩
    · have := noiseRunGenerate_eq env (a := a) (b := b) (blk nch n f) (by have := hok.1; omega) (by omega)
        (by rw [hr2.config]; simp only; omega) k1
      simp only [noiseRunCb, this, ok_bind']
      rfl
    · rw [show b - p = a - p + (b - a) by omega]
      exact k2

/-- Non-vacuity: random numbers that count, impulse responses `[1, frequency]`. -/
def exampleEnv : NoiseEnv Int Nat Unit where
  next r := ((r : Int) % 5 - 2, r + 1)
  irOf _ args := some (args.map fun b => (b.toNat : Int))
  irF := ()
  pack q _ _ _ _ := [1, UInt8.ofNat q]
  irLen _ := 2
  rate := 1
  junk := 99

/-- Three channels: the first, one with its own frequency, and one that is not used. -/
def exampleChannels : List (NoiseChannel Int) :=
  [⟨1, some [1, 0, 1, 1, 2], 0, none, 2, none, 500, none, 80, 80, true⟩,
    ⟨2, none, 1, none, 3, none, 0, none, 0, 0, true⟩, ⟨5, none, 1, none, 0, none, 7, none, 0, 0, false⟩]

/-- The same after taking the defaults. -/
def exampleChannels2 : List (NoiseChannel Int) :=
  [⟨1, some [1, 0, 1, 1, 2], 0, none, 2, none, 500, none, 80, 80, true⟩,
    ⟨2, some [1, 0, 1, 1, 2], 1, none, 3, none, 500, none, 80, 80, true⟩,
    ⟨1, some [1, 0, 1, 1, 2], 1, none, 2, none, 500, none, 80, 80, true⟩]

/-- The configuration. -/
def exampleNoiseConfig : NoiseConfig Int := ⟨false, 10, [none, none, none], 0, 3, exampleChannels⟩

/-- The configuration with the seed `r`. -/
def exampleNoiseRun (r : Nat) : NoiseRun Int Nat Unit := ⟨exampleNoiseConfig, r, [none, none, none], []⟩

theorem exampleChannels_defaults : ChannelDefaults 3 exampleChannels exampleChannels2 := by
  refine ⟨rfl, rfl, ?_, ?_⟩
  · intro i first cc cc' h1 h2 e0 e1 e2
    cases e0
    have : i = 1 ∨ i = 2 := by omega
    rcases this with rfl | rfl <;> cases e1 <;> cases e2
    · exact ⟨by simp, by simp, by simp, by simp, fun _ h => absurd (Or.inl (by simp)) h⟩
    · exact ⟨by simp, by simp, by simp, by simp, by simp⟩
  · intro i hi
    rw [List.getElem?_eq_none (by exact hi), List.getElem?_eq_none (by exact hi)]

/-- The impulse responses. -/
def exampleIr (i : Nat) : List Int := if i = 1 then [1, 3] else [1, 2]

theorem exampleNoiseRun_ok {dur : Nat} (hd : dur ≤ 5) :
    NoiseEventOk exampleEnv exampleNoiseConfig exampleChannels2 (fun _ => 2) exampleIr 2 dur := by
  have h3 : ∀ i : Nat, i < 3 → i = 0 ∨ i = 1 ∨ i = 2 := by omega
  refine ⟨by decide, by decide, exampleChannels_defaults, ⟨_, rfl, rfl⟩, ?_, ?_, ?_, ?_, ?_⟩
  · intro i cc hi hcc hu
    rcases h3 i hi with rfl | rfl | rfl <;> cases hcc <;> simp at hu ⊢
  · intro i cc hi hcc
    rcases h3 i hi with rfl | rfl | rfl <;> cases hcc <;> decide
  · intro i cc hi hcc
    rcases h3 i hi with rfl | rfl | rfl <;> cases hcc <;> exact ⟨_, rfl, hd⟩
  · intro i cc hi hcc ho
    exact ⟨rfl, by decide, by decide⟩
  · intro i cc hi hcc ho
    rcases h3 i hi with rfl | rfl | rfl <;> cases hcc
    · decide
    · decide
    · rcases ho with h | ⟨cc, h1, h2, _⟩
      · cases h
      · cases h1; cases h2

/-- The event. -/
def exampleNoiseEvent (r start stop : Nat) : Event (NoiseRun Int Nat Unit) := ⟨start, stop, true, false, exampleNoiseRun r⟩

theorem exampleNoise_plays (r start stop : Nat) (h1 : start ≤ stop) (h2 : stop - start ≤ 5) (h3 : stop < 4294967296) :
    Plays (NoiseLength 1) (noiseRunCb exampleEnv) 2 (exampleNoiseEvent r start stop)
      (noiseEventSound exampleEnv r exampleNoiseConfig exampleChannels2 (fun _ => 2) exampleIr) :=
  C102_noise_events_partial (env := exampleEnv) (e := exampleNoiseEvent r start stop) (exampleNoiseRun_ok h2) rfl h1 h3 rfl

/-! ### events of two kinds -/

section Sum
variable {D E W : Type}

/-- Events of two kinds: each event has the functions of its kind. -/
def sumCb (l : Callbacks D W) (r : Callbacks E W) : Callbacks (D ⊕ E) W where
  prepare e w := match e.data with
    | .inl d => do
      let (st, e, w) ← l.prepare (e.withData d) w
      return (st, e.withData (.inl e.data), w)
    | .inr d => do
      let (st, e, w) ← r.prepare (e.withData d) w
      return (st, e.withData (.inr e.data), w)
  generate x y off e w := match e.data with
    | .inl d => do
      let (st, e, w) ← l.generate x y off (e.withData d) w
      return (st, e.withData (.inl e.data), w)
    | .inr d => do
      let (st, e, w) ← r.generate x y off (e.withData d) w
      return (st, e.withData (.inr e.data), w)
  free e w := match e.data with
    | .inl d => l.free (e.withData d) w
    | .inr d => r.free (e.withData d) w

theorem withData_data (e : Event D) : e.withData e.data = e := by cases e; rfl

theorem sum_seamless_left {ok : Nat → Prop} (l : Callbacks D (Buf (Buf S))) (r : Callbacks E (Buf (Buf S))) {nch dur : Nat}
    {G : Sound S} {e : Event D} {a : Nat} (h : Seamless ok l nch dur G e a) :
    Seamless ok (sumCb l r) nch dur G (e.withData (.inl e.data)) a := by
  obtain ⟨R, h1, h2⟩ := h
  refine ⟨fun e a => ∃ e0 : Event D, e = e0.withData (.inl e0.data) ∧ R e0 a, ⟨e, rfl, h1⟩, ?_⟩
  rintro _ a ⟨e, rfl, hr⟩
  obtain ⟨q1, q2⟩ := h2 e a hr
  refine ⟨q1, fun b off n f hab hb hok hn => ?_⟩
  obtain ⟨e', k1, k2, k3, k4, k5⟩ := q2 b off n f hab hb hok hn
  refine ⟨e'.withData (.inl e'.data), ?_, k2, k3, k4, e', rfl, k5⟩
  have : (sumCb l r).generate a b off (e.withData (.inl e.data)) (blk nch n f) = (do
      let (st, e, w) ← l.generate a b off e (blk nch n f)
      return (st, e.withData (.inl e.data), w)) := rfl
  rw [this, k1]
  rfl

theorem sum_seamless_right {ok : Nat → Prop} (l : Callbacks D (Buf (Buf S))) (r : Callbacks E (Buf (Buf S))) {nch dur : Nat}
    {G : Sound S} {e : Event E} {a : Nat} (h : Seamless ok r nch dur G e a) :
    Seamless ok (sumCb l r) nch dur G (e.withData (.inr e.data)) a := by
  obtain ⟨R, h1, h2⟩ := h
  refine ⟨fun e a => ∃ e0 : Event E, e = e0.withData (.inr e0.data) ∧ R e0 a, ⟨e, rfl, h1⟩, ?_⟩
  rintro _ a ⟨e, rfl, hr⟩
  obtain ⟨q1, q2⟩ := h2 e a hr
  refine ⟨q1, fun b off n f hab hb hok hn => ?_⟩
  obtain ⟨e', k1, k2, k3, k4, k5⟩ := q2 b off n f hab hb hok hn
  refine ⟨e'.withData (.inr e'.data), ?_, k2, k3, k4, e', rfl, k5⟩
  have : (sumCb l r).generate a b off (e.withData (.inr e.data)) (blk nch n f) = (do
      let (st, e, w) ← r.generate a b off e (blk nch n f)
      return (st, e.withData (.inr e.data), w)) := rfl
  rw [this, k1]
  rfl

/-- **C22, mixed trees**: events of two kinds can be in one tree, each plays what it plays. -/
theorem C22_mixed_left {ok : Nat → Prop} {l : Callbacks D (Buf (Buf S))} (r : Callbacks E (Buf (Buf S))) {nch : Nat}
    {G : Nat → Sound S} {e : Event D} (h : Plays ok l nch e G) :
    Plays ok (sumCb l r) nch (e.withData (.inl e.data)) G := by
  intro p hp
  obtain ⟨h1, h2⟩ := h p hp
  refine ⟨h1, ?_⟩
  by_cases hpr : e.prep = true
  · rw [if_pos hpr] at h2
    rw [if_pos (show (e.withData (Sum.inl (β := E) e.data)).prep = true from hpr)]
    obtain ⟨e', k1, k2, k3, k4⟩ := h2
    refine ⟨e'.withData (.inl e'.data), fun w => ?_, k2, k3, sum_seamless_left l r k4⟩
    have : (sumCb l r).prepare (e.withData (.inl e.data)) w = (do
        let (st, e, w) ← l.prepare e w
        return (st, e.withData (.inl e.data), w)) := rfl
    rw [this, k1]
    rfl
  · rw [if_neg hpr] at h2
    rw [if_neg (show ¬ (e.withData (Sum.inl (β := E) e.data)).prep = true from hpr)]
    exact sum_seamless_left l r h2

theorem C22_mixed_right {ok : Nat → Prop} (l : Callbacks D (Buf (Buf S))) {r : Callbacks E (Buf (Buf S))} {nch : Nat}
    {G : Nat → Sound S} {e : Event E} (h : Plays ok r nch e G) :
    Plays ok (sumCb l r) nch (e.withData (.inr e.data)) G := by
  intro p hp
  obtain ⟨h1, h2⟩ := h p hp
  refine ⟨h1, ?_⟩
  by_cases hpr : e.prep = true
  · rw [if_pos hpr] at h2
    rw [if_pos (show (e.withData (Sum.inr (α := D) e.data)).prep = true from hpr)]
    obtain ⟨e', k1, k2, k3, k4⟩ := h2
    refine ⟨e'.withData (.inr e'.data), fun w => ?_, k2, k3, sum_seamless_right l r k4⟩
    have : (sumCb l r).prepare (e.withData (.inr e.data)) w = (do
        let (st, e, w) ← r.prepare e w
        return (st, e.withData (.inr e.data), w)) := rfl
    rw [this, k1]
    rfl
  · rw [if_neg hpr] at h2
    rw [if_neg (show ¬ (e.withData (Sum.inr (α := D) e.data)).prep = true from hpr)]
    exact sum_seamless_right l r h2

end Sum

/-- Non-vacuity: a wave event, and a group that contains a noise event. Blocks of different lengths up to four. -/
def exampleMixedGroup : Event (Tree (WaveConfig Int ⊕ NoiseRun Int Nat Unit)) where
  start := 2
  stop := 9
  prep := true
  hasFree := false
  data := .group (fun b => if b = 5 then some ⟨none, none, (exampleNoiseEvent 3 1 6).withData (.leaf (.inr (exampleNoiseRun 3)))⟩
    else none) (some 5)

example : ∃ s logs s' logs',
    seqBlocks (treeCb (sumCb waveCb (noiseRunCb exampleEnv)) 9 2) 9 (fun t => 0 + (t - 0)) 0 [1, 3, 6, 9]
      ⟨fun b => if b = 1 then some ⟨none, some 2, (exampleWaveEvent 0 4).withData (.leaf (.inl exampleWave))⟩
        else if b = 2 then some ⟨some 1, none, exampleMixedGroup⟩ else none, some 1, blk 2 9 (fun _ _ => (0 : Int)), []⟩ =
      .ok (0, s, logs) ∧
    seqBlocks (treeCb (sumCb waveCb (noiseRunCb exampleEnv)) 9 2) 9 (fun t => 0 + (t - 0)) 0 [4, 8, 9]
      ⟨fun b => if b = 1 then some ⟨none, some 2, (exampleWaveEvent 0 4).withData (.leaf (.inl exampleWave))⟩
        else if b = 2 then some ⟨some 1, none, exampleMixedGroup⟩ else none, some 1, blk 2 9 (fun _ _ => (0 : Int)), []⟩ =
      .ok (0, s', logs') ∧ s.world = s'.world := by
  have hw : Plays (NoiseLength 1) (sumCb waveCb (noiseRunCb exampleEnv)) 2
      ((exampleWaveEvent 0 4).withData (Sum.inl exampleWave)) (fun p => exampleWave2.mix 0 p) :=
    C22_mixed_left (e := (exampleWaveEvent 0 4).withData exampleWave) _ (C22_wave_events (c := exampleWave2) 0
      (by rw [if_pos (by rfl)]; rfl) ⟨rfl, rfl, by
        intro cc hcc
        simp only [exampleWave2, List.mem_cons, List.not_mem_nil, or_false] at hcc
        rcases hcc with rfl | rfl
        · exact ⟨⟨_, rfl, by decide⟩, fun x hx => by cases hx; decide, fun x hx => by cases hx; decide, by simp [exampleWave, exampleWave2], by simp⟩
        · exact ⟨⟨_, rfl, by decide⟩, fun x hx => by cases hx; decide, fun x hx => by cases hx; decide, by simp [exampleWave, exampleWave2], by simp⟩⟩)
  have hn := C22_mixed_right (waveCb (S := Int)) (exampleNoise_plays 3 1 6 (by omega) (by omega) (by omega))
  set G := noiseEventSound exampleEnv 3 exampleNoiseConfig exampleChannels2 (fun _ => 2) exampleIr
  let l : List (Addr × Event (Tree (WaveConfig Int ⊕ NoiseRun Int Nat Unit))) :=
    [(1, (exampleWaveEvent 0 4).withData (.leaf (.inl exampleWave))), (2, exampleMixedGroup)]
  let H : Addr → Nat → Sound Int := fun a => if a = 1 then fun p => exampleWave2.mix 0 p else
    mixEvents [((5 : Nat), (exampleNoiseEvent 3 1 6).withData (Tree.leaf (Sum.inr (α := WaveConfig Int) (exampleNoiseRun 3))))]
      (fun _ => G)
  have hp : ∀ x ∈ l, Playable (NoiseLength 1) (sumCb waveCb (noiseRunCb exampleEnv)) 9 2 1 x.2 (H x.1) := by
    intro x hx
    simp only [l, List.mem_cons, List.not_mem_nil, or_false] at hx
    rcases hx with rfl | rfl
    · exact .leaf rfl hw
    · refine .group (d := 0) (l := [((5 : Nat), _)]) (F := fun _ => G) rfl ⟨⟨rfl, none, rfl, rfl⟩, by simp⟩ (by simp)
        ⟨by simp, by simp [exampleNoiseEvent, Event.withData], by simp [exampleNoiseEvent, Event.withData]⟩
        (by simp [exampleMixedGroup]) (.inr (by simp [exampleNoiseEvent, Event.withData])) ?_
      intro x hx
      simp only [List.mem_singleton] at hx
      subst hx
      exact .leaf rfl hn
  have key := fun (stops : List Nat) (hb : Blocks 0 stops) (hl : stops.getLast? = some 9)
      (hok : ∀ p ∈ blockBounds 0 stops, NoiseLength 1 (p.2 - p.1)) =>
    C22_blocks (l := l) (F := H) (noiseLength_shorter 1) hp
      ⟨by simp [l, exampleWaveEvent, exampleMixedGroup, Event.withData], by simp [l, exampleWaveEvent, exampleMixedGroup, Event.withData],
        by simp [l, exampleWaveEvent, exampleMixedGroup, Event.withData]⟩
      (.inr (by simp [l, exampleWaveEvent, exampleMixedGroup, Event.withData]))
      (heap := fun b => if b = 1 then some ⟨none, some 2, (exampleWaveEvent 0 4).withData (.leaf (.inl exampleWave))⟩
        else if b = 2 then some ⟨some 1, none, exampleMixedGroup⟩ else none) (head := some 1)
      ⟨⟨rfl, some 2, rfl, rfl, none, rfl, rfl⟩, by simp [l]⟩ (by simp [l]) (fun _ _ => (0 : Int)) (n := 9) (off := 0) hb hl hok (by omega)
  obtain ⟨s, logs, h1, h2⟩ := key [1, 3, 6, 9] (by simp [Blocks]) rfl (by simp [blockBounds, NoiseLength])
  obtain ⟨s', logs', h3, h4⟩ := key [4, 8, 9] (by simp [Blocks]) rfl (by simp [blockBounds, NoiseLength])
  exact ⟨s, logs, s', logs', h1, h3, h2.trans h4.symm⟩

/-! ### channel defaults -/

theorem forRange_inv {σ : Type _} (P : σ → Prop) {lo hi : Nat} {body : Nat → σ → C σ} {s s' : σ} (h0 : P s)
    (hb : ∀ i s s', P s → body i s = .ok s' → P s') (h : forRange lo hi body s = .ok s') : P s' := by
  by_cases hle : lo ≤ hi
  · obtain ⟨n, rfl⟩ := Nat.exists_eq_add_of_le hle
    clear hle
    induction n generalizing s' with
    | zero =>
      simp only [Nat.add_zero, forRange_self, Except.ok.injEq] at h
      exact h ▸ h0
    | succ n ih =>
      rw [← Nat.add_assoc, forRange_succ (by omega)] at h
      obtain ⟨x, h1, h2⟩ := bind_eq_ok.1 h
      exact hb _ _ _ (ih h1) h2
  · rw [forRange_of_le (by omega)] at h
    simp only [Except.ok.injEq] at h
    exact h ▸ h0

theorem noiseRunFilterState_config {env : NoiseEnv S ρ F} {i len : Nat} {s s' : NoiseRun S ρ F} {st : Nat}
    (h : noiseRunFilterState env i len s = .ok (st, s')) : s'.config = s.config := by
  unfold noiseRunFilterState at h
  simp only [bind_eq_ok] at h
  obtain ⟨_, _, _, _, ⟨_, _⟩, _, h⟩ := h
  obtain ⟨_, _, _, _, _, _, _, _, _, _, _, _, _, _, h⟩ := h
  simp only [pure_eq_ok, Except.ok.injEq, Prod.mk.injEq] at h
  rw [← h.2]

/-- **C101, the channel configurations.** When `sp_noise_event_prepare` has taken the defaults (also if it fails
later), a channel that is not used is as the first except for its output channel, a used channel has the amplitude
envelope of the first if it had none, and if it has filter settings, it has those that were missing from the first;
nothing else is changed. If no used channel has modulated filter parameters, the resolution is the length of the event. -/
theorem C101_channel_defaults {env : NoiseEnv S ρ F} {start stop : Nat} {s s' : NoiseRun S ρ F} {st : Nat}
    (hn : 1 ≤ s.config.channelCount ∧ s.config.channelCount ≤ s.config.channelConfig.length)
    {first : NoiseChannel S} (h0 : s.config.channelConfig[0]? = some first) (ha : first.amod ≠ none)
    (h : noiseRunPrepare env start stop s = .ok (st, s')) :
    ChannelDefaults s.config.channelCount s.config.channelConfig s'.config.channelConfig ∧
    s'.config.channelCount = s.config.channelCount ∧ s'.config.isReject = s.config.isReject ∧
    ((∃ i cc, i < s.config.channelCount ∧ s.config.channelConfig[i]? = some cc ∧ (i = 0 ∨ cc.use = true) ∧
        (cc.fmod ≠ none ∨ cc.wmod ≠ none)) → s'.config.resolution = s.config.resolution) ∧
    ((∀ i cc, i < s.config.channelCount → s.config.channelConfig[i]? = some cc → (i = 0 ∨ cc.use = true) →
        cc.fmod = none ∧ cc.wmod = none) → s'.config.resolution = sub32 stop start) := by
  obtain ⟨sz, hs, e⟩ := noiseSizes_exact (irLen := env.irLen) env.rate start stop h0 hn.1 hn.2
  unfold noiseRunPrepare at h
  rw [rd_ok_iff.2 h0, ok_bind', if_neg (by simpa [Option.isNone_iff_eq_none] using ha), bind_eq_ok] at h
  obtain ⟨⟨c, z⟩, hz, h⟩ := h
  rw [e] at hz
  obtain ⟨hc0, -⟩ := Prod.mk.inj (Except.ok.inj hz)
  clear hz e
  rw [bind_eq_ok] at h
  obtain ⟨len, _, h⟩ := h
  rw [bind_eq_ok] at h
  obtain ⟨⟨st1, s1⟩, h1, h⟩ := h
  have c1 : s1.config = c := noiseRunFilterState_config h1
  have hc : s'.config = { s.config with
      channelConfig := sz.channels
      resolution := if sz.filterMod = true then s.config.resolution else sub32 stop start } := by
    rw [hc0, ← c1]
    clear hc0 h1
    by_cases hst : st1 = 0
    · simp only [hst, ne_eq, not_true_eq_false, if_false] at h
      by_cases hz : z.filterStates = true
      · rw [if_pos hz, bind_eq_ok] at h
        obtain ⟨temps, _, h⟩ := h
        refine forRange_inv (s' := (st, s')) (fun (x : Nat × NoiseRun S ρ F) => x.2.config = s1.config) ?_ ?_ h
        · rfl
        · rintro i ⟨st, x⟩ ⟨st2, x2⟩ hx hb
          simp only at hb hx ⊢
          split at hb
          · rw [← (Prod.mk.inj (Except.ok.inj hb)).2]; exact hx
          · rw [bind_eq_ok] at hb
            obtain ⟨len, _, hb⟩ := hb
            split at hb
            · rw [← (Prod.mk.inj (Except.ok.inj hb)).2]; exact hx
            · exact (noiseRunFilterState_config hb).trans hx
      · rw [if_neg hz] at h
        rw [← (Prod.mk.inj (Except.ok.inj h)).2]
    · simp only [ne_eq, hst, not_false_eq_true, if_true] at h
      rw [← (Prod.mk.inj (Except.ok.inj h)).2]
  rw [hc]
  refine ⟨hs.defaults, rfl, rfl, ?_, ?_⟩
  · rintro ⟨i, cc, i1, i2, i3, i4⟩
    have : sz.filterMod = true := by
      rw [hs.mod]
      by_cases hz : i = 0
      · subst hz
        rw [h0] at i2; cases i2
        exact Or.inl i4
      · exact Or.inr ⟨i, cc, by omega, i1, i2, i3.resolve_left hz, i4⟩
    exact if_pos this
  · intro hm
    have : sz.filterMod = false := by
      rw [← Bool.not_eq_true, hs.mod]
      rintro (h | ⟨i, cc, i1, i2, i3, i4, i5⟩)
      · have := hm 0 first (by omega) h0 (Or.inl rfl)
        simp [this.1, this.2] at h
      · have := hm i cc i2 i3 (Or.inr i4)
        simp [this.1, this.2] at i5
    exact if_neg (by rw [this]; exact Bool.false_ne_true)

example : ∃ st s', noiseRunPrepare exampleEnv 0 5 (exampleNoiseRun 1) = .ok (st, s') ∧
    ChannelDefaults 3 exampleChannels s'.config.channelConfig ∧ s'.config.resolution = 5 := by
  obtain ⟨T, s', _, _, h1, _⟩ := noiseRunPrepare_ok (exampleNoiseRun_ok (dur := 5 - 0) (by decide)) (by decide) (by decide)
    (s := exampleNoiseRun 1) rfl rfl
  obtain ⟨k1, _, _, _, k2⟩ := C101_channel_defaults (s := exampleNoiseRun 1) (by decide) (first := exampleChannels[0]) rfl
    (by decide) h1
  refine ⟨_, s', h1, k1, ?_⟩
  rw [k2 ?_]
  · decide
  · intro i cc hi hcc _
    have : i = 0 ∨ i = 1 ∨ i = 2 := by have : i < 3 := hi; omega
    rcases this with rfl | rfl | rfl <;> cases hcc <;> exact ⟨rfl, rfl⟩

/-- **C101, missing envelope.** A first channel without amplitude envelope is refused with "invalid argument", and
nothing is changed. -/
theorem C101_missing_envelope (env : NoiseEnv S ρ F) (start stop : Nat) (s : NoiseRun S ρ F) {first : NoiseChannel S}
    (h0 : s.config.channelConfig[0]? = some first) (ha : first.amod = none) :
    noiseRunPrepare env start stop s = .ok (idInvalidArgument, s) := by
  unfold noiseRunPrepare
  rw [rd_ok_iff.2 h0, ok_bind', if_pos (by rw [ha]; rfl)]
  rfl

example : noiseRunPrepare exampleEnv 0 5
    ⟨⟨false, 10, [none, none, none], 0, 1, [⟨1, none, 0, none, 2, none, 500, none, 80, 80, true⟩]⟩, 1, [none], []⟩ =
    .ok (9, ⟨⟨false, 10, [none, none, none], 0, 1, [⟨1, none, 0, none, 2, none, 500, none, 80, 80, true⟩]⟩, 1, [none], []⟩) :=
  C101_missing_envelope exampleEnv 0 5 _ rfl rfl

/-- **C101, the default configuration.** With the configuration that `sp_noise_event_config_defaults` gives, and only the
amplitude envelope of the first channel set, after prepare every channel plays the first channel: amplitude 1, the same
envelope, frequencies from 0 to half of the sample rate (as a 16 bit number), each on its own output channel. -/
theorem C101_default_config {env : NoiseEnv S ρ F} {start stop : Nat} {s s' : NoiseRun S ρ F} {st limit rate trn : Nat}
    {a : Buf S} (hl : 1 ≤ limit) {c : NoiseConfig S}
    (hc : c = noiseDefaults limit rate trn) {first : NoiseChannel S} (hfirst : c.channelConfig[0]? = some first)
    (hs : s.config = { c with channelConfig := c.channelConfig.set 0 { first with amod := some a } })
    (h : noiseRunPrepare env start stop s = .ok (st, s')) :
    s'.config.channelCount = limit ∧ s'.config.channelConfig.length = limit ∧ ∀ i, i < limit →
      s'.config.channelConfig[i]? = some
        { amp := 1
          amod := some a
          channel := i
          filterState := none
          frq := 0
          fmod := none
          wdt := rate / 2 % 65536
          wmod := none
          trnl := trn
          trnh := trn
          use := true } ∧ (OwnFilter s.config.channelConfig i → i = 0) := by
  subst hc
  have hlen : s.config.channelConfig.length = limit := by rw [hs]; simp [noiseDefaults]
  have hcnt : s.config.channelCount = limit := by rw [hs]; rfl
  have hf : first = ⟨1, none, 0, none, 0, none, rate / 2 % 65536, none, trn, trn, true⟩ := by
    simp only [noiseDefaults, List.getElem?_map, Option.map_eq_some_iff] at hfirst
    obtain ⟨i, hi, rfl⟩ := hfirst
    obtain ⟨hi, rfl⟩ := List.getElem?_eq_some_iff.1 hi
    simp
  have h0 : s.config.channelConfig[0]? = some { first with amod := some a } := by
    rw [hs]
    simp only [List.getElem?_set_self']
    rw [hfirst]
    rfl
  have hi : ∀ i, 1 ≤ i → i < limit → s.config.channelConfig[i]? =
      some ⟨1, none, i, none, 0, none, rate / 2 % 65536, none, trn, trn, false⟩ := by
    intro i h1 h2
    rw [hs]
    simp only
    rw [List.getElem?_set_ne (by omega)]
    simp only [noiseDefaults, List.getElem?_map]
    rw [List.getElem?_eq_getElem (by simpa using h2)]
    simp only [List.getElem_range, Option.map_some, Option.some.injEq]
    rw [decide_eq_false (by omega)]
  obtain ⟨k1, k2, -⟩ := C101_channel_defaults (by omega) h0 (by simp) h
  refine ⟨k2.trans hcnt, k1.length.trans hlen, fun i h2 => ?_⟩
  rcases Nat.eq_zero_or_pos i with rfl | h1
  · rw [k1.first, h0, hf]
    exact ⟨rfl, fun _ => rfl⟩
  · constructor
    · have hget := List.getElem?_eq_getElem (l := s'.config.channelConfig) (i := i) (by rw [k1.length, hlen]; exact h2)
      rw [hget, (k1.others i _ _ _ h1 (by omega) h0 (hi i h1 h2) hget).unused rfl, hf]
    · rintro (h | ⟨cc, q1, q2, -⟩)
      · exact h
      · rw [hi i h1 h2] at q1
        cases q1
        cases q2

example : ∃ st s', noiseRunPrepare exampleEnv 0 3
      ⟨{ (noiseDefaults 2 48000 3840 : NoiseConfig Int) with
        channelConfig := (noiseDefaults 2 48000 3840 : NoiseConfig Int).channelConfig.set 0
          ⟨1, some [1, 1, 1], 0, none, 0, none, 24000, none, 3840, 3840, true⟩ }, 1, [none, none], []⟩ = .ok (st, s') ∧
    s'.config.channelConfig[1]? = some ⟨1, some [1, 1, 1], 1, none, 0, none, 24000, none, 3840, 3840, true⟩ := by
  obtain ⟨st, s', h⟩ : ∃ st s', noiseRunPrepare exampleEnv 0 3
      ⟨{ (noiseDefaults 2 48000 3840 : NoiseConfig Int) with
        channelConfig := (noiseDefaults 2 48000 3840 : NoiseConfig Int).channelConfig.set 0
          ⟨1, some [1, 1, 1], 0, none, 0, none, 24000, none, 3840, 3840, true⟩ }, 1, [none, none], []⟩ = .ok (st, s') :=
    ⟨_, _, rfl⟩
  exact ⟨st, s', h, (C101_default_config (a := [1, 1, 1]) (limit := 2) (rate := 48000) (trn := 3840) (by decide) rfl rfl rfl h).2.2 1 (by decide) |>.1⟩

end Sp
