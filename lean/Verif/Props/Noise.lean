import Verif.Lemmas.Noise
import Verif.Lemmas.Seq
import Verif.Lemmas.Filter

/-!
# C34: the memory of noise events
-/

set_option linter.unusedSectionVars false

namespace Sp
variable {S : Type}

/-- Allocated addresses are not handed out again. -/
def Live.Ok (m : Live) : Prop := ∀ a, m.live a = true → a < m.next

/-- A noise event configuration before its event is prepared, as `sp_noise_event_config_defaults` gives
it and the user completes it: the pointers that prepare sets are null, the modulation arrays that are given
are not empty, the first channel has transition frequencies, and no channel has a transition so narrow that
its impulse response is longer than `4 * rate` samples. -/
structure NoiseConfig.Valid (irLen : Nat → Nat) (rate : Nat) (c : NoiseConfig S) : Prop where
  temp : c.temp = [none, none, none]
  count : 1 ≤ c.channelCount ∧ c.channelCount ≤ c.channelConfig.length
  state : ∀ cc ∈ c.channelConfig, cc.filterState = none
  mods : ∀ cc ∈ c.channelConfig, cc.fmod ≠ some [] ∧ cc.wmod ≠ some []
  first : ∃ cc, c.channelConfig[0]? = some cc ∧ cc.trnl ≠ 0 ∧ cc.trnh ≠ 0
  narrow : ∀ cc ∈ c.channelConfig, (cc.trnl ≠ 0 → irLen cc.trnl ≤ u32 (4 * rate)) ∧
    (cc.trnh ≠ 0 → irLen cc.trnh ≤ u32 (4 * rate))

theorem noisePrepare_ok {irLen : Nat → Nat} {rate : Nat} {c : NoiseConfig S} (hc : c.Valid irLen rate)
    (status : Nat → Nat) (start stop : Nat) {m : Live} (hm : m.Ok) :
    ∃ st c' m', noisePrepare irLen rate status start stop c m = .ok (st, c', m') ∧
      (st ≠ 0 → m'.live = m.live) ∧
      (st = 0 → (∀ k < 3, m'.live (m.next + k) = true) ∧ ∃ m2, noiseFree c' m' = .ok m2 ∧ m2.live = m.live) := by
  obtain ⟨h1, ⟨h2, h3⟩, h4, h5, ⟨first, h6, h7, h8⟩, h9⟩ := hc
  unfold noisePrepare
  rw [rd_ok_iff.2 h6, ok_bind']
  by_cases ha : first.amod.isNone
  · rw [if_pos ha]
    exact ⟨_, _, _, rfl, fun _ => rfl, fun h => absurd h (by decide)⟩
  · rw [if_neg ha]
    obtain ⟨c1, s, e1, a1, a2, a3, a4, a5, a6⟩ := noiseSizes_ok (irLen := irLen) (rate := rate) (start := start)
      (stop := stop) h6 h2 h3 (fun cc hcc => ⟨h4 cc hcc, (h5 cc hcc).1, (h5 cc hcc).2, (h9 cc hcc).1, (h9 cc hcc).2⟩) h7 h8
    obtain ⟨st, c2, m2, reg, e2, b1, b2, b3, b4, b5⟩ := noiseAllocate_ok (status := status) (s := s) (m := m) (c := c1)
      (by omega) (by omega) (by rw [a3]; exact h1) (by rw [a5, a2]) a6
      (fun cc hcc => ⟨(a4 cc hcc).state, (a4 cc hcc).fmod, (a4 cc hcc).wmod⟩)
    rw [e1, ok_bind']
    simp only [e2, ok_bind']
    have hrange : ∀ a, a ∈ reg.filterMap id ↔ m.next ≤ a ∧ a < m2.next := by
      intro a
      rw [b1.regd, List.mem_range'_1]
      have := b1.le
      omega
    have hlive2 : ∀ a ∈ reg.filterMap id, m2.live a = true := by
      intro a ha
      rw [b1.live]
      simp [(hrange a).1 ha]
    have hnd : (reg.filterMap id).Nodup := by rw [b1.regd]; exact List.nodup_range'
    have hback : ∀ l : List Nat, (∀ a, a ∈ l ↔ a ∈ reg.filterMap id) →
        (fun b => if b ∈ l then false else m2.live b) = m.live := by
      intro l hl
      funext b
      by_cases hb : b ∈ l
      · rw [if_pos hb]
        have := (hrange b).1 ((hl b).1 hb)
        cases hlb : m.live b with
        | false => rfl
        | true => have := hm b hlb; omega
      · rw [if_neg hb, b1.live]
        have : ¬ (m.next ≤ b ∧ b < m2.next) := fun h => hb ((hl b).2 ((hrange b).2 h))
        simp [this]
    by_cases hst : st = 0
    · subst hst
      simp only [ne_eq, not_true_eq_false, if_false]
      refine ⟨_, _, _, rfl, fun h => absurd rfl h, fun _ => ⟨?_, ?_⟩⟩
      · intro k hk
        have := b5 rfl
        exact hlive2 _ ((hrange _).2 (by omega))
      · rw [noiseFree_eq c2 m2 b4 (by omega), freeEach_eq _ _ (b1.owned.nodup_iff.2 hnd)
          (fun a ha => hlive2 a (b1.owned.mem_iff.1 ha))]
        exact ⟨_, rfl, hback _ fun a => b1.owned.mem_iff⟩
    · simp only [ne_eq, hst, not_false_eq_true, if_true]
      have hrev : reg.reverse.filterMap id = (reg.filterMap id).reverse := by rw [List.filterMap_reverse]
      rw [freeEach_eq _ _ (by rw [hrev]; exact List.nodup_reverse.2 hnd)
        (fun a ha => hlive2 a (by rw [hrev, List.mem_reverse] at ha; exact ha)), ok_bind']
      refine ⟨_, _, _, rfl, fun _ => ?_, fun h => absurd h hst⟩
      exact hback _ fun a => by rw [hrev, List.mem_reverse]

/-- **C34**, the part that holds: `sp_noise_event_free`, if it is called after a successful prepare,
releases exactly what `sp_noise_event_prepare` has allocated, and a failing prepare has released it by
itself. Missing: the sequencer does not call `sp_noise_event_free`, see `C34_leak`. -/
theorem C34_free_releases_partial {irLen : Nat → Nat} {rate : Nat} {c : NoiseConfig S} (hc : c.Valid irLen rate)
    (status : Nat → Nat) (start stop : Nat) {m : Live} (hm : m.Ok) :
    ∃ st c' m', noisePrepare irLen rate status start stop c m = .ok (st, c', m') ∧
      (st ≠ 0 → m'.live = m.live) ∧ (st = 0 → ∃ m2, noiseFree c' m' = .ok m2 ∧ m2.live = m.live) := by
  obtain ⟨st, c', m', h1, h2, h3⟩ := noisePrepare_ok hc status start stop hm
  exact ⟨st, c', m', h1, h2, fun h => (h3 h).2⟩

/-- **C34 is false.** For every noise event, made with `sp_noise_event`, that can be prepared: it is rendered
completely by one call of `sp_seq` and freed by the next, after which the event list is empty, but the
temporary buffers and the filter state are still allocated. -/
theorem C34_leak {irLen : Nat → Nat} {rate : Nat} {c : NoiseConfig S} (hc : c.Valid irLen rate)
    {status : Nat → Nat} {start stop : Nat} (hs : start < stop) (hstop : stop < 4294967296) {m : Live} (hm : m.Ok)
    (hprep : ∃ c' m', noisePrepare irLen rate status start stop c m = .ok (0, c', m')) {t0 t1 t2 fuel : Nat}
    (ht0 : t0 < stop) (ht1 : stop ≤ t1) (hfuel : 1 < fuel) (base : Nat → Nat) (a : Nat)
    {heap : Heap (Event (NoiseConfig S))} {head : Option Addr} {log : List Call}
    (hwf : WellFormed heap head [(a, noiseEvent start stop c)]) :
    ∃ s logs, seqBlocks (noiseCb irLen rate status) fuel base t0 [t1, t2] ⟨heap, head, m, log⟩ = .ok (0, s, logs) ∧
      s.head = none ∧ ∀ k < 3, m.live (m.next + k) = false ∧ s.world.live (m.next + k) = true := by
  obtain ⟨c', m', hp⟩ := hprep
  obtain ⟨st, c2, m2, e1, _, e2⟩ := noisePrepare_ok hc status start stop hm
  rw [hp] at e1
  simp only [Except.ok.injEq, Prod.mk.injEq] at e1
  obtain ⟨rfl, rfl, rfl⟩ := e1
  have hlive := (e2 rfl).1
  -- the first call
  have htop1 : ∃ log1, seqListTop (noiseCb irLen rate status) t0 t1 (base t0) [(a, noiseEvent start stop c)] m =
      .ok (0, [(a, ⟨start, stop, false, false, c'⟩)], m', log1) := by
    have hev : ∃ l, seqEvent (noiseCb irLen rate status) t0 t1 (base t0) a (noiseEvent start stop c) m =
        .ok (0, ⟨start, stop, false, false, c'⟩, m', l) := by
      unfold seqEvent prepareOptional
      rw [if_pos (by rfl)]
      simp only [noiseCb, noiseEvent, hp, ok_bind', pure_eq_ok, ne_eq, not_true_eq_false, if_false]
      exact ⟨_, rfl⟩
    obtain ⟨l, hl⟩ := hev
    unfold seqListTop seqList
    rw [if_neg (by simp [noiseEvent]; omega), if_neg (by simp [noiseEvent]; omega), hl]
    simp only [ok_bind', ne_eq, not_true_eq_false, if_false, seqList, pure_eq_ok]
    exact ⟨_, rfl⟩
  obtain ⟨log1, htop1⟩ := htop1
  have hr1 := seq_refines (noiseCb irLen rate status) t0 t1 (base t0) [(a, noiseEvent start stop c)]
    ⟨heap, head, m, []⟩ fuel (by simpa using hfuel) hwf
  rw [htop1] at hr1
  obtain ⟨heap1, head1, r1, r2, _, _⟩ := hr1
  -- the second call
  have htop2 : seqListTop (noiseCb irLen rate status) t1 t2 (base t1) [(a, ⟨start, stop, false, false, c'⟩)] m' =
      .ok (0, [], m', [] ++ [.release a] ++ []) := by
    unfold seqListTop seqList
    rw [if_pos (by simpa using ht1)]
    simp only [eventFree, seqList]
    rfl
  have hr2 := seq_refines (noiseCb irLen rate status) t1 t2 (base t1) [(a, ⟨start, stop, false, false, c'⟩)]
    ⟨heap1, head1, m', []⟩ fuel (by simpa using hfuel) r2
  rw [htop2] at hr2
  obtain ⟨heap2, head2, q1, q2, _, _⟩ := hr2
  have hrun : ∃ lg logs, seqBlocks (noiseCb irLen rate status) fuel base t0 [t1, t2] ⟨heap, head, m, log⟩ =
      .ok (0, ⟨heap2, head2, m', lg⟩, logs) := by
    unfold seqBlocks
    simp only [r1, ok_bind', ne_eq, not_true_eq_false, if_false, seqBlocks, q1, pure_eq_ok]
    exact ⟨_, _, rfl⟩
  obtain ⟨lg, logs, hrun⟩ := hrun
  refine ⟨_, _, hrun, q2.1, ?_⟩
  · intro k hk
    refine ⟨?_, hlive k hk⟩
    cases h : m.live (m.next + k) with
    | false => rfl
    | true => have := hm _ h; omega

/-- The memory at the beginning: one allocation, at address 0. -/
def exampleLive : Live := ⟨1, fun a => a = 0⟩

theorem exampleLive_ok : exampleLive.Ok := by
  intro a ha
  have : a = 0 := by simpa [exampleLive] using ha
  subst this
  decide

/-- The configuration with the defaults for two channels, the second one used with its own frequency. -/
def exampleNoise : NoiseConfig Int :=
  { (noiseDefaults 2 1000 80 : NoiseConfig Int) with
    channelConfig := [⟨1, some [1, 1, 1, 1], 0, none, 0, none, 500, none, 80, 80, true⟩,
      ⟨2, none, 1, none, 100, some [3, 2, 1, 1], 500, none, 80, 0, true⟩] }

/-- Four divided by the transition factor, odd. -/
def exampleIrLen (hz : Nat) : Nat := let a := (4 * 1000 + hz - 1) / hz; if a % 2 = 0 then a + 1 else a

theorem exampleNoise_valid : exampleNoise.Valid exampleIrLen 1000 := by
  refine ⟨rfl, by decide, ?_, ?_, ⟨_, rfl, by decide, by decide⟩, ?_⟩
  all_goals
    intro cc hcc
    simp only [exampleNoise, List.mem_cons, List.not_mem_nil, or_false] at hcc
    rcases hcc with rfl | rfl <;> decide

/-- The event allocates five blocks of memory: three buffers and two filter states. -/
theorem exampleNoise_prepare : ∃ c' m', noisePrepare exampleIrLen 1000 (fun _ => 0) 0 4 exampleNoise exampleLive =
    .ok (0, c', m') ∧ m'.next = 6 ∧ c'.owned = [some 3, some 5, some 1, some 2, some 4] := ⟨_, _, rfl, rfl, by decide⟩

example : ∃ st c' m', noisePrepare exampleIrLen 1000 (fun _ => 0) 0 4 exampleNoise exampleLive = .ok (st, c', m') ∧
    (st ≠ 0 → m'.live = exampleLive.live) ∧
    (st = 0 → ∃ m2, noiseFree c' m' = .ok m2 ∧ m2.live = exampleLive.live) :=
  C34_free_releases_partial exampleNoise_valid (fun _ => 0) 0 4 exampleLive_ok

/-- A filter that can not be created. -/
example : ∃ c' m', noisePrepare exampleIrLen 1000 (fun i => if i = 1 then 8 else 0) 0 4 exampleNoise exampleLive =
    .ok (8, c', m') ∧ m'.live = exampleLive.live := by
  obtain ⟨st, c', m', h1, h2, _⟩ := C34_free_releases_partial exampleNoise_valid (fun i => if i = 1 then 8 else 0) 0 4
    exampleLive_ok
  have h3 : ∃ c' m', noisePrepare exampleIrLen 1000 (fun i => if i = 1 then 8 else 0) 0 4 exampleNoise exampleLive =
    .ok (8, c', m') := ⟨_, _, rfl⟩
  obtain ⟨c2, m2, h3⟩ := h3
  rw [h3] at h1
  simp only [Except.ok.injEq, Prod.mk.injEq] at h1
  obtain ⟨rfl, rfl, rfl⟩ := h1
  exact ⟨_, _, h3, h2 (by decide)⟩

/-- The leak happens. -/
example : ∃ s logs, seqBlocks (noiseCb exampleIrLen 1000 (fun _ => 0)) 2 id 0 [4, 5]
      ⟨fun b => if b = 7 then some ⟨none, none, noiseEvent 0 4 exampleNoise⟩ else none, some 7, exampleLive, []⟩ =
        .ok (0, s, logs) ∧ s.head = none ∧
    ∀ k < 3, exampleLive.live (exampleLive.next + k) = false ∧ s.world.live (exampleLive.next + k) = true := by
  obtain ⟨c', m', h, _⟩ := exampleNoise_prepare
  exact C34_leak exampleNoise_valid (by decide) (by decide) exampleLive_ok ⟨c', m', h⟩ (by decide) (by decide) (by decide)
    id 7 ⟨⟨rfl, none, rfl, rfl⟩, by simp⟩

/-- **C34, narrow transitions.** If the impulse response of the first channel is longer than four seconds of
samples, `sp_noise_event_prepare` writes beyond the temporary buffer. -/
theorem C34_narrow_overflow {irLen : Nat → Nat} {rate : Nat} {first : NoiseChannel S} (status : Nat → Nat)
    (start stop : Nat) (c : NoiseConfig S) (m : Live) (ht : c.temp = [none, none, none]) (hcount : c.channelCount = 1)
    (hfirst : c.channelConfig = [first]) (ha : first.amod.isSome)
    (hlen : u32 (4 * rate) < irLen (min first.trnl first.trnh)) :
    noisePrepare irLen rate status start stop c m = .error .outOfBounds := by
  unfold noisePrepare
  rw [hfirst, show rd [first] 0 = .ok first from rfl, ok_bind', if_neg (by cases h : first.amod <;> simp_all)]
  unfold noiseSizes
  rw [hfirst, show rd [first] 0 = .ok first from rfl, ok_bind', hcount]
  simp only [forRange_self, List.length_cons, List.length_nil, Nat.zero_add, List.replicate_one]
  rw [show wr [0] 0 (irLen (min first.trnl first.trnh)) = .ok [irLen (min first.trnl first.trnh)] from rfl]
  simp only [ok_bind', pure_eq_ok]
  unfold noiseAllocate
  simp only [Live.malloc]
  rw [ht, show wr [none, none, none] 0 (some m.next) = .ok [some m.next, none, none] from rfl, ok_bind',
    show wr [some m.next, none, none] 1 (some (m.next + 1)) = .ok [some m.next, some (m.next + 1), none] from rfl,
    ok_bind', show ∀ x : Nat, rd [x] 0 = .ok x from fun _ => rfl, ok_bind']
  unfold noiseFilterState
  rw [show rd [first] 0 = .ok first from rfl, ok_bind', if_pos (by simp only; omega)]
  rfl

/-- The configuration with one channel and a transition of 1 Hz: the impulse response has one sample more
than the buffer. -/
example : noisePrepare exampleIrLen 1000 (fun _ => 0) 0 4 { exampleNoise with
      channelCount := 1, channelConfig := [⟨1, some [1, 1, 1, 1], 0, none, 0, none, 500, none, 1, 80, true⟩] } exampleLive =
    .error .outOfBounds :=
  C34_narrow_overflow _ _ _ _ _ rfl rfl rfl rfl (by decide)

/-- A transition of 1 Hz has an impulse response of `4 * rate + 1` samples. -/
example : exampleIrLen 1 = 4 * 1000 + 1 := by decide

end Sp
