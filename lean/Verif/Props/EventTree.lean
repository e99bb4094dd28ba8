import Verif.Lemmas.EventTree
import Verif.Props.Wave

/-!
# C22 and C23: rendering in blocks, and where the sequencer writes
-/

set_option linter.unusedSectionVars false

namespace Sp
variable {S D L : Type}

/-! ### C22 -/

theorem seqBlocks_mix {ok : Nat → Prop} {cb : Callbacks D (Buf (Buf S))} {nch n fuel base t0 : Nat} {ps : List (Part S)}
    (stops : List Nat) {t : Nat} {l : List (Addr × Event D)} {heap : Heap (Event D)}
    {head : Option Addr} {log0 : List Call} (hb : Blocks t stops) (hsh : Shorter ok)
    (hok : ∀ p ∈ blockBounds t stops, ok (p.2 - p.1)) (last : Nat)
    (hlast : (t :: stops).getLast? = some last) (hoff : base + (last - t0) ≤ n) (ht0 : t0 ≤ t)
    (hwf : WellFormed heap head l) (hf : l.length < fuel) (h : Chain ok cb nch t ps l)
    (f : Nat → Nat → S) :
    t ≤ last ∧ ∃ s logs, seqBlocks cb fuel (fun t => base + (t - t0)) t stops
        ⟨heap, head, blk nch n f, log0⟩ = .ok (0, s, logs) ∧
      s.world = blk nch n (applyRange (mixParts ps) t (base + (t - t0)) (last - t) f) := by
  induction stops generalizing t l heap head log0 f with
  | nil =>
    simp only [List.getLast?_singleton, Option.some.injEq] at hlast
    subst hlast
    refine ⟨Nat.le_refl _, _, _, rfl, ?_⟩
    rw [Nat.sub_self, applyRange_zero]
  | cons u stops ih =>
    obtain ⟨h1, h2, h3⟩ := hb
    have hlast' : (u :: stops).getLast? = some last := by
      rw [← hlast]; simp [List.getLast?_cons_cons]
    have hul : u ≤ last := by
      clear ih hlast hoff hok
      induction stops generalizing u with
      | nil => simp at hlast'; omega
      | cons v stops ih2 =>
        obtain ⟨k1, k2, k3⟩ := h3
        have := ih2 v (by omega) k2 k3 (by rw [← hlast']; simp [List.getLast?_cons_cons])
        omega
    obtain ⟨l', heap', head', log, e1, e2, e3, e4⟩ := seq_mix (off := base + (t - t0)) (n := n)
      (log0 := []) hwf hf h (by omega) h2 hsh (hok (t, u) (by simp [blockBounds])) (by omega) f
    obtain ⟨_, s, logs, e5, e6⟩ := ih (log0 := log) h3 (fun p hp => hok p (by simp [blockBounds, hp])) hlast' (by omega) e3 (by omega) e2
      (applyRange (mixParts ps) t (base + (t - t0)) (u - t) f)
    refine ⟨by omega, s, log :: logs, ?_, ?_⟩
    · unfold seqBlocks
      simp only [e1, ok_bind', e5, ne_eq, not_true_eq_false, if_false]
      rfl
    · rw [e6, show base + (u - t0) = base + (t - t0) + (u - t) by omega, applyRange_comp (by omega) hul]

theorem blocks_last {t : Nat} {stops : List Nat} (hb : Blocks t stops) {last : Nat} (hl : stops.getLast? = some last) :
    t < last ∧ last < 4294967296 ∧ ∀ p ∈ blockBounds t stops, p.1 < p.2 ∧ t ≤ p.1 ∧ p.2 ≤ last := by
  induction stops generalizing t with
  | nil => simp at hl
  | cons u rest ih =>
    obtain ⟨h1, h2, h3⟩ := hb
    cases rest with
    | nil =>
      simp only [List.getLast?_singleton, Option.some.injEq] at hl
      subst hl
      refine ⟨h1, h2, ?_⟩
      simp [blockBounds, h1]
    | cons v rest =>
      obtain ⟨k1, k2, k3⟩ := ih h3 (by rw [← hl]; simp [List.getLast?_cons_cons])
      refine ⟨by omega, k2, fun p hp => ?_⟩
      rcases List.mem_cons.1 hp with rfl | hp
      · exact ⟨h1, by simp, by simp only; omega⟩
      · have := k3 p hp
        exact ⟨this.1, by omega, this.2.2⟩

/-- **C22.** For a list of events that are playable trees (leaf events are seamless, groups of such,
to any depth `d`), rendering a time range block by block, for every division into blocks of lengths that
the leaf events can generate (`ok`), succeeds and gives the samples of the sound of the mix. The sound does
not depend on the division, and each sample is computed by the same operations, so that the samples of any
two divisions are equal bit for bit. -/
theorem C22_blocks {ok : Nat → Prop} {leaf : Callbacks L (Buf (Buf S))} {fuel nch d n : Nat}
    {l : List (Addr × Event (Tree L))} {F : Addr → Nat → Sound S} (hsh : Shorter ok)
    (hp : ∀ x ∈ l, Playable ok leaf fuel nch d x.2 (F x.1)) (hs : SortedEvents l)
    (hem : ok 0 ∨ ∀ x ∈ l, x.2.start < x.2.stop)
    {heap : Heap (Event (Tree L))} {head : Option Addr} (hwf : WellFormed heap head l)
    (hlen : l.length < fuel) (f : Nat → Nat → S) {start off : Nat} {stops : List Nat} {last : Nat}
    (hb : Blocks start stops) (hlast : stops.getLast? = some last)
    (hok : ∀ p ∈ blockBounds start stops, ok (p.2 - p.1))
    (hoff : off + (last - start) ≤ n) :
    ∃ s logs,
      seqBlocks (treeCb leaf fuel (d + 1)) fuel (fun t => off + (t - start)) start stops
        ⟨heap, head, blk nch n f, []⟩ = .ok (0, s, logs) ∧
      s.world = blk nch n (applyRange (mixEvents l F start) start off (last - start) f) := by
  have hch := chain_start (p := start) hs hem (fun x hx => (hp x hx).plays hsh)
  have hl' : (start :: stops).getLast? = some last := by
    cases stops with
    | nil => simp at hlast
    | cons u r => rw [← hlast]; simp [List.getLast?_cons_cons]
  obtain ⟨hle, s1, logs, e1, e2⟩ := seqBlocks_mix (t0 := start) (base := off) (log0 := []) stops hb hsh hok last hl'
    hoff (Nat.le_refl _) hwf hlen hch f
  refine ⟨s1, logs, e1, ?_⟩
  rw [e2, Nat.sub_self, Nat.add_zero]
  rw [applyRange_congr]
  intro c i x hi _
  exact mixParts_start l F start c i x hi

/-- **C22.** Rendering a time range block by block, for every division into blocks, gives the
same samples as rendering it at once, and both succeed. The whole range must be one that the leaf events
can generate; for trees of wave events all are (`ok` is true for all lengths). -/
theorem C22_block_division {ok : Nat → Prop} {leaf : Callbacks L (Buf (Buf S))} {fuel nch d n : Nat}
    {l : List (Addr × Event (Tree L))} {F : Addr → Nat → Sound S} (hsh : Shorter ok)
    (hp : ∀ x ∈ l, Playable ok leaf fuel nch d x.2 (F x.1)) (hs : SortedEvents l)
    (hem : ok 0 ∨ ∀ x ∈ l, x.2.start < x.2.stop)
    {heap : Heap (Event (Tree L))} {head : Option Addr} (hwf : WellFormed heap head l)
    (hlen : l.length < fuel) (f : Nat → Nat → S) {start off : Nat} {stops : List Nat} {last : Nat}
    (hb : Blocks start stops) (hlast : stops.getLast? = some last) (hok : ok (last - start))
    (hoff : off + (last - start) ≤ n) :
    ∃ s1 logs s2,
      seqBlocks (treeCb leaf fuel (d + 1)) fuel (fun t => off + (t - start)) start stops
        ⟨heap, head, blk nch n f, []⟩ = .ok (0, s1, logs) ∧
      seq (treeCb leaf fuel (d + 1)) fuel start last off ⟨heap, head, blk nch n f, []⟩ = .ok (0, s2) ∧
      s1.world = s2.world ∧
      s1.world = blk nch n (applyRange (mixEvents l F start) start off (last - start) f) := by
  have hch := chain_start (p := start) hs hem (fun x hx => (hp x hx).plays hsh)
  obtain ⟨hlt, hlast32, hbb⟩ := blocks_last hb hlast
  obtain ⟨s1, logs, e1, e2⟩ := C22_blocks hsh hp hs hem hwf hlen f hb hlast
    (fun p hp => by have := hbb p hp; exact hsh _ _ hok (by omega) (by omega)) hoff
  obtain ⟨l', heap', head', log, e3, _⟩ := seq_mix (log0 := []) hwf hlen hch hlt.le hlast32 hsh hok hoff f
  refine ⟨s1, logs, _, e1, e3, ?_, e2⟩
  rw [e2]
  congr 1
  rw [applyRange_congr]
  intro c i x hi _
  exact (mixParts_start l F start c i x hi).symm

section Wave
variable [Add S] [Mul S]

theorem wave_seamless {ok : Nat → Prop} {c : WaveConfig S} {dur nch : Nat} (hc : c.Ok dur nch) (z : S) {p : Nat}
    (hp : p ≤ dur) {e : Event (WaveConfig S)} (he : e.data = c) :
    Seamless ok waveCb nch dur (c.mix z p) e p := by
  refine ⟨fun e a => p ≤ a ∧ a ≤ dur ∧ e.data = c.advance p a, ⟨Nat.le_refl p, hp, ?_⟩, ?_⟩
  · rw [he, WaveConfig.advance_self]
  · rintro e a ⟨hpa, had, he⟩
    refine ⟨fun _ _ => rfl, ?_⟩
    intro b off n f hab hb _ hoff
    refine ⟨{ e with data := c.advance p b }, ?_, rfl, rfl, rfl, by omega, hb, rfl⟩
    have hok := hc.advance p a
    simp only [waveCb]
    rw [he, waveGenerate_eq hok z hab hb hoff, ok_bind', WaveConfig.advance_advance _ hpa hab]
    simp only [pure_eq_ok]
    rw [applyRange_congr (H := c.mix z p)]
    intro ch i x hi _
    exact c.mix_advance z hpa hi ch x

/-- **C22, wave events are such leaf events**: a wave event whose configuration is playable after
`sp_wave_event_prepare` is seamless. -/
theorem C22_wave_events {ok : Nat → Prop} {e : Event (WaveConfig S)} {c : WaveConfig S} {nch : Nat} (z : S)
    (hprep : if e.prep then wavePrepare e.data = .ok c else e.data = c)
    (hc : c.Ok (e.stop - e.start) nch) : Plays ok waveCb nch e (fun p => c.mix z p) := by
  intro p hp
  refine ⟨fun _ _ => rfl, ?_⟩
  by_cases hpr : e.prep
  · rw [if_pos hpr] at hprep ⊢
    refine ⟨{ e with data := c }, ?_, rfl, rfl, wave_seamless hc z hp rfl⟩
    intro w
    simp only [waveCb, hprep, ok_bind']
    rfl
  · rw [if_neg hpr] at hprep ⊢
    exact wave_seamless hc z hp hprep

end Wave

/-- Non-vacuity: a list with a wave event and an unprepared group that contains a wave event. -/
def exampleWaveEvent (start stop : Nat) : Event (Tree (WaveConfig Int)) :=
  ⟨start, stop, true, false, .leaf exampleWave⟩

/-- The group: one wave event at time 1. -/
def exampleGroup : Event (Tree (WaveConfig Int)) where
  start := 2
  stop := 6
  prep := true
  hasFree := false
  data := .group (fun b => if b = 5 then some ⟨none, none, exampleWaveEvent 1 4⟩ else none) (some 5)

/-- The list: wave event at 0, group at 2. -/
def exampleTreeHeap : Heap (Event (Tree (WaveConfig Int))) := fun b =>
  if b = 1 then some ⟨none, some 2, exampleWaveEvent 0 4⟩
  else if b = 2 then some ⟨some 1, none, exampleGroup⟩ else none

/-- `exampleWave` after `sp_wave_event_prepare`. -/
def exampleWave2 : WaveConfig Int :=
  { exampleWave with
    channelConfig := [⟨some [1, 2, 3, 4], 2, 0, some [1, 0, 2, 1], 1, 2, some [1, 2, 0, 1], true⟩,
      ⟨some [1, 1, 1, 1], 1, 1, some [1, 0, 2, 1], 2, 0, some [1, 2, 0, 1], true⟩] }

theorem exampleWave_plays (start stop : Nat) (h : stop - start ≤ 4) :
    Plays (fun _ => True) waveCb 2 ((exampleWaveEvent start stop).withData exampleWave) (fun p => exampleWave2.mix 0 p) := by
  refine C22_wave_events (c := exampleWave2) 0 ?_ ⟨rfl, rfl, ?_⟩
  · rw [if_pos (by rfl)]; rfl
  · intro cc hcc
    simp only [exampleWave2, List.mem_cons, List.not_mem_nil, or_false] at hcc
    rcases hcc with rfl | rfl
    · exact ⟨⟨_, rfl, h⟩, fun x hx => by cases hx; exact h, fun x hx => by cases hx; exact h, by simp [exampleWave, exampleWave2], by simp⟩
    · exact ⟨⟨_, rfl, h⟩, fun x hx => by cases hx; exact h, fun x hx => by cases hx; exact h, by simp [exampleWave, exampleWave2], by simp⟩

theorem exampleGroup_playable : Playable (fun _ => True) waveCb 9 2 1 exampleGroup
    (mixEvents [(5, exampleWaveEvent 1 4)] (fun _ p => exampleWave2.mix 0 p)) := by
  refine .group (heap := fun b => if b = 5 then some ⟨none, none, exampleWaveEvent 1 4⟩ else none)
    (head := some 5) rfl ⟨⟨rfl, none, rfl, rfl⟩, by simp⟩ (by simp)
    ⟨by simp, by simp [exampleWaveEvent], by simp [exampleWaveEvent]⟩ (by simp [exampleGroup]) (.inl trivial) ?_
  intro x hx
  simp only [List.mem_singleton] at hx
  subst hx
  exact .leaf rfl (exampleWave_plays 1 4 (by omega))

example : ∃ s1 logs s2,
    seqBlocks (treeCb waveCb 9 2) 9 (fun t => 0 + (t - 0)) 0 [1, 3, 6]
      ⟨exampleTreeHeap, some 1, blk 2 6 (fun _ _ => (0 : Int)), []⟩ = .ok (0, s1, logs) ∧
    seq (treeCb waveCb 9 2) 9 0 6 0 ⟨exampleTreeHeap, some 1, blk 2 6 (fun _ _ => (0 : Int)), []⟩
      = .ok (0, s2) ∧ s1.world = s2.world := by
  obtain ⟨s1, logs, s2, h1, h2, h3, _⟩ := C22_block_division (ok := fun _ => True) (leaf := waveCb) (fuel := 9) (nch := 2)
    (d := 1) (n := 6) (l := [(1, exampleWaveEvent 0 4), (2, exampleGroup)])
    (F := fun a => if a = 1 then fun p => exampleWave2.mix 0 p else
      mixEvents [(5, exampleWaveEvent 1 4)] (fun _ p => exampleWave2.mix 0 p))
    (fun _ _ _ _ _ => trivial) (by
      intro x hx
      simp only [List.mem_cons, List.not_mem_nil, or_false] at hx
      rcases hx with rfl | rfl
      · exact .leaf rfl (exampleWave_plays 0 4 (by omega))
      · exact exampleGroup_playable)
    ⟨by simp [exampleWaveEvent, exampleGroup], by simp [exampleWaveEvent, exampleGroup],
      by simp [exampleWaveEvent, exampleGroup]⟩ (.inl trivial)
    (heap := exampleTreeHeap) (head := some 1)
    ⟨⟨rfl, some 2, by simp [exampleTreeHeap], rfl, none, by simp [exampleTreeHeap], rfl⟩, by simp⟩
    (by simp) (fun _ _ => 0) (start := 0) (off := 0) (stops := [1, 3, 6]) (last := 6)
    (by simp [Blocks]) rfl trivial (by simp)
  exact ⟨s1, logs, s2, h1, h2, h3⟩

/-! ### C23 -/

/-- Sample `k` of channel `c`, if it exists. -/
def cell (w : Buf (Buf S)) (c k : Nat) : Option S := w[c]?.bind (·[k]?)

/-- Event functions that write only where they should: prepare and free do not write samples, and
generate for the range `x` to `y` with the output pointer at `off` writes only `off` to
`off + (y - x)`. -/
structure WritesOnlyRange (cb : Callbacks D (Buf (Buf S))) : Prop where
  prepare : ∀ e w st e' w', cb.prepare e w = .ok (st, e', w') → ∀ c k, cell w' c k = cell w c k
  free : ∀ e w w', cb.free e w = .ok w' → ∀ c k, cell w' c k = cell w c k
  generate : ∀ x y off e w st e' w', x ≤ y → cb.generate x y off e w = .ok (st, e', w') →
    ∀ c k, k < off ∨ off + (y - x) ≤ k → cell w' c k = cell w c k

theorem freeList_cell {cb : Callbacks D (Buf (Buf S))} (hw : WritesOnlyRange cb)
    {l : List (Addr × Event D)} {w w' : Buf (Buf S)} {log : List Call}
    (h : freeList cb l w = .ok (w', log)) (c k : Nat) : cell w' c k = cell w c k := by
  induction l generalizing w w' log with
  | nil => simp [freeList] at h; rw [h.1]
  | cons y rest ih =>
    obtain ⟨a, e⟩ := y
    unfold freeList at h
    rw [bind_eq_ok] at h
    obtain ⟨⟨w1, log1⟩, h1, h⟩ := h
    simp only at h
    rw [bind_eq_ok] at h
    obtain ⟨⟨w2, log2⟩, h2, h⟩ := h
    simp only [pure_eq_ok, Except.ok.injEq, Prod.mk.injEq] at h
    obtain ⟨rfl, _⟩ := h
    rw [ih h2]
    unfold eventFree at h1
    split at h1
    · rw [bind_eq_ok] at h1
      obtain ⟨w3, h3, h1⟩ := h1
      simp at h1
      rw [← h1.1]
      exact hw.free _ _ _ h3 c k
    · simp at h1; rw [h1.1]

theorem seqList_cell {cb : Callbacks D (Buf (Buf S))} (hk : KeepsTimes cb) (hw : WritesOnlyRange cb)
    {start stop base : Nat} (hle : start ≤ stop) (hstop : stop < 4294967296)
    {l l' : List (Addr × Event D)} (ho : ∀ x ∈ l, x.2.start ≤ x.2.stop)
    (hsm : ∀ x ∈ l, x.2.stop < 4294967296)
    {w w' : Buf (Buf S)} {st : Nat} {log : List Call}
    (h : seqList cb start stop base l w = .ok (st, l', w', log)) (c k : Nat)
    (hout : k < base ∨ base + (stop - start) ≤ k) : cell w' c k = cell w c k := by
  induction l generalizing w l' w' st log with
  | nil => simp [seqList] at h; rw [h.2.2.1]
  | cons y rest ih =>
    obtain ⟨a, e⟩ := y
    have h1 := ho (a, e) (by simp)
    have h2 := hsm (a, e) (by simp)
    simp only at h1 h2
    unfold seqList at h
    split at h
    · next hst =>
      rw [bind_eq_ok] at h
      obtain ⟨⟨w1, log1⟩, h3, h⟩ := h
      simp only at h
      rw [bind_eq_ok] at h
      obtain ⟨⟨st2, l2, w2, log2⟩, h4, h⟩ := h
      simp only [pure_eq_ok, Except.ok.injEq, Prod.mk.injEq] at h
      obtain ⟨_, rfl, rfl, _⟩ := h
      rw [ih (fun x hx => ho x (by simp [hx])) (fun x hx => hsm x (by simp [hx])) h4]
      unfold eventFree at h3
      split at h3
      · rw [bind_eq_ok] at h3
        obtain ⟨w3, h5, h3⟩ := h3
        simp at h3
        rw [← h3.1]
        exact hw.free _ _ _ h5 c k
      · simp at h3; rw [h3.1]
    · next hst =>
      split at h
      · simp at h; rw [h.2.2.1]
      · next hbr =>
        rw [bind_eq_ok] at h
        obtain ⟨⟨st1, e1, w1, log1⟩, h3, h⟩ := h
        simp only at h
        have hev : cell w1 c k = cell w c k := by
          unfold seqEvent at h3
          rw [bind_eq_ok] at h3
          obtain ⟨⟨st4, e4, w4, log4⟩, hp, h3⟩ := h3
          simp only at h3
          have hp' : cell w4 c k = cell w c k ∧ e4.start = e.start ∧ e4.stop = e.stop := by
            rcases prepareOptional_cases hp with ⟨_, _, rfl, rfl, _⟩ | ⟨_, _, rfl, _, e2, hc⟩ |
              ⟨_, _, _, e2, hc, rfl⟩
            · simp
            · exact ⟨hw.prepare _ _ _ _ _ hc c k, rfl, rfl⟩
            · have := hk.prepare _ _ _ _ _ hc
              exact ⟨hw.prepare _ _ _ _ _ hc c k, this.1, this.2⟩
          obtain ⟨p1, p2, p3⟩ := hp'
          split at h3
          · simp at h3; rw [← h3.2.2.1]; exact p1
          · rw [bind_eq_ok] at h3
            obtain ⟨⟨st5, e5, w5⟩, hg, h3⟩ := h3
            simp at h3
            rw [← h3.2.2.1, ← p1]
            have hx : relStart start e4.start = start - e.start := by
              unfold relStart
              rw [p2]
              split
              · rw [sub32_of_le (by omega) (by omega)]
              · omega
            have hy : relEnd stop e4.start e4.stop = min stop e.stop - e.start := by
              unfold relEnd
              rw [p2, p3, sub32_of_le (by omega) (by omega)]
            have hoo : relOffset base start e4.start = base + (e.start - start) := by
              unfold relOffset
              rw [p2]
              split
              · rw [sub32_of_le (by omega) (by omega)]
              · omega
            rw [hx, hy, hoo] at hg
            exact hw.generate _ _ _ _ _ _ _ _ (by omega) hg c k (by omega)
        split at h
        · simp at h; rw [← h.2.2.1]; exact hev
        · rw [bind_eq_ok] at h
          obtain ⟨⟨st2, l2, w2, log2⟩, h4, h⟩ := h
          simp only [pure_eq_ok, Except.ok.injEq, Prod.mk.injEq] at h
          obtain ⟨_, rfl, rfl, _⟩ := h
          rw [ih (fun x hx => ho x (by simp [hx])) (fun x hx => hsm x (by simp [hx])) h4, hev]

/-- **C23.** If the event functions write only their range, then `sp_seq` changes only the samples 0
to `stop - start` of the block it is given (at `base` in the sample arrays), whether it succeeds or
fails. -/
theorem C23_writes_only_block {cb : Callbacks D (Buf (Buf S))} (hk : KeepsTimes cb)
    (hw : WritesOnlyRange cb) {start stop base fuel : Nat} (hle : start ≤ stop) (hstop : stop < 4294967296)
    {l : List (Addr × Event D)} (ho : ∀ x ∈ l, x.2.start ≤ x.2.stop)
    (hsm : ∀ x ∈ l, x.2.stop < 4294967296) (hf : l.length < fuel)
    {s s' : SeqState D (Buf (Buf S))} (hl : WellFormed s.heap s.head l) {st : Nat}
    (h : seq cb fuel start stop base s = .ok (st, s')) (c k : Nat)
    (hout : k < base ∨ base + (stop - start) ≤ k) : cell s'.world c k = cell s.world c k := by
  have hr := seq_refines cb start stop base l s fuel hf hl
  rw [h] at hr
  cases hsl : seqListTop cb start stop base l s.world with
  | error f => rw [hsl] at hr; simp [Refines] at hr
  | ok r =>
    obtain ⟨st', l', w, log⟩ := r
    rw [hsl] at hr
    obtain ⟨heap, head, e1, _⟩ := hr
    simp only [Except.ok.injEq, Prod.mk.injEq] at e1
    obtain ⟨rfl, rfl⟩ := e1
    unfold seqListTop at hsl
    rw [bind_eq_ok] at hsl
    obtain ⟨⟨st1, l1, w1, log1⟩, h1, h2⟩ := hsl
    simp only at h2
    have hc := seqList_cell hk hw hle hstop ho hsm h1 c k hout
    split at h2
    · rw [bind_eq_ok] at h2
      obtain ⟨⟨w2, log2⟩, h3, h2⟩ := h2
      simp only [pure_eq_ok, Except.ok.injEq, Prod.mk.injEq] at h2
      obtain ⟨_, _, rfl, _⟩ := h2
      exact (freeList_cell hw h3 c k).trans hc
    · simp only [pure_eq_ok, Except.ok.injEq, Prod.mk.injEq] at h2
      obtain ⟨_, _, rfl, _⟩ := h2
      exact hc

/-- Non-vacuity: event functions that fill their range with 7. -/
def fillCb : Callbacks Unit (Buf (Buf Nat)) where
  prepare e w := .ok (0, e, w)
  generate x y off e w := .ok (0, e, w.map fun ch => ch.mapIdx fun k v =>
    if off ≤ k ∧ k < off + (y - x) then 7 else v)
  free _ w := .ok w

theorem fillCb_writesOnlyRange : WritesOnlyRange fillCb := by
  constructor
  · intro e w st e' w' h c k
    simp [fillCb] at h
    rw [h.2.2]
  · intro e w w' h c k
    simp [fillCb] at h
    rw [h]
  · intro x y off e w st e' w' _ h c k hk
    simp [fillCb] at h
    obtain ⟨_, _, rfl⟩ := h
    unfold cell
    rw [List.getElem?_map]
    cases w[c]? with
    | none => rfl
    | some ch =>
      simp only [Option.map_some, Option.bind_some, List.getElem?_mapIdx]
      cases ch[k]? with
      | none => rfl
      | some v => simp only [Option.map_some]; rw [if_neg (by omega)]

theorem fillCb_keepsTimes : KeepsTimes fillCb := by
  constructor
  · intro e w st e' w' h
    simp [fillCb] at h
    obtain ⟨_, rfl, _⟩ := h
    exact ⟨rfl, rfl⟩
  · intro x y off e w st e' w' h
    simp [fillCb] at h
    obtain ⟨_, rfl, _⟩ := h
    exact ⟨rfl, rfl, fun h => h⟩

/-- Two events, 3 to 5 and 4 to 20, block 2 to 6 at offset 1: samples 2 to 5 are written, samples 0
and 5 are kept. -/
example : ∃ s', seq fillCb 3 2 6 1 ⟨fun b => if b = 1 then some ⟨none, some 2, ⟨3, 5, false, false, ()⟩⟩
      else if b = 2 then some ⟨some 1, none, ⟨4, 20, false, false, ()⟩⟩ else none, some 1,
      [[1, 1, 1, 1, 1, 1]], []⟩ = .ok (0, s') ∧ s'.world = [[1, 1, 7, 7, 7, 1]] ∧
    cell s'.world 0 5 = some 1 := by
  have h : ∃ s', seq fillCb 3 2 6 1 ⟨fun b => if b = 1 then some ⟨none, some 2, ⟨3, 5, false, false, ()⟩⟩
      else if b = 2 then some ⟨some 1, none, ⟨4, 20, false, false, ()⟩⟩ else none, some 1,
      [[1, 1, 1, 1, 1, 1]], []⟩ = .ok (0, s') ∧ s'.world = [[1, 1, 7, 7, 7, 1]] := ⟨_, rfl, rfl⟩
  obtain ⟨s', h, h2⟩ := h
  refine ⟨s', h, h2, ?_⟩
  rw [C23_writes_only_block fillCb_keepsTimes fillCb_writesOnlyRange (by decide) (by decide)
    (l := [(1, ⟨3, 5, false, false, ()⟩), (2, ⟨4, 20, false, false, ()⟩)]) (by simp) (by simp) (by simp)
    ⟨⟨rfl, some 2, by simp, rfl, none, by simp, rfl⟩, by simp⟩ h 0 5 (by simp)]
  rfl

end Sp
