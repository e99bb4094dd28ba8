import Verif.Lemmas.NoiseSeed

/-!
# C102: noise events that take their seeds from the random state of the library
-/

set_option linter.unusedSectionVars false

namespace Sp

section
variable {S ρ F G : Type} [Zero S] [Add S] [Mul S] [One S] [Neg S] [Max S] [Min S] [DecidableEq F]

theorem seedCb_eq (draw : G → ρ × G) (env : NoiseEnv S ρ F) :
    seedCb draw env = withSeed draw (fun r s => { s with random := r }) (noiseRunCb env) := by
  unfold seedCb withSeed noiseRunCb
  congr 1
  · funext e w
    simp only
    cases noiseRunPrepare env e.start e.stop { e.data with random := (draw w.1).1 } <;> rfl
  · funext x y off e w
    simp only
    cases noiseRunGenerate env x y off e.data w.2 <;> rfl

theorem noiseRunCb_keepsTimes (env : NoiseEnv S ρ F) : KeepsTimes (noiseRunCb env) := by
  refine ⟨fun e w st e' w' h => ?_, fun x y off e w st e' w' h => ?_⟩
  · simp only [noiseRunCb, bind_eq_ok] at h
    obtain ⟨a, _, h⟩ := h
    simp only [pure_eq_ok, Except.ok.injEq, Prod.mk.injEq] at h
    obtain ⟨_, rfl, _⟩ := h
    exact ⟨rfl, rfl⟩
  · simp only [noiseRunCb, bind_eq_ok] at h
    obtain ⟨a, _, h⟩ := h
    simp only [pure_eq_ok, Except.ok.injEq, Prod.mk.injEq] at h
    obtain ⟨_, rfl, _⟩ := h
    exact ⟨rfl, rfl, id⟩

theorem mixEvents_seedList {D : Type} (draw : G → ρ × G) (seed : ρ → D → D) (g : G) (l : List (Addr × Event D))
    (H : Addr → Nat → Sound S) (p : Nat) : mixEvents (seedList draw seed g l) H p = mixEvents l H p := by
  funext c t x
  induction l generalizing g x with
  | nil => rfl
  | cons y l ih =>
    obtain ⟨a, e⟩ := y
    exact ih (draw g).2 _

/-- **C102, noise events in one list**: the noise event number `i` of the list gets its random numbers from the number `i`
of the random state of the library, and the list plays the same samples for every division of the time range into blocks
that are not longer than four seconds, though events are prepared in the block in which they begin. All events end after
the begin of the time range. `order` gives the number of each event in the list. -/
theorem C102_seeds_partial (draw : G → ρ × G) (g : G) {env : NoiseEnv S ρ F} {fuel nch n : Nat}
    {l : List (Addr × Event (NoiseRun S ρ F))} {cs : Addr → List (NoiseChannel S)} {len : Addr → Nat → Nat}
    {ir : Addr → Nat → List S} {start off : Nat}
    (hev : ∀ x ∈ l, NoiseEventOk env x.2.data.config (cs x.1) (len x.1) (ir x.1) nch (x.2.stop - x.2.start))
    (hnew : ∀ x ∈ l, x.2.prep = true ∧ x.2.data.filters = List.replicate x.2.data.config.channelConfig.length none)
    (htime : ∀ x ∈ l, start < x.2.stop ∧ x.2.start < x.2.stop) (hs : SortedEvents l)
    {order : Addr → Nat} {config : Addr → NoiseConfig S}
    (horder : ∀ i x, l[i]? = some x → order x.1 = i ∧ config x.1 = x.2.data.config)
    {heap : Heap (Event (NoiseRun S ρ F))} {head : Option Addr} (hwf : WellFormed heap head l)
    (hlen : l.length < fuel) (f : Nat → Nat → S) {stops : List Nat} {last : Nat}
    (hb : Blocks start stops) (hlast : stops.getLast? = some last)
    (hsize : ∀ p ∈ blockBounds start stops, p.2 - p.1 ≤ 4 * env.rate)
    (hoff : off + (last - start) ≤ n) :
    ∃ s logs,
      seqBlocks (seedCb draw env) fuel (fun t => off + (t - start)) start stops
        ⟨heap, head, (g, blk nch n f), []⟩ = .ok (0, s, logs) ∧
      s.world.2 = blk nch n (applyRange (mixEvents l (fun a => noiseEventSound env (randomAt draw g (order a)) (config a)
        (cs a) (len a) (ir a)) start) start off (last - start) f) := by
  have hmem : ∀ x ∈ seedList draw (fun r (s : NoiseRun S ρ F) => { s with random := r }) g l, ∃ y ∈ l,
      x = (y.1, { y.2 with data := { y.2.data with random := randomAt draw g (order y.1) } }) ∧ config y.1 = y.2.data.config := by
    intro x hx
    obtain ⟨i, hi⟩ := List.mem_iff_getElem?.1 hx
    rw [seedList_getElem?] at hi
    obtain ⟨y, hy, rfl⟩ := Option.map_eq_some_iff.1 hi
    obtain ⟨h1, h2⟩ := horder i y hy
    exact ⟨y, List.mem_of_getElem? hy, by rw [h1], h2⟩
  have hsd := seedList_seeded draw (fun r (s : NoiseRun S ρ F) => { s with random := r }) start g hs
    fun x hx => ⟨(hnew x hx).1, htime x hx⟩
  have hs' : SortedEvents (seedList draw (fun r (s : NoiseRun S ρ F) => { s with random := r }) g l) := by
    obtain ⟨h1, h2, h3⟩ := hs
    refine ⟨?_, fun x hx => ?_, fun x hx => ?_⟩
    · rw [List.pairwise_iff_getElem] at h1 ⊢
      intro i j hi hj hij
      have a1 := List.getElem?_eq_getElem hi
      have a2 := List.getElem?_eq_getElem hj
      rw [seedList_getElem?] at a1 a2
      obtain ⟨y1, b1, c1⟩ := Option.map_eq_some_iff.1 a1
      obtain ⟨y2, b2, c2⟩ := Option.map_eq_some_iff.1 a2
      obtain ⟨d1, e1⟩ := List.getElem?_eq_some_iff.1 b1
      obtain ⟨d2, e2⟩ := List.getElem?_eq_some_iff.1 b2
      have := h1 i j d1 d2 hij
      rw [← c1, ← c2]
      rw [e1, e2] at this
      exact this
    · obtain ⟨y, hy, rfl, _⟩ := hmem x hx
      exact h2 y hy
    · obtain ⟨y, hy, rfl, _⟩ := hmem x hx
      exact h3 y hy
  have hch := chain_start (ok := NoiseLength env.rate) (cb := noiseRunCb env) (nch := nch) (p := start)
    (F := fun a => noiseEventSound env (randomAt draw g (order a)) (config a) (cs a) (len a) (ir a)) hs'
    (Or.inr fun x hx => by obtain ⟨y, hy, rfl, _⟩ := hmem x hx; exact (htime y hy).2) (by
      intro x hx
      obtain ⟨y, hy, rfl, hc⟩ := hmem x hx
      simp only [hc]
      exact C102_noise_events_partial (env := env)
        (e := { y.2 with data := { y.2.data with random := randomAt draw g (order y.1) } }) (hev y hy) (hnew y hy).1
        (Nat.le_of_lt (htime y hy).2) (hs.small y hy) (hnew y hy).2)
  have hl' : (start :: stops).getLast? = some last := by
    cases stops with
    | nil => simp at hlast
    | cons u r => rw [← hlast]; simp [List.getLast?_cons_cons]
  obtain ⟨_, s1, logs, e1, e2⟩ := seqBlocks_seeded (noiseRunCb_keepsTimes env) draw _ (t0 := start) (base := off)
    (log0 := []) stops hb (noiseLength_shorter env.rate) (fun p hp => ⟨by have := (blocks_last hb hlast).2.2 p hp; omega, hsize p hp⟩)
    last hl' hoff (Nat.le_refl _) hwf hlen hsd hch f
  refine ⟨s1, logs, by rw [seedCb_eq]; exact e1, ?_⟩
  rw [e2, Nat.sub_self, Nat.add_zero]
  rw [applyRange_congr]
  intro c i x hi _
  exact (mixParts_start (seedList draw _ g l) (fun a => noiseEventSound env (randomAt draw g (order a)) (config a) (cs a)
    (len a) (ir a)) start c i x hi).trans (by rw [mixEvents_seedList])

end

/-- `exampleEnv` with more samples per second. -/
def exampleEnv5 : NoiseEnv Int Nat Unit := { exampleEnv with rate := 5 }

/-- Two noise events that overlap. -/
def seedFlatList : List (Addr × Event (NoiseRun Int Nat Unit)) :=
  [(1, exampleNoiseEvent 0 2 6), (2, exampleNoiseEvent 0 4 9)]

/-- The same in memory. -/
def seedFlatHeap : Heap (Event (NoiseRun Int Nat Unit)) := fun b =>
  if b = 1 then some ⟨none, some 2, exampleNoiseEvent 0 2 6⟩
  else if b = 2 then some ⟨some 1, none, exampleNoiseEvent 0 4 9⟩ else none

/-- Non-vacuity of C102_seeds_partial: the two events, with two divisions into blocks. -/
example : ∃ s1 logs1 s2 logs2,
    seqBlocks (seedCb (fun g : Nat => (g, g + 7)) exampleEnv) 9 (fun t => 0 + (t - 1)) 1 [3, 5, 9]
      ⟨seedFlatHeap, some 1, (0, blk 2 8 (fun _ _ => (0 : Int))), []⟩ = .ok (0, s1, logs1) ∧
    seqBlocks (seedCb (fun g : Nat => (g, g + 7)) exampleEnv) 9 (fun t => 0 + (t - 1)) 1 [5, 6, 9]
      ⟨seedFlatHeap, some 1, (0, blk 2 8 (fun _ _ => (0 : Int))), []⟩ = .ok (0, s2, logs2) ∧
    s1.world.2 = s2.world.2 ∧ s1.world.2 ≠ blk 2 8 (fun _ _ => 0) := by
  have key : ∀ stops, Blocks 1 stops → stops.getLast? = some 9 → (∀ p ∈ blockBounds 1 stops, p.2 - p.1 ≤ 4 * exampleEnv.rate) → _ :=
    fun stops hb hl hz => C102_seeds_partial (fun g : Nat => (g, g + 7)) 0 (env := exampleEnv) (fuel := 9) (nch := 2) (n := 8)
      (l := seedFlatList) (cs := fun _ => exampleChannels2) (len := fun _ _ => 2) (ir := fun _ => exampleIr) (start := 1) (off := 0)
      (order := fun a => if a = 1 then 0 else 1) (config := fun _ => exampleNoiseConfig) (heap := seedFlatHeap) (head := some 1)
      (by
        intro x hx
        simp only [seedFlatList, List.mem_cons, List.not_mem_nil, or_false] at hx
        rcases hx with rfl | rfl <;> exact exampleNoiseRun_ok (by decide))
      (by
        intro x hx
        simp only [seedFlatList, List.mem_cons, List.not_mem_nil, or_false] at hx
        rcases hx with rfl | rfl <;> exact ⟨rfl, rfl⟩)
      (by
        intro x hx
        simp only [seedFlatList, List.mem_cons, List.not_mem_nil, or_false] at hx
        rcases hx with rfl | rfl <;> decide)
      ⟨by simp [seedFlatList, exampleNoiseEvent], by simp [seedFlatList, exampleNoiseEvent],
        by simp [seedFlatList, exampleNoiseEvent]⟩
      (by
        intro i x hx
        match i, hx with
        | 0, hx => cases hx; exact ⟨rfl, rfl⟩
        | 1, hx => cases hx; exact ⟨rfl, rfl⟩)
      ⟨⟨rfl, some 2, rfl, rfl, none, rfl, rfl⟩, by simp [seedFlatList]⟩ (by decide) (fun _ _ => 0) hb hl hz (by decide)
  obtain ⟨s1, logs1, a1, a2⟩ := key [3, 5, 9] (by simp [Blocks]) rfl (by decide)
  obtain ⟨s2, logs2, b1, b2⟩ := key [5, 6, 9] (by simp [Blocks]) rfl (by decide)
  refine ⟨s1, logs1, s2, logs2, a1, b1, a2.trans b2.symm, ?_⟩
  have : ∃ s logs, seqBlocks (seedCb (fun g : Nat => (g, g + 7)) exampleEnv) 9 (fun t => 0 + (t - 1)) 1 [3, 5, 9]
      ⟨seedFlatHeap, some 1, (0, blk 2 8 (fun _ _ => (0 : Int))), []⟩ = .ok (0, s, logs) ∧
      s.world.2 ≠ blk 2 8 (fun _ _ => 0) := by
    refine ⟨_, _, rfl, ?_⟩
    decide +kernel
  obtain ⟨s, logs, c1, c2⟩ := this
  rw [a1] at c1
  obtain ⟨_, rfl, _⟩ := by simpa only [Except.ok.injEq, Prod.mk.injEq] using c1
  exact c2

/-- A noise event in a group: the group is from 0 to 20, the event from 10 to 15. -/
def seedGroup : Event (Tree (NoiseRun Int Nat Unit)) where
  start := 0
  stop := 20
  prep := true
  hasFree := false
  data := .group (fun b => if b = 5 then some ⟨none, none, (exampleNoiseEvent 0 10 15).withData (.leaf (exampleNoiseRun 0))⟩
    else none) (some 5)

/-- The group, and then a noise event from 5 to 10. -/
def seedHeap : Heap (Event (Tree (NoiseRun Int Nat Unit))) := fun b =>
  if b = 1 then some ⟨none, some 2, seedGroup⟩
  else if b = 2 then some ⟨some 1, none, (exampleNoiseEvent 0 5 10).withData (.leaf (exampleNoiseRun 0))⟩ else none

/-- **C102 does not hold for noise events in groups**: noise events take their seed from the
random state of the library when they are prepared. In one block, the event in the group is prepared before the event
that begins earlier but is behind the group in the list, in two blocks after it. The events then get other seeds, and
the samples are different. -/
theorem C102_group_seeds_false : ∃ s1 logs1 s2 logs2,
    seqBlocks (treeCb (seedCb (fun g : Nat => (g, g + 1)) exampleEnv5) 9 2) 9 id 0 [20]
      ⟨seedHeap, some 1, (0, blk 2 20 (fun _ _ => (0 : Int))), []⟩ = .ok (0, s1, logs1) ∧
    seqBlocks (treeCb (seedCb (fun g : Nat => (g, g + 1)) exampleEnv5) 9 2) 9 id 0 [10, 20]
      ⟨seedHeap, some 1, (0, blk 2 20 (fun _ _ => (0 : Int))), []⟩ = .ok (0, s2, logs2) ∧
    s1.world.2 ≠ s2.world.2 := by
  refine ⟨_, _, _, _, rfl, rfl, ?_⟩
  decide +kernel

/-- A channel with modulated frequency. -/
def modulatedRun : NoiseRun Int Nat Unit :=
  ⟨⟨false, 4, [none, none, none], 0, 1,
    [⟨1, some [1, 1, 1, 1], 0, none, 0, some [0, 1, 1, 1], 500, none, 80, 80, true⟩]⟩, 3, [none], []⟩

/-- **C102 does not hold for noise events with modulated filter parameters**: the parameters are taken anew at least for
each call of generate, so that where blocks begin is heard. -/
theorem C102_modulation_false : ∃ s1 logs1 s2 logs2,
    seqBlocks (noiseRunCb exampleEnv) 9 id 0 [4]
      ⟨fun b => if b = 1 then some ⟨none, none, ⟨0, 4, true, false, modulatedRun⟩⟩ else none, some 1,
        blk 1 4 (fun _ _ => (0 : Int)), []⟩ = .ok (0, s1, logs1) ∧
    seqBlocks (noiseRunCb exampleEnv) 9 id 0 [1, 4]
      ⟨fun b => if b = 1 then some ⟨none, none, ⟨0, 4, true, false, modulatedRun⟩⟩ else none, some 1,
        blk 1 4 (fun _ _ => (0 : Int)), []⟩ = .ok (0, s2, logs2) ∧
    s1.world ≠ s2.world := by
  refine ⟨_, _, _, _, rfl, rfl, ?_⟩
  decide +kernel

end Sp
