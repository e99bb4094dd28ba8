import Verif.Model.MapEvent
import Verif.Props.EventTree

/-!
# C108: map events
-/

set_option linter.unusedSectionVars false

namespace Sp
variable {D K L S : Type}

/-- The map function, with state `k` at event time `a`, is seamless: given, range after range, the signal `X` (channel, time) as input, it
changes each sample of the output range by the sound `H`, and nothing else, however the time is divided into ranges. `H` can depend on
all of `X`; it does for filters. -/
def MapsStream (ok : Nat → Prop) (map : Nat → Nat → Buf (Buf S) → Nat → K → Buf (Buf S) → C (Nat × K × Buf (Buf S))) (nch dur : Nat)
    (X : Nat → Nat → S) (H : Sound S) (k : K) (a : Nat) : Prop :=
  ∃ R : K → Nat → Prop, R k a ∧ ∀ k a, R k a → ∀ b off n g f, a ≤ b → b ≤ dur → ok (b - a) → off + (b - a) ≤ n →
    (∀ c i, c < nch → i < b - a → g c i = X c (a + i)) →
    ∃ k', map a b (blk nch n g) off k (blk nch n f) = .ok (0, k', blk nch n (applyRange H a off (b - a) f)) ∧ R k' b

/-- The map function changes the block in place, each sample by the sound `H`. -/
def MapsInPlace (ok : Nat → Prop) (map : Nat → Nat → Nat → K → Buf (Buf S) → C (Nat × K × Buf (Buf S))) (nch dur : Nat)
    (H : Sound S) (k : K) (a : Nat) : Prop :=
  ∃ R : K → Nat → Prop, R k a ∧ ∀ k a, R k a → ∀ b off n f, a ≤ b → b ≤ dur → ok (b - a) → off + (b - a) ≤ n →
    ∃ k', map a b off k (blk nch n f) = .ok (0, k', blk nch n (applyRange H a off (b - a) f)) ∧ R k' b

theorem mapFree_ok {cb : Callbacks D (Buf (Buf S))} {e : Event (MapConfig D K)}
    (h : e.data.event.hasFree = true → ∀ w, cb.free e.data.event w = .ok w) (w : Buf (Buf S)) : mapFree cb e w = .ok w := by
  unfold mapFree
  split
  · exact h ‹_› w
  · rfl

theorem Seamless.shorter {ok : Nat → Prop} {cb : Callbacks D (Buf (Buf S))} {nch dur dur' : Nat} {G : Sound S} {e : Event D} {a : Nat}
    (h : Seamless ok cb nch dur G e a) (hd : dur' ≤ dur) : Seamless ok cb nch dur' G e a := by
  obtain ⟨R, hr, hR⟩ := h
  exact ⟨R, hr, fun e a hr => ⟨(hR e a hr).1, fun b off n f h1 h2 => (hR e a hr).2 b off n f h1 (by omega)⟩⟩

theorem blk_zero [Zero S] (nch n : Nat) (f : Nat → Nat → S) :
    zeroBlock (blk nch n f) = blk nch n (fun _ _ => 0) := by
  unfold zeroBlock blk
  apply List.ext_getElem?
  intro i
  simp only [List.getElem?_map, tab_getElem?]
  split
  · simp only [Option.map_some, tab_length]
    rw [tab_replicate]
  · rfl

theorem mapIsolated_seamless [Zero S] {ok : Nat → Prop} {cb : Callbacks D (Buf (Buf S))}
    {map : Nat → Nat → Buf (Buf S) → Nat → K → Buf (Buf S) → C (Nat × K × Buf (Buf S))} {nch dur : Nat} {G H : Sound S}
    {e : Event (MapConfig D K)} {a : Nat} (h : Seamless ok cb nch dur G e.data.event a)
    (hm : MapsStream ok map nch dur (fun c t => G c t 0) H e.data.state a) :
    Seamless ok (mapIsolatedCb cb map) nch dur H e a := by
  obtain ⟨R, hr, hR⟩ := h
  obtain ⟨Q, hq, hQ⟩ := hm
  refine ⟨fun e a => R e.data.event a ∧ Q e.data.state a, ⟨hr, hq⟩, ?_⟩
  rintro e a ⟨hr, hq⟩
  refine ⟨fun _ w => mapFree_ok (hR _ _ hr).1 w, ?_⟩
  intro b off n f hab hb hok hoff
  obtain ⟨inner, h1, _, _, _, h5⟩ := (hR _ _ hr).2 b 0 n (fun _ _ => 0) hab hb hok (by omega)
  obtain ⟨k', h6, h7⟩ := hQ _ _ hq b off n (applyRange G a 0 (b - a) fun _ _ => 0) f hab hb hok hoff (by
    intro c i _ hi
    unfold applyRange
    rw [if_pos (by omega), Nat.sub_zero])
  refine ⟨{ e with data := ⟨inner, k'⟩ }, ?_, rfl, rfl, rfl, h5, h7⟩
  show (do
    let (st, inner, temp) ← cb.generate a b 0 e.data.event (zeroBlock (blk nch n f))
    if st ≠ 0 then return (st, { e with data := { e.data with event := inner } }, blk nch n f)
    else do
      let (st, k, w) ← map a b temp off e.data.state (blk nch n f)
      return (st, { e with data := ⟨inner, k⟩ }, w)) = _
  rw [blk_zero, h1, ok_bind']
  simp only [ne_eq, not_true_eq_false, if_false, h6, ok_bind']
  rfl

theorem map_seamless {ok : Nat → Prop} {cb : Callbacks D (Buf (Buf S))}
    {map : Nat → Nat → Nat → K → Buf (Buf S) → C (Nat × K × Buf (Buf S))} {nch dur : Nat} {G H : Sound S}
    {e : Event (MapConfig D K)} {a : Nat} (h : Seamless ok cb nch dur G e.data.event a)
    (hm : MapsInPlace ok map nch dur H e.data.state a) :
    Seamless ok (mapCb cb map) nch dur (fun c t x => H c t (G c t x)) e a := by
  obtain ⟨R, hr, hR⟩ := h
  obtain ⟨Q, hq, hQ⟩ := hm
  refine ⟨fun e a => R e.data.event a ∧ Q e.data.state a, ⟨hr, hq⟩, ?_⟩
  rintro e a ⟨hr, hq⟩
  refine ⟨fun _ w => mapFree_ok (hR _ _ hr).1 w, ?_⟩
  intro b off n f hab hb hok hoff
  obtain ⟨inner, h1, _, _, _, h5⟩ := (hR _ _ hr).2 b off n f hab hb hok hoff
  obtain ⟨k', h6, h7⟩ := hQ _ _ hq b off n (applyRange G a off (b - a) f) hab hb hok hoff
  refine ⟨{ e with data := ⟨inner, k'⟩ }, ?_, rfl, rfl, rfl, h5, h7⟩
  show (do
    let (st, inner, w) ← cb.generate a b off e.data.event (blk nch n f)
    if st ≠ 0 then return (st, { e with data := { e.data with event := inner } }, w)
    else do
      let (st, k, w) ← map a b off e.data.state w
      return (st, { e with data := ⟨inner, k⟩ }, w)) = _
  rw [h1, ok_bind']
  simp only [ne_eq, not_true_eq_false, if_false, h6, ok_bind']
  show Except.ok (0, _, blk nch n _) = Except.ok (0, _, blk nch n _)
  have hc : applyRange H a off (b - a) (applyRange G a off (b - a) f) = applyRange (fun c t x => H c t (G c t x)) a off (b - a) f := by
    funext c k
    unfold applyRange
    split <;> rfl
  rw [hc]

/-- Map events play what their prepared wrapped event plays, mapped: the common part of both kinds. -/
theorem mapPrepare_ready {ok : Nat → Prop} {cb : Callbacks D (Buf (Buf S))} {cb' : Callbacks (MapConfig D K) (Buf (Buf S))}
    (hprep : cb'.prepare = mapPrepare cb) (hfree : cb'.free = mapFree cb) {nch dur a : Nat} {G H : Sound S}
    {e : Event (MapConfig D K)} (hp : e.prep = true) (h : Ready ok cb nch dur G e.data.event a)
    (hs : ∀ e' : Event (MapConfig D K), e'.data.state = e.data.state → Seamless ok cb nch dur G e'.data.event a →
      Seamless ok cb' nch dur H e' a) : Ready ok cb' nch dur H e a := by
  obtain ⟨h1, h2⟩ := h
  refine ⟨fun _ w => by rw [hfree]; exact mapFree_ok h1 w, ?_⟩
  rw [if_pos hp]
  split at h2
  · next hi =>
    obtain ⟨i, k1, _, _, k4⟩ := h2
    refine ⟨{ e with hasFree := true, data := { e.data with event := { i with prep := false } } }, fun w => ?_, rfl, rfl, hs _ rfl k4⟩
    rw [hprep, mapPrepare, if_pos hi, k1 w, ok_bind']
    rfl
  · next hi =>
    refine ⟨{ e with hasFree := true }, fun w => ?_, rfl, rfl, hs _ rfl h2⟩
    rw [hprep, mapPrepare, if_neg hi]

/-- **C108.** A map event with a dedicated buffer that wraps an event with sound `F p` (any playable event: a leaf, a group, or a map event),
with a map function that is seamless for the signal of the wrapped event on silence, plays the sound that the map function makes of it. -/
theorem C108_isolated_plays [Zero S] {ok : Nat → Prop} {cb : Callbacks D (Buf (Buf S))}
    {map : Nat → Nat → Buf (Buf S) → Nat → K → Buf (Buf S) → C (Nat × K × Buf (Buf S))} {nch : Nat} {F H : Nat → Sound S}
    {e : Event (MapConfig D K)} (hp : e.prep = true) (h : Plays ok cb nch e.data.event F)
    (hdur : e.stop - e.start = e.data.event.stop - e.data.event.start)
    (hm : ∀ p, p ≤ e.stop - e.start → MapsStream ok map nch (e.stop - e.start) (fun c t => F p c t 0) (H p) e.data.state p) :
    Plays ok (mapIsolatedCb cb map) nch e H := by
  intro p hpe
  refine mapPrepare_ready (cb := cb) rfl rfl hp (hdur ▸ h p (hdur ▸ hpe)) ?_
  intro e' hk hs
  exact mapIsolated_seamless hs (by rw [hk]; exact hm p hpe)

/-- **C108 without dedicated buffer**: the samples that are in the output, with those of the wrapped event, are mapped. -/
theorem C108_plays {ok : Nat → Prop} {cb : Callbacks D (Buf (Buf S))}
    {map : Nat → Nat → Nat → K → Buf (Buf S) → C (Nat × K × Buf (Buf S))} {nch : Nat} {F H : Nat → Sound S}
    {e : Event (MapConfig D K)} (hp : e.prep = true) (h : Plays ok cb nch e.data.event F)
    (hdur : e.stop - e.start = e.data.event.stop - e.data.event.start)
    (hm : ∀ p, p ≤ e.stop - e.start → MapsInPlace ok map nch (e.stop - e.start) (H p) e.data.state p) :
    Plays ok (mapCb cb map) nch e (fun p c t x => H p c t (F p c t x)) := by
  intro p hpe
  refine mapPrepare_ready (cb := cb) rfl rfl hp (hdur ▸ h p (hdur ▸ hpe)) ?_
  intro e' hk hs
  exact map_seamless hs (by rw [hk]; exact hm p hpe)

/-- **C108, rendering.** Lists of isolated map events that wrap trees of events (groups and leafs to any depth), mixed with any other such
events, rendered block by block: for every division into blocks, rendering succeeds and gives the same samples as rendering at once, namely
the mix of what the map functions make of the wrapped events. -/
theorem C108_isolated_blocks [Zero S] {ok : Nat → Prop} {leaf : Callbacks L (Buf (Buf S))} {fuel nch d n : Nat}
    {map : Nat → Nat → Buf (Buf S) → Nat → K → Buf (Buf S) → C (Nat × K × Buf (Buf S))}
    {l : List (Addr × Event (Tree (MapConfig (Tree L) K)))} {F H : Addr → Nat → Sound S} (hsh : Shorter ok)
    (hl : ∀ x ∈ l, ∃ c, x.2.data = .leaf c ∧ x.2.prep = true ∧ Playable ok leaf fuel nch d c.event (F x.1) ∧
      x.2.stop - x.2.start = c.event.stop - c.event.start ∧
      ∀ p, p ≤ x.2.stop - x.2.start →
        MapsStream ok map nch (x.2.stop - x.2.start) (fun c t => F x.1 p c t 0) (H x.1 p) c.state p)
    (hs : SortedEvents l) (hem : ok 0 ∨ ∀ x ∈ l, x.2.start < x.2.stop)
    {heap : Heap (Event (Tree (MapConfig (Tree L) K)))} {head : Option Addr} (hwf : WellFormed heap head l)
    (hlen : l.length < fuel) (f : Nat → Nat → S) {start off : Nat} {stops : List Nat} {last : Nat}
    (hb : Blocks start stops) (hlast : stops.getLast? = some last) (hok : ok (last - start)) (hoff : off + (last - start) ≤ n) :
    ∃ s1 logs s2,
      seqBlocks (treeCb (mapIsolatedCb (treeCb leaf fuel (d + 1)) map) fuel 1) fuel (fun t => off + (t - start)) start stops
        ⟨heap, head, blk nch n f, []⟩ = .ok (0, s1, logs) ∧
      seq (treeCb (mapIsolatedCb (treeCb leaf fuel (d + 1)) map) fuel 1) fuel start last off ⟨heap, head, blk nch n f, []⟩ = .ok (0, s2) ∧
      s1.world = s2.world ∧
      s1.world = blk nch n (applyRange (mixEvents l H start) start off (last - start) f) := by
  refine C22_block_division (d := 0) (F := H) hsh ?_ hs hem hwf hlen f hb hlast hok hoff
  intro x hx
  obtain ⟨c, h1, h2, h3, h4, h5⟩ := hl x hx
  exact .leaf h1 (C108_isolated_plays (e := x.2.withData c) h2 (h3.plays hsh) h4 h5)

/-! Non-vacuity: a map function with state. -/

/-- Adds the input to the output, delayed by one sample. The state is the last input sample of each channel. -/
def delayMap (x y : Nat) (input : Buf (Buf Int)) (off : Nat) (k : Nat → Int) (out : Buf (Buf Int)) : C (Nat × (Nat → Int) × Buf (Buf Int)) :=
  .ok (0, fun c => if x < y then (input.getD c []).getD (y - x - 1) 0 else k c,
    tab out.length fun c => tab (out.getD c []).length fun i =>
      if off ≤ i ∧ i < off + (y - x) then
        (out.getD c []).getD i 0 + (if i = off then k c else (input.getD c []).getD (i - off - 1) 0)
      else (out.getD c []).getD i 0)

theorem tab_getD {α : Type} {n i : Nat} {f : Nat → α} {d : α} (h : i < n) : (tab n f).getD i d = f i := by
  rw [List.getD, tab_getElem?, if_pos h]
  rfl

theorem blk_getD {nch n : Nat} {f : Nat → Nat → Int} {c i : Nat} (hc : c < nch) (hi : i < n) :
    ((blk nch n f).getD c []).getD i 0 = f c i := by
  unfold blk
  rw [tab_getD hc, tab_getD hi]

/-- The delayed signal `X` is added, with `k` at the beginning `p`. -/
theorem delayMap_mapsStream (nch dur : Nat) (X : Nat → Nat → Int) (k : Nat → Int) (p : Nat) :
    MapsStream (fun _ => True) delayMap nch dur X (fun c t x => x + if t = p then k c else X c (t - 1)) k p := by
  refine ⟨fun k' a => p ≤ a ∧ ∀ c, c < nch → k' c = if a = p then k c else X c (a - 1), ⟨Nat.le_refl p, by simp⟩, ?_⟩
  rintro k' a ⟨hpa, hk⟩ b off n g f hab _ _ hoff hg
  have h2 : ∀ c, c < nch → (if a < b then ((blk nch n g).getD c []).getD (b - a - 1) 0 else k' c) = if b = p then k c else X c (b - 1) := by
    intro c hc
    split
    · rw [blk_getD hc (by omega), hg c _ hc (by omega), if_neg (by omega), show a + (b - a - 1) = b - 1 by omega]
    · rw [hk c hc, show b = a by omega]
  refine ⟨fun c => if a < b then ((blk nch n g).getD c []).getD (b - a - 1) 0 else k' c, ?_, by omega, h2⟩
  · rw [delayMap]
    congr 3
    conv => rhs; unfold blk
    rw [show (blk nch n f).length = nch by simp [blk]]
    refine tab_congr fun c hc => ?_
    rw [show ((blk nch n f).getD c []).length = n by unfold blk; rw [tab_getD hc]; simp]
    refine tab_congr fun i hi => ?_
    unfold applyRange
    rw [blk_getD hc hi]
    split
    · next h =>
      congr 1
      by_cases hi0 : i = off
      · rw [if_pos hi0, hk c hc, hi0, Nat.sub_self, Nat.add_zero]
      · rw [if_neg hi0, if_neg (by omega), blk_getD hc (by omega), hg c _ hc (by omega)]
        congr 1
        omega
    · rfl

/-- Multiplies all samples of the range by the state, in place. -/
def gainMap (x y off : Nat) (k : Int) (out : Buf (Buf Int)) : C (Nat × Int × Buf (Buf Int)) :=
  .ok (0, k, tab out.length fun c => tab (out.getD c []).length fun i =>
    if off ≤ i ∧ i < off + (y - x) then (out.getD c []).getD i 0 * k else (out.getD c []).getD i 0)

theorem gainMap_mapsInPlace (nch dur : Nat) (k : Int) (p : Nat) :
    MapsInPlace (fun _ => True) gainMap nch dur (fun _ _ x => x * k) k p := by
  refine ⟨fun k' _ => k' = k, rfl, ?_⟩
  rintro k' a rfl b off n f _ _ _ _
  refine ⟨k', ?_, rfl⟩
  rw [gainMap]
  congr 3
  conv => rhs; unfold blk
  rw [show (blk nch n f).length = nch by simp [blk]]
  refine tab_congr fun c hc => ?_
  rw [show ((blk nch n f).getD c []).length = n by unfold blk; rw [tab_getD hc]; simp]
  refine tab_congr fun i hi => ?_
  unfold applyRange
  rw [blk_getD hc hi]

/-- A map event around the example group. -/
def exampleMapEvent : Event (Tree (MapConfig (Tree (WaveConfig Int)) (Nat → Int))) :=
  ⟨1, 5, true, false, .leaf ⟨exampleGroup, fun _ => 7⟩⟩

/-- Non-vacuity: the group is delayed by one sample, in blocks that end inside of the event. -/
example : ∃ s1 logs s2,
    seqBlocks (treeCb (mapIsolatedCb (treeCb waveCb 9 2) delayMap) 9 1) 9 (fun t => 0 + (t - 0)) 0 [2, 3, 6]
      ⟨fun b => if b = 1 then some ⟨none, none, exampleMapEvent⟩ else none, some 1, blk 2 6 (fun _ _ => (0 : Int)), []⟩ = .ok (0, s1, logs) ∧
    seq (treeCb (mapIsolatedCb (treeCb waveCb 9 2) delayMap) 9 1) 9 0 6 0
      ⟨fun b => if b = 1 then some ⟨none, none, exampleMapEvent⟩ else none, some 1, blk 2 6 (fun _ _ => (0 : Int)), []⟩
      = .ok (0, s2) ∧ s1.world = s2.world := by
  obtain ⟨s1, logs, s2, h1, h2, h3, _⟩ := C108_isolated_blocks (ok := fun _ => True) (leaf := waveCb) (map := delayMap) (fuel := 9) (nch := 2)
    (d := 1) (n := 6) (l := [(1, exampleMapEvent)])
    (F := fun _ => mixEvents [(5, exampleWaveEvent 1 4)] (fun _ p => exampleWave2.mix 0 p))
    (H := fun _ p c t x => x + if t = p then 7 else mixEvents [(5, exampleWaveEvent 1 4)] (fun _ p => exampleWave2.mix 0 p) p c (t - 1) 0)
    (fun _ _ _ _ _ => trivial) (by
      intro x hx
      simp only [List.mem_singleton] at hx
      subst hx
      exact ⟨⟨exampleGroup, fun _ => 7⟩, rfl, rfl, exampleGroup_playable, rfl, fun p _ => delayMap_mapsStream 2 _ _ _ p⟩)
    ⟨by simp, by simp [exampleMapEvent], by simp [exampleMapEvent]⟩ (.inl trivial)
    (heap := fun b => if b = 1 then some ⟨none, none, exampleMapEvent⟩ else none) (head := some 1)
    ⟨⟨rfl, none, rfl, rfl⟩, by simp⟩
    (by simp) (fun _ _ => 0) (start := 0) (off := 0) (stops := [2, 3, 6]) (last := 6)
    (by simp [Blocks]) rfl trivial (by simp)
  exact ⟨s1, logs, s2, h1, h2, h3⟩

/-- Non-vacuity: the group made twice as loud in place, with whatever is in the output. -/
example : Plays (fun _ => True) (mapCb (treeCb waveCb 9 2) gainMap) 2 (⟨1, 5, true, false, ⟨exampleGroup, 2⟩⟩ : Event (MapConfig (Tree (WaveConfig Int)) Int))
    (fun p c t x => mixEvents [(5, exampleWaveEvent 1 4)] (fun _ p => exampleWave2.mix 0 p) p c t x * 2) :=
  C108_plays (H := fun _ _ _ x => x * 2) rfl (exampleGroup_playable.plays fun _ _ _ _ _ => trivial) rfl fun p _ => gainMap_mapsInPlace 2 _ 2 p

/-- **C108, failures.** If the wrapped event fails, then the map function is not called and the map event returns the status of the wrapped event; the
isolated one leaves the output as it is. If it succeeds, the status is that of the map function. -/
theorem C108_failure [Zero S] {cb : Callbacks D (Buf (Buf S))} {map : Nat → Nat → Nat → K → Buf (Buf S) → C (Nat × K × Buf (Buf S))}
    {mapI : Nat → Nat → Buf (Buf S) → Nat → K → Buf (Buf S) → C (Nat × K × Buf (Buf S))} {x y off : Nat} {e : Event (MapConfig D K)}
    {w w' t' : Buf (Buf S)} {st stI : Nat} {i j : Event D} (h : cb.generate x y off e.data.event w = .ok (st, i, w'))
    (hI : cb.generate x y 0 e.data.event (zeroBlock w) = .ok (stI, j, t')) :
    (st ≠ 0 → ∃ e', (mapCb cb map).generate x y off e w = .ok (st, e', w')) ∧
    (stI ≠ 0 → ∃ e', (mapIsolatedCb cb mapI).generate x y off e w = .ok (stI, e', w)) ∧
    (st = 0 → ((mapCb cb map).generate x y off e w).map (fun r => (r.1, r.2.2)) =
      (map x y off e.data.state w').map (fun r => (r.1, r.2.2))) ∧
    (stI = 0 → ((mapIsolatedCb cb mapI).generate x y off e w).map (fun r => (r.1, r.2.2)) =
      (mapI x y t' off e.data.state w).map (fun r => (r.1, r.2.2))) := by
  refine ⟨fun hs => ?_, fun hs => ?_, fun hs => ?_, fun hs => ?_⟩
  · simp only [mapCb, h, ok_bind', if_pos hs]
    exact ⟨_, rfl⟩
  · simp only [mapIsolatedCb, hI, ok_bind', if_pos hs]
    exact ⟨_, rfl⟩
  · subst hs
    simp only [mapCb, h, ok_bind', ne_eq, not_true_eq_false, if_false]
    cases map x y off e.data.state w' <;> rfl
  · subst hs
    simp only [mapIsolatedCb, hI, ok_bind', ne_eq, not_true_eq_false, if_false]
    cases mapI x y t' off e.data.state w <;> rfl

/-- A wrapped event that fails. -/
example : (mapIsolatedCb (S := Int) (D := Unit) (K := Unit) ⟨fun e w => .ok (0, e, w), fun _ _ _ e w => .ok (7, e, w), fun _ w => .ok w⟩
    (fun _ _ _ _ k _ => .ok (0, k, []))).generate 0 1 0 ⟨0, 1, false, false, ⟨⟨0, 1, false, false, ()⟩, ()⟩⟩ [[5]] =
      .ok (7, ⟨0, 1, false, false, ⟨⟨0, 1, false, false, ()⟩, ()⟩⟩, [[5]]) := rfl

end Sp
