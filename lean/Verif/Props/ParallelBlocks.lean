import Verif.Lemmas.BlockAdder
import Verif.Props.SeqParallelFloat
import Verif.Props.FloatMix

/-!
# C158: rendering block by block with `sp_seq_parallel`

Trees of events of any kind, whose top list is given to `sp_seq_parallel` for one block after the other.
-/

set_option linter.unusedSectionVars false

namespace Sp
variable {D S L : Type} {ok : Nat → Prop}

theorem blockAdder_once [Zero S] (cb : Callbacks D (Buf (Buf S))) (nch : Nat) : AdderOnce (blockAdder cb nch) fun _ => True := by
  refine ⟨fun _ _ _ _ _ => trivial, fun x y e r _ h => ?_⟩
  simp only [blockAdder] at h
  obtain ⟨⟨st, e', w⟩, _, h⟩ := bind_eq_ok.1 h
  simp only [pure_eq_ok, Except.ok.injEq] at h
  subst h
  exact blockWrites_keys _ _ _

/-- The prepare functions keep the times of events. -/
def PrepareKeepsTimes (cb : Callbacks D (Buf (Buf S))) : Prop :=
  ∀ e w st e' w', cb.prepare e w = .ok (st, e', w') → e'.start = e.start ∧ e'.stop = e.stop

section
variable [AddZeroClass S] {cb : Callbacks D (Buf (Buf S))} {nch : Nat}

/-- One call. -/
theorem par_call {t u : Nat} {ps : List (Part S)} {l : List (Addr × Event D)} (hk : PrepareKeepsTimes cb)
    (h : Chain ok (blockAdder cb nch).callbacks nch t ps l) (hnd : (l.map Prod.fst).Nodup) (htu : t < u) (hu : u < 4294967296) (hsh : Shorter ok)
    (hok : ok (u - t)) {s : Par D S} (hs : ParReach (blockAdder cb nch) t u l (newBlock nch (u - t)) s) :
    (∀ r, ParStep (blockAdder cb nch) t u s r → ∃ s', r = .ok s') ∧
      ∀ st, s.main = .returned st → st = 0 ∧ s.out = (blk nch (u - t) fun c i => mixParts ps c (t + i) 0) ∧
        Chain ok (blockAdder cb nch).callbacks nch u ps s.events ∧ (s.events.map Prod.fst).Nodup := by
  obtain ⟨l', log, e1, e2⟩ := seqList_mix (off := 0) (n := u - t) h htu.le hu hsh hok (by omega) (fun _ _ => (0 : S))
  have htop : seqListTop (blockAdder cb nch).callbacks t u 0 l (newBlock nch (u - t)) =
      .ok (0, l', blk nch (u - t) (applyRange (mixParts ps) t 0 (u - t) fun _ _ => 0), log) := by
    rw [newBlock_blk]
    unfold seqListTop
    rw [e1, ok_bind']
    rfl
  have hlen : List.length (newBlock nch (u - t) : Buf (Buf S)) = nch := by simp [newBlock]
  have hr : AdderInRange (blockAdder cb nch) (List.length (newBlock nch (u - t) : Buf (Buf S))) := by
    rw [hlen]
    exact blockAdder_inRange cb nch
  have hrows : RowsOf (u - t) (newBlock nch (u - t) : Buf (Buf S)) := by
    intro row hrow
    rw [newBlock] at hrow
    rw [List.eq_of_mem_replicate hrow, List.length_replicate]
  have hkt : AdderKeepsTimes (blockAdder cb nch) := blockAdder_keepsTimes nch fun e st e' he => hk e [] st e'.1 e'.2 he
  constructor
  · intro r hstep
    cases r with
    | error x => exact absurd hstep (C28_no_failure_partial hkt hr htu hu le_rfl hrows h.ordered hnd htop hs x)
    | ok s' => exact ⟨s', rfl⟩
  · intro st hst
    obtain ⟨h1, h2, h3⟩ := C156_bit_for_bit_partial (blockAdder_once cb nch) (fun _ _ => trivial) hkt hr htu hu le_rfl hrows h.ordered hnd
      htop hs hst
    refine ⟨h1, ?_, by rw [h3]; exact e2, ?_⟩
    · rw [h2]
      refine tab_congr fun c _ => tab_congr fun i hi => ?_
      unfold applyRange
      rw [if_pos (by omega), Nat.sub_zero]
    · rw [h3]
      exact (seqList_addrs _ _ _ _ _ _ _ _ _ _ e1).nodup hnd

theorem par_blocks {stops : List Nat} {t : Nat} {ps : List (Part S)} {l l' : List (Addr × Event D)} {outs : List (Nat × Buf (Buf S))}
    (hk : PrepareKeepsTimes cb) (h : Chain ok (blockAdder cb nch).callbacks nch t ps l) (hnd : (l.map Prod.fst).Nodup) (hsh : Shorter ok)
    (hb : Blocks t stops) (hok : ∀ p ∈ blockBounds t stops, ok (p.2 - p.1)) (hr : ParBlocks (blockAdder cb nch) nch t stops l l' outs) :
    outs = (blockBounds t stops).map (fun b => (0, blk nch (b.2 - b.1) fun c i => mixParts ps c (b.1 + i) 0)) ∧
      Chain ok (blockAdder cb nch).callbacks nch (stops.getLastD t) ps l' ∧ (l'.map Prod.fst).Nodup := by
  induction hr with
  | nil => exact ⟨rfl, h, hnd⟩
  | @cons start stop st stops l l' s outs h1 h2 _ ih =>
    obtain ⟨b1, b2, b3⟩ := hb
    obtain ⟨r1, r2, r3, r4⟩ := (par_call hk h hnd b1 b2 hsh (hok (start, stop) (by simp [blockBounds])) h1).2 st h2
    obtain ⟨i1, i2, i3⟩ := ih r3 r4 b3 (fun p hp => hok p (by simp [blockBounds, hp]))
    refine ⟨?_, ?_, i3⟩
    · rw [i1, r1, r2]
      rfl
    · rw [List.getLastD_cons]
      exact i2

end

theorem mixParts_adder [Add S] [Zero S] (l : List (Addr × Event D)) (F : Addr → Nat → Sound S) (p c t : Nat) (x : S) (ht : p ≤ t) :
    mixParts ((l.map fun x => (⟨x.2.start, x.2.stop, F x.1 (min p x.2.stop - x.2.start)⟩ : Part S)).map Part.adder) c t x =
      mixEvents l (fun a q => addSound (F a q)) p c t x := by
  rw [List.map_map]
  exact mixParts_start l (fun a q => addSound (F a q)) p c t x ht

section
variable [AddZeroClass S] {cb : Callbacks D (Buf (Buf S))} {nch : Nat} {l l' : List (Addr × Event D)} {F : Addr → Nat → Sound S}
  {start : Nat} {stops : List Nat} {outs : List (Nat × Buf (Buf S))}

/-- C158: however the time is divided into blocks and whatever the schedules are, all calls that return are successful, and each sample
is made by playing each event into a zero and adding what comes out in the order of the list. The samples depend neither on the
division nor on the schedules, bit for bit. -/
theorem C158_blocks (hk : PrepareKeepsTimes cb) (hp : ∀ x ∈ l, Plays ok cb nch x.2 (F x.1)) (hs : SortedEvents l)
    (hem : ok 0 ∨ ∀ x ∈ l, x.2.start < x.2.stop) (hnd : (l.map Prod.fst).Nodup) (hsh : Shorter ok) (hb : Blocks start stops)
    (hok : ∀ p ∈ blockBounds start stops, ok (p.2 - p.1)) (hr : ParBlocks (blockAdder cb nch) nch start stops l l' outs) :
    outs = (blockBounds start stops).map fun b =>
      (0, blk nch (b.2 - b.1) fun c i => mixEvents l (fun a q => addSound (F a q)) start c (b.1 + i) 0) := by
  have hch := (chain_start (p := start) hs hem hp).adder
  rw [(par_blocks hk hch hnd hsh hb hok hr).1]
  refine List.map_congr_left fun b hbm => ?_
  have hle : start ≤ b.1 := by
    clear hok hr hch
    induction stops generalizing start with
    | nil => simp [blockBounds] at hbm
    | cons u r ih =>
      rw [blockBounds, List.mem_cons] at hbm
      obtain ⟨b1, b2, b3⟩ := hb
      rcases hbm with rfl | hbm
      · exact le_rfl
      · exact b1.le.trans (ih b3 hbm)
  refine congrArg (Prod.mk 0) (tab_congr fun c _ => tab_congr fun i _ => ?_)
  exact mixParts_adder l F start c (b.1 + i) 0 (by omega)

/-- C158: no schedule of any of the calls leads to a fault, and none returns a failure. That each call returns, if all threads go on, is
`C26_no_infinite_schedule` with `C26_no_deadlock`. -/
theorem C158_no_failure (hk : PrepareKeepsTimes cb) (hp : ∀ x ∈ l, Plays ok cb nch x.2 (F x.1)) (hs : SortedEvents l)
    (hem : ok 0 ∨ ∀ x ∈ l, x.2.start < x.2.stop) (hnd : (l.map Prod.fst).Nodup) (hsh : Shorter ok) (hb : Blocks start stops)
    (hok : ∀ p ∈ blockBounds start stops, ok (p.2 - p.1)) (hr : ParBlocks (blockAdder cb nch) nch start stops l l' outs) {stop : Nat}
    (hlt : stops.getLastD start < stop) (hsm : stop < 2 ^ 32) (hok' : ok (stop - stops.getLastD start)) {s : Par D S}
    (h : ParReach (blockAdder cb nch) (stops.getLastD start) stop l' (newBlock nch (stop - stops.getLastD start)) s) :
    (∀ r, ParStep (blockAdder cb nch) (stops.getLastD start) stop s r → ∃ s', r = .ok s') ∧ ∀ st, s.main = .returned st → st = 0 := by
  have hch := (chain_start (p := start) hs hem hp).adder
  obtain ⟨_, h2, h3⟩ := par_blocks hk hch hnd hsh hb hok hr
  obtain ⟨h4, h5⟩ := par_call hk h2 h3 hlt hsm hsh hok' h
  exact ⟨h4, fun st hst => (h5 st hst).1⟩

end

theorem treeCb_prepareKeepsTimes {leaf : Callbacks L (Buf (Buf S))} (h : PrepareKeepsTimes leaf) (fuel d : Nat) :
    PrepareKeepsTimes (treeCb leaf fuel d) := by
  intro e w st e' w' hp
  cases d with
  | zero => cases hp
  | succ d =>
    change (match e.data with
        | .leaf l => do
          let (st, e, w) ← leaf.prepare (e.withData l) w
          return (st, e.withData (Tree.leaf e.data), w)
        | .group heap head => do
          let e ← groupPrepare fuel e heap head
          return (0, e, w)) = _ at hp
    cases hd : e.data with
    | leaf c =>
      rw [hd] at hp
      simp only at hp
      obtain ⟨⟨st1, e1, w1⟩, h1, hp⟩ := bind_eq_ok.1 hp
      simp only [pure_eq_ok, Except.ok.injEq, Prod.mk.injEq] at hp
      obtain ⟨_, rfl, _⟩ := hp
      exact h _ _ _ _ _ h1
    | group heap head =>
      rw [hd] at hp
      simp only at hp
      obtain ⟨e1, h1, hp⟩ := bind_eq_ok.1 hp
      simp only [pure_eq_ok, Except.ok.injEq, Prod.mk.injEq] at hp
      obtain ⟨_, rfl, _⟩ := hp
      unfold groupPrepare at h1
      cases head with
      | none =>
        simp only [Except.ok.injEq] at h1
        subst h1
        exact ⟨rfl, rfl⟩
      | some a =>
        simp only at h1
        obtain ⟨⟨h, hd⟩, _, h1⟩ := bind_eq_ok.1 h1
        simp only [pure_eq_ok, Except.ok.injEq] at h1
        subst h1
        exact ⟨rfl, rfl⟩

section
variable [AddZeroClass S] {leaf : Callbacks L (Buf (Buf S))} {fuel nch d : Nat} {l l' : List (Addr × Event (Tree L))}
  {F : Addr → Nat → Sound S} {start : Nat} {stops : List Nat} {outs : List (Nat × Buf (Buf S))}

/-- C158: if the sounds of the events of the top list add to the samples, as they do with exact additions, then the blocks are cut out of what
consecutive calls of `sp_seq` render, and so of what one call renders (C22). -/
theorem C158_same_as_sequential (hk : PrepareKeepsTimes leaf) (hp : ∀ x ∈ l, Playable ok leaf fuel nch d x.2 (F x.1))
    (ha : ∀ x ∈ l, ∀ p, Adds (F x.1 p)) (hs : SortedEvents l) (hem : ok 0 ∨ ∀ x ∈ l, x.2.start < x.2.stop) (hsh : Shorter ok)
    {heap : Heap (Event (Tree L))} {head : Option Addr} (hwf : WellFormed heap head l) (hlen : l.length < fuel) (hb : Blocks start stops)
    {last : Nat} (hlast : stops.getLast? = some last) (hok : ∀ p ∈ blockBounds start stops, ok (p.2 - p.1))
    (hr : ParBlocks (blockAdder (treeCb leaf fuel (d + 1)) nch) nch start stops l l' outs) :
    ∃ s logs, seqBlocks (treeCb leaf fuel (d + 1)) fuel (fun t => 0 + (t - start)) start stops
        ⟨heap, head, newBlock nch (last - start), []⟩ = .ok (0, s, logs) ∧
      outs = (blockBounds start stops).map fun b =>
        (0, blk nch (b.2 - b.1) fun c i => (s.world.getD c []).getD (b.1 - start + i) 0) := by
  obtain ⟨s, logs, e1, e2⟩ := C22_blocks (off := 0) (n := last - start) hsh hp hs hem hwf hlen (fun _ _ => (0 : S)) hb hlast hok (by omega)
  refine ⟨s, logs, by rw [newBlock_blk]; exact e1, ?_⟩
  rw [C158_blocks (treeCb_prepareKeepsTimes hk fuel (d + 1)) (fun x hx => (hp x hx).plays hsh) hs hem hwf.2 hsh hb hok hr]
  refine List.map_congr_left fun b hbm => ?_
  obtain ⟨hlt, _, hbb⟩ := blocks_last hb hlast
  obtain ⟨h1, h2⟩ : start ≤ b.1 ∧ b.2 ≤ last := by have := hbb b hbm; omega
  refine congrArg (Prod.mk 0) (tab_congr fun c hc => tab_congr fun i hi => ?_)
  beta_reduce
  rw [e2, blk_get _ hc (by omega)]
  unfold applyRange
  rw [if_pos (by omega)]
  have hm : mixEvents l (fun a q => addSound (F a q)) start c (b.1 + i) (0 : S) = mixEvents l F start c (b.1 + i) 0 := by
    unfold mixEvents
    generalize (0 : S) = x
    clear hp hs hem hwf hlen hr e1 e2
    induction l generalizing x with
    | nil => rfl
    | cons y l ih =>
      rw [List.foldl_cons, List.foldl_cons, ih (fun x hx => ha x (by simp [hx]))]
      congr 1
      split
      · exact (ha y (by simp) _ _ _ _).symm
      · rfl
  rw [hm]
  congr 1
  omega

end

/-! ## Runs exist -/

theorem par_returns [Add S] [Zero S] {f : Adder D S} {start stop : Nat} {l : List (Addr × Event D)} {out : Buf (Buf S)}
    (h : ∀ s, ParReach f start stop l out s → ∀ r, ParStep f start stop s r → ∃ s', r = .ok s') :
    ∃ s st, ParReach f start stop l out s ∧ s.main = .returned st := by
  have key : ∀ n s, parLeft s ≤ n → ParReach f start stop l out s → ∃ s st, ParReach f start stop l out s ∧ s.main = .returned st := by
    intro n
    induction n with
    | zero =>
      intro s hn hs
      by_cases hm : ∃ st, s.main = .returned st
      · obtain ⟨st, hm⟩ := hm
        exact ⟨s, st, hs, hm⟩
      · obtain ⟨r, hr⟩ := C26_no_deadlock (f := f) (start := start) (stop := stop) s (fun st hst => hm ⟨st, hst⟩)
        obtain ⟨s', rfl⟩ := h s hs r hr
        have := parLeft_lt hr
        omega
    | succ n ih =>
      intro s hn hs
      by_cases hm : ∃ st, s.main = .returned st
      · obtain ⟨st, hm⟩ := hm
        exact ⟨s, st, hs, hm⟩
      · obtain ⟨r, hr⟩ := C26_no_deadlock (f := f) (start := start) (stop := stop) s (fun st hst => hm ⟨st, hst⟩)
        obtain ⟨s', rfl⟩ := h s hs r hr
        have := parLeft_lt hr
        exact ih s' (by omega) (hs.step hr)
  exact key _ _ le_rfl .init

section
variable [AddZeroClass S] {cb : Callbacks D (Buf (Buf S))} {nch : Nat}

theorem par_blocks_exist (stops : List Nat) {t : Nat} {ps : List (Part S)} {l : List (Addr × Event D)}
    (hk : PrepareKeepsTimes cb) (h : Chain ok (blockAdder cb nch).callbacks nch t ps l) (hnd : (l.map Prod.fst).Nodup) (hsh : Shorter ok)
    (hb : Blocks t stops) (hok : ∀ p ∈ blockBounds t stops, ok (p.2 - p.1)) :
    ∃ l' outs, ParBlocks (blockAdder cb nch) nch t stops l l' outs := by
  induction stops generalizing t l with
  | nil => exact ⟨l, [], .nil⟩
  | cons u r ih =>
    obtain ⟨b1, b2, b3⟩ := hb
    have ho := hok (t, u) (by simp [blockBounds])
    obtain ⟨s, st, h1, h2⟩ := par_returns fun s hs => (par_call hk h hnd b1 b2 hsh ho hs).1
    obtain ⟨_, _, r3, r4⟩ := (par_call hk h hnd b1 b2 hsh ho h1).2 st h2
    obtain ⟨l', outs, h3⟩ := ih r3 r4 b3 (fun p hp => hok p (by simp [blockBounds, hp]))
    exact ⟨l', _, .cons h1 h2 h3⟩

/-- C158: all blocks can be rendered. -/
theorem C158_returns {l : List (Addr × Event D)} {F : Addr → Nat → Sound S} {start : Nat} {stops : List Nat} (hk : PrepareKeepsTimes cb)
    (hp : ∀ x ∈ l, Plays ok cb nch x.2 (F x.1)) (hs : SortedEvents l) (hem : ok 0 ∨ ∀ x ∈ l, x.2.start < x.2.stop)
    (hnd : (l.map Prod.fst).Nodup) (hsh : Shorter ok) (hb : Blocks start stops) (hok : ∀ p ∈ blockBounds start stops, ok (p.2 - p.1)) :
    ∃ l' outs, ParBlocks (blockAdder cb nch) nch start stops l l' outs :=
  par_blocks_exist stops hk (chain_start (p := start) hs hem hp).adder hnd hsh hb hok

end

/-! ## Wave events -/

theorem waveCb_prepareKeepsTimes [Add S] [Mul S] : PrepareKeepsTimes (waveCb (S := S)) := by
  intro e w st e' w' h
  simp only [waveCb] at h
  obtain ⟨c, _, h⟩ := bind_eq_ok.1 h
  simp only [pure_eq_ok, Except.ok.injEq, Prod.mk.injEq] at h
  obtain ⟨_, rfl, _⟩ := h
  exact ⟨rfl, rfl⟩

theorem addTones_adds [AddMonoid S] [Mul S] (x : S) (ts : List (S × S × S)) : addTones x ts = x + addTones 0 ts := by
  unfold addTones
  induction ts generalizing x with
  | nil => simp
  | cons t ts ih => rw [List.foldl_cons, List.foldl_cons, ih, ih (0 + _), zero_add, add_assoc]

/-- C158 for trees of wave events, with exact additions: the samples of `sp_seq_parallel` are those of `sp_seq`. -/
theorem C158_wave_trees [AddMonoid S] [Mul S] {z : S} {fuel nch d : Nat} {l l' : List (Addr × Event (Tree (WaveConfig S)))}
    {F : Addr → Nat → Sound S} {T : Addr → Nat → Nat → Nat → List (S × S × S)} (hp : ∀ x ∈ l, WaveTree z fuel nch d x.2 (F x.1) (T x.1))
    (hs : SortedEvents l) {heap : Heap (Event (Tree (WaveConfig S)))} {head : Option Addr} (hwf : WellFormed heap head l)
    (hlen : l.length < fuel) {start : Nat} {stops : List Nat} (hb : Blocks start stops) {last : Nat} (hlast : stops.getLast? = some last)
    {outs : List (Nat × Buf (Buf S))} (hr : ParBlocks (blockAdder (treeCb waveCb fuel (d + 1)) nch) nch start stops l l' outs) :
    ∃ s logs, seqBlocks (treeCb waveCb fuel (d + 1)) fuel (fun t => 0 + (t - start)) start stops
        ⟨heap, head, newBlock nch (last - start), []⟩ = .ok (0, s, logs) ∧
      outs = (blockBounds start stops).map fun b =>
        (0, blk nch (b.2 - b.1) fun c i => (s.world.getD c []).getD (b.1 - start + i) 0) := by
  refine C158_same_as_sequential (ok := fun _ => True) waveCb_prepareKeepsTimes (fun x hx => (hp x hx).playable) (fun x hx p c t y => ?_) hs
    (.inl trivial) (fun _ _ _ _ _ => trivial) hwf hlen hb hlast (fun _ _ => trivial) hr
  rw [(hp x hx).tones, (hp x hx).tones p c t 0]
  exact addTones_adds _ _

/-- A case: a wave event and a group that is to be prepared, in blocks of different lengths. The calls can be made, under any schedule, and the sum of
the tones comes out. -/
example : ∃ l' outs, ParBlocks (blockAdder (treeCb waveCb 9 2) 2) 2 0 [1, 3, 6]
      [(1, exampleWaveEvent 0 4), (2, exampleGroup)] l' outs ∧
    outs = (blockBounds 0 [1, 3, 6]).map fun b => (0, blk 2 (b.2 - b.1) fun c i =>
      mixEvents [(1, exampleWaveEvent 0 4), (2, exampleGroup)] (fun a q => addSound ((if a = 1 then fun p => exampleWave2.mix 0 p else
        mixEvents [(5, exampleWaveEvent 1 4)] (fun _ p => exampleWave2.mix 0 p)) q)) 0 c (b.1 + i) (0 : Int)) := by
  have hp : ∀ x ∈ [((1 : Addr), exampleWaveEvent 0 4), (2, exampleGroup)], Plays (fun _ => True) (treeCb waveCb 9 2) 2 x.2
      (if x.1 = 1 then fun p => exampleWave2.mix 0 p else mixEvents [(5, exampleWaveEvent 1 4)] (fun _ p => exampleWave2.mix 0 p)) := by
    intro x hx
    simp only [List.mem_cons, List.not_mem_nil, or_false] at hx
    rcases hx with rfl | rfl
    · exact Playable.plays (d := 1) (fun _ _ _ _ _ => trivial) (.leaf rfl (exampleWave_plays 0 4 (by omega)))
    · exact exampleGroup_playable.plays (fun _ _ _ _ _ => trivial)
  have hs : SortedEvents [((1 : Addr), exampleWaveEvent 0 4), (2, exampleGroup)] :=
    ⟨by simp [exampleWaveEvent, exampleGroup], by simp [exampleWaveEvent, exampleGroup], by simp [exampleWaveEvent, exampleGroup]⟩
  have hk := treeCb_prepareKeepsTimes (waveCb_prepareKeepsTimes (S := Int)) 9 2
  have hb : Blocks 0 [1, 3, 6] := by simp [Blocks]
  obtain ⟨l', outs, h⟩ := C158_returns (F := fun a => if a = 1 then fun p => exampleWave2.mix 0 p else
    mixEvents [(5, exampleWaveEvent 1 4)] (fun _ p => exampleWave2.mix 0 p)) hk hp hs (.inl trivial) (by simp) (fun _ _ _ _ _ => trivial) hb
    (fun _ _ => trivial)
  exact ⟨l', outs, h, C158_blocks hk hp hs (.inl trivial) (by simp) (fun _ _ _ _ _ => trivial) hb (fun _ _ => trivial) h⟩

end Sp
