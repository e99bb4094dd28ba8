import Verif.Model.ParallelGroup
import Verif.Props.ParallelBlocks
import Verif.Props.NoiseEvents

/-!
# C165: parallel groups in pieces

A parallel group of events that play seamlessly plays seamlessly itself, whatever the schedule of each of its calls is.
-/

set_option linter.unusedSectionVars false

namespace Sp
variable {D S L : Type} {ok : Nat → Prop}

/-- `run` gives for each call of `sp_seq_parallel` something that can come of it, under any schedule. -/
def Scheduled [Add S] [Zero S] (cb : Callbacks D (Buf (Buf S)))
    (run : Nat → Nat → List (Addr × Event D) → Buf (Buf S) → C (Nat × List (Addr × Event D) × Buf (Buf S))) : Prop :=
  ∀ x y l out, ParCall cb x y l out (run x y l out)

/-- Something comes of each call, whatever the events and their functions are. -/
theorem parCall_exists [Add S] [Zero S] (cb : Callbacks D (Buf (Buf S))) (x y : Nat) (l : List (Addr × Event D)) (out : Buf (Buf S)) :
    ∃ r, ParCall cb x y l out r := by
  have key : ∀ n s, parLeft s ≤ n → ParReach (blockAdder cb (List.length out)) x y l out s → ∃ r, ParCall cb x y l out r := by
    intro n
    induction n with
    | zero =>
      intro s hn hs
      by_cases hm : ∃ st, s.main = .returned st
      · obtain ⟨st, hm⟩ := hm
        exact ⟨_, .returned hs hm⟩
      · obtain ⟨r, hr⟩ := C26_no_deadlock (f := blockAdder cb (List.length out)) (start := x) (stop := y) s (fun st hst => hm ⟨st, hst⟩)
        cases r with
        | error f => exact ⟨_, .fault hs hr⟩
        | ok s' =>
          have := parLeft_lt hr
          omega
    | succ n ih =>
      intro s hn hs
      by_cases hm : ∃ st, s.main = .returned st
      · obtain ⟨st, hm⟩ := hm
        exact ⟨_, .returned hs hm⟩
      · obtain ⟨r, hr⟩ := C26_no_deadlock (f := blockAdder cb (List.length out)) (start := x) (stop := y) s (fun st hst => hm ⟨st, hst⟩)
        cases r with
        | error f => exact ⟨_, .fault hs hr⟩
        | ok s' =>
          have := parLeft_lt hr
          exact ih s' (by omega) (hs.step hr)
  exact key _ _ le_rfl .init

theorem scheduled_exists [Add S] [Zero S] (cb : Callbacks D (Buf (Buf S))) : ∃ run, Scheduled cb run :=
  ⟨fun x y l out => Classical.choose (parCall_exists cb x y l out), fun x y l out => Classical.choose_spec (parCall_exists cb x y l out)⟩

section
variable [AddZeroClass S] {cb : Callbacks D (Buf (Buf S))} {nch : Nat}

/-- One call, for any content of the output. -/
theorem par_call_on {t u m : Nat} {ps : List (Part S)} {l : List (Addr × Event D)} (hk : PrepareKeepsTimes cb)
    (h : Chain ok (blockAdder cb nch).callbacks nch t ps l) (hnd : (l.map Prod.fst).Nodup) (htu : t < u) (hu : u < 4294967296) (hsh : Shorter ok)
    (hok : ok (u - t)) (hm : u - t ≤ m) (f : Nat → Nat → S) {r : C (Nat × List (Addr × Event D) × Buf (Buf S))}
    (hr : ParCall cb t u l (blk nch m f) r) :
    ∃ l', r = .ok (0, l', blk nch m (applyRange (mixParts ps) t 0 (u - t) f)) ∧
      Chain ok (blockAdder cb nch).callbacks nch u ps l' ∧ (l'.map Prod.fst).Nodup := by
  obtain ⟨l', log, e1, e2⟩ := seqList_mix (off := 0) (n := m) h htu.le hu hsh hok (by omega) f
  have htop : seqListTop (blockAdder cb nch).callbacks t u 0 l (blk nch m f) =
      .ok (0, l', blk nch m (applyRange (mixParts ps) t 0 (u - t) f), log) := by
    unfold seqListTop
    rw [e1, ok_bind']
    rfl
  have hlen : List.length (blk nch m f : Buf (Buf S)) = nch := by simp [blk, tab]
  have hr' : AdderInRange (blockAdder cb nch) (List.length (blk nch m f : Buf (Buf S))) := by
    rw [hlen]
    exact blockAdder_inRange cb nch
  have hrows : RowsOf m (blk nch m f : Buf (Buf S)) := by
    intro row hrow
    simp only [blk, tab, List.mem_map] at hrow
    obtain ⟨c, _, rfl⟩ := hrow
    simp
  have hkt : AdderKeepsTimes (blockAdder cb nch) := blockAdder_keepsTimes nch fun e st e' he => hk e [] st e'.1 e'.2 he
  cases hr with
  | fault hs hstep =>
    rw [hlen] at hs hstep
    exact absurd hstep (C28_no_failure_partial hkt hr' htu hu hm hrows h.ordered hnd htop hs _)
  | returned hs hst =>
    rw [hlen] at hs
    obtain ⟨h1, h2, h3⟩ := C156_bit_for_bit_partial (blockAdder_once cb nch) (fun _ _ => trivial) hkt hr' htu hu hm hrows h.ordered hnd
      htop hs hst
    refine ⟨l', by rw [h1, h2, h3], e2, (seqList_addrs _ _ _ _ _ _ _ _ _ _ e1).nodup hnd⟩

theorem blockFrom_blk {n off : Nat} (f : Nat → Nat → S) : blockFrom off (blk nch n f) = blk nch (n - off) fun c k => f c (off + k) := by
  unfold blockFrom blk
  rw [tab_map]
  refine tab_congr fun c _ => ?_
  refine List.ext_getElem (by simp [tab]) fun i h1 h2 => ?_
  simp [tab]

theorem blockBack_blk {n off len t : Nat} (G : Sound S) (f : Nat → Nat → S) (hoff : off + len ≤ n) :
    blockBack off (blk nch n f) (blk nch (n - off) (applyRange G t 0 len fun c k => f c (off + k))) = blk nch n (applyRange G t off len f) := by
  unfold blockBack blk
  refine List.ext_getElem (by simp [tab]) fun c h1 h2 => ?_
  have hc : c < nch := by simpa [tab] using h2
  simp only [tab, List.getElem_zipWith, List.getElem_map, List.getElem_range]
  refine List.ext_getElem (by simp; omega) fun i h3 h4 => ?_
  have hi : i < n := by simpa using h4
  rw [List.getElem_append]
  simp only [List.length_take, List.length_map, List.length_range, List.getElem_take, List.getElem_map, List.getElem_range]
  unfold applyRange
  split
  · rw [if_neg (by omega)]
  · have e : off + (i - min off n) = i := by omega
    have e2 : i - min off n = i - off := by omega
    beta_reduce
    rw [e]
    by_cases hh : i < off + len
    · rw [if_pos (by omega), if_pos (by omega), e2, Nat.sub_zero]
    · rw [if_neg (by omega), if_neg (by omega)]

/-- A parallel group whose list is a chain is seamless. -/
theorem parallelGroup_seamless {run : Nat → Nat → List (Addr × Event D) → Buf (Buf S) → C (Nat × List (Addr × Event D) × Buf (Buf S))}
    (hrun : Scheduled cb run) (hk : PrepareKeepsTimes cb) (hsh : Shorter ok) (h0 : ¬ok 0) {dur t : Nat} {ps : List (Part S)}
    {e : Event (List (Addr × Event D))} (hdur : dur < 4294967296) (hnd : (e.data.map Prod.fst).Nodup)
    (h : Chain ok (blockAdder cb nch).callbacks nch t ps e.data) :
    Seamless ok (parallelGroupCb cb run) nch dur (mixParts ps) e t := by
  refine ⟨fun e t => (e.data.map Prod.fst).Nodup ∧ Chain ok (blockAdder cb nch).callbacks nch t ps e.data, ⟨hnd, h⟩, ?_⟩
  rintro e t ⟨hnd, h⟩
  constructor
  · intro _ w
    obtain ⟨log, e1⟩ := freeList_ok (cb := (blockAdder cb (List.length w)).callbacks) (l := e.data) (fun x hx hf => h.free x hx hf) w
    show (do
      let (w, _) ← freeList (blockAdder cb (List.length w)).callbacks e.data w
      return w : C (Buf (Buf S))) = _
    rw [e1, ok_bind']
    rfl
  · intro b off n f hab hb hok hoff
    have hlt : t < b := by
      rcases Nat.lt_or_ge t b with h | h
      · exact h
      · exact absurd (by rwa [Nat.sub_eq_zero_of_le h] at hok) h0
    obtain ⟨l', e1, e2, e3⟩ := par_call_on hk h hnd hlt (by omega) hsh hok (m := n - off) (by omega) (fun c k => f c (off + k))
      (hrun t b e.data _)
    refine ⟨{ e with data := l' }, ?_, rfl, rfl, rfl, e3, e2⟩
    show (do
      let (st, l, out) ← run t b e.data (blockFrom off (blk nch n f))
      return (st, { e with data := l }, blockBack off (blk nch n f) out) : C _) = _
    rw [blockFrom_blk, e1, ok_bind']
    simp only [pure_eq_ok]
    rw [blockBack_blk _ _ hoff]

/-- **C165.** A parallel group of events that play seamlessly plays seamlessly, whatever the schedules of its calls are: for any consecutive ranges, each
sample of a range is changed as if each event was played into a zero and the results were added in the order of the list. It succeeds, and can be
freed at any time. A group that is not yet prepared has its list in the order in which `sp_group_add` leaves it. -/
theorem C165_parallel_group_plays
    {run : Nat → Nat → List (Addr × Event D) → Buf (Buf S) → C (Nat × List (Addr × Event D) × Buf (Buf S))} (hrun : Scheduled cb run)
    (hk : PrepareKeepsTimes cb) (hsh : Shorter ok) (h0 : ¬ok 0) {e : Event (List (Addr × Event D))} {l : List (Addr × Event D)}
    {F : Addr → Nat → Sound S} (he : e.data = if e.prep then l.reverse else l) (hdur : e.stop - e.start < 4294967296)
    (hp : ∀ x ∈ l, Plays ok cb nch x.2 (F x.1)) (hs : SortedEvents l) (hem : ∀ x ∈ l, x.2.start < x.2.stop)
    (hnd : (l.map Prod.fst).Nodup) :
    Plays ok (parallelGroupCb cb run) nch e (mixEvents l fun a q => addSound (F a q)) := by
  intro p hpe
  have hch := (chain_start (p := p) hs (.inr hem) hp).adder
  have hseam : ∀ e' : Event (List (Addr × Event D)), e'.data = l →
      Seamless ok (parallelGroupCb cb run) nch (e.stop - e.start) (mixEvents l (fun a q => addSound (F a q)) p) e' p := by
    intro e' he'
    refine (parallelGroup_seamless hrun hk hsh h0 hdur (by rw [he']; exact hnd) (by rw [he']; exact hch)).congr fun c t x ht => ?_
    exact mixParts_adder l F p c t x ht
  refine ⟨fun _ w => ?_, ?_⟩
  · obtain ⟨log, e1⟩ := freeList_ok (cb := (blockAdder cb (List.length w)).callbacks) (l := e.data) (fun x hx hf w => by
      have hx : x ∈ l := by
        rw [he] at hx
        split at hx
        · exact List.mem_reverse.1 hx
        · exact hx
      simp only [Adder.callbacks, blockAdder, (hp x hx 0 (Nat.zero_le _)).1 hf, ok_bind', pure_eq_ok]) w
    show (do
      let (w, _) ← freeList (blockAdder cb (List.length w)).callbacks e.data w
      return w : C (Buf (Buf S))) = _
    rw [e1, ok_bind']
    rfl
  · by_cases hpr : e.prep = true
    · rw [if_pos hpr] at he ⊢
      refine ⟨{ e with data := e.data.reverse, hasFree := true }, fun w => rfl, rfl, rfl, hseam _ ?_⟩
      show e.data.reverse = l
      rw [he, List.reverse_reverse]
    · rw [if_neg hpr] at he ⊢
      exact hseam e he

/-- **C165.** If the sounds of the events add to the samples, as they do with exact additions, then a parallel group plays what a group of the same events
plays. -/
theorem C165_same_as_group
    {run : Nat → Nat → List (Addr × Event D) → Buf (Buf S) → C (Nat × List (Addr × Event D) × Buf (Buf S))} (hrun : Scheduled cb run)
    (hk : PrepareKeepsTimes cb) (hsh : Shorter ok) (h0 : ¬ok 0) {e : Event (List (Addr × Event D))} {l : List (Addr × Event D)}
    {F : Addr → Nat → Sound S} (he : e.data = if e.prep then l.reverse else l) (hdur : e.stop - e.start < 4294967296)
    (hp : ∀ x ∈ l, Plays ok cb nch x.2 (F x.1)) (ha : ∀ x ∈ l, ∀ p, Adds (F x.1 p)) (hs : SortedEvents l)
    (hem : ∀ x ∈ l, x.2.start < x.2.stop) (hnd : (l.map Prod.fst).Nodup) :
    Plays ok (parallelGroupCb cb run) nch e (mixEvents l F) := by
  have hm : mixEvents l (fun a q => addSound (F a q)) = mixEvents l F := by
    funext p c t x
    unfold mixEvents
    clear hp hs hem hnd he
    induction l generalizing x with
    | nil => rfl
    | cons y l ih =>
      rw [List.foldl_cons, List.foldl_cons, ih (fun x hx => ha x (by simp [hx]))]
      congr 1
      split
      · exact (ha y (by simp) _ _ _ _).symm
      · rfl
  rw [← hm]
  exact C165_parallel_group_plays hrun hk hsh h0 he hdur hp hs hem hnd

end

/-- **C165.** A piece that contains parallel groups as well as other events, in groups to any depth, and is rendered by `sp_seq` block by
block: two renderings of it succeed and have the same samples, bit for bit, if they divide the time in different ways and their threads are
scheduled in different ways. -/
theorem C165_piece [AddZeroClass S] {leaf : Callbacks L (Buf (Buf S))} {cb : Callbacks D (Buf (Buf S))} {fuel nch d n : Nat}
    {l : List (Addr × Event (Tree (L ⊕ List (Addr × Event D))))} {F : Addr → Nat → Sound S} (hsh : Shorter ok)
    (hp : ∀ run, Scheduled cb run → ∀ x ∈ l, Playable ok (sumCb leaf (parallelGroupCb cb run)) fuel nch d x.2 (F x.1)) (hs : SortedEvents l)
    (hem : ∀ x ∈ l, x.2.start < x.2.stop) {heap : Heap (Event (Tree (L ⊕ List (Addr × Event D))))} {head : Option Addr}
    (hwf : WellFormed heap head l) (hlen : l.length < fuel) (f : Nat → Nat → S) {start off : Nat} {stops stops' : List Nat} {last : Nat}
    (hb : Blocks start stops) (hlast : stops.getLast? = some last) (hok : ∀ p ∈ blockBounds start stops, ok (p.2 - p.1))
    (hb' : Blocks start stops') (hlast' : stops'.getLast? = some last) (hok' : ∀ p ∈ blockBounds start stops', ok (p.2 - p.1))
    (hoff : off + (last - start) ≤ n)
    {run run' : Nat → Nat → List (Addr × Event D) → Buf (Buf S) → C (Nat × List (Addr × Event D) × Buf (Buf S))} (hrun : Scheduled cb run)
    (hrun' : Scheduled cb run') :
    ∃ s logs s' logs',
      seqBlocks (treeCb (sumCb leaf (parallelGroupCb cb run)) fuel (d + 1)) fuel (fun t => off + (t - start)) start stops
        ⟨heap, head, blk nch n f, []⟩ = .ok (0, s, logs) ∧
      seqBlocks (treeCb (sumCb leaf (parallelGroupCb cb run')) fuel (d + 1)) fuel (fun t => off + (t - start)) start stops'
        ⟨heap, head, blk nch n f, []⟩ = .ok (0, s', logs') ∧
      s.world = s'.world ∧ s.world = blk nch n (applyRange (mixEvents l F start) start off (last - start) f) := by
  obtain ⟨s, logs, e1, e2⟩ := C22_blocks hsh (hp run hrun) hs (.inr hem) hwf hlen f hb hlast hok hoff
  obtain ⟨s', logs', e3, e4⟩ := C22_blocks hsh (hp run' hrun') hs (.inr hem) hwf hlen f hb' hlast' hok' hoff
  exact ⟨s, logs, s', logs', e1, e3, e2.trans e4.symm, e2⟩

/-! ### A case: a wave event and a parallel group of two wave events in one piece. -/

theorem exampleWave_plays_nonempty (start stop : Nat) (h : stop - start ≤ 4) :
    Plays (fun n => 0 < n) waveCb 2 ((exampleWaveEvent start stop).withData exampleWave) (fun p => exampleWave2.mix 0 p) := by
  refine C22_wave_events (c := exampleWave2) 0 ?_ ⟨rfl, rfl, ?_⟩
  · rw [if_pos (by rfl)]; rfl
  · intro cc hcc
    simp only [exampleWave2, List.mem_cons, List.not_mem_nil, or_false] at hcc
    rcases hcc with rfl | rfl
    · exact ⟨⟨_, rfl, h⟩, fun x hx => by cases hx; exact h, fun x hx => by cases hx; exact h, by simp [exampleWave, exampleWave2], by simp⟩
    · exact ⟨⟨_, rfl, h⟩, fun x hx => by cases hx; exact h, fun x hx => by cases hx; exact h, by simp [exampleWave, exampleWave2], by simp⟩

/-- The events of the group. -/
def exampleParallelEvents : List (Addr × Event (WaveConfig Int)) :=
  [(1, (exampleWaveEvent 0 4).withData exampleWave), (2, (exampleWaveEvent 1 3).withData exampleWave)]

/-- The group, at time 2, not yet prepared. -/
def exampleParallelGroup : Event (List (Addr × Event (WaveConfig Int))) := ⟨2, 6, true, false, exampleParallelEvents.reverse⟩

/-- The piece. -/
def exampleParallelPiece : List (Addr × Event (Tree (WaveConfig Int ⊕ List (Addr × Event (WaveConfig Int))))) :=
  [(1, (exampleWaveEvent 0 4).withData (.leaf (.inl exampleWave))), (2, exampleParallelGroup.withData (.leaf (.inr exampleParallelGroup.data)))]

/-- The piece in memory. -/
def exampleParallelHeap : Heap (Event (Tree (WaveConfig Int ⊕ List (Addr × Event (WaveConfig Int))))) := fun b =>
  if b = 1 then some ⟨none, some 2, (exampleWaveEvent 0 4).withData (.leaf (.inl exampleWave))⟩
  else if b = 2 then some ⟨some 1, none, exampleParallelGroup.withData (.leaf (.inr exampleParallelGroup.data))⟩ else none

/-- Its sound. -/
def exampleParallelSound : Addr → Nat → Sound Int := fun a => if a = 1 then fun p => exampleWave2.mix 0 p else
  mixEvents exampleParallelEvents (fun _ q => addSound (exampleWave2.mix 0 q))

theorem exampleParallel_playable (run : Nat → Nat → List (Addr × Event (WaveConfig Int)) → Buf (Buf Int) →
      C (Nat × List (Addr × Event (WaveConfig Int)) × Buf (Buf Int))) (hrun : Scheduled (waveCb (S := Int)) run) :
    ∀ x ∈ exampleParallelPiece, Playable (fun n => 0 < n) (sumCb waveCb (parallelGroupCb waveCb run)) 9 2 0 x.2
      (exampleParallelSound x.1) := by
  have hsh : Shorter fun n => 0 < n := fun m n _ hm _ => hm
  intro x hx
  simp only [exampleParallelPiece, List.mem_cons, List.not_mem_nil, or_false] at hx
  rcases hx with rfl | rfl
  · exact .leaf (l := .inl exampleWave) rfl (C22_mixed_left _ (exampleWave_plays_nonempty 0 4 (by omega)))
  · refine .leaf (l := .inr exampleParallelGroup.data) rfl (C22_mixed_right (e := exampleParallelGroup) _
      (C165_parallel_group_plays (nch := 2) (F := fun _ q => exampleWave2.mix 0 q) (l := exampleParallelEvents) hrun
        waveCb_prepareKeepsTimes hsh (by simp) rfl (by simp [exampleParallelGroup]) ?_ ?_ ?_ (by simp [exampleParallelEvents])))
    · intro x hx
      simp only [exampleParallelEvents, List.mem_cons, List.not_mem_nil, or_false] at hx
      rcases hx with rfl | rfl
      · exact exampleWave_plays_nonempty 0 4 (by omega)
      · exact exampleWave_plays_nonempty 1 3 (by omega)
    · exact ⟨by simp [exampleParallelEvents, exampleWaveEvent, Event.withData], by simp [exampleParallelEvents, exampleWaveEvent, Event.withData],
        by simp [exampleParallelEvents, exampleWaveEvent, Event.withData]⟩
    · simp [exampleParallelEvents, exampleWaveEvent, Event.withData]

theorem exampleParallel_wellFormed : WellFormed exampleParallelHeap (some 1) exampleParallelPiece :=
  ⟨⟨rfl, some 2, by simp [exampleParallelHeap], rfl, none, by simp [exampleParallelHeap], rfl⟩, by simp [exampleParallelPiece]⟩

theorem exampleParallel_sorted : SortedEvents exampleParallelPiece :=
  ⟨by simp [exampleParallelPiece, exampleParallelGroup, exampleWaveEvent, Event.withData],
    by simp [exampleParallelPiece, exampleParallelGroup, exampleWaveEvent, Event.withData],
    by simp [exampleParallelPiece, exampleParallelGroup, exampleWaveEvent, Event.withData]⟩

example : ∃ run, Scheduled (waveCb (S := Int)) run ∧ ∃ s logs s' logs',
    seqBlocks (treeCb (sumCb waveCb (parallelGroupCb waveCb run)) 9 1) 9 (fun t => 0 + (t - 0)) 0 [1, 3, 6]
      ⟨exampleParallelHeap, some 1, blk 2 6 (fun _ _ => (0 : Int)), []⟩ = .ok (0, s, logs) ∧
    seqBlocks (treeCb (sumCb waveCb (parallelGroupCb waveCb run)) 9 1) 9 (fun t => 0 + (t - 0)) 0 [4, 6]
      ⟨exampleParallelHeap, some 1, blk 2 6 (fun _ _ => (0 : Int)), []⟩ = .ok (0, s', logs') ∧
    s.world = s'.world ∧
    s.world = blk 2 6 (applyRange (mixEvents exampleParallelPiece exampleParallelSound 0) 0 0 (6 - 0) fun _ _ => 0) := by
  obtain ⟨run, hrun⟩ := scheduled_exists (waveCb (S := Int))
  exact ⟨run, hrun, C165_piece (ok := fun n => 0 < n) (fun m n _ hm _ => hm) exampleParallel_playable exampleParallel_sorted
    (by simp [exampleParallelPiece, exampleParallelGroup, exampleWaveEvent, Event.withData]) exampleParallel_wellFormed
    (by simp [exampleParallelPiece]) (fun _ _ => 0) (by simp [Blocks]) rfl (by simp [blockBounds]) (by simp [Blocks]) rfl (by simp [blockBounds])
    (by simp) hrun hrun⟩

end Sp
