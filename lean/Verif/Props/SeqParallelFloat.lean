import Verif.Props.SeqParallel
import Verif.Spec.DoubleAdd
import Verif.Lemmas.WaveAdder
import Verif.Props.EventTree

/-!
# C156: `sp_seq_parallel` in double precision

Additions of floating point numbers can not be exchanged freely. The output of `sp_seq_parallel` does not depend on the
schedule nevertheless, because the calling thread adds the outputs of the events in the order of the list. It is that of `sp_seq`
if no event adds to a sample more than once.
-/

set_option linter.unusedSectionVars false

namespace Sp
variable {D S : Type}

/-- For events that satisfy `ok`, the generate functions add at most once to each sample in each call, and the prepare functions
lead to such events. -/
structure AdderOnce (f : Adder D S) (ok : Event D → Prop) : Prop where
  prepare : ∀ e st p, ok e → f.prepare e = .ok (st, p) → ok { p with prep := false }
  generate : ∀ x y e r, ok e → f.generate x y e = .ok r → (r.2.2.map fun w => (w.channel, w.index)).Nodup

/-- The event that the generate function of an item gets. -/
theorem AdderOnce.item [Add S] [Zero S] {f : Adder D S} {ok : Event D → Prop} (ho : AdderOnce f ok) {start stop ch : Nat} {it : Item D S}
    (h : ItemOk f start stop ch it) (he : ok it.e) : (it.ws.map fun w => (w.channel, w.index)).Nodup := by
  refine ho.generate _ _ _ _ ?_ h.generate
  cases hp : it.e.prep with
  | false => rw [h.noPrepare hp]; exact he
  | true =>
    obtain ⟨p, h1, h2⟩ := h.prepare hp
    rw [h2]
    exact ho.prepare _ _ _ he h1

section
variable {f : Adder D S} {start stop n : Nat} {l l' : List (Addr × Event D)} {out out' : Buf (Buf S)} {log : List Call}

/-- C156: with any addition, in particular the rounded addition of floating point numbers, two schedules that return
give the same output and the same events. -/
theorem C156_schedule_independent [Add S] [Zero S] (hk : AdderKeepsTimes f) (hr : AdderInRange f (List.length out))
    (hlt : start < stop) (hsm : stop < 2 ^ 32) (hn : stop - start ≤ n) (hrows : RowsOf n out)
    (hev : ∀ p ∈ l, p.2.start ≤ p.2.stop) (hnd : (l.map Prod.fst).Nodup)
    (hseq : seqListTop f.callbacks start stop 0 l out = .ok (0, l', out', log))
    {s t : Par D S} (hs : ParReach f start stop l out s) (ht : ParReach f start stop l out t) {st st' : Nat}
    (h1 : s.main = .returned st) (h2 : t.main = .returned st') :
    st = 0 ∧ st' = 0 ∧ s.out = t.out ∧ s.events = t.events := by
  obtain ⟨I, _, _, h⟩ := par_runs hk hr hlt hsm hn hrows hev hnd hseq
  obtain ⟨a1, a2, a3⟩ := (h s hs).2 st h1
  obtain ⟨b1, b2, b3⟩ := (h t ht).2 st' h2
  exact ⟨a1, b1, by rw [a2, b2], by rw [a3, b3]⟩

/-- C156 for events that add at most once to each sample: if zero is neutral, then whatever the addition is, the output is that of `sp_seq`.
Missing: events that add to a sample more than once; see `C156_bit_for_bit_false`. -/
theorem C156_bit_for_bit_partial [AddZeroClass S] {ok : Event D → Prop} (ho : AdderOnce f ok) (hok : ∀ p ∈ l, ok p.2) (hk : AdderKeepsTimes f)
    (hr : AdderInRange f (List.length out)) (hlt : start < stop) (hsm : stop < 2 ^ 32) (hn : stop - start ≤ n)
    (hrows : RowsOf n out) (hev : ∀ p ∈ l, p.2.start ≤ p.2.stop) (hnd : (l.map Prod.fst).Nodup)
    (hseq : seqListTop f.callbacks start stop 0 l out = .ok (0, l', out', log))
    {s : Par D S} (hs : ParReach f start stop l out s) {st : Nat} (h1 : s.main = .returned st) :
    st = 0 ∧ s.out = out' ∧ s.events = l' := by
  obtain ⟨I, hI, h2, h3⟩ := par_runs hk hr hlt hsm hn hrows hev hnd hseq
  rw [outAt_eq_seqAt I _ (fun it hit => ⟨fun w hw => ((hI it hit).1.range w hw).2,
    fun c j x => wfold_once it.ws (ho.item (hI it hit).1 (hok _ (hI it hit).2)) c j x⟩)] at h3
  rw [h2]
  exact (h3 s hs).2 st h1

/-- C156: the same for numbers of type `double`. -/
theorem C156_double_partial {rnd : ℚ → ℚ} {h : RoundsToNearest rnd} {f : Adder D (Dbl h)} {out out' : Buf (Buf (Dbl h))}
    {ok : Event D → Prop} (ho : AdderOnce f ok) (hok : ∀ p ∈ l, ok p.2) (hk : AdderKeepsTimes f)
    (hr : AdderInRange f (List.length out)) (hlt : start < stop) (hsm : stop < 2 ^ 32) (hn : stop - start ≤ n)
    (hrows : RowsOf n out) (hev : ∀ p ∈ l, p.2.start ≤ p.2.stop) (hnd : (l.map Prod.fst).Nodup)
    (hseq : seqListTop f.callbacks start stop 0 l out = .ok (0, l', out', log))
    {s : Par D (Dbl h)} (hs : ParReach f start stop l out s) {st : Nat} (h1 : s.main = .returned st) :
    st = 0 ∧ s.out = out' ∧ s.events = l' :=
  C156_bit_for_bit_partial ho hok hk hr hlt hsm hn hrows hev hnd hseq hs h1

end

/-! ## Wave events -/

section
variable [Mul S] {start stop n : Nat} {l l' : List (Addr × Event (WaveConfig S))} {out out' : Buf (Buf S)} {log : List Call}

/-- The channel configurations of a wave event are for different channels. -/
def DistinctChannels (e : Event (WaveConfig S)) : Prop :=
  ((e.data.channelConfig.map WaveChannel.channel).take e.data.channelCount).Nodup

theorem waveAdder_once [Add S] (nch : Nat) : AdderOnce (waveAdder (S := S) nch) DistinctChannels := by
  constructor
  · intro e st p he hp
    simp only [waveAdder] at hp
    obtain ⟨c, h1, hp⟩ := bind_eq_ok.1 hp
    simp only [pure_eq_ok, Except.ok.injEq, Prod.mk.injEq] at hp
    obtain ⟨_, rfl⟩ := hp
    obtain ⟨h2, h3⟩ := wavePrepare_channels h1
    rw [WaveConfig.channels, WaveConfig.channels] at h2
    simp only [DistinctChannels] at he ⊢
    rw [h2, h3]
    exact he
  · intro x y e r he h
    simp only [waveAdder] at h
    obtain ⟨⟨c, ws⟩, h1, h⟩ := bind_eq_ok.1 h
    simp only [pure_eq_ok, Except.ok.injEq] at h
    subst h
    simp only
    rw [(waveWrites_keys h1).1, List.nodup_flatMap]
    refine ⟨fun ch _ => List.nodup_range.map fun i j hij => by simpa using hij, ?_⟩
    refine List.Pairwise.imp ?_ he
    intro a b hab p h1 h2
    rw [List.mem_map] at h1 h2
    obtain ⟨i, _, rfl⟩ := h1
    obtain ⟨j, _, h2⟩ := h2
    simp only [Prod.mk.injEq] at h2
    exact hab h2.1.symm

/-- C156 for wave events with any addition and multiplication: if `sp_seq` is successful, then no schedule of `sp_seq_parallel`
leads to a fault, all that return have the same output, and this is that of `sp_seq` if zero is neutral and the events
have at most one configuration for each channel.
Missing: wave events with more configurations for a channel; see `C156_bit_for_bit_false`. -/
theorem C156_wave_partial [AddZeroClass S] (hlt : start < stop) (hsm : stop < 2 ^ 32) (hn : stop - start ≤ n)
    (hrows : RowsOf n out) (hev : ∀ p ∈ l, p.2.start ≤ p.2.stop) (hnd : (l.map Prod.fst).Nodup)
    (hch : ∀ p ∈ l, DistinctChannels p.2)
    (hseq : seqListTop waveCb start stop 0 l out = .ok (0, l', out', log))
    {s : Par (WaveConfig S) S} (hs : ParReach (waveAdder (List.length out)) start stop l out s) :
    (∀ r, ParStep (waveAdder (List.length out)) start stop s r → ∃ s', r = .ok s') ∧
      ∀ st, s.main = .returned st → st = 0 ∧ s.out = out' ∧ s.events = l' := by
  have hseq' := seqListTop_wave hseq
  obtain ⟨_, _, _, h⟩ := par_runs (waveAdder_times _) (waveAdder_range _) hlt hsm hn hrows hev hnd hseq'
  exact ⟨(h s hs).1, fun st h1 => C156_bit_for_bit_partial (waveAdder_once _) hch (waveAdder_times _) (waveAdder_range _) hlt hsm hn
    hrows hev hnd hseq' hs h1⟩

/-- C156, with exact addition: wave events with any number of configurations for a channel. -/
theorem C156_wave_exact [AddCommMonoid S] (hlt : start < stop) (hsm : stop < 2 ^ 32) (hn : stop - start ≤ n)
    (hrows : RowsOf n out) (hev : ∀ p ∈ l, p.2.start ≤ p.2.stop) (hnd : (l.map Prod.fst).Nodup)
    (hseq : seqListTop waveCb start stop 0 l out = .ok (0, l', out', log))
    {s : Par (WaveConfig S) S} (hs : ParReach (waveAdder (List.length out)) start stop l out s) :
    (∀ r, ParStep (waveAdder (List.length out)) start stop s r → ∃ s', r = .ok s') ∧
      ∀ st, s.main = .returned st → st = 0 ∧ s.out = out' ∧ s.events = l' :=
  C26_parallel_equals_sequential (waveAdder_times _) (waveAdder_range _) hlt hsm hn hrows hev hnd (seqListTop_wave hseq) hs

end

/-! ## Witnesses -/

/-- Two overlapping wave events that `sp_seq` renders, with configurations for different channels. -/
example : (seqListTop waveCb 2 6 0
    [(1, ⟨0, 4, true, false, exampleWave⟩), (2, ⟨3, 7, true, false, exampleWave⟩)] [[0, 0, 0, 0], [0, 0, 0, 0]]).map
      (fun r => (r.1, r.2.2.1)) = .ok (0, [[42, 50, 20, 42], [5, 13, 7, 7]]) ∧
      DistinctChannels (⟨0, 4, true, false, exampleWave⟩ : Event (WaveConfig Int)) := by
  refine ⟨by decide +kernel, ?_⟩
  unfold DistinctChannels
  decide

/-- Events that add `a` and then `b` to the first sample, if they are called for one sample. -/
def twiceAdder (a b : S) : Adder Unit S where
  prepare e := .ok (0, e)
  generate x y e := .ok (0, e, if x = 0 ∧ y = 1 then [⟨0, 0, a⟩, ⟨0, 0, b⟩] else [])
  free _ := .ok ()

/-- What `sp_seq` makes of one event that adds twice to a sample. -/
theorem twice_seq [Add S] (x a b : S) :
    ∃ l' log, seqListTop (twiceAdder a b).callbacks 0 1 0 [(1, ⟨0, 1, false, false, ()⟩)] [[x]] =
      .ok (0, l', [[x + a + b]], log) := by
  refine ⟨[(1, ⟨0, 1, false, false, ()⟩)], [.generate 1 0 1 0 0], ?_⟩
  have e1 : relStart 0 0 = 0 := by decide
  have e2 : relEnd 1 0 1 = 1 := by decide
  have e3 : relOffset 0 0 0 = 0 := by decide
  rw [seqListTop, seqList, if_neg (by decide), if_neg (by decide), seqEvent, prepareOptional, if_neg (by decide)]
  simp only [ok_bind', Adder.callbacks, twiceAdder, e1, e2, e3]
  simp [applyWrites, add2, rd2, wr2, rd, wr, seqList]

/-- What `sp_seq_parallel` makes of it. -/
theorem twice_par [Add S] [Zero S] (x a b : S) :
    ∃ s, ParReach (twiceAdder a b) 0 1 [(1, ⟨0, 1, false, false, ()⟩)] [[x]] s ∧ s.main = .returned 0 ∧
      s.out = [[x + (0 + a + b)]] := by
  let R := ParReach (twiceAdder a b) 0 1 [(1, ⟨0, 1, false, false, ()⟩)] [[x]]
  let E : List (Addr × Event Unit) := [(1, ⟨0, 1, false, false, ()⟩)]
  let A : Slot S := parSlot 0 1 1 1 (⟨0, 1, false, false, ()⟩ : Event Unit)
  let B : Slot S := { A with out := [[0 + a + b]], status := 0, fut := .returned }
  have h0 : R ⟨.distribute 0, E, [none], false, 0, [[x]]⟩ := .init
  have h1 : R ⟨.distribute 1, E, [some A], false, 1, [[x]]⟩ :=
    h0.step (.distribute (pos := 0) (a := 1) (e := ⟨0, 1, false, false, ()⟩) rfl rfl)
  have h2 : R ⟨.distribute 1, E, [some { A with fut := .prepared }], false, 1, [[x]]⟩ :=
    h1.step (.prepare (k := 0) (sf := A) rfl rfl)
  have e3 : futGenerate (twiceAdder a b) 0 { A with fut := .prepared }
      ⟨.distribute 1, E, [some { A with fut := .prepared }], false, 1, [[x]]⟩ =
      .ok ⟨.distribute 1, E, [some B], false, 1, [[x]]⟩ := by
    simp [futGenerate, E, A, B, loadEvent, setEvent, parSlot, twiceAdder, relStart, relEnd, sub32, newBlock, applyWrites, add2,
      rd2, wr2, rd, wr]
  have h3 : R ⟨.distribute 1, E, [some B], false, 1, [[x]]⟩ :=
    h2.step (e3 ▸ .generate (k := 0) (sf := { A with fut := .prepared }) rfl rfl)
  have h4 : R ⟨.merge 0, E, [some B], false, 1, [[x]]⟩ := h3.step (.distributeEnd (pos := 1) rfl rfl)
  have e5 : (mergeSlot B [[x]]).map (fun out => (⟨.merge 1, E, [some B], false, 1, out⟩ : Par Unit S)) =
      .ok ⟨.merge 1, E, [some B], false, 1, [[x + (0 + a + b)]]⟩ := by
    have : sub32 B.stop B.start = 1 := by simp [B, A, parSlot, relStart, relEnd, sub32]
    rw [mergeSlot, this]
    simp [forRange, iter, mergeChannel, B, A, parSlot, add2, rd2, wr2, rd, wr, Except.map]
  have h5 : R ⟨.merge 1, E, [some B], false, 1, [[x + (0 + a + b)]]⟩ :=
    h4.step (e5 ▸ .merge (i := 0) (sf := B) rfl rfl rfl rfl)
  have h6 : R ⟨.exit 0, E, [some B], false, 1, [[x + (0 + a + b)]]⟩ := h5.step (.mergeEnd (i := 1) rfl rfl)
  have h7 : R ⟨.returned 0, E, [some B], true, 1, [[x + (0 + a + b)]]⟩ := h6.step (.exit (st := 0) rfl)
  exact ⟨_, h7, rfl, rfl⟩

section
variable {rnd : ℚ → ℚ} (h : RoundsToNearest rnd)

theorem isDouble_large : IsDouble (2 ^ 53) := ⟨1, 53, by norm_num, by norm_num, by norm_num, by norm_num⟩
theorem isDouble_threeQuarters : IsDouble (3 / 4) := ⟨3, -2, by norm_num, by norm_num, by norm_num, by norm_num⟩

include h in
theorem rnd_sums : rnd (2 ^ 53 + 3 / 4) = 2 ^ 53 ∧ rnd (2 ^ 53 + 3 / 2) = 2 ^ 53 + 2 ∧ rnd (3 / 4 + 3 / 4) = 3 / 2 := by
  refine ⟨?_, ?_, ?_⟩
  · have := h.eq_of (q := 2 ^ 53 + 3 / 4) (k := 53) (M := 2 ^ 52) (by norm_num) (by norm_num) (by norm_num)
      (by norm_num [abs_of_pos]) (by norm_num [abs_of_pos]) (by norm_num [abs_of_pos])
    rw [this]
    norm_num
  · have := h.eq_of (q := 2 ^ 53 + 3 / 2) (k := 53) (M := 2 ^ 52 + 1) (by norm_num) (by norm_num) (by norm_num)
      (by norm_num [abs_of_neg]) (by norm_num [abs_of_pos, abs_of_neg]) (by norm_num [abs_of_pos])
    rw [this]
    norm_num
  · have : IsDouble (3 / 4 + 3 / 4) := ⟨3, -1, by norm_num, by norm_num, by norm_num, by norm_num⟩
    rw [h.exact this]
    norm_num

theorem small_le_max {q : ℚ} (hq : |q| ≤ 2 ^ 54) : |q| ≤ doubleMax :=
  hq.trans (by simpa using le_doubleMax (e := 54) (by norm_num))

/-- The sum of two numbers in range. -/
theorem Dbl.add_mk {p q r : ℚ} (hp : IsDouble p) (hq : IsDouble q) (hr : IsDouble r) (hs : |p + q| ≤ 2 ^ 54) (he : rnd (p + q) = r) :
    (Dbl.mk p hp + Dbl.mk q hq : Dbl h) = Dbl.mk r hr :=
  (dif_pos (small_le_max hs)).trans (congrArg some (Subtype.ext he))

/-- C156 is false of events that add to a sample twice, under every rounding to nearest: to 2^53 is added 3/4 twice, which
leaves it as it is, and the parallel version adds 3/2 instead, which makes it 2^53 + 2. -/
theorem C156_bit_for_bit_false : ∃ (f : Adder Unit (Dbl h)) (l : List (Addr × Event Unit)) (out : Buf (Buf (Dbl h))),
    AdderKeepsTimes f ∧ AdderInRange f 1 ∧
      (∃ l' log, seqListTop f.callbacks 0 1 0 l out = .ok (0, l', [[Dbl.mk (2 ^ 53) isDouble_large]], log)) ∧
      ∃ s hd, ParReach f 0 1 l out s ∧ s.main = .returned 0 ∧ s.out = [[Dbl.mk (2 ^ 53 + 2) hd]] := by
  obtain ⟨r1, r2, r3⟩ := rnd_sums h
  have d1 : IsDouble (2 ^ 53 + 2) := ⟨2 ^ 52 + 1, 1, by norm_num, by norm_num, by norm_num, by norm_num⟩
  have d2 : IsDouble (3 / 2) := ⟨3, -1, by norm_num, by norm_num, by norm_num, by norm_num⟩
  let x : Dbl h := Dbl.mk (2 ^ 53) isDouble_large
  let a : Dbl h := Dbl.mk (3 / 4) isDouble_threeQuarters
  have e1 : x + a = x := Dbl.add_mk h _ _ _ (by norm_num [abs_of_pos]) r1
  have e2 : a + a = Dbl.mk (3 / 2) d2 := Dbl.add_mk h _ _ _ (by norm_num [abs_of_pos]) r3
  have e3 : x + Dbl.mk (3 / 2) d2 = Dbl.mk (2 ^ 53 + 2) d1 := Dbl.add_mk h _ _ _ (by norm_num [abs_of_pos]) r2
  obtain ⟨l', log, t1⟩ := twice_seq x a a
  obtain ⟨s, t2, t3, t4⟩ := twice_par x a a
  rw [e1, e1] at t1
  rw [zero_add, e2, e3] at t4
  refine ⟨twiceAdder a a, _, [[x]], ?_, ?_, ⟨l', log, t1⟩, s, d1, t2, t3, t4⟩
  · intro e r hr
    simp only [twiceAdder, Except.ok.injEq] at hr
    subst hr
    exact ⟨rfl, rfl⟩
  · intro x y e r _ _ hr
    simp only [twiceAdder, Except.ok.injEq] at hr
    subst hr
    simp only
    split
    · next h0 =>
      intro w hw
      simp only [List.mem_cons, List.not_mem_nil, or_false, or_self] at hw
      subst hw
      rw [h0.1, h0.2]
      exact ⟨Nat.zero_lt_one, Nat.zero_lt_one⟩
    · simp

end

/-- Events that add a number once satisfy the hypothesis: here an event with two samples in the block. -/
example {S : Type} [AddZeroClass S] (a : S) : ∃ f : Adder Unit S, AdderOnce f (fun _ => True) ∧ ∃ e, f.generate 0 2 e = .ok (0, e, [⟨0, 0, a⟩, ⟨0, 1, a⟩]) := by
  refine ⟨⟨fun e => .ok (0, e), fun x y e => .ok (0, e, (List.range (sub32 y x)).map fun i => ⟨0, i, a⟩), fun _ => .ok ()⟩, ⟨fun _ _ _ _ _ => trivial, ?_⟩,
    ⟨0, 2, false, false, ()⟩, rfl⟩
  intro x y e r _ hr
  simp only [Except.ok.injEq] at hr
  subst hr
  simp only [List.map_map]
  refine List.Nodup.map ?_ List.nodup_range
  intro i j hij
  simpa using hij

end Sp
