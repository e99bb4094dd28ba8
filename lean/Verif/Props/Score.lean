import Verif.Model.Score
import Verif.Props.WaveDefaults
import Verif.Props.Group
import Verif.Props.FloatMix

/-!
# C148: scores rendered to files
-/

set_option linter.unusedSectionVars false

namespace Sp
variable {D W : Type}

/-! ### Building groups -/

theorem groupAdd_eq {cb : Callbacks D W} {fuel : Nat} {a : Addr} {e : Event D} {g : Group D} {w : W}
    {l : List (Addr × Event D)} (hf : l.length ≤ fuel) (hwf : WellFormed g.heap g.head l) (hnew : g.heap a = none) (h0 : e.stop ≠ 0) :
    ∃ heap head, groupAdd cb fuel a e g w = .ok (0, ⟨max g.stop e.stop, heap, head⟩, w) ∧
      WellFormed heap head (insertDesc Event.start (a, e) l) ∧ SameOutside g.heap heap (a :: l.map Prod.fst) := by
  obtain ⟨h', head', e2, w2, s2⟩ := eventListAdd_spec Event.start a e g.heap hnew g.head l fuel hf hwf
  refine ⟨h', head', ?_, w2, s2⟩
  unfold groupAdd addPrepare
  rw [if_neg h0, ok_bind']
  simp only [ne_eq, not_true_eq_false, if_false, e2, ok_bind']
  have : (if g.stop < e.stop then e.stop else g.stop) = max g.stop e.stop := by split <;> omega
  rw [this]
  rfl

theorem groupAppend_eq {cb : Callbacks D W} {fuel : Nat} {a : Addr} {e : Event D} {g : Group D} {w : W}
    {l : List (Addr × Event D)} (hf : l.length ≤ fuel) (hwf : WellFormed g.heap g.head l) (hnew : g.heap a = none) (h0 : e.stop ≠ 0)
    (h1 : e.start ≤ e.stop) (h2 : g.stop + e.stop < 4294967296) :
    ∃ heap head, groupAppend cb fuel a e g w = .ok (0, ⟨g.stop + e.stop, heap, head⟩, w) ∧
      WellFormed heap head (insertDesc Event.start (a, { e with start := g.stop + e.start, stop := g.stop + e.stop }) l) ∧
      SameOutside g.heap heap (a :: l.map Prod.fst) := by
  obtain ⟨h', head', e2, w2, s2⟩ := eventListAdd_spec Event.start a { e with start := g.stop + e.start, stop := g.stop + e.stop } g.heap hnew g.head l fuel hf hwf
  refine ⟨h', head', ?_, w2, s2⟩
  unfold groupAppend addPrepare
  rw [if_neg h0, ok_bind']
  have a1 : u32 (e.start + g.stop) = g.stop + e.start := by rw [Nat.add_comm, u32_of_lt (by omega)]
  have a2 : u32 (e.stop + g.stop) = g.stop + e.stop := by rw [Nat.add_comm, u32_of_lt h2]
  simp only [ne_eq, not_true_eq_false, if_false, a1, a2]
  refine bind_of e2 ?_
  rfl

/-- The events as `sp_group_append` puts them, one after the other. -/
def inTurn : Nat → List (Addr × Event D) → List (Addr × Event D)
  | _, [] => []
  | s, (a, e) :: rest => (a, { e with start := s + e.start, stop := s + e.stop }) :: inTurn (s + e.stop) rest

theorem inTurn_fst (s : Nat) (es : List (Addr × Event D)) : (inTurn s es).map Prod.fst = es.map Prod.fst := by
  induction es generalizing s with
  | nil => rfl
  | cons x rest ih => simp [inTurn, ih]

theorem groupEach_add {cb : Callbacks D W} {fuel : Nat} (es : List (Addr × Event D)) {g : Group D} (w : W)
    {l : List (Addr × Event D)} (hf : l.length + es.length ≤ fuel) (hwf : WellFormed g.heap g.head l)
    (hnew : ∀ a ∈ es.map Prod.fst, g.heap a = none) (hnd : (es.map Prod.fst).Nodup) (hstop : ∀ x ∈ es, x.2.stop ≠ 0)
    (hs : l.Pairwise fun x y => y.2.start ≤ x.2.start) :
    ∃ g' l', groupEach (groupAdd cb fuel) es g w = .ok (0, g', w) ∧ WellFormed g'.heap g'.head l' ∧
      l'.Perm (es ++ l) ∧ l'.Pairwise (fun x y => y.2.start ≤ x.2.start) ∧ g'.stop = es.foldl (fun m x => max m x.2.stop) g.stop := by
  induction es generalizing g l with
  | nil => exact ⟨g, l, rfl, hwf, .refl _, hs, rfl⟩
  | cons x rest ih =>
    obtain ⟨a, e⟩ := x
    simp only [List.length_cons] at hf
    obtain ⟨heap, head, h1, w2, s2⟩ := groupAdd_eq (cb := cb) (fuel := fuel) (w := w) (by omega) hwf (hnew a (by simp)) (hstop (a, e) (by simp))
    have hp := insertDesc_perm Event.start (a, e) l
    rw [List.map_cons, List.nodup_cons] at hnd
    obtain ⟨g', l', f1, f2, f3, f4, f5⟩ := ih (l := insertDesc Event.start (a, e) l) (g := ⟨max g.stop e.stop, heap, head⟩)
      (by rw [hp.length_eq, List.length_cons]; omega) w2 (by
        intro b hb
        have hb0 := hnew b (by simp only [List.map_cons, List.mem_cons]; exact .inr hb)
        simp only
        rw [s2 b]
        · exact hb0
        · simp only [List.mem_cons, not_or]
          exact ⟨fun hba => hnd.1 (hba ▸ hb), hwf.1.not_mem_of_none hb0⟩) hnd.2
      (fun x hx => hstop x (by simp [hx])) (insertDesc_sorted _ _ _ hs)
    refine ⟨g', l', ?_, f2, ?_, f4, f5⟩
    · unfold groupEach
      refine bind_of h1 ?_
      simp only [ne_eq, not_true_eq_false, if_false]
      exact f1
    · exact f3.trans ((List.Perm.append_left rest hp).trans List.perm_middle)

theorem groupEach_append {cb : Callbacks D W} {fuel : Nat} (es : List (Addr × Event D)) {g : Group D} (w : W)
    {l : List (Addr × Event D)} (hf : l.length + es.length ≤ fuel) (hwf : WellFormed g.heap g.head l)
    (hnew : ∀ a ∈ es.map Prod.fst, g.heap a = none) (hnd : (es.map Prod.fst).Nodup) (hstop : ∀ x ∈ es, x.2.stop ≠ 0)
    (hord : ∀ x ∈ es, x.2.start ≤ x.2.stop) (hsum : es.foldl (fun m x => m + x.2.stop) g.stop < 4294967296)
    (hs : l.Pairwise fun x y => y.2.start ≤ x.2.start) :
    ∃ g' l', groupEach (groupAppend cb fuel) es g w = .ok (0, g', w) ∧ WellFormed g'.heap g'.head l' ∧
      l'.Perm (inTurn g.stop es ++ l) ∧ l'.Pairwise (fun x y => y.2.start ≤ x.2.start) ∧ g'.stop = es.foldl (fun m x => m + x.2.stop) g.stop := by
  induction es generalizing g l with
  | nil => exact ⟨g, l, rfl, hwf, .refl _, hs, rfl⟩
  | cons x rest ih =>
    obtain ⟨a, e⟩ := x
    simp only [List.length_cons] at hf
    simp only [List.foldl_cons] at hsum
    have hle : ∀ (r : List (Addr × Event D)) (m : Nat), m ≤ r.foldl (fun m x => m + x.2.stop) m := by
      intro r
      induction r with
      | nil => intro m; exact Nat.le_refl _
      | cons y r ih => intro m; exact Nat.le_trans (Nat.le_add_right _ _) (ih _)
    obtain ⟨heap, head, h1, w2, s2⟩ := groupAppend_eq (cb := cb) (fuel := fuel) (w := w) (by omega) hwf (hnew a (by simp)) (hstop (a, e) (by simp))
      (hord (a, e) (by simp)) (by have := hle rest (g.stop + e.stop); show g.stop + e.stop < 4294967296; omega)
    have hp := insertDesc_perm Event.start (a, { e with start := g.stop + e.start, stop := g.stop + e.stop }) l
    rw [List.map_cons, List.nodup_cons] at hnd
    obtain ⟨g', l', f1, f2, f3, f4, f5⟩ := ih (l := insertDesc Event.start _ l) (g := ⟨g.stop + e.stop, heap, head⟩)
      (by rw [hp.length_eq, List.length_cons]; omega) w2 (by
        intro b hb
        have hb0 := hnew b (by simp only [List.map_cons, List.mem_cons]; exact .inr hb)
        simp only
        rw [s2 b]
        · exact hb0
        · simp only [List.mem_cons, not_or]
          exact ⟨fun hba => hnd.1 (hba ▸ hb), hwf.1.not_mem_of_none hb0⟩) hnd.2
      (fun x hx => hstop x (by simp [hx])) (fun x hx => hord x (by simp [hx])) hsum (insertDesc_sorted _ _ _ hs)
    refine ⟨g', l', ?_, f2, ?_, f4, f5⟩
    · unfold groupEach
      refine bind_of h1 ?_
      simp only [ne_eq, not_true_eq_false, if_false]
      exact f1
    · exact f3.trans ((List.Perm.append_left _ hp).trans List.perm_middle)

/-! ### The tones of groups -/

variable {S : Type}

/-- The tones of an event at a time. -/
def partTones (T : Addr → Nat → Nat → Nat → List (S × S × S)) (ch t : Nat) (y : Addr × Event D) : List (S × S × S) :=
  if y.2.start ≤ t ∧ t < y.2.stop then T y.1 0 ch (t - y.2.start) else []

theorem eventTones_part (l : List (Addr × Event D)) (T : Addr → Nat → Nat → Nat → List (S × S × S)) (ch t : Nat) :
    eventTones l T 0 ch t = l.flatMap (partTones T ch t) := by
  unfold eventTones partTones
  simp only [Nat.zero_sub]

/-- The event `y` is the one of the score `p`: it ends when the score ends, and has the tones of the score. -/
def EventOf (tone : Nat × ℝ × Nat → S × S × S) (limit : Nat) (T : Addr → Nat → Nat → Nat → List (S × S × S)) (y : Addr × Event D) (p : Score) : Prop :=
  y.2.stop = p.stop ∧ y.2.start < y.2.stop ∧ ∀ ch < limit, ∀ t, (partTones T ch t y).Perm ((p.sounding t).map tone)

variable {tone : Nat × ℝ × Nat → S × S × S}

theorem tones_together {limit : Nat} {T : Addr → Nat → Nat → Nat → List (S × S × S)} {es : List (Addr × Event D)} {ps : List Score}
    (h : List.Forall₂ (EventOf tone limit T) es ps) {ch : Nat} (hch : ch < limit) (t : Nat) :
    (es.flatMap (partTones T ch t)).Perm ((soundingOf ps t).map tone) := by
  induction h with
  | nil => rw [soundingOf]; exact .nil
  | cons h _ ih => rw [List.flatMap_cons, soundingOf, List.map_append]; exact (h.2.2 ch hch t).append ih

theorem tones_inTurn {limit : Nat} {T : Addr → Nat → Nat → Nat → List (S × S × S)} {es : List (Addr × Event D)} {ps : List Score}
    (h : List.Forall₂ (EventOf tone limit T) es ps) {ch : Nat} (hch : ch < limit) (s t : Nat) :
    ((inTurn s es).flatMap (partTones T ch t)).Perm ((if s ≤ t then soundingInTurn ps (t - s) else []).map tone) := by
  induction h generalizing s with
  | nil => simp [inTurn, soundingInTurn]
  | @cons y p es ps h _ ih =>
    obtain ⟨a, e⟩ := y
    obtain ⟨h1, h2, h3⟩ := h
    simp only at h1 h2
    rw [inTurn, List.flatMap_cons, soundingInTurn]
    by_cases hs : s ≤ t
    · rw [if_pos hs, List.map_append]
      refine List.Perm.append ?_ ?_
      · have e0 : partTones T ch t (a, { e with start := s + e.start, stop := s + e.stop }) = partTones T ch (t - s) (a, e) := by
          unfold partTones
          simp only
          rw [show t - (s + e.start) = t - s - e.start by omega]
          exact if_congr (by omega) rfl rfl
        rw [e0]
        exact h3 ch hch (t - s)
      · refine (ih (s + e.stop)).trans ?_
        rw [h1]
        by_cases h4 : p.stop ≤ t - s
        · rw [if_pos h4, if_pos (by omega), Nat.sub_sub]
        · rw [if_neg h4, if_neg (by omega)]
    · have := ih (s + e.stop)
      rw [if_neg (by omega)] at this
      rw [if_neg hs]
      have e0 : partTones T ch t (a, { e with start := s + e.start, stop := s + e.stop }) = [] := by
        unfold partTones
        rw [if_neg (by simp only; omega)]
      rw [e0, List.nil_append]
      exact this

theorem foldl_longest {limit : Nat} {T : Addr → Nat → Nat → Nat → List (S × S × S)} {es : List (Addr × Event D)} {ps : List Score}
    (h : List.Forall₂ (EventOf tone limit T) es ps) (m : Nat) : es.foldl (fun m x => max m x.2.stop) m = max m (longest ps) := by
  induction h generalizing m with
  | nil => simp [longest]
  | cons h _ ih => rw [List.foldl_cons, ih, longest, h.1, Nat.max_assoc]

theorem foldl_total {limit : Nat} {T : Addr → Nat → Nat → Nat → List (S × S × S)} {es : List (Addr × Event D)} {ps : List Score}
    (h : List.Forall₂ (EventOf tone limit T) es ps) (m : Nat) : es.foldl (fun m x => m + x.2.stop) m = m + total ps := by
  induction h generalizing m with
  | nil => simp [total]
  | cons h _ ih => rw [List.foldl_cons, ih, total, h.1, Nat.add_assoc]

/-! ### Groups of playable events -/

theorem tones_after {T : Addr → Nat → Nat → Nat → List (S × S × S)} {ch t : Nat} {l : List (Addr × Event D)} (h : ∀ y ∈ l, y.2.stop ≤ t) :
    l.flatMap (partTones T ch t) = [] := by
  rw [List.flatMap_eq_nil_iff]
  intro y hy
  unfold partTones
  rw [if_neg (by have := h y hy; omega)]

variable [Add S] [Mul S] [Zero S] [One S]

theorem group_event {fuel limit d onset stop : Nat} {heap : Heap (Event (Tree (WaveConfig S)))} {head : Option Addr}
    {l' lst : List (Addr × Event (Tree (WaveConfig S)))} {F : Addr → Nat → Sound S} {T : Addr → Nat → Nat → Nat → List (S × S × S)}
    (hwf : WellFormed heap head l') (hperm : l'.Perm lst)
    (hdesc : l'.Pairwise fun x y => y.2.start ≤ x.2.start) (hlen : lst.length < fuel)
    (hplay : ∀ y ∈ lst, WaveTree 0 fuel limit d y.2 (F y.1) (T y.1))
    (hord : ∀ y ∈ lst, y.2.start < y.2.stop ∧ y.2.stop ≤ stop) (hne : lst ≠ []) (hstop : onset + stop < 4294967296) :
    ∃ G U, (∀ m, WaveTree 0 fuel limit (d + 1) (⟨m + onset, m + (onset + stop), true, false, .group heap head⟩ : Event (Tree (WaveConfig S))) G U) ∧ 0 < stop ∧
      ∀ ch t, (if onset ≤ t ∧ t < onset + stop then U 0 ch (t - onset) else []).Perm
        (if onset ≤ t then lst.flatMap (partTones T ch (t - onset)) else []) := by
  have hmem : ∀ y, y ∈ l'.reverse → y ∈ lst := fun y hy => hperm.mem_iff.1 (List.mem_reverse.1 hy)
  refine ⟨mixEvents l'.reverse F, eventTones l'.reverse T, fun m => .group (l := l'.reverse) rfl ?_ ?_ ⟨?_, ?_, ?_⟩ ?_ (fun y hy => hplay y (hmem y hy)), ?_, ?_⟩
  · simpa using hwf
  · rw [List.length_reverse, hperm.length_eq]; exact hlen
  · exact List.pairwise_reverse.2 hdesc
  · exact fun y hy => (hord y (hmem y hy)).1.le
  · intro y hy
    have := (hord y (hmem y hy)).2
    omega
  · simp only; omega
  · obtain ⟨y, hy⟩ := List.exists_mem_of_ne_nil _ hne
    have := hord y hy
    omega
  · intro ch t
    by_cases h1 : onset ≤ t
    · rw [if_pos h1]
      by_cases h2 : t < onset + stop
      · rw [if_pos ⟨h1, h2⟩, eventTones_part]
        exact ((List.reverse_perm l').trans hperm).flatMap_right _
      · rw [if_neg (by omega), tones_after]
        intro y hy
        have := (hord y hy).2
        omega
    · rw [if_neg h1, if_neg (by omega)]

theorem schedule_group {L : Type} {heap : Heap (Event (Tree L))} {head : Option Addr} {stop onset : Nat} (h : onset + stop < 4294967296) :
    eventSchedule (⟨0, stop, true, false, .group heap head⟩ : Event (Tree L)) onset 0 none = ⟨onset, onset + stop, true, false, .group heap head⟩ := by
  unfold eventSchedule
  simp only [Nat.zero_add, Nat.add_zero]
  rw [u32_of_lt (n := onset) (by omega), Nat.add_comm stop onset, u32_of_lt h]

theorem wellFormed_nil {E : Type} : WellFormed (fun _ => none : Heap E) none [] := ⟨rfl, by simp⟩

/-- The tone that sounds: its amplitude is one, the modulation is the value of the envelope, the waveform is the table. -/
def toneOf (table : Buf S) (rate : Nat) (conv : ℝ → S) (x : Nat × ℝ × Nat) : S × S × S := (1, conv x.2.1, table.getD ((x.1 * x.2.2) % rate) 0)

/-- The wave event of a tone. -/
theorem tone_tree {rate frq limit duration fuel d : Nat} {env : Buf S} (hr : 2 ≤ rate)
    (hf : rate + frq ≤ 4294967296) (hl : 0 < limit) (henv : duration ≤ env.length) {table : Buf S} {c : WaveConfig S}
    (ht : table.length = rate) (hc : waveDefaults limit table rate = .ok c) :
    ∃ G U, (∀ onset, WaveTree 0 fuel limit d ⟨onset, onset + duration, true, false, .leaf (withTone c frq env)⟩ G U) ∧
      ∀ ch < limit, ∀ i, U 0 ch i = [(1, env.getD i 0, table.getD ((frq * i) % rate) 0)] := by
  obtain ⟨c', c1, c2⟩ := wavePrepare_tone hl table rate frq env
  rw [hc] at c1
  cases c1
  refine ⟨_, _, fun onset => .wave (c0 := withTone c frq env)
    (c := ⟨table, rate, limit, tab limit fun i => ⟨some env, 1, i, none, frq, 0, none, true⟩⟩) rfl c2 ?_, ?_⟩
  · refine ⟨ht, by simp, ?_⟩
    intro cc hcc
    simp only [tab, List.mem_map, List.mem_range] at hcc
    obtain ⟨i, hi, rfl⟩ := hcc
    exact ⟨⟨env, rfl, by simpa using henv⟩, by simp [OptLen], by simp [OptLen], by simp only; omega, hi⟩
  · intro ch hch i
    unfold WaveConfig.tones
    simp only
    have e1 : (tab limit fun i => (⟨some env, 1, i, none, frq, 0, none, true⟩ : WaveChannel S)).filter (fun cc => decide (cc.channel = ch)) =
        [⟨some env, 1, ch, none, frq, 0, none, true⟩] := by
      rw [tab, List.filter_map]
      have : ((fun cc : WaveChannel S => decide (cc.channel = ch)) ∘ fun i => ⟨some env, 1, i, none, frq, 0, none, true⟩) = fun i => decide (i = ch) := rfl
      rw [this]
      have : (List.range limit).filter (fun i => decide (i = ch)) = [ch] := by
        have h1 : (fun i => decide (i = ch)) = (· == ch) := by funext i; rw [Bool.eq_iff_iff]; simp
        rw [h1, List.filter_beq, List.count_eq_one_of_mem List.nodup_range (by simpa using hch)]
        rfl
      rw [this]
      rfl
    rw [e1, List.map_cons, List.map_nil]
    unfold WaveChannel.index WaveChannel.phaseAt
    simp only [optGet]
    have : phaseAfter rate (WaveChannel.change (⟨some env, 1, ch, none, frq, 0, none, true⟩ : WaveChannel S)) 0 0 (i - 0) = (frq * i) % rate := by
      have := phaseAfter_const (w := rate) (f := frq) (by omega) hf 0 0 (i - 0) (by omega)
      rw [Nat.zero_add, Nat.sub_zero] at this
      exact this
    rw [this]

/-- What is shown of the event of each score. -/
def ScoreBuilt (tone : Nat × ℝ × Nat → S × S × S) (limit fuel d : Nat) (e : Event (Tree (WaveConfig S))) (G : Nat → Sound S)
    (U : Nat → Nat → Nat → List (S × S × S)) (s : Score) : Prop :=
  (∀ m, m + e.stop < 4294967296 → WaveTree 0 fuel limit d { e with start := m + e.start, stop := m + e.stop } G U) ∧
    EventOf tone limit (fun _ => U) (0, e) s

mutual
theorem scoreEvent_ok {W : Type} {cb : Callbacks (Tree (WaveConfig S)) W} {rate limit fuel : Nat} (hr : 2 ≤ rate)
    (hl : 0 < limit) {table : Buf S} {c : WaveConfig S} (ht : table.length = rate)
    (hc : waveDefaults limit table rate = .ok c) (conv : ℝ → S) (w : W) :
    ∀ (s : Score) (d : Nat), s.depth ≤ d → s.Valid rate fuel → s.stop < 4294967296 →
      ∃ e G U, scoreEvent cb fuel c conv s w = .ok (e, w) ∧ ScoreBuilt (toneOf table rate conv) limit fuel d e G U s
  | .tone onset duration frq env, d, _, hv, hs => by
    simp only [Score.Valid] at hv
    simp only [Score.stop] at hs
    obtain ⟨hv1, hv2, hv3⟩ := hv
    obtain ⟨G, U, g1, g2⟩ := tone_tree (duration := duration) (fuel := fuel) (d := d) (env := env.map conv) hr hv3 hl (by simpa using hv2) ht hc
    have e0 : toneEvent c onset duration frq (env.map conv) = ⟨onset, onset + duration, true, false, .leaf (withTone c frq (env.map conv))⟩ :=
      C111_schedule_partial rfl rfl hs none
    refine ⟨⟨onset, onset + duration, true, false, .leaf (withTone c frq (env.map conv))⟩, G, U, by rw [scoreEvent, e0], fun m _ => ?_, by simp [Score.stop], by simp only; omega, ?_⟩
    · have := g1 (m + onset)
      rw [Nat.add_assoc] at this
      exact this
    · intro ch hch t
      unfold partTones
      simp only [Score.sounding]
      split
      · rename_i hi
        rw [g2 ch hch, List.map_cons, List.map_nil, toneOf]
        simp only
        have hlt : t - onset < env.length := by omega
        have e1 : (env.map conv).getD (t - onset) 0 = conv (env.getD (t - onset) 0) := by
          rw [List.getD_eq_getElem?_getD, List.getD_eq_getElem?_getD, List.getElem?_map, List.getElem?_eq_getElem hlt]
          rfl
        rw [e1]
      · exact .nil
  | .together onset parts, d, hd, hv, hs => by
    simp only [Score.Valid] at hv
    simp only [Score.stop] at hs
    simp only [Score.depth] at hd
    obtain ⟨d, rfl⟩ : ∃ k, d = k + 1 := ⟨d - 1, by omega⟩
    obtain ⟨es, F, T, b1, b2, b3, b4, b5, b6⟩ := scoreEvents_ok (cb := cb) (fuel := fuel) hr hl ht hc conv w parts d 0 (by omega) hv.2.2 (by
        have : ∀ ps : List Score, ∀ p ∈ ps, p.stop ≤ longest ps := by
          intro ps
          induction ps with
          | nil => simp
          | cons q r ih =>
            intro p hp
            rw [longest]
            rcases List.mem_cons.1 hp with rfl | hp
            · omega
            · have := ih p hp; omega
        intro p hp
        have := this parts p hp
        omega)
    have hlen : es.length = parts.length := b4.length_eq
    obtain ⟨g', l', f1, f2, f3, f4, f5⟩ := groupEach_add (cb := cb) (fuel := fuel) (g := ⟨0, fun _ => none, none⟩) es w (l := [])
      (by simp only [List.length_nil]; omega) wellFormed_nil (by simp) b3 (fun x hx => by have := b6 x hx; omega) List.Pairwise.nil
    rw [List.append_nil] at f3
    rw [foldl_longest b4] at f5
    simp only [Nat.zero_max] at f5
    have hst : ∀ y ∈ es, y.2.stop ≤ longest parts := by
      have := foldl_longest b4 0
      rw [Nat.zero_max] at this
      rw [← this]
      clear * -
      have : ∀ (m : Nat) (r : List (Addr × Event (Tree (WaveConfig S)))), m ≤ r.foldl (fun m x => max m x.2.stop) m ∧
          ∀ y ∈ r, y.2.stop ≤ r.foldl (fun m x => max m x.2.stop) m := by
        intro m r
        induction r generalizing m with
        | nil => simp
        | cons z r ih =>
          rw [List.foldl_cons]
          have := ih (max m z.2.stop)
          refine ⟨by omega, fun y hy => ?_⟩
          rcases List.mem_cons.1 hy with rfl | hy
          · omega
          · exact this.2 y hy
      exact (this 0 es).2
    obtain ⟨G, U, g1, g2, g4⟩ := group_event (fuel := fuel) (limit := limit) (d := d) (stop := longest parts) (onset := onset) f2 f3 f4 (by omega)
      (fun y hy => by have := b5 y hy 0 (by have := hst y hy; omega); simpa using this) (fun y hy => ⟨b6 y hy, hst y hy⟩)
      (by intro h0; rw [h0] at hlen; exact hv.1 (List.eq_nil_of_length_eq_zero hlen.symm)) hs
    refine ⟨⟨onset, onset + longest parts, true, false, .group g'.heap g'.head⟩, G, U, ?_, fun m _ => g1 m, by simp [Score.stop], by simp only; omega, ?_⟩
    · rw [scoreEvent]
      refine bind_of b1 ?_
      simp only
      unfold groupOf
      refine bind_of f1 ?_
      simp only [ne_eq, not_true_eq_false, if_false]
      rw [f5, schedule_group hs]
      rfl
    · intro ch hch t
      unfold partTones
      simp only [Score.sounding]
      refine (g4 ch t).trans ?_
      split
      · exact tones_together b4 hch _
      · exact .nil
  | .sequence onset parts, d, hd, hv, hs => by
    simp only [Score.Valid] at hv
    simp only [Score.stop] at hs
    simp only [Score.depth] at hd
    obtain ⟨d, rfl⟩ : ∃ k, d = k + 1 := ⟨d - 1, by omega⟩
    obtain ⟨es, F, T, b1, b2, b3, b4, b5, b6⟩ := scoreEvents_ok (cb := cb) (fuel := fuel) hr hl ht hc conv w parts d 0 (by omega) hv.2.2 (by
        have : ∀ ps : List Score, ∀ p ∈ ps, p.stop ≤ total ps := by
          intro ps
          induction ps with
          | nil => simp
          | cons q r ih =>
            intro p hp
            rw [total]
            rcases List.mem_cons.1 hp with rfl | hp
            · omega
            · have := ih p hp; omega
        intro p hp
        have := this parts p hp
        omega)
    have hlen : es.length = parts.length := b4.length_eq
    obtain ⟨g', l', f1, f2, f3, f4, f5⟩ := groupEach_append (cb := cb) (fuel := fuel) (g := ⟨0, fun _ => none, none⟩) es w (l := [])
      (by simp only [List.length_nil]; omega) wellFormed_nil (by simp) b3 (fun x hx => by have := b6 x hx; omega) (fun x hx => (b6 x hx).le)
      (by rw [foldl_total b4]; simp only; omega) List.Pairwise.nil
    rw [List.append_nil] at f3
    rw [foldl_total b4] at f5
    simp only [Nat.zero_add] at f5
    simp only at f3
    have hin : ∀ (r : List (Addr × Event (Tree (WaveConfig S)))) (m : Nat), (∀ y ∈ r, y.2.start < y.2.stop) →
        m ≤ r.foldl (fun m x => m + x.2.stop) m ∧ ∀ y ∈ inTurn m r, (y.2.start < y.2.stop ∧ y.2.stop ≤ r.foldl (fun m x => m + x.2.stop) m) ∧
          ∃ z ∈ r, y.1 = z.1 ∧ ∃ a, y.2 = { z.2 with start := a + z.2.start, stop := a + z.2.stop } := by
      intro r
      induction r with
      | nil => intro m _; simp [inTurn]
      | cons z r ih =>
        intro m hz
        obtain ⟨h1, h2⟩ := ih (m + z.2.stop) (fun y hy => hz y (by simp [hy]))
        rw [List.foldl_cons]
        have hz0 := hz z (by simp)
        refine ⟨by omega, fun y hy => ?_⟩
        rw [inTurn] at hy
        rcases List.mem_cons.1 hy with rfl | hy
        · exact ⟨⟨by simp only; omega, h1⟩, z, by simp, rfl, _, rfl⟩
        · obtain ⟨q1, z', q2, q3⟩ := h2 y hy
          exact ⟨q1, z', by simp [q2], q3⟩
    obtain ⟨-, hst⟩ := hin es 0 b6
    rw [foldl_total b4, Nat.zero_add] at hst
    obtain ⟨G, U, g1, g2, g4⟩ := group_event (fuel := fuel) (limit := limit) (d := d) (stop := total parts) (onset := onset) f2 f3 f4
      (by rw [← List.length_map (f := Prod.fst), inTurn_fst, List.length_map]; omega)
      (fun y hy => by
        obtain ⟨⟨_, h0⟩, z, hz, h1, a, h2⟩ := hst y hy
        rw [h2] at h0
        rw [h1, h2]
        exact b5 z hz a (by simp only at h0; omega))
      (fun y hy => (hst y hy).1)
      (by
        intro h0
        have h1 := congrArg (List.map Prod.fst) h0
        rw [inTurn_fst, List.map_nil, List.map_eq_nil_iff] at h1
        rw [h1] at hlen
        exact hv.1 (List.eq_nil_of_length_eq_zero hlen.symm)) hs
    refine ⟨⟨onset, onset + total parts, true, false, .group g'.heap g'.head⟩, G, U, ?_, fun m _ => g1 m, by simp [Score.stop], by simp only; omega, ?_⟩
    · rw [scoreEvent]
      refine bind_of b1 ?_
      simp only
      unfold groupOf
      refine bind_of f1 ?_
      simp only [ne_eq, not_true_eq_false, if_false]
      rw [f5, schedule_group hs]
      rfl
    · intro ch hch t
      unfold partTones
      simp only [Score.sounding]
      refine (g4 ch t).trans ?_
      split
      · have := tones_inTurn b4 hch 0 (t - onset)
        rwa [if_pos (Nat.zero_le _), Nat.sub_zero] at this
      · exact .nil
theorem scoreEvents_ok {W : Type} {cb : Callbacks (Tree (WaveConfig S)) W} {rate limit fuel : Nat} (hr : 2 ≤ rate)
    (hl : 0 < limit) {table : Buf S} {c : WaveConfig S} (ht : table.length = rate)
    (hc : waveDefaults limit table rate = .ok c) (conv : ℝ → S) (w : W) :
    ∀ (ps : List Score) (d k : Nat), deepest ps ≤ d → AllValid rate fuel ps → (∀ p ∈ ps, p.stop < 4294967296) →
      ∃ (es : List (Addr × Event (Tree (WaveConfig S)))) (F : Addr → Nat → Sound S) (T : Addr → Nat → Nat → Nat → List (S × S × S)),
        scoreEvents cb fuel c conv k ps w = .ok (es, w) ∧ (∀ a ∈ es.map Prod.fst, k ≤ a) ∧ (es.map Prod.fst).Nodup ∧
        List.Forall₂ (EventOf (toneOf table rate conv) limit T) es ps ∧
        (∀ y ∈ es, ∀ m, m + y.2.stop < 4294967296 → WaveTree 0 fuel limit d { y.2 with start := m + y.2.start, stop := m + y.2.stop } (F y.1) (T y.1)) ∧
        ∀ y ∈ es, y.2.start < y.2.stop
  | [], d, k, _, _, _ => by
    refine ⟨[], fun _ _ _ _ x => x, fun _ _ _ _ => [], by rw [scoreEvents], by simp, by simp, .nil, by simp, by simp⟩
  | p :: rest, d, k, hd, hv, hs => by
    simp only [deepest] at hd
    simp only [AllValid] at hv
    obtain ⟨e, G, U, e1, e2, e3⟩ := scoreEvent_ok (cb := cb) (fuel := fuel) hr hl ht hc conv w p d (by omega) hv.1 (hs p (by simp))
    obtain ⟨es, F, T, b1, b2, b3, b4, b5, b6⟩ := scoreEvents_ok (cb := cb) (fuel := fuel) hr hl ht hc conv w rest d (k + 1) (by omega) hv.2
      (fun q hq => hs q (by simp [hq]))
    have hne : ∀ y ∈ es, y.1 ≠ k := by
      intro y hy
      have := b2 y.1 (List.mem_map_of_mem hy)
      exact Nat.ne_of_gt this
    refine ⟨(k, e) :: es, fun a => if a = k then G else F a, fun a => if a = k then U else T a, ?_, ?_, ?_, ?_, ?_, ?_⟩
    · rw [scoreEvents]
      refine bind_of e1 ?_
      refine bind_of b1 ?_
      rfl
    · intro a ha
      rw [List.map_cons, List.mem_cons] at ha
      rcases ha with rfl | ha
      · exact Nat.le_refl _
      · have := b2 a ha; omega
    · rw [List.map_cons, List.nodup_cons]
      exact ⟨fun h => by have := b2 _ h; simp only at this; omega, b3⟩
    · refine .cons ⟨e3.1, e3.2.1, fun ch hch t => ?_⟩ ?_
      · have := e3.2.2 ch hch t
        unfold partTones at this ⊢
        simpa using this
      · have : ∀ (es : List (Addr × Event (Tree (WaveConfig S)))) (ps : List Score), (∀ y ∈ es, y.1 ≠ k) →
            List.Forall₂ (EventOf (toneOf table rate conv) limit T) es ps →
            List.Forall₂ (EventOf (toneOf table rate conv) limit fun a => if a = k then U else T a) es ps := by
          intro es ps h1 h2
          induction h2 with
          | nil => exact .nil
          | @cons y q es ps h _ ih =>
            refine .cons ⟨h.1, h.2.1, fun ch hch t => ?_⟩ (ih fun z hz => h1 z (by simp [hz]))
            have := h.2.2 ch hch t
            unfold partTones at this ⊢
            simpa only [if_neg (h1 y (by simp))] using this
        exact this es rest hne b4
    · intro y hy
      rcases List.mem_cons.1 hy with rfl | hy
      · simp only [if_true]
        exact e2
      · simp only [if_neg (hne y hy)]
        exact b5 y hy
    · intro y hy
      rcases List.mem_cons.1 hy with rfl | hy
      · exact e3.2.1
      · exact b6 y hy
end

mutual
/-- The sample of a score is the sum of the tones that sound. -/
theorem sample_sounding (rate : Nat) : ∀ (s : Score) (t : Nat),
    s.sample rate t = ((s.sounding t).map fun x => x.2.1 * Real.sin (2 * Real.pi * x.1 * (x.2.2 : ℝ) / rate)).sum
  | .tone onset duration frq env, t => by
    rw [Score.sample, Score.sounding]
    split <;> simp
  | .together onset parts, t => by
    rw [Score.sample, Score.sounding]
    split
    · exact sumOf_sounding rate parts _
    · simp
  | .sequence onset parts, t => by
    rw [Score.sample, Score.sounding]
    split
    · exact sumInTurn_sounding rate parts _
    · simp
theorem sumOf_sounding (rate : Nat) : ∀ (ps : List Score) (t : Nat),
    sumOf rate ps t = ((soundingOf ps t).map fun x => x.2.1 * Real.sin (2 * Real.pi * x.1 * (x.2.2 : ℝ) / rate)).sum
  | [], t => by simp [sumOf, soundingOf]
  | p :: rest, t => by
    rw [sumOf, soundingOf, List.map_append, List.sum_append, sample_sounding rate p t, sumOf_sounding rate rest t]
theorem sumInTurn_sounding (rate : Nat) : ∀ (ps : List Score) (t : Nat),
    sumInTurn rate ps t = ((soundingInTurn ps t).map fun x => x.2.1 * Real.sin (2 * Real.pi * x.1 * (x.2.2 : ℝ) / rate)).sum
  | [], t => by simp [sumInTurn, soundingInTurn]
  | p :: rest, t => by
    rw [sumInTurn, soundingInTurn, List.map_append, List.sum_append, sample_sounding rate p t]
    split
    · rw [sumInTurn_sounding rate rest]
    · simp
end

theorem addTones_sum (ts : List (ℝ × ℝ × ℝ)) (x : ℝ) : addTones x ts = x + (ts.map fun t => t.1 * t.2.1 * t.2.2).sum := by
  unfold addTones
  induction ts generalizing x with
  | nil => simp
  | cons t ts ih => rw [List.foldl_cons, ih, List.map_cons, List.sum_cons, add_assoc]

/-- **C148.** For every score of tones, together and one after the other, groups in groups to any depth, for every even sampling rate: making the
events as the user would, with `sp_group_add` and `sp_group_append`, and rendering the whole with `sp_render_file` succeeds and writes a wav file that
has, in each channel, exactly the samples of the score: the sum of the tones that play at that time, each being its envelope times the sine of its
frequency, counted from its own start. The events can be given in any order of onsets. The only limits are those of the 32 bit sizes. -/
theorem C148_score_file {F : Type} (fmt : FloatFmt ℝ F) {header : Buf Nat} (hh : header.length = 40) (new : Addr) (w : Buf (Buf ℝ))
    {rate limit fuel d : Nat} {s : Score} (hr : 2 ≤ rate) (heven : rate % 2 = 0) (hl : 0 < limit) (hrate : rate * limit * 4 < 4294967296)
    (hfuel : 1 < fuel) (hd : s.depth < d) (hv : s.Valid rate fuel) (hsize : 36 + 4 * (s.stop * limit) < 4294967296) :
    ∃ table c e, sinePeriod rate (List.replicate rate 0) = .ok table ∧ waveDefaults limit table rate = .ok c ∧
      scoreEvent (treeCb waveCb fuel d) fuel c id s w = .ok (e, w) ∧
      renderFile (treeCb waveCb fuel d) fmt fuel header none new e limit rate =
        .ok (0, wavFile limit rate (frameBytes fmt limit s.stop fun _ t => s.sample rate t)) := by
  obtain ⟨d, rfl⟩ : ∃ k, d = k + 1 := ⟨d - 1, by omega⟩
  have ht : s.stop < 4294967296 := by
    have := Nat.le_mul_of_pos_right s.stop hl
    omega
  obtain ⟨table, t1, t2, t3⟩ := sineTable_get hr heven
  obtain ⟨c, c1, _⟩ := wavePrepare_tone hl table rate 0 ([] : Buf ℝ)
  obtain ⟨e, G, U, e1, e2, e3, e4, e5⟩ := scoreEvent_ok (cb := treeCb waveCb fuel (d + 1)) (fuel := fuel) hr hl t2 c1 id w s d (by omega) hv ht
  simp only at e3 e4
  have hw : WaveTree 0 fuel limit d e G U := by
    have := e2 0 (by omega)
    simp only [Nat.zero_add] at this
    exact this
  have hsh : Shorter fun _ : Nat => True := fun _ _ _ _ _ => trivial
  refine ⟨table, c, e, t1, c1, e1, ?_⟩
  rw [C33_render_file fmt hfuel hh new hsh trivial (hw.playable.plays hsh) (.inl trivial) e4.le (by omega) (by omega) hl
    (by omega) hrate (by rw [e3]; exact hsize), e3]
  congr 3
  refine frameBytes_congr fmt fun ch hch t ht => ?_
  have h0 : soundAt e G 0 ch t = addTones 0 (partTones (fun _ => U) ch t (0, e)) := by
    unfold soundAt partTones
    simp only [Nat.zero_sub]
    split
    · exact hw.tones _ _ _ _
    · rfl
  rw [h0, addTones_sum, zero_add, ((e5 ch hch t).map _).sum_eq, sample_sounding, List.map_map]
  congr 2
  funext x
  simp only [Function.comp_apply, toneOf, t3, id_eq, one_mul]
  congr 3
  push_cast
  ring

/-- A format of files exists (whole numbers below 256). -/
noncomputable example : FloatFmt ℝ Nat where
  narrow x := ⌊|x|⌋₊ % 256
  widen x := x
  toBytes x := [x, 0, 0, 0]
  ofBytes l := l.headD 0
  length_toBytes _ := rfl
  ofBytes_toBytes _ := rfl

/-- Non-vacuity: a chord of two tones, from sample 100 on, and then a melody of three tones, the last with a pause before it. -/
example {F : Type} (fmt : FloatFmt ℝ F) (env : List ℝ) (henv : env.length = 24000) :
    let s := Score.sequence 0 [.together 100 [.tone 0 24000 440 env, .tone 5 1000 550 env],
      .sequence 0 [.tone 0 1000 660 env, .tone 0 2000 330 env, .tone 500 1000 220 env]]
    s.stop = 28600 ∧ ∃ table c e, sinePeriod 48000 (List.replicate 48000 0) = .ok table ∧ waveDefaults 2 table 48000 = .ok c ∧
      scoreEvent (treeCb waveCb 10 3) 10 c id s [] = .ok (e, []) ∧
      renderFile (treeCb waveCb 10 3) fmt 10 (List.replicate 40 7) none 1 e 2 48000 =
        .ok (0, wavFile 2 48000 (frameBytes fmt 2 s.stop fun _ t => s.sample 48000 t)) := by
  intro s
  have hs : s.stop = 28600 := by simp [s, Score.stop, total, longest]
  refine ⟨hs, C148_score_file fmt (by simp) 1 [] (by omega) (by omega) (by omega) (by omega) (by omega) ?_ ?_ (by rw [hs]; omega)⟩
  · simp [s, Score.depth, deepest]
  · simp [s, Score.Valid, AllValid, henv]

/-- The samples of a score: after the chord, which is over at 24100, there is only the last tone, which begins at 24107. -/
example (env : List ℝ) : (Score.sequence 0 [.together 100 [.tone 0 24000 440 env, .tone 5 1000 550 env], .tone 7 1000 660 env]).sample 48000 24200 =
    env.getD 93 0 * Real.sin (2 * Real.pi * (660 : ℕ) * ((93 : ℕ) : ℝ) / (48000 : ℕ)) := by
  simp [Score.sample, sumInTurn, sumOf, Score.stop, longest]

end Sp
