import Verif.Props.FloatScore
import Verif.Props.FloatParallel

/-!
# C173: scores rendered in parallel, in double precision

The events of the parts of a score are rendered block by block with `sp_seq_parallel`; every schedule gives samples close to those of the score.
-/

set_option linter.unusedSectionVars false

namespace Sp
variable {rnd : ℚ → ℚ} {h : RoundsToNearest rnd}

/-- The number one, the amplitude that `sp_wave_event_config_t` gets by default. -/
instance : One (Dbl h) := ⟨.mk 1 (by simpa using nat_isDouble (n := 1) (by norm_num))⟩

/-- The tables hold the same numbers: one is a table of plain rationals, the other also knows that they are finite. -/
def SameNumbers (tbl : List (Fl rnd)) (table : List (Dbl h)) : Prop := List.Forall₂ (fun v x => x.Is v.val) tbl table

private theorem exists_same {tbl : List (Fl rnd)} (hd : ∀ v ∈ tbl, IsDouble v.val) : ∃ table : List (Dbl h), SameNumbers tbl table := by
  induction tbl with
  | nil => exact ⟨[], .nil⟩
  | cons v tbl ih =>
    obtain ⟨table, ht⟩ := ih fun u hu => hd u (by simp [hu])
    exact ⟨.mk v.val (hd v (by simp)) :: table, .cons ⟨hd v (by simp), rfl⟩ ht⟩

private theorem same_get {tbl : List (Fl rnd)} {table : List (Dbl h)} (hs : SameNumbers tbl table) (n : Nat) :
    (table.getD n 0).Is (tbl.getD n 0).val := by
  induction hs generalizing n with
  | nil => exact ⟨.zero, rfl⟩
  | cons h1 _ ih =>
    cases n with
    | zero => exact h1
    | succ n => exact ih n

private theorem mix_same {tbl : List (Fl rnd)} {table : List (Dbl h)} (hs : SameNumbers tbl table) (rate : Nat) (conv : ℝ → Dbl h)
    (xs : List (Nat × ℝ × Nat)) :
    exactMixDbl (xs.map (toneOf table rate conv)) = exactMix (xs.map (toneOf tbl rate fun v => (⟨(conv v).val⟩ : Fl rnd))) := by
  induction xs with
  | nil => rfl
  | cons x xs ih =>
    rw [exactMixDbl, exactMix] at *
    rw [List.map_cons, List.map_cons, List.sum_cons, ih, List.map_cons, List.map_cons, List.sum_cons]
    congr 1
    show (1 : ℚ) * _ * (table.getD _ 0).val = (1 : ℚ) * _ * _
    rw [(same_get hs _).val]
    rfl

/-- **C173.** The parts of a score, groups in groups to any depth, are made into events as in C166, with numbers of type `double`, and the events,
sorted by when they start, are rendered with `sp_seq_parallel` from time zero on in any consecutive blocks. The math library is accurate (`TrigAccurate`),
its `sin` is between -1 and 1 and its results are numbers of type `double`. The envelopes are between -1 and 1, `conv` gives a number of type `double`
for each value, and at most 2^24 tones sound at a time. Then the calls can return, and for all schedules with which they return each
returns zero, and each sample is finite and, where `k` tones sound, differs from the sample of the score by no more than
`k * (2 * k + 3) / 2^53 + k / 2^47`. -/
theorem C173_parallel_score [Trig (Fl rnd)] (htrig : TrigAccurate rnd) (hsin : ∀ x : Fl rnd, |(Trig.sin x).val| ≤ 1)
    (hdbl : ∀ x : Fl rnd, IsDouble (Trig.sin x).val) (w : Buf (Buf (Dbl h))) {rate limit fuel d : Nat} {ps : List Score} {conv : ℝ → Dbl h}
    (hr : 2 ≤ rate) (heven : rate % 2 = 0) (hr32 : rate < 4294967296) (hl : 0 < limit) (hd : deepest ps ≤ d) (hv : AllValid rate fuel ps)
    (hstop : ∀ p ∈ ps, p.stop < 4294967296)
    (hconv : ∀ t, ∀ x ∈ soundingOf ps t, (conv x.2.1).Unit ∧ |((conv x.2.1).val : ℝ) - x.2.1| ≤ 1 / 2 ^ 53)
    (hcount : ∀ t, (soundingOf ps t).length ≤ 2 ^ 24) :
    ∃ (tbl : List (Fl rnd)) (table : List (Dbl h)) (c : WaveConfig (Dbl h)) (es : List (Addr × Event (Tree (WaveConfig (Dbl h))))),
      sinePeriod rate (List.replicate rate (0 : Fl rnd)) = .ok tbl ∧ SameNumbers tbl table ∧ waveDefaults limit table rate = .ok c ∧
      scoreEvents (treeCb waveCb fuel (d + 1)) fuel c conv 0 ps w = .ok (es, w) ∧ es.length = ps.length ∧
      ∀ l : List (Addr × Event (Tree (WaveConfig (Dbl h)))), l.Perm es → l.Pairwise (fun x y => x.2.start ≤ y.2.start) →
        ∀ stops, Blocks 0 stops →
          (∃ l' outs, ParBlocks (blockAdder (treeCb waveCb fuel (d + 1)) limit) limit 0 stops l l' outs) ∧
          ∀ l' outs, ParBlocks (blockAdder (treeCb waveCb fuel (d + 1)) limit) limit 0 stops l l' outs →
            ∃ g : Nat → Nat → Dbl h, outs = (blockBounds 0 stops).map (fun b => (0, blk limit (b.2 - b.1) fun ch i => g ch (b.1 + i))) ∧
              ∀ ch < limit, ∀ t, (∃ last, stops.getLast? = some last ∧ t < last) → ∃ q, (g ch t).Is q ∧
                |(q : ℝ) - sumOf rate ps t| ≤
                  (soundingOf ps t).length * (2 * (soundingOf ps t).length + 3) / 2 ^ 53 + (soundingOf ps t).length / 2 ^ 47 := by
  have hrep : List.replicate rate (0 : Fl rnd) = tab rate fun _ => 0 := by rw [tab_replicate]
  have t1 := sinePeriod_gen (S := Fl rnd) hr (N := rate) (z := fun _ => 0) (le_refl _)
  rw [← hrep] at t1
  obtain ⟨tbl, t1', t2, t3, _⟩ := C81_double_partial h htrig (out := List.replicate rate (0 : Fl rnd)) hr heven hr32 (by simp)
  rw [List.length_replicate] at t2
  have hall : ∀ v ∈ tbl, IsDouble v.val := by
    intro v hv
    rw [t1] at t1'
    cases t1'
    obtain ⟨n, hn⟩ := List.getElem?_of_mem hv
    rw [tab_getElem?] at hn
    split at hn
    · cases hn
      exact hdbl _
    · cases hn
  have hfull : ∀ n, |(tbl.getD n 0).val| ≤ 1 := by
    intro n
    rw [t1] at t1'
    cases t1'
    rw [List.getD_eq_getElem?_getD, tab_getElem?]
    split
    · exact hsin _
    · show |(0 : ℚ)| ≤ 1
      norm_num
  have htab : ∀ n : Nat, |((tbl.getD (n % rate) 0).val : ℝ) - Real.sin (2 * Real.pi * n / rate)| ≤ 1 / 2 ^ 48 := by
    intro n
    obtain ⟨v, v1, v2⟩ := t3 (n % rate) (Nat.mod_lt _ (by omega))
    rw [List.getD_eq_getElem?_getD, v1, Option.getD_some]
    rwa [sin_mod (by omega)] at v2
  obtain ⟨table, hsame⟩ := exists_same (h := h) hall
  have t4 : table.length = rate := by rw [← hsame.length_eq, t2]
  obtain ⟨c, c1, _⟩ := wavePrepare_tone hl table rate 0 ([] : Buf (Dbl h))
  obtain ⟨es, F, T, e1, e2, e3, e4, e5, e6⟩ := scoreEvents_ok (cb := treeCb waveCb fuel (d + 1)) (fuel := fuel) hr hl t4 c1 conv w ps d 0 hd hv hstop
  refine ⟨tbl, table, c, es, t1', hsame, c1, e1, e4.length_eq, fun l hperm hsort stops hb => ?_⟩
  have hsmall : ∀ y ∈ es, y.2.stop < 4294967296 := by
    intro y hy
    obtain ⟨p, hp, h1⟩ : ∃ p ∈ ps, EventOf (toneOf table rate conv) limit T y p := by
      clear e1 e2 e3 e5 e6 hperm hd hv hstop hconv hcount
      induction e4 with
      | nil => cases hy
      | cons h1 _ ih =>
        rcases List.mem_cons.1 hy with rfl | hy
        · exact ⟨_, by simp, h1⟩
        · obtain ⟨p, hp, h2⟩ := ih hy
          exact ⟨p, by simp [hp], h2⟩
    rw [h1.1]
    exact hstop p hp
  have hw : ∀ y ∈ l, WaveTree 0 fuel limit d y.2 (F y.1) (T y.1) := by
    intro y hy
    have hy' := hperm.mem_iff.1 hy
    have := e5 y hy' 0 (by have := hsmall y hy'; omega)
    simp only [Nat.zero_add] at this
    exact this
  have hs : SortedEvents l := ⟨hsort, fun y hy => (e6 y (hperm.mem_iff.1 hy)).le, fun y hy => hsmall y (hperm.mem_iff.1 hy)⟩
  have hnd : (l.map Prod.fst).Nodup := (hperm.map _).nodup_iff.2 e3
  have htones : ∀ ch < limit, ∀ t, (eventTones l T 0 ch t).Perm ((soundingOf ps t).map (toneOf table rate conv)) := by
    intro ch hch t
    rw [eventTones_part]
    exact (hperm.flatMap_right _).trans (tones_together e4 hch t)
  have hfs : ∀ ch < limit, ∀ t, FullScaleDbl (eventTones l T 0 ch t) ∧ (eventTones l T 0 ch t).length ≤ 2 ^ 24 := by
    intro ch hch t
    have hp := htones ch hch t
    refine ⟨fun u hu => ?_, by rw [hp.length_eq, List.length_map]; exact hcount t⟩
    obtain ⟨x, hx, rfl⟩ := List.mem_map.1 (hp.mem_iff.1 hu)
    exact ⟨⟨1, ⟨_, rfl⟩, by norm_num⟩, (hconv t x hx).1, ⟨_, same_get hsame _, hfull _⟩⟩
  refine ⟨C158_returns (F := F) (treeCb_prepareKeepsTimes waveCb_prepareKeepsTimes fuel (d + 1))
    (fun x hx => (hw x hx).playable.plays (fun _ _ _ _ _ => trivial)) hs (.inl trivial) hnd (fun _ _ _ _ _ => trivial) hb (fun _ _ => trivial),
    fun l' outs hrun => ?_⟩
  have key : ∀ last, ∃ g : Nat → Nat → Dbl h, outs = (blockBounds 0 stops).map (fun b => (0, blk limit (b.2 - b.1) fun ch i => g ch (b.1 + i))) ∧
      ∀ ch < limit, ∀ t, t < last → ∃ q, (g ch t).Is q ∧
        |(q : ℝ) - sumOf rate ps t| ≤
          (soundingOf ps t).length * (2 * (soundingOf ps t).length + 3) / 2 ^ 53 + (soundingOf ps t).length / 2 ^ 47 := by
    intro last
    obtain ⟨g, g1, g2⟩ := C162_parallel_error hw hs hnd hb (last := last) (fun ch hch t _ _ => hfs ch hch t) hrun
    refine ⟨g, g1, fun ch hch t ht => ?_⟩
    obtain ⟨q, q1, q2⟩ := g2 ch hch t (Nat.zero_le _) ht
    refine ⟨q, q1, ?_⟩
    have hp := htones ch hch t
    have hmix : exactMixDbl (eventTones l T 0 ch t) = exactMixDbl ((soundingOf ps t).map (toneOf table rate conv)) := (hp.map _).sum_eq
    rw [hp.length_eq, List.length_map, hmix, mix_same hsame] at q2
    have m := mix_score tbl (conv := fun v => (⟨(conv v).val⟩ : Fl rnd)) (xs := soundingOf ps t) htab (fun x hx => by
      obtain ⟨⟨a, a1, a2⟩, a3⟩ := hconv t x hx
      exact ⟨by show |(conv x.2.1).val| ≤ 1; rw [a1.val]; exact a2, a3⟩)
    rw [← sumOf_sounding] at m
    have q3 := (Rat.cast_le (K := ℝ)).2 q2
    push_cast at q3
    exact (abs_sub_le _ _ _).trans (add_le_add q3 m)
  cases e : stops.getLast? with
  | none =>
    obtain ⟨g, g1, _⟩ := key 0
    exact ⟨g, g1, fun ch hch t ⟨last, h1, _⟩ => by cases h1⟩
  | some last =>
    obtain ⟨g, g1, g2⟩ := key last
    refine ⟨g, g1, fun ch hch t ⟨last', h1, h2⟩ => g2 ch hch t ?_⟩
    cases h1
    exact h2

/-! ## A case -/

attribute [local instance] libm

theorem libm_sin_double (x : Fl nearestDouble) : IsDouble (Trig.sin x).val := by
  have hx := libm_sin_le x
  have one : IsDouble 1 := ⟨1, 0, by norm_num, by norm_num, by norm_num, by norm_num⟩
  show IsDouble (nearestDouble ((⌊Real.sin (x.val : ℝ) * 2 ^ 60⌋ : ℤ) / 2 ^ 60))
  refine nearestDouble_rounds.double _ (le_trans ?_ (by simpa using one.le_max))
  obtain ⟨h1, h2⟩ := abs_le.1 (Real.abs_sin_le_one (x.val : ℝ))
  have f1 : (-2 ^ 60 : ℤ) ≤ ⌊Real.sin (x.val : ℝ) * 2 ^ 60⌋ := by
    rw [Int.le_floor]
    push_cast
    linarith
  have f2 : ⌊Real.sin (x.val : ℝ) * 2 ^ 60⌋ ≤ (2 ^ 60 : ℤ) := by
    have := Int.floor_le (Real.sin (x.val : ℝ) * 2 ^ 60)
    have h3 : ((⌊Real.sin (x.val : ℝ) * 2 ^ 60⌋ : ℤ) : ℝ) ≤ ((2 ^ 60 : ℤ) : ℝ) := by
      push_cast
      linarith
    exact_mod_cast h3
  generalize ⌊Real.sin (x.val : ℝ) * 2 ^ 60⌋ = m at *
  have f1' : (-2 ^ 60 : ℚ) ≤ m := by exact_mod_cast f1
  have f2' : (m : ℚ) ≤ 2 ^ 60 := by exact_mod_cast f2
  rw [abs_le]
  constructor
  · rw [le_div_iff₀ (by norm_num)]; linarith
  · rw [div_le_iff₀ (by norm_num)]; linarith

/-- The chord and the tone after it, and another tone that sounds with them: rendered in parallel, in two blocks. -/
example : ∃ (c : WaveConfig (Dbl nearestDouble_rounds)) (es : List (Addr × Event (Tree (WaveConfig (Dbl nearestDouble_rounds))))),
    scoreEvents (treeCb waveCb 10 4) 10 c (fun v => if v = 0 then 0 else dblHalf) 0 [.tone 50 1000 330 halfEnv, chordScore] [] = .ok (es, []) ∧
    es.length = 2 ∧ ∀ l, l.Perm es → l.Pairwise (fun x y => x.2.start ≤ y.2.start) →
      ∀ l' outs, ParBlocks (blockAdder (treeCb waveCb 10 4) 2) 2 0 [150, 2000] l l' outs →
        ∃ g : Nat → Nat → Dbl nearestDouble_rounds, outs = [(0, blk 2 150 g), (0, blk 2 1850 fun ch i => g ch (150 + i))] ∧
          ∃ q, (g 1 300).Is q ∧ |(q : ℝ) - sumOf 48000 [.tone 50 1000 330 halfEnv, chordScore] 300| ≤ 1 / 2 ^ 44 := by
  have hsound : ∀ t, (∀ x ∈ soundingOf [.tone 50 1000 330 halfEnv, chordScore] t, x.2.1 = 1 / 2 ∨ x.2.1 = 0) ∧
      (soundingOf [.tone 50 1000 330 halfEnv, chordScore] t).length ≤ 4 := by
    intro t
    obtain ⟨s1, s2⟩ := chordScore_sounding t
    have hg : ∀ k, halfEnv.getD k 0 = 1 / 2 ∨ halfEnv.getD k 0 = 0 := by
      intro k
      rw [List.getD_eq_getElem?_getD, halfEnv, List.getElem?_replicate]
      split
      · exact .inl rfl
      · exact .inr rfl
    generalize chordScore = s at *
    generalize halfEnv = env at *
    simp only [soundingOf, List.append_nil, Score.sounding]
    constructor
    · intro x hx
      rcases List.mem_append.1 hx with hx | hx
      · split at hx
        · rw [List.mem_singleton] at hx
          rw [hx]
          exact hg _
        · cases hx
      · exact s1 x hx
    · rw [List.length_append]
      split
      · rw [List.length_singleton]; omega
      · rw [List.length_nil]; omega
  obtain ⟨tbl, table, c, es, _, _, _, b1, b2, b3⟩ := C173_parallel_score (h := nearestDouble_rounds) libm_accurate libm_sin_le libm_sin_double []
    (rate := 48000) (limit := 2) (fuel := 10) (d := 3) (ps := [.tone 50 1000 330 halfEnv, chordScore]) (conv := fun v => if v = 0 then 0 else dblHalf)
    (by omega) (by omega) (by omega) (by omega)
    (by simp [chordScore, Score.depth, deepest]) (by simp [chordScore, Score.Valid, AllValid, halfEnv_length]) (by
      intro p hp
      simp only [List.mem_cons, List.not_mem_nil, or_false] at hp
      rcases hp with rfl | rfl
      · simp [Score.stop]
      · rw [chordScore_stop]; omega) (by
      intro t x hx
      rcases (hsound t).1 x hx with h | h
      · rw [h, if_neg (by norm_num)]
        refine ⟨⟨1 / 2, ⟨_, rfl⟩, by norm_num [abs_of_pos]⟩, ?_⟩
        show |((1 / 2 : ℚ) : ℝ) - 1 / 2| ≤ _
        norm_num
      · rw [h, if_pos rfl]
        refine ⟨⟨0, ⟨.zero, rfl⟩, by norm_num⟩, ?_⟩
        show |((0 : ℚ) : ℝ) - 0| ≤ _
        norm_num) (fun t => (hsound t).2.trans (by norm_num))
  refine ⟨c, es, b1, b2, fun l hl hs l' outs hrun => ?_⟩
  obtain ⟨g, g1, g2⟩ := (b3 l hl hs [150, 2000] (by simp [Blocks])).2 l' outs hrun
  refine ⟨g, ?_, ?_⟩
  · rw [g1]
    simp [blockBounds]
  obtain ⟨q, q1, q2⟩ := g2 1 (by omega) 300 ⟨2000, rfl, by omega⟩
  refine ⟨q, q1, q2.trans ?_⟩
  have hk : ((soundingOf [.tone 50 1000 330 halfEnv, chordScore] 300).length : ℝ) ≤ 4 := by exact_mod_cast (hsound 300).2
  have hk0 : (0 : ℝ) ≤ (soundingOf [.tone 50 1000 330 halfEnv, chordScore] 300).length := by positivity
  generalize ((soundingOf [.tone 50 1000 330 halfEnv, chordScore] 300).length : ℝ) = k at *
  have : k * (2 * k + 3) ≤ 4 * 11 := mul_le_mul hk (by linarith) (by linarith) (by norm_num)
  have h1 : k * (2 * k + 3) / 2 ^ 53 ≤ 4 * 11 / 2 ^ 53 := div_le_div_of_nonneg_right this (by norm_num)
  have h2 : k / 2 ^ 47 ≤ 4 / 2 ^ 47 := div_le_div_of_nonneg_right hk (by norm_num)
  refine (add_le_add h1 h2).trans (by norm_num)

end Sp
