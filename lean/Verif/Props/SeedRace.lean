import Verif.Model.SeedRace
import Verif.Props.NoiseSeed
import Verif.Props.ParallelBlocks

/-!
# C159: noise events in `sp_seq_parallel`
-/

set_option linter.unusedSectionVars false

namespace Sp
variable {G ρ : Type} {draw : G → ρ × G} {n : Nat} {g : G}

/-- The number of the `k`th draw, from 0 on. This is what `sp_seq` gives to the `k`th noise event that it prepares. -/
def nthDraw (draw : G → ρ × G) (g : G) (k : Nat) : ρ := (draw ((fun g => (draw g).2)^[k] g)).1

/-- The accesses of two futures to the random state of the library that can be made next, without an order between them, are in conflict:
both are of different threads, and one of them writes. -/
def SeedRace (n : Nat) (s : SeedShared G ρ) : Prop :=
  ∃ i j, i < n ∧ j < n ∧ i ≠ j ∧ (∃ x, s.fut i = .loaded x) ∧ (s.fut j = .new ∨ ∃ x, s.fut j = .loaded x)

theorem seed_all_loaded (m : Nat) (hm : m ≤ n) :
    SeedReach draw n g ⟨g, fun i => if i < m then .loaded g else .new⟩ := by
  induction m with
  | zero =>
    have : (⟨g, fun i => if i < 0 then .loaded g else .new⟩ : SeedShared G ρ) = .init g := by simp [SeedShared.init]
    rw [this]
    exact .init
  | succ m ih =>
    have h := (ih (by omega)).step (.load (i := m) (by omega) (by simp))
    refine (congrArg (SeedReach draw n g) ?_).mp h
    simp only [SeedShared.mk.injEq, true_and]
    funext i
    unfold upd
    by_cases e : i = m
    · rw [if_pos e, if_pos (by omega)]
    · rw [if_neg e]
      beta_reduce
      by_cases e2 : i < m
      · rw [if_pos e2, if_pos (by omega)]
      · rw [if_neg e2, if_neg (by omega)]

theorem seed_some_seeded (m : Nat) (hm : m ≤ n) :
    SeedReach draw n g ⟨if m = 0 then g else (draw g).2, fun i => if i < m then .seeded (draw g).1 else if i < n then .loaded g else .new⟩ := by
  induction m with
  | zero => simpa using seed_all_loaded (draw := draw) (g := g) n le_rfl
  | succ m ih =>
    have h := (ih (by omega)).step (.store (i := m) (g := g) (by omega) (by simp; omega))
    refine (congrArg (SeedReach draw n g) ?_).mp h
    simp only [Nat.succ_ne_zero, if_false, SeedShared.mk.injEq, true_and]
    funext i
    unfold upd
    by_cases e : i = m
    · rw [if_pos e, if_pos (by omega)]
    · rw [if_neg e]
      beta_reduce
      by_cases e2 : i < m
      · rw [if_pos e2, if_pos (by omega)]
      · rw [if_neg e2, if_neg (show ¬ i < m + 1 by omega)]

/-- C159 is false: for every number of noise events that are prepared in one call there is a schedule with which all of them get the same seed,
so that they play the same noise. -/
theorem C159_same_seed_false (draw : G → ρ × G) (n : Nat) (g : G) :
    ∃ s, SeedReach draw n g s ∧ ∀ i, i < n → s.fut i = .seeded (nthDraw draw g 0) :=
  ⟨_, seed_some_seeded n le_rfl, fun i hi => by simp only [if_pos hi]; rfl⟩

/-- C159 is false, also if nothing is interrupted: for every order of the events there is a schedule in which they get their
seeds in this order. -/
theorem C159_any_order_false (draw : G → ρ × G) (g : G) (order : List Nat) (hnd : order.Nodup) (hlt : ∀ i ∈ order, i < n) :
    ∃ s, SeedReach draw n g s ∧ ∀ (k i : Nat), order[k]? = some i → s.fut i = .seeded (nthDraw draw g k) := by
  have key : ∀ l : List Nat, l.Nodup → (∀ i ∈ l, i < n) → ∃ s : SeedShared G ρ, SeedReach draw n g s ∧
      s.lib = (fun g => (draw g).2)^[l.length] g ∧ (∀ i, i ∉ l → s.fut i = .new) ∧
      ∀ (k i : Nat), l.reverse[k]? = some i → s.fut i = .seeded (nthDraw draw g k) := by
    intro l
    induction l with
    | nil => exact fun _ _ => ⟨_, .init, rfl, fun _ _ => rfl, by simp⟩
    | cons a l ih =>
      intro hn hl
      obtain ⟨h1, h2⟩ := List.nodup_cons.1 hn
      obtain ⟨s, r, hlib, hnew, hs⟩ := ih h2 fun i hi => hl i (by simp [hi])
      have ha := hl a (by simp)
      have r1 := r.step (.load (i := a) ha (hnew a h1))
      have r2 := r1.step (.store (i := a) (g := s.lib) ha (by simp [upd]))
      refine ⟨_, r2, ?_, ?_, ?_⟩
      · simp only [hlib, List.length_cons, Function.iterate_succ_apply']
      · intro i hi
        simp only [List.mem_cons, not_or] at hi
        simp only [upd, if_neg hi.1]
        exact hnew i hi.2
      · intro k i hk
        rw [List.reverse_cons] at hk
        by_cases hkl : k < l.reverse.length
        · rw [List.getElem?_append_left hkl] at hk
          have hi : i ≠ a := by
            rintro rfl
            exact h1 (List.mem_reverse.1 (List.mem_of_getElem? hk))
          simp only [upd, if_neg hi]
          exact hs k i hk
        · rw [List.getElem?_append_right (by omega)] at hk
          have hk0 : k - l.reverse.length = 0 := by
            by_contra hne
            rw [List.getElem?_eq_none (by simp only [List.length_singleton]; omega)] at hk
            cases hk
          rw [hk0] at hk
          simp only [List.getElem?_cons_zero, Option.some.injEq] at hk
          subst hk
          simp only [upd, if_true, nthDraw, hlib]
          rw [show l.length = k by rw [List.length_reverse] at hk0 hkl; omega]
  obtain ⟨s, h1, _, _, h2⟩ := key order.reverse (List.nodup_reverse.2 hnd) (fun i hi => hlt i (List.mem_reverse.1 hi))
  rw [List.reverse_reverse] at h2
  exact ⟨s, h1, h2⟩

/-- C159 is false: with two noise events there is a data race on the random state of the library, which the C standard leaves undefined. -/
theorem C159_race_false (draw : G → ρ × G) (hn : 2 ≤ n) (g : G) : ∃ s : SeedShared G ρ, SeedReach draw n g s ∧ SeedRace n s :=
  ⟨_, seed_all_loaded 1 (by omega), 0, 1, by omega, by omega, by omega, ⟨g, by simp⟩, .inl (by simp)⟩

/-- C159, what holds: all seeds are among the first draws, as many as there are events. Missing: that they are different, and which event gets which.
See `C159_same_seed_false` and `C159_any_order_false`. -/
theorem C159_seeds_partial {s : SeedShared G ρ} (h : SeedReach draw n g s) {i : Nat} {r : ρ} (hi : s.fut i = .seeded r) :
    ∃ k, k < n ∧ r = nthDraw draw g k := by
  have key : ∃ D : Finset Nat, (∀ j ∈ D, j < n) ∧ (∀ j, j ∈ D ↔ ∃ r, s.fut j = .seeded r) ∧
      (∃ k, k ≤ D.card ∧ s.lib = (fun g => (draw g).2)^[k] g) ∧
      (∀ j x, s.fut j = .loaded x → j < n ∧ ∃ k, k ≤ D.card ∧ x = (fun g => (draw g).2)^[k] g) ∧
      ∀ j r, s.fut j = .seeded r → ∃ k, k < D.card ∧ r = nthDraw draw g k := by
    clear hi
    induction h with
    | init => exact ⟨∅, by simp, by simp [SeedShared.init], ⟨0, by simp, rfl⟩, by simp [SeedShared.init], by simp [SeedShared.init]⟩
    | @step s s' _ hs ih =>
      obtain ⟨D, h1, h2, h3, h4, h5⟩ := ih
      cases hs with
      | @load a ha hnew =>
        refine ⟨D, h1, fun j => ?_, h3, fun j x hj => ?_, fun j r hj => ?_⟩
        · rw [h2 j]
          by_cases e : j = a
          · subst e
            simp [upd, hnew]
          · simp [upd, e]
        · by_cases e : j = a
          · subst e
            simp only [upd, if_true, SeedFuture.loaded.injEq] at hj
            subst hj
            exact ⟨ha, h3⟩
          · simp only [upd, if_neg e] at hj
            exact h4 j x hj
        · by_cases e : j = a
          · subst e
            simp [upd] at hj
          · simp only [upd, if_neg e] at hj
            exact h5 j r hj
      | @store a x ha hx =>
        have hna : a ∉ D := by
          rw [h2 a]
          rintro ⟨r, hr⟩
          rw [hx] at hr
          cases hr
        obtain ⟨_, k, hk, rfl⟩ := h4 a x hx
        have hc : (insert a D).card = D.card + 1 := Finset.card_insert_of_notMem hna
        refine ⟨insert a D, ?_, fun j => ?_, ⟨k + 1, by omega, ?_⟩, fun j y hj => ?_, fun j r hj => ?_⟩
        · intro j hj
          rcases Finset.mem_insert.1 hj with rfl | hj
          · exact ha
          · exact h1 j hj
        · by_cases e : j = a
          · subst e
            simp [upd]
          · simp [upd, e, h2 j]
        · rw [Function.iterate_succ_apply']
        · by_cases e : j = a
          · subst e
            simp [upd] at hj
          · simp only [upd, if_neg e] at hj
            obtain ⟨q1, k', q2, q3⟩ := h4 j y hj
            exact ⟨q1, k', by omega, q3⟩
        · by_cases e : j = a
          · subst e
            simp only [upd, if_true, SeedFuture.seeded.injEq] at hj
            exact ⟨k, by omega, hj.symm⟩
          · simp only [upd, if_neg e] at hj
            obtain ⟨k', q2, q3⟩ := h5 j r hj
            exact ⟨k', by omega, q3⟩
  obtain ⟨D, h1, _, _, _, h5⟩ := key
  obtain ⟨k, hk, hr⟩ := h5 i r hi
  have : D.card ≤ n := by
    have := Finset.card_le_card (s := D) (t := Finset.range n) fun j hj => Finset.mem_range.2 (h1 j hj)
    simpa using this
  exact ⟨k, by omega, hr⟩

/-- C159, what a mutex would give: the events that have a seed got the first draws, each its own, in some order.
Missing in the code: the mutex; and still the order depends on the schedule. -/
theorem C159_locked_partial {s : SeedShared G ρ} (h : SeedReachLocked draw n g s) :
    ∃ order : List Nat, order.Nodup ∧ (∀ i, i ∈ order ↔ ∃ r, s.fut i = .seeded r) ∧
      ∀ (k i : Nat), order[k]? = some i → s.fut i = .seeded (nthDraw draw g k) := by
  have key : ∃ order : List Nat, order.Nodup ∧ (∀ i, i ∈ order ↔ ∃ r, s.fut i = .seeded r) ∧
      s.lib = (fun g => (draw g).2)^[order.length] g ∧
      ∀ (k i : Nat), order[k]? = some i → s.fut i = .seeded (nthDraw draw g k) := by
    induction h with
    | init => exact ⟨[], by simp, by simp [SeedShared.init], rfl, by simp⟩
    | @draw s a _ ha hnew ih =>
      obtain ⟨o, h1, h2, h3, h4⟩ := ih
      have hna : a ∉ o := by
        rw [h2 a]
        rintro ⟨r, hr⟩
        rw [hnew] at hr
        cases hr
      refine ⟨o ++ [a], ?_, fun i => ?_, ?_, fun k i hk => ?_⟩
      · rw [List.nodup_append]
        refine ⟨h1, by simp, ?_⟩
        intro x hx y hy
        rw [List.mem_singleton] at hy
        subst hy
        rintro rfl
        exact hna hx
      · by_cases e : i = a
        · subst e
          simp [upd]
        · simp [upd, e, h2 i]
      · rw [List.length_append, List.length_singleton, Function.iterate_succ_apply', h3]
      · by_cases hkl : k < o.length
        · rw [List.getElem?_append_left hkl] at hk
          have hi : i ≠ a := by
            rintro rfl
            exact hna (List.mem_of_getElem? hk)
          simp only [upd, if_neg hi]
          exact h4 k i hk
        · rw [List.getElem?_append_right (by omega)] at hk
          have hk0 : k - o.length = 0 := by
            by_contra hne
            rw [List.getElem?_eq_none (by simp only [List.length_singleton]; omega)] at hk
            cases hk
          rw [hk0] at hk
          simp only [List.getElem?_cons_zero, Option.some.injEq] at hk
          subst hk
          simp only [upd, if_true, nthDraw, h3]
          rw [show o.length = k by omega]
  obtain ⟨o, h1, h2, _, h4⟩ := key
  exact ⟨o, h1, h2, h4⟩

/-! ## What is heard -/

/-- Two noise events with seeds. -/
def seedPair (r1 r2 : Nat) : List (Addr × Event (NoiseRun Int Nat Unit)) :=
  [(1, exampleNoiseEvent r1 0 4), (2, exampleNoiseEvent r2 0 4)]

theorem noiseRunCb_prepareKeepsTimes {S ρ F : Type} [Zero S] [Add S] [Mul S] [One S] [Neg S] [Max S] [Min S] [DecidableEq F]
    (env : NoiseEnv S ρ F) : PrepareKeepsTimes (noiseRunCb env) := by
  intro e w st e' w' h
  simp only [noiseRunCb] at h
  obtain ⟨c, _, h⟩ := bind_eq_ok.1 h
  simp only [pure_eq_ok, Except.ok.injEq, Prod.mk.injEq] at h
  obtain ⟨_, rfl, _⟩ := h
  exact ⟨rfl, rfl⟩

/-- With any seeds the pair is rendered by `sp_seq_parallel` as C158 says. -/
theorem seedPair_rendered (r1 r2 : Nat) {l' : List (Addr × Event (NoiseRun Int Nat Unit))} {outs : List (Nat × Buf (Buf Int))}
    (h : ParBlocks (blockAdder (noiseRunCb exampleEnv) 2) 2 0 [4] (seedPair r1 r2) l' outs) :
    outs = [(0, blk 2 4 fun c i => mixEvents (seedPair r1 r2) (fun a q => addSound (noiseEventSound exampleEnv (if a = 1 then r1 else r2)
      exampleNoiseConfig exampleChannels2 (fun _ => 2) exampleIr q)) 0 c (0 + i) 0)] := by
  refine C158_blocks (ok := NoiseLength 1) (F := fun a => noiseEventSound exampleEnv (if a = 1 then r1 else r2)
      exampleNoiseConfig exampleChannels2 (fun _ => 2) exampleIr) (noiseRunCb_prepareKeepsTimes _) ?_ ?_ ?_ ?_ ?_ ?_ ?_ h
  · intro x hx
    simp only [seedPair, List.mem_cons, List.not_mem_nil, or_false] at hx
    rcases hx with rfl | rfl
    · exact exampleNoise_plays r1 0 4 (by omega) (by omega) (by omega)
    · exact exampleNoise_plays r2 0 4 (by omega) (by omega) (by omega)
  · exact ⟨by simp [seedPair, exampleNoiseEvent], by simp [seedPair, exampleNoiseEvent], by simp [seedPair, exampleNoiseEvent]⟩
  · exact .inr (by simp [seedPair, exampleNoiseEvent])
  · simp [seedPair]
  · exact noiseLength_shorter 1
  · simp [Blocks]
  · simp [blockBounds, NoiseLength]

theorem seedPair_out (r1 r2 : Nat) {l' : List (Addr × Event (NoiseRun Int Nat Unit))} {out' : Buf (Buf Int)} {log : List Call}
    (hseq : seqListTop (blockAdder (noiseRunCb exampleEnv) 2).callbacks 0 4 0 (seedPair r1 r2) (newBlock 2 4) = .ok (0, l', out', log))
    {s : Par (NoiseRun Int Nat Unit) Int} (hs : ParReach (blockAdder (noiseRunCb exampleEnv) 2) 0 4 (seedPair r1 r2) (newBlock 2 4) s) {st : Nat}
    (h1 : s.main = .returned st) : s.out = out' :=
  (C156_bit_for_bit_partial (n := 4) (blockAdder_once _ _) (fun _ _ => trivial)
    (blockAdder_keepsTimes 2 fun e st e' he => noiseRunCb_prepareKeepsTimes exampleEnv e [] st e'.1 e'.2 he) (blockAdder_inRange _ 2)
    (by decide) (by decide) (by decide) (by intro row hrow; rw [List.eq_of_mem_replicate hrow]; rfl)
    (by simp [seedPair, exampleNoiseEvent]) (by simp [seedPair]) hseq hs h1).2.1

/-- C159 is false, what is heard: for two noise events there are two schedules of the futures that give them seeds with which the output of
`sp_seq_parallel`, whatever the schedule is from there on, is different. -/
theorem C159_output_false : ∃ (s1 s2 : SeedShared Nat Nat) (a1 a2 b1 b2 : Nat) (out1 out2 : Buf (Buf Int)),
    SeedReach (fun g => (g, g + 1)) 2 0 s1 ∧ s1.fut 0 = .seeded a1 ∧ s1.fut 1 = .seeded a2 ∧
    SeedReach (fun g => (g, g + 1)) 2 0 s2 ∧ s2.fut 0 = .seeded b1 ∧ s2.fut 1 = .seeded b2 ∧
    (∀ s st, ParReach (blockAdder (noiseRunCb exampleEnv) 2) 0 4 (seedPair a1 a2) (newBlock 2 4) s → s.main = .returned st → s.out = out1) ∧
    (∀ s st, ParReach (blockAdder (noiseRunCb exampleEnv) 2) 0 4 (seedPair b1 b2) (newBlock 2 4) s → s.main = .returned st → s.out = out2) ∧
    out1 ≠ out2 := by
  obtain ⟨s1, h1, h2⟩ := C159_any_order_false (n := 2) (fun g : Nat => (g, g + 1)) 0 [0, 1] (by simp) (by simp)
  obtain ⟨s2, h3, h4⟩ := C159_same_seed_false (fun g : Nat => (g, g + 1)) 2 0
  refine ⟨s1, s2, 0, 1, 0, 0, _, _, h1, h2 0 0 rfl, h2 1 1 rfl, h3, h4 0 (by omega), h4 1 (by omega),
    fun s st hs hst => seedPair_out 0 1 rfl hs hst, fun s st hs hst => seedPair_out 0 0 rfl hs hst, ?_⟩
  decide +kernel

/-- A case of `C159_seeds_partial`: two of three futures have a seed. -/
example : ∃ s : SeedShared Nat Nat, SeedReach (fun g => (g, g + 1)) 3 7 s ∧ s.fut 2 = .seeded 7 ∧ s.fut 0 = .seeded 8 := by
  obtain ⟨s, h1, h2⟩ := C159_any_order_false (n := 3) (fun g : Nat => (g, g + 1)) 7 [2, 0] (by simp) (by simp)
  exact ⟨s, h1, h2 0 2 rfl, h2 1 0 rfl⟩

/-- A case of `C159_locked_partial`. -/
example : SeedReachLocked (fun g : Nat => (g, g + 1)) 2 7 ⟨9, upd (upd (fun _ => .new) 1 (.seeded 7)) 0 (.seeded 8)⟩ :=
  .draw (i := 0) (.draw (i := 1) .init (by omega) rfl) (by omega) rfl

end Sp
