import Verif.Model.SeqParallel
import Verif.Lemmas.SeqTrace
import Mathlib.Algebra.Group.Basic
import Mathlib.Data.List.Nodup

/-! # `sp_seq_parallel` and `sp_seq` -/

set_option linter.unusedSectionVars false

namespace Sp
variable {D S : Type}

/-! ### Blocks -/

/-- A block of `ch` channels with `n` samples. -/
def tab2 (ch n : Nat) (f : Nat → Nat → S) : Buf (Buf S) := tab ch fun c => tab n (f c)

theorem tab2_length (ch n : Nat) (f : Nat → Nat → S) : (tab2 ch n f).length = ch := by simp [tab2]

theorem tab2_congr {ch n : Nat} {f g : Nat → Nat → S} (h : ∀ c < ch, ∀ i < n, f c i = g c i) : tab2 ch n f = tab2 ch n g :=
  tab_congr fun c hc => tab_congr fun i hi => h c hc i hi

theorem rd2_tab2 {ch n c i : Nat} {f : Nat → Nat → S} (hc : c < ch) (hi : i < n) : rd2 (tab2 ch n f) c i = .ok (f c i) := by
  rw [rd2, tab2, rd_tab hc, ok_bind', rd_tab hi]

theorem wr2_tab2 {ch n c i : Nat} {f : Nat → Nat → S} (v : S) (hc : c < ch) (hi : i < n) :
    wr2 (tab2 ch n f) c i v = .ok (tab2 ch n fun c' i' => if c' = c ∧ i' = i then v else f c' i') := by
  rw [wr2, tab2, rd_tab hc, ok_bind', wr_tab v hi, ok_bind', wr_tab _ hc]
  refine congrArg _ (tab_congr fun k _ => ?_)
  by_cases e : k = c
  · subst e
    simp
  · simp [e]

theorem add2_tab2 [Add S] {ch n c i : Nat} {f : Nat → Nat → S} (v : S) (hc : c < ch) (hi : i < n) :
    add2 (tab2 ch n f) c i v = .ok (tab2 ch n fun c' i' => if c' = c ∧ i' = i then f c' i' + v else f c' i') := by
  rw [add2, rd2_tab2 hc hi, ok_bind', wr2_tab2 _ hc hi]
  refine congrArg _ (tab2_congr fun c' _ i' _ => ?_)
  by_cases e : c' = c ∧ i' = i
  · rw [if_pos e, if_pos e, e.1, e.2]
  · rw [if_neg e, if_neg e]

theorem newBlock_eq [Zero S] (ch n : Nat) : newBlock ch n = tab2 ch n fun _ _ => (0 : S) := by
  rw [newBlock, tab2, tab_replicate]
  exact tab_congr fun _ _ => tab_replicate _ _

variable [Add S] [Zero S]

/-- The sample `j` of channel `c`, which is `x`, after writes at the offset `off`. -/
def wfold (off : Nat) : List (Write S) → Nat → Nat → S → S
  | [], _, _, x => x
  | w :: ws, c, j, x => wfold off ws c j (if c = w.channel ∧ j = off + w.index then x + w.value else x)

theorem applyWrites_tab2 {ch n off : Nat} (ws : List (Write S)) (f : Nat → Nat → S)
    (h : ∀ w ∈ ws, w.channel < ch ∧ off + w.index < n) :
    applyWrites off ws (tab2 ch n f) = .ok (tab2 ch n fun c j => wfold off ws c j (f c j)) := by
  induction ws generalizing f with
  | nil => simp [applyWrites, wfold]
  | cons w ws ih =>
    obtain ⟨h1, h2⟩ := h w (by simp)
    rw [applyWrites, add2_tab2 _ h1 h2, ok_bind', ih _ (fun w hw => h w (by simp [hw]))]
    rfl

/-- At an offset the samples after it are changed. -/
theorem wfold_shift {len : Nat} (off : Nat) (ws : List (Write S)) (h : ∀ w ∈ ws, w.index < len) (c j : Nat) (x : S) :
    wfold off ws c j x = if off ≤ j ∧ j < off + len then wfold 0 ws c (j - off) x else x := by
  induction ws generalizing x with
  | nil => simp [wfold]
  | cons w ws ih =>
    have hw := h w (by simp)
    rw [wfold, wfold, ih (fun w hw => h w (by simp [hw]))]
    by_cases e : off ≤ j ∧ j < off + len
    · rw [if_pos e, if_pos e]
      have : (c = w.channel ∧ j = off + w.index) ↔ (c = w.channel ∧ j - off = 0 + w.index) := by
        constructor <;> rintro ⟨a, b⟩ <;> refine ⟨a, ?_⟩ <;> omega
      simp only [this]
    · rw [if_neg e, if_neg e, if_neg (by rintro ⟨_, b⟩; exact e (by omega))]

theorem mergeSlot_tab2 {ch n len : Nat} (sf : Slot S) (f g : Nat → Nat → S) (hlen : sub32 sf.stop sf.start = len)
    (ho : sf.out = tab2 ch len g) (hn : sf.outStart + len ≤ n) :
    mergeSlot sf (tab2 ch n f) = .ok (tab2 ch n fun c j =>
      if sf.outStart ≤ j ∧ j < sf.outStart + len then f c j + g c (j - sf.outStart) else f c j) := by
  rw [mergeSlot, tab2_length, hlen]
  have := forRange_states (fun ci => tab2 ch n fun c j =>
      if c < ci ∧ sf.outStart ≤ j ∧ j < sf.outStart + len then f c j + g c (j - sf.outStart) else f c j)
    (Nat.zero_le ch) (body := fun ci out => mergeChannel sf ci len out) (by
      intro ci _ hci
      rw [mergeChannel]
      have := forRange_states (fun i => tab2 ch n fun c j =>
          if c < ci ∧ sf.outStart ≤ j ∧ j < sf.outStart + len ∨ c = ci ∧ sf.outStart ≤ j ∧ j < sf.outStart + i
          then f c j + g c (j - sf.outStart) else f c j)
        (Nat.zero_le len) (body := fun i out => do
          let v ← rd2 sf.out ci i
          add2 out ci (sf.outStart + i) v) (by
          intro i _ hi
          rw [ho, rd2_tab2 hci hi, ok_bind', add2_tab2 _ hci (by omega)]
          refine congrArg _ (tab2_congr fun c _ j _ => ?_)
          by_cases e : c = ci ∧ j = sf.outStart + i
          · obtain ⟨rfl, rfl⟩ := e
            rw [if_pos ⟨rfl, rfl⟩, if_neg (by omega), if_pos (by omega)]
            rw [Nat.add_sub_cancel_left]
          · rw [if_neg e]
            congr 1
            rw [eq_iff_iff]
            constructor <;> intro h <;> omega)
      refine Eq.trans ?_ (this.trans ?_)
      · congr 1
        refine tab2_congr fun c _ j _ => ?_
        congr 1
        rw [eq_iff_iff]
        constructor <;> intro h <;> omega
      · refine congrArg _ (tab2_congr fun c _ j _ => ?_)
        congr 1
        rw [eq_iff_iff]
        constructor <;> intro h <;> omega)
  refine Eq.trans ?_ (this.trans ?_)
  · congr 1
  · refine congrArg _ (tab2_congr fun c hc j _ => ?_)
    congr 1
    rw [eq_iff_iff]
    constructor <;> intro h <;> omega

/-! ### Events -/

/-- An event in the course of a block: before, after prepare and after generate, and what it adds. -/
structure Item (D S : Type) where
  a : Addr
  e : Event D
  e1 : Event D
  e2 : Event D
  ws : List (Write S)

/-- The successful processing of an event by itself. -/
structure ItemOk (f : Adder D S) (start stop ch : Nat) (it : Item D S) : Prop where
  active : start < it.e.stop
  before : it.e.start < stop
  prepare : it.e.prep = true → ∃ p, f.prepare it.e = .ok (0, p) ∧ it.e1 = { p with prep := false }
  noPrepare : it.e.prep = false → it.e1 = it.e
  generate : f.generate (relStart start it.e.start) (relEnd stop it.e.start it.e.stop) it.e1 = .ok (0, it.e2, it.ws)
  range : ∀ w ∈ it.ws, w.channel < ch ∧ w.index < sub32 (relEnd stop it.e.start it.e.stop) (relStart start it.e.start)

/-- The list of events is split into ended events, the items, and the events after the block. -/
inductive Split (f : Adder D S) (start stop ch : Nat) : List (Addr × Event D) → List (Item D S) → List (Addr × Event D) → Prop
  | nil : Split f start stop ch [] [] []
  | drop {a : Addr} {e : Event D} {l I R} : e.stop ≤ start → (e.hasFree = true → f.free e = .ok ()) →
      Split f start stop ch l I R → Split f start stop ch ((a, e) :: l) I R
  | stop {a : Addr} {e : Event D} {l} : start < e.stop → stop ≤ e.start → Split f start stop ch ((a, e) :: l) [] ((a, e) :: l)
  | item {it : Item D S} {l I R} : ItemOk f start stop ch it → Split f start stop ch l I R →
      Split f start stop ch ((it.a, it.e) :: l) (it :: I) R

/-- The offset of the output of an event. -/
def Item.off (start : Nat) (it : Item D S) : Nat := if it.e.start > start then sub32 it.e.start start else 0

/-- The number of samples of the block that an event covers. -/
def Item.len (start stop : Nat) (it : Item D S) : Nat := sub32 (relEnd stop it.e.start it.e.stop) (relStart start it.e.start)

/-- The output of `sp_seq` after the items: each write is added to the output. -/
def seqAt (start : Nat) : List (Item D S) → (Nat → Nat → S) → Nat → Nat → S
  | [], g => g
  | it :: I, g => seqAt start I fun c j => wfold (it.off start) it.ws c j (g c j)

/-- The output of `sp_seq_parallel` after the items: what the writes make of zero is added to the output. -/
def outAt (start stop : Nat) : List (Item D S) → (Nat → Nat → S) → Nat → Nat → S
  | [], g => g
  | it :: I, g => outAt start stop I fun c j =>
    if it.off start ≤ j ∧ j < it.off start + it.len start stop then g c j + wfold 0 it.ws c (j - it.off start) 0 else g c j

theorem outAt_append (start stop : Nat) (I J : List (Item D S)) (g : Nat → Nat → S) :
    outAt start stop (I ++ J) g = outAt start stop J (outAt start stop I g) := by
  induction I generalizing g with
  | nil => rfl
  | cons it I ih => exact ih _

/-- The outputs are the same if for each item it is the same to add the writes one by one and to add their sum. -/
theorem outAt_eq_seqAt {start stop : Nat} (I : List (Item D S)) (g : Nat → Nat → S)
    (h : ∀ it ∈ I, (∀ w ∈ it.ws, w.index < it.len start stop) ∧ ∀ c j x, wfold 0 it.ws c j x = x + wfold 0 it.ws c j 0) :
    outAt start stop I g = seqAt start I g := by
  induction I generalizing g with
  | nil => rfl
  | cons it I ih =>
    rw [outAt, seqAt, ih _ (fun it hit => h it (by simp [hit]))]
    congr 1
    funext c j
    obtain ⟨h1, h2⟩ := h it (by simp)
    rw [wfold_shift (it.off start) it.ws h1, ← h2]

/-- Well-formed times. -/
structure TimesOk (start stop n : Nat) (l : List (Addr × Event D)) : Prop where
  lt : start < stop
  small : stop < 4294967296
  size : stop - start ≤ n
  events : ∀ p ∈ l, p.2.start ≤ p.2.stop

theorem TimesOk.tail {start stop n : Nat} {p : Addr × Event D} {l : List (Addr × Event D)}
    (h : TimesOk start stop n (p :: l)) : TimesOk start stop n l :=
  ⟨h.lt, h.small, h.size, fun q hq => h.events q (by simp [hq])⟩

/-- The part of the block that an event covers is in the block. -/
theorem range_fits {start stop n : Nat} {e : Event D} (h1 : start < stop) (h2 : stop < 4294967296) (hn : stop - start ≤ n)
    (h3 : e.start < stop) (h4 : start < e.stop) (h5 : e.start ≤ e.stop) :
    (if e.start > start then sub32 e.start start else 0) +
      sub32 (relEnd stop e.start e.stop) (relStart start e.start) ≤ n := by
  have hy : relEnd stop e.start e.stop = min stop e.stop - e.start := by
    rw [relEnd, sub32_of_le (by omega) (by omega)]
  rw [hy, relStart]
  by_cases hs : e.start > start
  · rw [if_pos hs, if_neg (by omega), sub32_of_le (by omega) (by omega), sub32_of_le (by omega) (by omega)]
    omega
  · rw [if_neg hs]
    by_cases hs2 : start > e.start
    · rw [if_pos hs2, sub32_of_le (a := start) (by omega) (by omega), sub32_of_le (by omega) (by omega)]
      omega
    · rw [if_neg hs2, sub32_of_le (by omega) (by omega)]
      omega

/-- The prepare functions leave the times of events as they are. -/
def AdderKeepsTimes (f : Adder D S) : Prop := ∀ e r, f.prepare e = .ok r → r.2.start = e.start ∧ r.2.stop = e.stop

/-- The generate functions add to the part of the block that they are called for, in `ch` channels. -/
def AdderInRange (f : Adder D S) (ch : Nat) : Prop :=
  ∀ x y e r, x ≤ y → y < 2 ^ 32 → f.generate x y e = .ok r → ∀ w ∈ r.2.2, w.channel < ch ∧ w.index < y - x

/-- The times that a generate function is called with. -/
theorem relTimes {start stop : Nat} {e : Event D} (h1 : start < stop) (h2 : stop < 4294967296)
    (h3 : e.start < stop) (h4 : start < e.stop) (h5 : e.start ≤ e.stop) :
    relStart start e.start ≤ relEnd stop e.start e.stop ∧ relEnd stop e.start e.stop < 2 ^ 32 := by
  have hy : relEnd stop e.start e.stop = min stop e.stop - e.start := by
    rw [relEnd, sub32_of_le (by omega) (by omega)]
  rw [hy, relStart]
  by_cases hs : start > e.start
  · rw [if_pos hs, sub32_of_le (by omega) (by omega)]
    omega
  · rw [if_neg hs]
    omega

/-- What the sequential version does, when it is successful. -/
theorem seqList_split {f : Adder D S} {start stop ch n : Nat} (hk : AdderKeepsTimes f) (hr : AdderInRange f ch)
    (l : List (Addr × Event D)) (g : Nat → Nat → S) (ht : TimesOk start stop n l) {l' : List (Addr × Event D)}
    {out' : Buf (Buf S)} {log : List Call}
    (h : seqList f.callbacks start stop 0 l (tab2 ch n g) = .ok (0, l', out', log)) :
    ∃ I R, Split f start stop ch l I R ∧ l' = I.map (fun it => (it.a, it.e2)) ++ R ∧
      out' = tab2 ch n (seqAt start I g) ∧ parCount start stop l = I.length := by
  induction l generalizing g l' out' log with
  | nil =>
    rw [seqList] at h
    simp only [Except.ok.injEq, Prod.mk.injEq] at h
    obtain ⟨_, rfl, rfl, _⟩ := h
    exact ⟨[], [], .nil, rfl, rfl, rfl⟩
  | cons p l ih =>
    obtain ⟨a, e⟩ := p
    have hev := ht.events (a, e) (by simp)
    simp only at hev
    have hlt := ht.lt
    have hsm := ht.small
    rw [seqList] at h
    by_cases h1 : e.stop ≤ start
    · rw [if_pos h1] at h
      cases h2 : eventFree f.callbacks a e (tab2 ch n g) with
      | error x => rw [h2] at h; cases h
      | ok r =>
        obtain ⟨w, lg⟩ := r
        rw [h2] at h
        simp only [ok_bind'] at h
        have hw : w = tab2 ch n g ∧ (e.hasFree = true → f.free e = .ok ()) := by
          rw [eventFree] at h2
          split at h2
          · next hf =>
            simp only [Adder.callbacks] at h2
            cases h3 : f.free e with
            | error x => rw [h3] at h2; cases h2
            | ok u =>
              rw [h3] at h2
              simp only [ok_bind', pure_eq_ok, Except.ok.injEq, Prod.mk.injEq] at h2
              exact ⟨h2.1.symm, fun _ => rfl⟩
          · next hf =>
            simp only [Except.ok.injEq, Prod.mk.injEq] at h2
            exact ⟨h2.1.symm, fun h => absurd h hf⟩
        obtain ⟨rfl, hfree⟩ := hw
        cases h4 : seqList f.callbacks start stop 0 l (tab2 ch n g) with
        | error x => rw [h4] at h; cases h
        | ok r =>
          obtain ⟨st, l2, w2, lg2⟩ := r
          rw [h4] at h
          simp only [ok_bind', pure_eq_ok, Except.ok.injEq, Prod.mk.injEq] at h
          obtain ⟨rfl, rfl, rfl, _⟩ := h
          obtain ⟨I, R, s1, s2, s3, s4⟩ := ih g ht.tail h4
          refine ⟨I, R, .drop h1 hfree s1, s2, s3, ?_⟩
          rw [parCount, if_neg (by omega), if_neg (by omega), s4]
    · rw [if_neg h1] at h
      by_cases h2 : stop ≤ e.start
      · rw [if_pos h2] at h
        simp only [Except.ok.injEq, Prod.mk.injEq] at h
        obtain ⟨_, rfl, rfl, _⟩ := h
        refine ⟨[], (a, e) :: l, .stop (by omega) h2, rfl, rfl, ?_⟩
        rw [parCount, if_pos h2]
        rfl
      · rw [if_neg h2] at h
        cases h3 : seqEvent f.callbacks start stop 0 a e (tab2 ch n g) with
        | error x => rw [h3] at h; cases h
        | ok r =>
          obtain ⟨st, e2, w, lg⟩ := r
          rw [h3] at h
          simp only [ok_bind'] at h
          by_cases hst : st ≠ 0
          · rw [if_pos hst] at h
            simp only [pure_eq_ok, Except.ok.injEq, Prod.mk.injEq] at h
            exact absurd h.1 hst
          · rw [if_neg hst] at h
            have hst0 : st = 0 := by omega
            subst hst0
            -- the event
            rw [seqEvent] at h3
            obtain ⟨e1, lg1, hp, hprep, hnoprep, het1, het2⟩ : ∃ e1 lg1,
                prepareOptional f.callbacks a e (tab2 ch n g) = .ok (0, e1, tab2 ch n g, lg1) ∧
                (e.prep = true → ∃ p, f.prepare e = .ok (0, p) ∧ e1 = { p with prep := false }) ∧
                (e.prep = false → e1 = e) ∧ e1.start = e.start ∧ e1.stop = e.stop := by
              cases hpo : prepareOptional f.callbacks a e (tab2 ch n g) with
              | error x => rw [hpo] at h3; cases h3
              | ok r =>
                obtain ⟨st, e1, w1, lg1⟩ := r
                rw [hpo] at h3
                simp only [ok_bind'] at h3
                by_cases hs1 : st ≠ 0
                · rw [if_pos hs1] at h3
                  simp only [pure_eq_ok, Except.ok.injEq, Prod.mk.injEq] at h3
                  exact absurd h3.1 hs1
                · have hs0 : st = 0 := by omega
                  subst hs0
                  rw [prepareOptional] at hpo
                  by_cases hpr : e.prep = true
                  · rw [if_pos hpr] at hpo
                    simp only [Adder.callbacks] at hpo
                    cases hq : f.prepare e with
                    | error x => rw [hq] at hpo; cases hpo
                    | ok q =>
                      obtain ⟨qs, qe⟩ := q
                      rw [hq] at hpo
                      simp only [ok_bind', pure_eq_ok] at hpo
                      by_cases hqs : qs ≠ 0
                      · rw [if_pos hqs] at hpo
                        simp only [Except.ok.injEq, Prod.mk.injEq] at hpo
                        exact absurd hpo.1 hqs
                      · rw [if_neg hqs] at hpo
                        simp only [Except.ok.injEq, Prod.mk.injEq] at hpo
                        obtain ⟨_, rfl, rfl, rfl⟩ := hpo
                        have hqs0 : qs = 0 := by omega
                        subst hqs0
                        have hkk := hk e _ hq
                        exact ⟨_, _, rfl, fun _ => ⟨qe, rfl, rfl⟩, fun h => (by rw [h] at hpr; cases hpr),
                          hkk.1, hkk.2⟩
                  · rw [if_neg hpr] at hpo
                    simp only [Except.ok.injEq, Prod.mk.injEq] at hpo
                    obtain ⟨_, rfl, rfl, rfl⟩ := hpo
                    exact ⟨_, _, rfl, fun h => absurd h hpr, fun _ => rfl, rfl, rfl⟩
            rw [hp] at h3
            simp only [ok_bind', ne_eq, not_true_eq_false, if_false, Adder.callbacks, het1, het2] at h3
            cases hg : f.generate (relStart start e.start) (relEnd stop e.start e.stop) e1 with
            | error x => rw [hg] at h3; cases h3
            | ok r =>
              obtain ⟨gs, ge, ws⟩ := r
              rw [hg] at h3
              simp only [ok_bind'] at h3
              have htm := relTimes (e := e) hlt hsm (by omega) (by omega) hev
              have hrange := hr _ _ _ _ htm.1 htm.2 hg
              rw [← sub32_of_le htm.1 (by omega)] at hrange
              simp only at hrange
              have hoff : relOffset 0 start e.start = if e.start > start then sub32 e.start start else 0 := by
                rw [relOffset, Nat.zero_add]
              have hfit := range_fits (n := n) (e := e) hlt hsm ht.size (by omega) (by omega) hev
              rw [applyWrites_tab2 ws g (fun w hw => ⟨(hrange w hw).1, by
                have := (hrange w hw).2
                rw [hoff]
                omega⟩)] at h3
              simp only [ok_bind', pure_eq_ok, Except.ok.injEq, Prod.mk.injEq] at h3
              obtain ⟨rfl, rfl, rfl, _⟩ := h3
              cases h4 : seqList f.callbacks start stop 0 l
                  (tab2 ch n fun c j => wfold (relOffset 0 start e.start) ws c j (g c j)) with
              | error x => rw [h4] at h; cases h
              | ok r =>
                obtain ⟨st, l2, w2, lg2⟩ := r
                rw [h4] at h
                simp only [ok_bind', pure_eq_ok, Except.ok.injEq, Prod.mk.injEq] at h
                obtain ⟨rfl, rfl, rfl, _⟩ := h
                obtain ⟨I, R, s1, s2, s3, s4⟩ := ih _ ht.tail h4
                have hit : ItemOk f start stop ch ⟨a, e, e1, ge, ws⟩ :=
                  ⟨(show start < e.stop by omega), (show e.start < stop by omega), hprep, hnoprep, hg, hrange⟩
                refine ⟨⟨a, e, e1, ge, ws⟩ :: I, R, .item hit s1, ?_, ?_, ?_⟩
                · rw [s2]; rfl
                · rw [s3, seqAt]
                  simp only [Item.off, hoff]
                · rw [parCount, if_neg h2, if_pos (by omega), s4, List.length_cons]
                  omega

/-- The items satisfy what successful processing gives. -/
theorem Split.items {f : Adder D S} {start stop ch : Nat} {l R : List (Addr × Event D)} {I : List (Item D S)}
    (h : Split f start stop ch l I R) : ∀ it ∈ I, ItemOk f start stop ch it := by
  induction h with
  | nil => simp
  | drop _ _ _ ih => exact ih
  | stop => simp
  | item h _ ih =>
    intro it hit
    rcases List.mem_cons.1 hit with rfl | hit
    · exact h
    · exact ih it hit

theorem Split.mem {f : Adder D S} {start stop ch : Nat} {l R : List (Addr × Event D)} {I : List (Item D S)}
    (h : Split f start stop ch l I R) : ∀ it ∈ I, (it.a, it.e) ∈ l := by
  induction h with
  | nil => simp
  | drop _ _ _ ih => exact fun it hit => List.mem_cons_of_mem _ (ih it hit)
  | stop => simp
  | item h _ ih =>
    intro it hit
    rcases List.mem_cons.1 hit with rfl | hit
    · exact List.mem_cons_self
    · exact List.mem_cons_of_mem _ (ih it hit)

/-- With exact addition the writes can be added up before. -/
theorem wfold_sum {S : Type} [AddCommMonoid S] (ws : List (Write S)) (c j : Nat) (x : S) :
    wfold 0 ws c j x = x + wfold 0 ws c j 0 := by
  induction ws generalizing x with
  | nil => simp [wfold]
  | cons w ws ih =>
    rw [wfold, wfold]
    by_cases e : c = w.channel ∧ j = 0 + w.index
    · rw [if_pos e, if_pos e, ih, ih (0 + w.value), zero_add, add_assoc]
    · rw [if_neg e, if_neg e, ih]

/-- With any addition, if zero is neutral and there is at most one write to each sample. -/
theorem wfold_once {S : Type} [AddZeroClass S] (ws : List (Write S)) (h : (ws.map fun w => (w.channel, w.index)).Nodup)
    (c j : Nat) (x : S) : wfold 0 ws c j x = x + wfold 0 ws c j 0 := by
  have hno : ∀ ws : List (Write S), (c, j) ∉ ws.map (fun w => (w.channel, w.index)) → ∀ x, wfold 0 ws c j x = x := by
    intro ws
    induction ws with
    | nil => intro _ x; rfl
    | cons w ws ih =>
      intro hn x
      simp only [List.map_cons, List.mem_cons, not_or, Prod.mk.injEq] at hn
      rw [wfold, if_neg (by rw [Nat.zero_add]; exact hn.1), ih hn.2]
  induction ws with
  | nil => simp [wfold]
  | cons w ws ih =>
    rw [List.map_cons, List.nodup_cons] at h
    rw [wfold, wfold]
    by_cases e : c = w.channel ∧ j = 0 + w.index
    · have hn : (c, j) ∉ ws.map (fun w => (w.channel, w.index)) := by
        rw [e.1, e.2, Nat.zero_add]
        exact h.1
      rw [if_pos e, if_pos e, hno _ hn, hno _ hn, zero_add]
    · rw [if_neg e, if_neg e, ih h.2]

end Sp
