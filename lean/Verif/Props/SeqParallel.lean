import Verif.Lemmas.SeqParallelInv
import Verif.Lemmas.SeqParallelMeasure

/-!
# C26, C27, C28: `sp_seq_parallel`

The steps of the calling thread and of the futures are interleaved in any way. What is compared to is `sp_seq` on the same
events and the same output block.
-/

set_option linter.unusedSectionVars false

namespace Sp
variable {D S : Type}

/-- Every row of the block has `n` samples. -/
def RowsOf (n : Nat) (out : Buf (Buf S)) : Prop := ∀ row ∈ out, List.length row = n

theorem rows_tab2 [Zero S] {n : Nat} {out : Buf (Buf S)} (h : RowsOf n out) :
    out = tab2 (List.length out) n fun c j => (out.getD c []).getD j 0 := by
  have h1 : out = tab (List.length out) fun c => out.getD c [] := eq_tab out []
  refine h1.trans (tab_congr fun c hc => ?_)
  have hl : List.length (out.getD c []) = n := by
    rw [List.getD_eq_getElem?_getD, List.getElem?_eq_getElem hc]
    exact h _ (List.getElem_mem hc)
  have h2 := eq_tab (out.getD c []) (0 : S)
  rw [hl] at h2
  exact h2

/-- Every schedule of `sp_seq_parallel`, if `sp_seq` is successful. -/
theorem par_runs [Add S] [Zero S] {f : Adder D S} {start stop n : Nat} {l l' : List (Addr × Event D)} {out out' : Buf (Buf S)}
    {log : List Call} (hk : AdderKeepsTimes f) (hr : AdderInRange f (List.length out))
    (hlt : start < stop) (hsm : stop < 2 ^ 32) (hn : stop - start ≤ n) (hrows : RowsOf n out)
    (hev : ∀ p ∈ l, p.2.start ≤ p.2.stop) (hnd : (l.map Prod.fst).Nodup)
    (hseq : seqListTop f.callbacks start stop 0 l out = .ok (0, l', out', log)) :
    ∃ I : List (Item D S), (∀ it ∈ I, ItemOk f start stop (List.length out) it ∧ (it.a, it.e) ∈ l) ∧
      out' = tab2 (List.length out) n (seqAt start I fun c j => (out.getD c []).getD j 0) ∧
      ∀ s, ParReach f start stop l out s → (∀ r, ParStep f start stop s r → ∃ s', r = .ok s') ∧
        ∀ st, s.main = .returned st → st = 0 ∧
          s.out = tab2 (List.length out) n (outAt start stop I fun c j => (out.getD c []).getD j 0) ∧ s.events = l' := by
  have hseq' : seqList f.callbacks start stop 0 l out = .ok (0, l', out', log) := by
    rw [seqListTop] at hseq
    cases h1 : seqList f.callbacks start stop 0 l out with
    | error x => rw [h1] at hseq; cases hseq
    | ok r =>
      obtain ⟨st, l1, w1, lg1⟩ := r
      rw [h1] at hseq
      simp only [ok_bind'] at hseq
      by_cases hst : st ≠ 0
      · rw [if_pos hst] at hseq
        cases h2 : freeList f.callbacks l1 w1 with
        | error x => rw [h2] at hseq; cases hseq
        | ok r =>
          rw [h2] at hseq
          simp only [ok_bind', pure_eq_ok, Except.ok.injEq, Prod.mk.injEq] at hseq
          exact absurd hseq.1 hst
      · rw [if_neg hst] at hseq
        simp only [pure_eq_ok, Except.ok.injEq, Prod.mk.injEq] at hseq
        obtain ⟨_, rfl, rfl, rfl⟩ := hseq
        have : st = 0 := by omega
        rw [this]
  have htab := rows_tab2 hrows
  have htimes : TimesOk start stop n l := ⟨hlt, by omega, hn, hev⟩
  rw [htab] at hseq'
  obtain ⟨I, R, hsp, hl', hout', hcount⟩ := seqList_split hk hr l _ htimes hseq'
  refine ⟨I, fun it hit => ⟨hsp.items it hit, hsp.mem it hit⟩, hout', fun s hs => ?_⟩
  have hinv : ∃ P J K, ParInv f start stop (List.length out) n I R (fun c j => (out.getD c []).getD j 0) s P J K := by
    induction hs with
    | init =>
      refine ⟨[], I, l, ⟨rfl, fun p hp => absurd hp (by simp), hsp, rfl, ?_, rfl, by simpa using hnd, htimes,
        .inl ⟨rfl, rfl, htab⟩⟩⟩
      simp [parInit, hcount]
    | step _ hstep ih =>
      obtain ⟨P, J, K, h⟩ := ih
      obtain ⟨s2, P', J', K', h1, h2⟩ := h.step hstep
      cases h1
      exact ⟨P', J', K', h2⟩
  obtain ⟨P, J, K, h⟩ := hinv
  constructor
  · intro r hstep
    obtain ⟨s2, _, _, _, h1, _⟩ := h.step hstep
    exact ⟨s2, h1⟩
  · intro st hst
    rcases h.main with ⟨h1, _⟩ | ⟨_, _, i, h1, _⟩ | ⟨h0, hKR, h1, h2, h3⟩
    · rw [hst] at h1; cases h1
    · rw [hst] at h1; cases h1
    · rcases h1 with ⟨h1, _⟩ | h1
      · rw [hst] at h1; cases h1
      · rw [hst] at h1
        cases h1
        refine ⟨rfl, h3, ?_⟩
        rw [h.events, hl', hKR, ← h.items, h0, List.append_nil, List.map_map]
        congr 1
        refine List.map_congr_left fun p hp => ?_
        obtain ⟨it, φ⟩ := p
        have : φ = .returned := h2 _ hp
        subst this
        rfl

section
variable [AddCommMonoid S] {f : Adder D S} {start stop n : Nat} {l l' : List (Addr × Event D)} {out out' : Buf (Buf S)}
  {log : List Call}

/-- C26: For events whose functions add to their own part of the output, if `sp_seq` is successful, then
`sp_seq_parallel` does not fault under any schedule, and when it returns, it has returned success, with the output and the events of
`sp_seq`. -/
theorem C26_parallel_equals_sequential (hk : AdderKeepsTimes f) (hr : AdderInRange f (List.length out))
    (hlt : start < stop) (hsm : stop < 2 ^ 32) (hn : stop - start ≤ n) (hrows : RowsOf n out)
    (hev : ∀ p ∈ l, p.2.start ≤ p.2.stop) (hnd : (l.map Prod.fst).Nodup)
    (hseq : seqListTop f.callbacks start stop 0 l out = .ok (0, l', out', log))
    {s : Par D S} (hs : ParReach f start stop l out s) :
    (∀ r, ParStep f start stop s r → ∃ s', r = .ok s') ∧
      ∀ st, s.main = .returned st → st = 0 ∧ s.out = out' ∧ s.events = l' := by
  obtain ⟨I, hI, h1, h2⟩ := par_runs hk hr hlt hsm hn hrows hev hnd hseq
  rw [outAt_eq_seqAt I _ (fun it hit => ⟨fun w hw => ((hI it hit).1.range w hw).2, fun c j x => wfold_sum it.ws c j x⟩)] at h2
  rw [h1]
  exact h2 s hs

end

section
variable [Add S] [Zero S] {f : Adder D S} {start stop : Nat}

/-- C26: no schedule goes on forever. -/
theorem C26_no_infinite_schedule : ¬∃ t : Nat → Par D S, ∀ i, ParStep f start stop (t i) (.ok (t (i + 1))) := by
  rintro ⟨t, ht⟩
  have : ∀ i, parLeft (t i) + i ≤ parLeft (t 0) := by
    intro i
    induction i with
    | zero => omega
    | succ i ih =>
      have := parLeft_lt (ht i)
      omega
  have := this (parLeft (t 0) + 1)
  omega

/-- C26: as long as the call has not returned, there is a thread that can take a step. -/
theorem C26_no_deadlock (s : Par D S) (h : ∀ st, s.main ≠ .returned st) : ∃ r, ParStep f start stop s r :=
  par_progress s h

/-- C27 for events that do not end before they start, whatever their functions do: when a future is made there is a free
element in the array, when the results are merged there are as many futures as elements, and all are set.
Missing: events whose end is before their start; see `C27_malformed_false`. -/
theorem C27_slots_partial (hlt : start < stop) {l : List (Addr × Event D)} {out : Buf (Buf S)}
    (hev : ∀ p ∈ l, p.2.start ≤ p.2.stop) (hnd : (l.map Prod.fst).Nodup) {s : Par D S}
    (hs : ParReach f start stop l out s) :
    (∀ pos a e, s.main = .distribute pos → s.events[pos]? = some (a, e) → start < e.stop → e.start < stop →
        s.allocated < s.slots.length) ∧
      ∀ i, s.main = .merge i → s.slots.length = s.allocated ∧ ∀ k, k < s.slots.length → ∃ sf, s.slots[k]? = some (some sf) := by
  have h := hs.count hlt hnd hev
  constructor
  · intro pos a e hm he h1 h2
    have hmm := h.main
    rw [hm] at hmm
    obtain ⟨l1, l2, e1, e2, _, _, e5, _⟩ := hmm
    rw [e1, List.getElem?_append_right (by omega), e2, Nat.sub_self] at he
    cases l2 with
    | nil => simp at he
    | cons x l3 =>
      simp only [List.getElem?_cons_zero, Option.some.injEq] at he
      subst he
      rw [e5, parCount, if_neg (by omega), if_pos h1]
      omega
  · intro i hm
    have hmm := h.main
    rw [hm] at hmm
    simp only at hmm
    exact ⟨hmm, fun k hk => h.set k (by omega)⟩

/-- C28 if no event fails: no schedule leads to a fault, in particular no future finds its memory or its event freed.
Missing: failing events; see `C28_failing_event_false`. -/
theorem C28_no_failure_partial {n : Nat} {l l' : List (Addr × Event D)}
    {out out' : Buf (Buf S)} {log : List Call} (hk : AdderKeepsTimes f) (hr : AdderInRange f (List.length out))
    (hlt : start < stop) (hsm : stop < 2 ^ 32) (hn : stop - start ≤ n) (hrows : RowsOf n out)
    (hev : ∀ p ∈ l, p.2.start ≤ p.2.stop) (hnd : (l.map Prod.fst).Nodup)
    (hseq : seqListTop f.callbacks start stop 0 l out = .ok (0, l', out', log))
    {s : Par D S} (hs : ParReach f start stop l out s) (fault : Fault) : ¬ParStep f start stop s (.error fault) := by
  intro h
  obtain ⟨_, _, _, h2⟩ := par_runs hk hr hlt hsm hn hrows hev hnd hseq
  obtain ⟨s', h'⟩ := (h2 s hs).1 _ h
  cases h'

end

/-! ## Witnesses -/

/-- Events that add 1 to the first sample they are called for, in the first channel, and return their data as status. -/
def oneAdder : Adder Nat Nat where
  prepare e := .ok (0, e)
  generate x y e := .ok (e.data, e, if e.data = 0 ∧ x < y then [⟨0, 0, 1⟩] else [])
  free _ := .ok ()

/-- C27 is false: an event that ends before it starts, which makes the counting loop stop and is removed by the
distributing loop, so that the next event is written past the end of the array. -/
theorem C27_malformed_false : ∃ s : Par Nat Nat,
    ParReach oneAdder 0 5 [(1, ⟨10, 0, false, false, 0⟩), (2, ⟨0, 5, false, false, 0⟩)] [[0, 0, 0, 0, 0]] s ∧
      ParStep oneAdder 0 5 s (.error .outOfBounds) := by
  refine ⟨_, .step .init (.distribute (pos := 0) (a := 1) (e := ⟨10, 0, false, false, 0⟩) rfl rfl), ?_⟩
  exact .distribute (pos := 0) (a := 2) (e := ⟨0, 5, false, false, 0⟩) rfl rfl

/-- C28 is false: the first of two events fails and the call returns before the future of the second event runs, which then uses
memory that has been freed. -/
theorem C28_failing_event_false : ∃ s : Par Nat Nat,
    ParReach oneAdder 0 5 [(1, ⟨0, 5, false, false, 1⟩), (2, ⟨0, 5, false, false, 0⟩)] [[0, 0, 0, 0, 0]] s ∧
      ParStep oneAdder 0 5 s (.error .useAfterFree) := by
  let R := ParReach oneAdder 0 5 [(1, ⟨0, 5, false, false, 1⟩), (2, ⟨0, 5, false, false, 0⟩)] [[0, 0, 0, 0, 0]]
  let E : List (Addr × Event Nat) := [(1, ⟨0, 5, false, false, 1⟩), (2, ⟨0, 5, false, false, 0⟩)]
  let A : Slot Nat := parSlot 0 5 1 1 (⟨0, 5, false, false, 1⟩ : Event Nat)
  let B : Slot Nat := parSlot 0 5 1 2 (⟨0, 5, false, false, 0⟩ : Event Nat)
  have h0 : R ⟨.distribute 0, E, [none, none], false, 0, [[0, 0, 0, 0, 0]]⟩ := .init
  have h1 : R ⟨.distribute 1, E, [some A, none], false, 1, [[0, 0, 0, 0, 0]]⟩ :=
    h0.step (.distribute (pos := 0) (a := 1) (e := ⟨0, 5, false, false, 1⟩) rfl rfl)
  have h2 : R ⟨.distribute 2, E, [some A, some B], false, 2, [[0, 0, 0, 0, 0]]⟩ :=
    h1.step (.distribute (pos := 1) (a := 2) (e := ⟨0, 5, false, false, 0⟩) rfl rfl)
  have h3 : R ⟨.merge 0, E, [some A, some B], false, 2, [[0, 0, 0, 0, 0]]⟩ := h2.step (.distributeEnd (pos := 2) rfl rfl)
  have h4 : R ⟨.merge 0, E, [some { A with fut := .prepared }, some B], false, 2, [[0, 0, 0, 0, 0]]⟩ :=
    h3.step (.prepare (k := 0) (sf := A) rfl rfl)
  have h5 : R ⟨.merge 0, E, [some { A with status := 1, fut := .returned }, some B], false, 2, [[0, 0, 0, 0, 0]]⟩ :=
    h4.step (.generate (k := 0) (sf := { A with fut := .prepared }) rfl rfl)
  have h6 : R ⟨.exit 1, E, [some { A with status := 1, fut := .returned }, some B], false, 2, [[0, 0, 0, 0, 0]]⟩ :=
    h5.step (.mergeFail (i := 0) (sf := { A with status := 1, fut := .returned }) rfl rfl rfl (by decide))
  have h7 : R ⟨.returned 1, [], [some { A with status := 1, fut := .returned }, some B], true, 2, [[0, 0, 0, 0, 0]]⟩ :=
    h6.step (.exit (st := 1) rfl)
  exact ⟨_, h7, .prepare (k := 1) (sf := B) rfl rfl⟩

/-- The hypotheses of C26 hold for two overlapping events, the first of which begins before the block. -/
example : ∃ l' log, AdderKeepsTimes oneAdder ∧ AdderInRange oneAdder 1 ∧
    seqListTop oneAdder.callbacks 3 8 0 [(1, ⟨0, 5, true, false, 0⟩), (2, ⟨4, 9, false, false, 0⟩)] [[0, 0, 0, 0, 0]] =
      .ok (0, l', [[1, 1, 0, 0, 0]], log) := by
  refine ⟨_, _, ?_, ?_, rfl⟩
  · intro e r h
    simp only [oneAdder, Except.ok.injEq] at h
    subst h
    exact ⟨rfl, rfl⟩
  · intro x y e r _ _ h
    simp only [oneAdder, Except.ok.injEq] at h
    subst h
    simp only
    split
    · next h =>
      intro w hw
      rw [List.mem_singleton] at hw
      subst hw
      exact ⟨by simp, by have := h.2; simp only; omega⟩
    · simp

end Sp
