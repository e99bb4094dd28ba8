import Verif.Props.Seq

/-!
# C25, and concrete runs of the sequencer that meet the hypotheses of C19 to C21
-/

set_option linter.unusedSectionVars false

namespace Sp

/-! ### A concrete run -/

/-- Event functions that count calls in the world; generate fails with status 9 when the event's data
is 13. -/
def countingCb : Callbacks Nat Nat where
  prepare e w := .ok (0, { e with data := e.data + 1 }, w + 1)
  generate _ _ _ e w := .ok (if e.data = 13 then 9 else 0, e, w + 1)
  free _ w := .ok (w + 100)

theorem countingCb_keepsTimes : KeepsTimes countingCb := by
  constructor
  · intro e w st e' w' h
    simp [countingCb] at h
    obtain ⟨_, rfl, _⟩ := h
    exact ⟨rfl, rfl⟩
  · intro x y off e w st e' w' h
    simp [countingCb] at h
    obtain ⟨_, rfl, _⟩ := h
    exact ⟨rfl, rfl, fun h => h⟩

theorem countingCb_keepsFree : KeepsFree countingCb := by
  constructor
  · intro e w st e' w' h
    simp [countingCb] at h
    obtain ⟨_, rfl, _⟩ := h
    exact fun h => h
  · intro x y off e w st e' w' h
    simp [countingCb] at h
    obtain ⟨_, rfl, _⟩ := h
    exact fun h => h

/-- Two events: 2 to 5 and 3 to 12. -/
def twoEvents : List (Addr × Event Nat) := [(1, ⟨2, 5, true, true, 0⟩), (2, ⟨3, 12, true, false, 0⟩)]

/-- The list of two events in memory. -/
def twoEventsState : SeqState Nat Nat where
  heap b := if b = 1 then some ⟨none, some 2, ⟨2, 5, true, true, 0⟩⟩
    else if b = 2 then some ⟨some 1, none, ⟨3, 12, true, false, 0⟩⟩ else none
  head := some 1
  world := 0
  log := []

theorem twoEvents_wellFormed : WellFormed twoEventsState.heap twoEventsState.head twoEvents :=
  ⟨⟨rfl, some 2, by simp [twoEventsState], rfl, none, by simp [twoEventsState], rfl⟩,
    by simp [twoEvents]⟩

theorem twoEvents_sorted : SortedEvents twoEvents :=
  ⟨by simp [twoEvents], by simp [twoEvents], by simp [twoEvents]⟩

/-- Blocks 0 to 4, 4 to 8, 8 to 10: the hypotheses of C19 to C21 are met by a real run. -/
theorem twoEvents_run : ∃ s' logs,
    seqBlocks countingCb 3 id 0 [4, 8, 10] twoEventsState = .ok (0, s', logs) ∧
    logs = [[.prepare 1 0, .generate 1 0 2 2 0, .prepare 2 0, .generate 2 0 1 3 0],
      [.generate 1 2 3 4 0, .generate 2 1 5 4 0],
      [.free 1, .release 1, .generate 2 5 7 8 0]] := ⟨_, _, rfl, by decide⟩

/-- C19 applied to the run. -/
example : ∃ s' logs, seqBlocks countingCb 3 id 0 [4, 8, 10] twoEventsState = .ok (0, s', logs) ∧
    ∀ x, (generatesOf 2 logs.flatten).countP (fun r => decide (r.1 ≤ x ∧ x < r.2.1)) =
      if 0 ≤ 3 + x ∧ 3 + x < 10 ∧ 3 + x < 12 then 1 else 0 := by
  obtain ⟨s', logs, h, _⟩ := twoEvents_run
  exact ⟨s', logs, h, (C19_covers_exactly countingCb_keepsTimes id 3 (by simp [Blocks]) twoEvents_sorted
    (by simp [twoEvents]) twoEvents_wellFormed h (a := 2) (e := ⟨3, 12, true, false, 0⟩)
    (by simp [twoEvents])).2⟩

/-- C20 applied to the run. -/
example : ∃ s' logs, seqBlocks countingCb 3 id 0 [4, 8, 10] twoEventsState = .ok (0, s', logs) ∧
    preparesOf 2 logs.flatten = [0] := by
  obtain ⟨s', logs, h, _⟩ := twoEvents_run
  exact ⟨s', logs, h, C20_prepared_if_rendered countingCb_keepsTimes id 3 (by simp [Blocks])
    twoEvents_sorted (by simp [twoEvents]) twoEvents_wellFormed h (a := 2)
    (e := ⟨3, 12, true, false, 0⟩) (by simp [twoEvents]) rfl ⟨(0, 4), by simp [blockBounds]⟩⟩

/-- C21 applied to the run: event 1 is freed in the third call. -/
example : ∃ s' logs, seqBlocks countingCb 3 id 0 [4, 8, 10] twoEventsState = .ok (0, s', logs) ∧
    traceOf 1 (logs.getD 2 []) = [.free 1, .release 1] := by
  obtain ⟨s', logs, h, _⟩ := twoEvents_run
  obtain ⟨h1, _, _⟩ := C21_freed_when_finished countingCb_keepsTimes id 3 (by simp [Blocks])
    twoEvents_sorted (by simp [twoEvents]) twoEvents_wellFormed h (a := 1)
    (e := ⟨2, 5, true, true, 0⟩) (by simp [twoEvents])
  obtain ⟨h2, h3⟩ := h1 2 8 10 rfl
  refine ⟨s', logs, h, h3 (h2.2 ⟨by decide, ?_⟩) countingCb_keepsFree rfl⟩
  intro j t' u' hj h4
  have : j = 0 ∨ j = 1 := by omega
  rcases this with rfl | rfl <;> simp [blockBounds] at h4 <;> simp <;> omega

/-- The same list with a second event whose generate function fails. -/
def failingState : SeqState Nat Nat where
  heap b := if b = 1 then some ⟨none, some 2, ⟨2, 5, true, true, 0⟩⟩
    else if b = 2 then some ⟨some 1, none, ⟨3, 12, true, false, 12⟩⟩ else none
  head := some 1
  world := 0
  log := []

/-- A failing run that meets the hypotheses of `C21_error`. -/
example : ∃ s', seq countingCb 3 0 4 0 failingState = .ok (9, s') ∧ s'.head = none ∧
    s'.log.count (.free 1) = 1 ∧ s'.log.count (.release 2) = 1 := by
  have hwf : WellFormed failingState.heap failingState.head
      [(1, ⟨2, 5, true, true, 0⟩), (2, ⟨3, 12, true, false, 12⟩)] :=
    ⟨⟨rfl, some 2, by simp [failingState], rfl, none, by simp [failingState], rfl⟩, by simp⟩
  have h : ∃ s', seq countingCb 3 0 4 0 failingState = .ok (9, s') := ⟨_, rfl⟩
  obtain ⟨s', h⟩ := h
  obtain ⟨_, h2, h3, _⟩ := C21_error countingCb_keepsTimes (fuel := 3) (by simp) rfl hwf (by decide) h
  have k1 := h2 (1, ⟨2, 5, true, true, 0⟩) (by simp)
  have k2 := h2 (2, ⟨3, 12, true, false, 12⟩) (by simp)
  exact ⟨s', h, h3, k1.2.2.1 countingCb_keepsFree rfl, k2.1⟩

/-! ### C25 -/

/-- Event functions whose only data is the list of registered memory addresses; the world is the list
of addresses that have been passed to `free`, which is what `sp_event_memory_free` does. -/
structure MemoryEvents (cb : Callbacks (List Nat) (List Nat)) : Prop where
  free : ∀ e w, cb.free e w = .ok (w ++ e.data)
  prepare : ∀ e w st e' w', cb.prepare e w = .ok (st, e', w') → e.data ⊆ e'.data ∧ w' = w
  generate : ∀ x y off e w st e' w', cb.generate x y off e w = .ok (st, e', w') →
    e.data ⊆ e'.data ∧ w' = w

/-- A prepare function that registers address 7 (and sets the free function, as
`sp_event_memory_add` does) and then fails with status 1. -/
def leakingCb : Callbacks (List Nat) (List Nat) where
  prepare e w := .ok (1, { e with hasFree := true, data := e.data ++ [7] }, w)
  generate _ _ _ e w := .ok (0, e, w)
  free e w := .ok (w ++ e.data)

/-- **C25 is false of the code.** A prepare function registers address 7 with the event and fails.
`sp_seq` called prepare with a local copy of the event that it drops, so the registered address is
never freed: the list of freed addresses stays empty. -/
theorem C25_failing_prepare_leaks :
    MemoryEvents leakingCb ∧
    (∀ e w, ∃ e', leakingCb.prepare e w = .ok (1, e', w) ∧ 7 ∈ e'.data ∧ e'.hasFree = true) ∧
    ∃ s', seq leakingCb 2 0 10 0 ⟨fun b => if b = 1 then some ⟨none, none, ⟨0, 5, true, false, []⟩⟩
        else none, some 1, [], []⟩ = .ok (1, s') ∧ s'.head = none ∧ s'.world = [] := by
  refine ⟨⟨fun _ _ => rfl, ?_, ?_⟩, fun e w => ⟨_, rfl, by simp, rfl⟩, ⟨_, rfl, rfl, rfl⟩⟩
  · intro e w st e' w' h
    simp [leakingCb] at h
    obtain ⟨_, rfl, rfl⟩ := h
    exact ⟨by simp, rfl⟩
  · intro x y off e w st e' w' h
    simp [leakingCb] at h
    obtain ⟨_, rfl, rfl⟩ := h
    exact ⟨by simp, rfl⟩

theorem freeList_world {cb : Callbacks (List Nat) (List Nat)} (hm : MemoryEvents cb)
    {l : List (Addr × Event (List Nat))} {w w' : List Nat} {log : List Call}
    (h : freeList cb l w = .ok (w', log)) :
    w ⊆ w' ∧ ∀ x ∈ l, x.2.hasFree = true → x.2.data ⊆ w' := by
  induction l generalizing w w' log with
  | nil => simp [freeList] at h; simp [h.1]
  | cons y rest ih =>
    obtain ⟨a, e⟩ := y
    unfold freeList at h
    rw [bind_eq_ok] at h
    obtain ⟨⟨w1, log1⟩, h1, h⟩ := h
    simp only at h
    rw [bind_eq_ok] at h
    obtain ⟨⟨w2, log2⟩, h2, h⟩ := h
    simp only [pure_eq_ok, Except.ok.injEq, Prod.mk.injEq] at h
    obtain ⟨rfl, _⟩ := h
    obtain ⟨i1, i2⟩ := ih h2
    unfold eventFree at h1
    rw [hm.free] at h1
    have hw : w ⊆ w1 ∧ (e.hasFree = true → e.data ⊆ w1) := by
      split at h1
      · simp at h1; rw [← h1.1]; simp
      · next hf => simp at h1; rw [h1.1]; simp [hf]
    refine ⟨fun _ h => i1 (hw.1 h), ?_⟩
    intro x hx hf
    rcases List.mem_cons.1 hx with rfl | hx
    · exact fun _ h => i1 (hw.2 hf h)
    · exact i2 x hx hf

theorem seqList_world {cb : Callbacks (List Nat) (List Nat)} (hm : MemoryEvents cb)
    (hk : KeepsTimes cb) (hkf : KeepsFree cb) {start stop base : Nat}
    {l l' : List (Addr × Event (List Nat))} {w w' : List Nat} {st : Nat} {log : List Call}
    (h : seqList cb start stop base l w = .ok (st, l', w', log)) :
    w ⊆ w' ∧ ∀ x ∈ l, x.2.hasFree = true →
      x.2.data ⊆ w' ∨ ∃ x' ∈ l', x'.2.hasFree = true ∧ x.2.data ⊆ x'.2.data := by
  induction l generalizing w l' w' st log with
  | nil => simp [seqList] at h; simp [h.2.2.1]
  | cons y rest ih =>
    obtain ⟨a, e⟩ := y
    have hev : ∀ {w w1 st e' log}, seqEvent cb start stop base a e w = .ok (st, e', w1, log) →
        w1 = w ∧ e.data ⊆ e'.data := by
      intro w w1 st e' log h1
      unfold seqEvent at h1
      rw [bind_eq_ok] at h1
      obtain ⟨⟨st1, e1, w2, log1⟩, hp, h1⟩ := h1
      simp only at h1
      have hp' : w2 = w ∧ e.data ⊆ e1.data := by
        rcases prepareOptional_cases hp with ⟨_, _, rfl, rfl, _⟩ | ⟨_, _, rfl, _, e2, hc⟩ |
          ⟨_, _, _, e2, hc, rfl⟩
        · simp
        · exact ⟨(hm.prepare _ _ _ _ _ hc).2, by simp⟩
        · exact ⟨(hm.prepare _ _ _ _ _ hc).2, (hm.prepare _ _ _ _ _ hc).1⟩
      split at h1
      · simp at h1
        obtain ⟨_, rfl, rfl, _⟩ := h1
        exact hp'
      · rw [bind_eq_ok] at h1
        obtain ⟨⟨st2, e2, w3⟩, hg, h1⟩ := h1
        simp at h1
        obtain ⟨_, rfl, rfl, _⟩ := h1
        have := hm.generate _ _ _ _ _ _ _ _ hg
        exact ⟨this.2.trans hp'.1, fun _ h => this.1 (hp'.2 h)⟩
    have hkeep : ∀ {w w1 st e' log}, seqEvent cb start stop base a e w = .ok (st, e', w1, log) →
        e.hasFree = true → e'.hasFree = true := fun h1 => (seqEvent_cases hk h1).2.2.1 hkf
    unfold seqList at h
    split at h
    · rw [bind_eq_ok] at h
      obtain ⟨⟨w1, log1⟩, h1, h⟩ := h
      simp only at h
      rw [bind_eq_ok] at h
      obtain ⟨⟨st2, l2, w2, log2⟩, h2, h⟩ := h
      simp only [pure_eq_ok, Except.ok.injEq, Prod.mk.injEq] at h
      obtain ⟨_, rfl, rfl, _⟩ := h
      obtain ⟨i1, i2⟩ := ih h2
      unfold eventFree at h1
      rw [hm.free] at h1
      have hw : w ⊆ w1 ∧ (e.hasFree = true → e.data ⊆ w1) := by
        split at h1
        · simp at h1; rw [← h1.1]; simp
        · next hf => simp at h1; rw [h1.1]; simp [hf]
      refine ⟨fun _ h => i1 (hw.1 h), ?_⟩
      intro x hx hf
      rcases List.mem_cons.1 hx with rfl | hx
      · exact Or.inl (fun _ h => i1 (hw.2 hf h))
      · exact i2 x hx hf
    · split at h
      · simp at h
        obtain ⟨_, rfl, rfl, _⟩ := h
        exact ⟨by simp, fun x hx hf => Or.inr ⟨x, hx, hf, by simp⟩⟩
      · rw [bind_eq_ok] at h
        obtain ⟨⟨st1, e1, w1, log1⟩, h1, h⟩ := h
        simp only at h
        obtain ⟨rfl, hd⟩ := hev h1
        split at h
        · simp at h
          obtain ⟨_, rfl, rfl, _⟩ := h
          refine ⟨by simp, fun x hx hf => Or.inr ?_⟩
          rcases List.mem_cons.1 hx with rfl | hx
          · exact ⟨(a, e1), by simp, hkeep h1 hf, hd⟩
          · exact ⟨x, by simp [hx], hf, by simp⟩
        · rw [bind_eq_ok] at h
          obtain ⟨⟨st2, l2, w2, log2⟩, h2, h⟩ := h
          simp only [pure_eq_ok, Except.ok.injEq, Prod.mk.injEq] at h
          obtain ⟨_, rfl, rfl, _⟩ := h
          obtain ⟨i1, i2⟩ := ih h2
          refine ⟨i1, ?_⟩
          intro x hx hf
          rcases List.mem_cons.1 hx with rfl | hx
          · exact Or.inr ⟨(a, e1), by simp, hkeep h1 hf, hd⟩
          · rcases i2 x hx hf with i | ⟨x', j1, j2, j3⟩
            · exact Or.inl i
            · exact Or.inr ⟨x', by simp [j1], j2, j3⟩

/-- **C25, the part that holds.** When `sp_seq` fails, all memory that was registered with an event of
the list before the call is freed, for every event and whichever event function failed. Missing: the
memory that the failing prepare function itself registered, see `C25_failing_prepare_leaks`. -/
theorem C25_registered_before_is_freed_partial {cb : Callbacks (List Nat) (List Nat)}
    (hm : MemoryEvents cb) (hk : KeepsTimes cb) (hkf : KeepsFree cb) {start stop base fuel : Nat}
    {l : List (Addr × Event (List Nat))} (hf : l.length < fuel)
    {s s' : SeqState (List Nat) (List Nat)} (hl : WellFormed s.heap s.head l) {st : Nat} (hst : st ≠ 0)
    (h : seq cb fuel start stop base s = .ok (st, s')) :
    ∀ x ∈ l, x.2.hasFree = true → x.2.data ⊆ s'.world := by
  intro x hx hfree
  have hr := seq_refines cb start stop base l s fuel hf hl
  rw [h] at hr
  cases hsl : seqListTop cb start stop base l s.world with
  | error f => rw [hsl] at hr; simp [Refines] at hr
  | ok r =>
    obtain ⟨st', l', w, log⟩ := r
    rw [hsl] at hr
    obtain ⟨heap, head, e1, _⟩ := hr
    simp only [Except.ok.injEq, Prod.mk.injEq] at e1
    obtain ⟨rfl, rfl⟩ := e1
    unfold seqListTop at hsl
    rw [bind_eq_ok] at hsl
    obtain ⟨⟨st1, l1, w1, log1⟩, h1, h2⟩ := hsl
    simp only at h2
    split at h2
    · rw [bind_eq_ok] at h2
      obtain ⟨⟨w2, log2⟩, h3, h2⟩ := h2
      simp only [pure_eq_ok, Except.ok.injEq, Prod.mk.injEq] at h2
      obtain ⟨rfl, rfl, rfl, rfl⟩ := h2
      obtain ⟨j1, j2⟩ := seqList_world hm hk hkf h1
      obtain ⟨k1, k2⟩ := freeList_world hm h3
      rcases j2 x hx hfree with i | ⟨x', i1, i2, i3⟩
      · exact fun _ h => k1 (i h)
      · exact fun _ h => k2 x' i1 i2 (i3 h)
    · simp only [pure_eq_ok, Except.ok.injEq, Prod.mk.injEq] at h2
      exact absurd h2.1.symm hst

/-- Non-vacuity: an event with registered addresses 3 and 4 whose prepare function fails. -/
example : ∃ s', seq leakingCb 2 0 10 0 ⟨fun b => if b = 1 then some ⟨none, none, ⟨0, 5, true, true, [3, 4]⟩⟩
    else none, some 1, [], []⟩ = .ok (1, s') ∧ [3, 4] ⊆ s'.world := by
  have hk : KeepsTimes leakingCb := by
    constructor
    · intro e w st e' w' h
      simp [leakingCb] at h
      obtain ⟨_, rfl, _⟩ := h
      exact ⟨rfl, rfl⟩
    · intro x y off e w st e' w' h
      simp [leakingCb] at h
      obtain ⟨_, rfl, _⟩ := h
      exact ⟨rfl, rfl, fun h => h⟩
  have hkf : KeepsFree leakingCb := by
    constructor
    · intro e w st e' w' h
      simp [leakingCb] at h
      obtain ⟨_, rfl, _⟩ := h
      exact fun _ => rfl
    · intro x y off e w st e' w' h
      simp [leakingCb] at h
      obtain ⟨_, rfl, _⟩ := h
      exact fun h => h
  have h : ∃ s', seq leakingCb 2 0 10 0 ⟨fun b => if b = 1 then some ⟨none, none, ⟨0, 5, true, true, [3, 4]⟩⟩
    else none, some 1, [], []⟩ = .ok (1, s') := ⟨_, rfl⟩
  obtain ⟨s', h⟩ := h
  exact ⟨s', h, C25_registered_before_is_freed_partial C25_failing_prepare_leaks.1 hk hkf
    (l := [(1, ⟨0, 5, true, true, [3, 4]⟩)]) (by simp)
    ⟨⟨rfl, none, by simp, rfl⟩, by simp⟩ (by decide) h (1, ⟨0, 5, true, true, [3, 4]⟩) (by simp) rfl⟩

end Sp
