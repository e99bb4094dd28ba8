import Verif.Lemmas.SeqParallel

/-! # The slots of `sp_seq_parallel`, whatever the functions of the events do -/

set_option linter.unusedSectionVars false

namespace Sp
variable {D S : Type} [Add S] [Zero S] {f : Adder D S} {start stop : Nat} {s : Par D S}

/-- The invariant of the number of slots. -/
structure CountInv (start stop : Nat) (s : Par D S) : Prop where
  set : ∀ k, k < s.allocated → ∃ sf, s.slots[k]? = some (some sf)
  le : s.allocated ≤ s.slots.length
  main : match s.main with
    | .distribute pos => ∃ l1 l2, s.events = l1 ++ l2 ∧ l1.length = pos ∧ (s.events.map Prod.fst).Nodup ∧
        (∀ p ∈ l2, p.2.start ≤ p.2.stop) ∧ s.slots.length = s.allocated + parCount start stop l2 ∧
        ∀ (k : Nat) (sf : Slot S), s.slots[k]? = some (some sf) → sf.event ∈ l1.map Prod.fst
    | .merge _ => s.slots.length = s.allocated
    | _ => True

theorem parInit_count {events : List (Addr × Event D)} {out : Buf (Buf S)} (hnd : (events.map Prod.fst).Nodup)
    (ht : ∀ p ∈ events, p.2.start ≤ p.2.stop) : CountInv start stop (parInit start stop events out) := by
  refine ⟨fun k hk => absurd hk (Nat.not_lt_zero _), Nat.zero_le _, [], events, rfl, rfl, hnd, ht, ?_, ?_⟩
  · simp [parInit]
  · intro k sf h
    simp only [parInit, List.getElem?_replicate] at h
    split at h <;> simp at h

theorem setEvent_left {l1 l2 : List (Addr × Event D)} {a : Addr} {e : Event D} (hnd : ((l1 ++ l2).map Prod.fst).Nodup)
    (ha : a ∈ l1.map Prod.fst) : setEvent (l1 ++ l2) a e = setEvent l1 a e ++ l2 := by
  rw [List.map_append] at hnd
  have hn := List.nodup_append.1 hnd
  rw [setEvent, List.map_append, setEvent]
  congr 1
  refine (List.map_congr_left (g := id) fun p hp => ?_).trans (List.map_id _)
  rw [if_neg]
  · rfl
  · intro e
    exact hn.2.2 a ha p.1 (List.mem_map_of_mem hp) e.symm

theorem setEvent_addrs (l : List (Addr × Event D)) (a : Addr) (e : Event D) : (setEvent l a e).map Prod.fst = l.map Prod.fst := by
  rw [setEvent, List.map_map]
  refine List.map_congr_left fun p _ => ?_
  simp only [Function.comp_def]
  split
  · next h => exact h.symm
  · rfl

/-- A future that has taken a step. -/
theorem CountInv.advance (h : CountInv start stop s) {k : Nat} {sf sf' : Slot S} (hk : s.slots[k]? = some (some sf))
    (he : sf'.event = sf.event) {events : List (Addr × Event D)}
    (hev : events = s.events ∨ ∃ e, events = setEvent s.events sf.event e) :
    CountInv start stop { s with events := events, slots := s.slots.set k (some sf') } := by
  have hkl : k < s.slots.length := (List.getElem?_eq_some_iff.1 hk).1
  refine ⟨?_, by simpa using h.le, ?_⟩
  · intro j hj
    obtain ⟨x, hx⟩ := h.set j hj
    by_cases e : k = j
    · subst e
      exact ⟨sf', by simp [List.getElem?_set, hkl]⟩
    · exact ⟨x, by simp only; rw [List.getElem?_set_ne e]; exact hx⟩
  · have hm := h.main
    simp only
    cases hmain : s.main with
    | distribute pos =>
      rw [hmain] at hm
      simp only at hm ⊢
      obtain ⟨l1, l2, h1, h2, h3, h4, h5, h6⟩ := hm
      have hmem := h6 k sf hk
      have hslots : ∀ (j : Nat) (x : Slot S), (s.slots.set k (some sf'))[j]? = some (some x) → x.event ∈ l1.map Prod.fst := by
        intro j x hx
        by_cases e : k = j
        · subst e
          rw [List.getElem?_set, if_pos rfl, if_pos hkl] at hx
          simp only [Option.some.injEq] at hx
          rw [← hx, he]
          exact hmem
        · rw [List.getElem?_set_ne e] at hx
          exact h6 j x hx
      rcases hev with rfl | ⟨e, rfl⟩
      · exact ⟨l1, l2, h1, h2, h3, h4, by simpa using h5, hslots⟩
      · refine ⟨setEvent l1 sf.event e, l2, ?_, ?_, ?_, h4, by simpa using h5, ?_⟩
        · rw [h1, setEvent_left (h1 ▸ h3) hmem]
        · rw [← h2, setEvent, List.length_map]
        · rw [setEvent_addrs]; exact h3
        · intro j x hx
          rw [setEvent_addrs]
          exact hslots j x hx
    | merge i =>
      rw [hmain] at hm
      simpa using hm
    | exit st => trivial
    | returned st => trivial

theorem CountInv.step (hlt : start < stop) (h : CountInv start stop s) {s' : Par D S} (hs : ParStep f start stop s (.ok s')) :
    CountInv start stop s' := by
  generalize hr : Except.ok s' = r at hs
  cases hs with
  | @distribute pos a e hm hev =>
    have hmm := h.main
    rw [hm] at hmm
    obtain ⟨l1, l2, h1, h2, h3, h4, h5, h6⟩ := hmm
    have hl2 : ∃ l3, l2 = (a, e) :: l3 := by
      rw [h1, List.getElem?_append_right (by omega), h2, Nat.sub_self] at hev
      cases l2 with
      | nil => simp at hev
      | cons x l3 =>
        simp only [List.getElem?_cons_zero, Option.some.injEq] at hev
        exact ⟨l3, by rw [hev]⟩
    obtain ⟨l3, rfl⟩ := hl2
    have hle : e.start ≤ e.stop := h4 (a, e) (by simp)
    have h43 : ∀ p ∈ l3, p.2.start ≤ p.2.stop := fun p hp => h4 p (by simp [hp])
    rw [parDistribute] at hr
    by_cases c1 : e.stop ≤ start
    · rw [if_pos c1] at hr
      have hr2 : s' = { s with events := s.events.eraseIdx pos } := by
        by_cases hf : e.hasFree = true
        · rw [if_pos hf] at hr
          cases hfe : f.free e with
          | error x => rw [hfe] at hr; cases hr
          | ok u =>
            rw [hfe] at hr
            simp only [ok_bind', pure_eq_ok, Except.ok.injEq] at hr
            exact hr
        · rw [if_neg hf] at hr
          simp only [pure_eq_ok, ok_bind', Except.ok.injEq] at hr
          exact hr
      subst hr2
      refine ⟨h.set, h.le, ?_⟩
      simp only [hm]
      have he : s.events.eraseIdx pos = l1 ++ l3 := by
        rw [h1, ← h2, List.eraseIdx_append_of_length_le (by omega)]
        simp
      refine ⟨l1, l3, he, h2, ?_, h43, ?_, h6⟩
      · rw [he]
        rw [h1] at h3
        refine h3.sublist ?_
        rw [List.map_append, List.map_append]
        exact List.Sublist.append_left (by simp) _
      · rw [h5, parCount, if_neg (by omega), if_neg (by omega)]
    · rw [if_neg c1] at hr
      by_cases c2 : stop ≤ e.start
      · rw [if_pos c2] at hr
        cases hr
        refine ⟨h.set, h.le, ?_⟩
        simp only
        rw [h5, parCount, if_pos c2, Nat.add_zero]
      · rw [if_neg c2, if_pos (by omega)] at hr
        have h5' : s.slots.length = s.allocated + (1 + parCount start stop l3) := by
          rw [h5, parCount, if_neg c2, if_pos (by omega)]
        rw [wr_eq_ok _ (by omega)] at hr
        simp only [ok_bind', pure_eq_ok, Except.ok.injEq] at hr
        subst hr
        refine ⟨?_, by simp only [List.length_set]; omega, ?_⟩
        · intro k hk
          simp only at hk ⊢
          by_cases e : s.allocated = k
          · subst e
            exact ⟨_, by rw [List.getElem?_set, if_pos rfl, if_pos (by omega)]⟩
          · rw [List.getElem?_set_ne e]
            exact h.set k (by omega)
        · simp only
          refine ⟨l1 ++ [(a, e)], l3, by rw [h1]; simp, by simp [h2], h3, h43, by rw [List.length_set]; omega, ?_⟩
          intro k sf hk
          by_cases e : s.allocated = k
          · subst e
            rw [List.getElem?_set, if_pos rfl, if_pos (by omega)] at hk
            simp only [Option.some.injEq] at hk
            rw [← hk]
            simp [parSlot]
          · rw [List.getElem?_set_ne e] at hk
            rw [List.map_append]
            exact List.mem_append_left _ (h6 k sf hk)
  | @distributeEnd pos hm hev =>
    have hmm := h.main
    rw [hm] at hmm
    obtain ⟨l1, l2, h1, h2, h3, h4, h5, h6⟩ := hmm
    cases hr
    refine ⟨h.set, h.le, ?_⟩
    simp only
    have : l2 = [] := by
      rw [h1, List.getElem?_append_right (by omega), h2, Nat.sub_self] at hev
      cases l2 with
      | nil => rfl
      | cons x l3 => simp at hev
    rw [h5, this, parCount]
    rfl
  | mergeUnset hm hsl => cases hr
  | mergeFail hm hsl hr' hst =>
    cases hr
    exact ⟨h.set, h.le, trivial⟩
  | @merge i sf hm hsl hr' hst =>
    cases hmg : mergeSlot sf s.out with
    | error x => rw [hmg] at hr; cases hr
    | ok out =>
      rw [hmg] at hr
      simp only [Except.map, Except.ok.injEq] at hr
      subst hr
      have hmm := h.main
      rw [hm] at hmm
      exact ⟨h.set, h.le, hmm⟩
  | mergeEnd hm hsl =>
    cases hr
    exact ⟨h.set, h.le, trivial⟩
  | @exit st hm =>
    rw [parExit] at hr
    by_cases hst : st ≠ 0
    · rw [if_pos hst] at hr
      cases hf : (s.events.forM fun p => if p.2.hasFree then f.free p.2 else pure ()) with
      | error x => rw [hf] at hr; cases hr
      | ok u =>
        rw [hf] at hr
        simp only [ok_bind', pure_eq_ok, Except.ok.injEq] at hr
        subst hr
        exact ⟨h.set, h.le, trivial⟩
    · rw [if_neg hst] at hr
      cases hr
      exact ⟨h.set, h.le, trivial⟩
  | @prepare k sf hsl hφ =>
    rw [futPrepare] at hr
    by_cases hf : s.freed = true
    · rw [if_pos hf] at hr; cases hr
    · rw [if_neg hf] at hr
      cases hl : loadEvent s.events sf.event with
      | error x => rw [hl] at hr; cases hr
      | ok e =>
        rw [hl] at hr
        simp only [ok_bind'] at hr
        by_cases hp : e.prep = true
        · rw [if_pos hp] at hr
          cases hfp : f.prepare e with
          | error x => rw [hfp] at hr; cases hr
          | ok r =>
            rw [hfp] at hr
            simp only [ok_bind'] at hr
            by_cases hr1 : r.1 ≠ 0
            · rw [if_pos hr1] at hr
              simp only [pure_eq_ok, Except.ok.injEq] at hr
              subst hr
              exact h.advance hsl (by rfl) (.inr ⟨_, rfl⟩)
            · rw [if_neg hr1] at hr
              simp only [pure_eq_ok, Except.ok.injEq] at hr
              subst hr
              exact h.advance hsl (by rfl) (.inr ⟨_, rfl⟩)
        · rw [if_neg hp] at hr
          simp only [pure_eq_ok, Except.ok.injEq] at hr
          subst hr
          exact h.advance hsl (by rfl) (.inl rfl)
  | @generate k sf hsl hφ =>
    rw [futGenerate] at hr
    by_cases hf : s.freed = true
    · rw [if_pos hf] at hr; cases hr
    · rw [if_neg hf] at hr
      cases hl : loadEvent s.events sf.event with
      | error x => rw [hl] at hr; cases hr
      | ok e =>
        rw [hl] at hr
        simp only [ok_bind'] at hr
        cases hg : f.generate sf.start sf.stop e with
        | error x => rw [hg] at hr; cases hr
        | ok r =>
          rw [hg] at hr
          simp only [ok_bind'] at hr
          cases ha : applyWrites 0 r.2.2 sf.out with
          | error x => rw [ha] at hr; cases hr
          | ok out =>
            rw [ha] at hr
            simp only [ok_bind', pure_eq_ok, Except.ok.injEq] at hr
            subst hr
            exact h.advance hsl (by rfl) (.inr ⟨_, rfl⟩)

theorem ParReach.count {events : List (Addr × Event D)} {out : Buf (Buf S)} (hlt : start < stop)
    (hnd : (events.map Prod.fst).Nodup) (ht : ∀ p ∈ events, p.2.start ≤ p.2.stop)
    (h : ParReach f start stop events out s) : CountInv start stop s := by
  induction h with
  | init => exact parInit_count hnd ht
  | step _ hs ih => exact ih.step hlt hs

end Sp
