import Verif.Lemmas.SeqParallel

/-! # The states of `sp_seq_parallel` -/

set_option linter.unusedSectionVars false

namespace Sp
variable {D S : Type} [Add S] [Zero S] {f : Adder D S} {start stop ch n : Nat} {s : Par D S}

/-- The list element of an item whose future is at `φ`. -/
def evOf (p : Item D S × Fut) : Addr × Event D :=
  (p.1.a, match p.2 with
    | .new => p.1.e
    | .prepared => p.1.e1
    | .returned => p.1.e2)

/-- The slot of an item whose future is at `φ`. -/
def slotOf (start stop ch : Nat) (p : Item D S × Fut) : Slot S :=
  match p.2 with
  | .new => parSlot start stop ch p.1.a p.1.e
  | .prepared => { (parSlot start stop ch p.1.a p.1.e : Slot S) with fut := .prepared }
  | .returned => { (parSlot start stop ch p.1.a p.1.e : Slot S) with
      out := tab2 ch (sub32 (relEnd stop p.1.e.start p.1.e.stop) (relStart start p.1.e.start)) (fun c j => wfold 0 p.1.ws c j 0),
      fut := .returned }

theorem slotOf_event (p : Item D S × Fut) : (slotOf start stop ch p).event = p.1.a := by
  obtain ⟨it, φ⟩ := p
  cases φ <;> rfl

theorem slotOf_fut (p : Item D S × Fut) : (slotOf start stop ch p).fut = p.2 := by
  obtain ⟨it, φ⟩ := p
  cases φ <;> rfl

theorem slotOf_status (p : Item D S × Fut) : (slotOf start stop ch p).status = 0 := by
  obtain ⟨it, φ⟩ := p
  cases φ <;> rfl

theorem slotOf_start (p : Item D S × Fut) : (slotOf start stop ch p).start = relStart start p.1.e.start := by
  obtain ⟨it, φ⟩ := p
  cases φ <;> rfl

theorem slotOf_stop (p : Item D S × Fut) : (slotOf start stop ch p).stop = relEnd stop p.1.e.start p.1.e.stop := by
  obtain ⟨it, φ⟩ := p
  cases φ <;> rfl

theorem slotOf_outStart (p : Item D S × Fut) : (slotOf start stop ch p).outStart = p.1.off start := by
  obtain ⟨it, φ⟩ := p
  cases φ <;> rfl

/-- The invariant: `P` are the items whose futures have been made, `I` the items to come, `K` the list elements that have not been
visited. -/
structure ParInv (f : Adder D S) (start stop ch n : Nat) (all : List (Item D S)) (R : List (Addr × Event D))
    (g : Nat → Nat → S) (s : Par D S) (P : List (Item D S × Fut)) (I : List (Item D S)) (K : List (Addr × Event D)) : Prop where
  items : P.map Prod.fst ++ I = all
  ok : ∀ p ∈ P, ItemOk f start stop ch p.1 ∧ p.1.e.start ≤ p.1.e.stop
  split : Split f start stop ch K I R
  events : s.events = P.map evOf ++ K
  slots : s.slots = P.map (fun p => some (slotOf start stop ch p)) ++ List.replicate I.length none
  allocated : s.allocated = P.length
  nodup : (P.map (fun p => p.1.a) ++ K.map Prod.fst).Nodup
  times : TimesOk start stop n K
  main : (s.main = .distribute P.length ∧ s.freed = false ∧ s.out = tab2 ch n g) ∨
    (I = [] ∧ K = R ∧ ∃ i, s.main = .merge i ∧ s.freed = false ∧ i ≤ P.length ∧
      (∀ k, k < i → ∀ p, P[k]? = some p → p.2 = .returned) ∧ s.out = tab2 ch n (outAt start stop (all.take i) g)) ∨
    (I = [] ∧ K = R ∧ (s.main = .exit 0 ∧ s.freed = false ∨ s.main = .returned 0) ∧
      (∀ p ∈ P, p.2 = .returned) ∧ s.out = tab2 ch n (outAt start stop all g))

theorem setEvent_append {l1 l2 : List (Addr × Event D)} {a : Addr} {e e' : Event D}
    (h : (l1.map Prod.fst ++ a :: l2.map Prod.fst).Nodup) :
    setEvent (l1 ++ (a, e) :: l2) a e' = l1 ++ (a, e') :: l2 := by
  have hn := List.nodup_append.1 h
  have hm := List.nodup_cons.1 hn.2.1
  rw [setEvent, List.map_append, List.map_cons, if_pos rfl]
  congr 1
  · refine (List.map_congr_left (g := id) fun p hp => ?_).trans (List.map_id _)
    rw [if_neg]
    · rfl
    · intro e
      exact hn.2.2 p.1 (List.mem_map_of_mem hp) a (by simp) e
  · congr 1
    refine (List.map_congr_left (g := id) fun p hp => ?_).trans (List.map_id _)
    rw [if_neg]
    · rfl
    · intro e
      exact hm.1 (e ▸ List.mem_map_of_mem hp)

theorem loadEvent_append {l1 l2 : List (Addr × Event D)} {a : Addr} {e : Event D}
    (h : (l1.map Prod.fst ++ a :: l2.map Prod.fst).Nodup) : loadEvent (l1 ++ (a, e) :: l2) a = .ok e := by
  have hn := List.nodup_append.1 h
  have : (l1 ++ (a, e) :: l2).find? (fun p => p.1 = a) = some (a, e) := by
    rw [List.find?_append]
    have : l1.find? (fun p => p.1 = a) = none := by
      rw [List.find?_eq_none]
      intro p hp
      simp only [decide_eq_true_eq]
      intro e
      exact hn.2.2 p.1 (List.mem_map_of_mem hp) a (by simp) e
    rw [this]
    simp
  rw [loadEvent, this]

/-- The slots of which a future can take a step. -/
theorem slot_cases {all : List (Item D S)} {R : List (Addr × Event D)} {g : Nat → Nat → S} {P : List (Item D S × Fut)}
    {I : List (Item D S)} {K : List (Addr × Event D)} (h : ParInv f start stop ch n all R g s P I K) {k : Nat} {sf : Slot S}
    (hs : s.slots[k]? = some (some sf)) : ∃ P1 it φ P2, P = P1 ++ (it, φ) :: P2 ∧ P1.length = k ∧ sf = slotOf start stop ch (it, φ) := by
  rw [h.slots] at hs
  have hk : k < P.length := by
    by_contra hk
    rw [List.getElem?_append_right (by rw [List.length_map]; omega), List.getElem?_replicate] at hs
    split at hs <;> simp at hs
  rw [List.getElem?_append_left (by rw [List.length_map]; omega), List.getElem?_map, List.getElem?_eq_getElem hk] at hs
  simp only [Option.map_some, Option.some.injEq] at hs
  refine ⟨P.take k, P[k].1, P[k].2, P.drop (k + 1), ?_, by rw [List.length_take]; omega, hs.symm⟩
  have := List.take_append_drop k P
  rw [List.drop_eq_getElem_cons hk] at this
  exact this.symm

/-- The future of an item has advanced. -/
theorem ParInv.advance {all : List (Item D S)} {R : List (Addr × Event D)} {g : Nat → Nat → S} {P1 P2 : List (Item D S × Fut)}
    {it : Item D S} {φ φ' : Fut} {I : List (Item D S)} {K : List (Addr × Event D)}
    (h : ParInv f start stop ch n all R g s (P1 ++ (it, φ) :: P2) I K) (hφ : φ ≠ .returned)
    {events : List (Addr × Event D)} (he : events = setEvent s.events it.a (evOf (it, φ')).2) {sf : Slot S}
    (hsf : sf = slotOf start stop ch (it, φ')) :
    ParInv f start stop ch n all R g { s with events := events, slots := s.slots.set P1.length (some sf) }
      (P1 ++ (it, φ') :: P2) I K := by
  have hnd : ((P1.map evOf).map Prod.fst ++ it.a :: ((P2.map evOf ++ K).map Prod.fst)).Nodup := by
    have := h.nodup
    simpa [List.map_append, evOf, Function.comp_def] using this
  refine ⟨?_, ?_, h.split, ?_, ?_, ?_, ?_, h.times, ?_⟩
  · have := h.items
    simpa using this
  · intro p hp
    rcases List.mem_append.1 hp with hp | hp
    · exact h.ok p (List.mem_append_left _ hp)
    · rcases List.mem_cons.1 hp with rfl | hp
      · exact h.ok (it, φ) (by simp)
      · exact h.ok p (by simp [hp])
  · simp only
    rw [he, h.events]
    have e1 : (P1 ++ (it, φ) :: P2).map evOf ++ K = P1.map evOf ++ (it.a, (evOf (it, φ)).2) :: (P2.map evOf ++ K) := by
      simp [evOf]
    rw [e1, setEvent_append hnd]
    simp [evOf]
  · simp only
    rw [h.slots, hsf]
    simp [List.map_append, List.append_assoc, List.set_append_right]
  · have := h.allocated
    simpa using this
  · have := h.nodup
    simpa using this
  · rcases h.main with ⟨h1, h2, h3⟩ | ⟨h0, hKR, i, h1, h2, h3, h4, h5⟩ | ⟨h0, _, _, h2, _⟩
    · left
      refine ⟨by simpa using h1, h2, h3⟩
    · right; left
      refine ⟨h0, hKR, i, h1, h2, by simpa using h3, ?_, h5⟩
      intro k hk p hp
      have hne : k ≠ P1.length := by
        rintro rfl
        exact hφ (h4 P1.length hk (it, φ) (by simp))
      refine h4 k hk p ?_
      rw [List.getElem?_append] at hp ⊢
      by_cases hlt : k < P1.length
      · rw [if_pos hlt] at hp ⊢
        exact hp
      · rw [if_neg hlt] at hp ⊢
        obtain ⟨m, hm⟩ : ∃ m, k - P1.length = m + 1 := ⟨k - P1.length - 1, by omega⟩
        rw [hm] at hp ⊢
        exact hp
    · exact absurd (h2 (it, φ) (by simp)) hφ

theorem setEvent_same {l1 l2 : List (Addr × Event D)} {a : Addr} {e : Event D}
    (h : (l1.map Prod.fst ++ a :: l2.map Prod.fst).Nodup) :
    setEvent (l1 ++ (a, e) :: l2) a e = l1 ++ (a, e) :: l2 := setEvent_append h

variable {all : List (Item D S)} {R : List (Addr × Event D)} {g : Nat → Nat → S}

/-- Every step leads to a state of the invariant, not to a fault. -/
theorem ParInv.step {P : List (Item D S × Fut)} {I : List (Item D S)} {K : List (Addr × Event D)}
    (h : ParInv f start stop ch n all R g s P I K) {r : C (Par D S)} (hs : ParStep f start stop s r) :
    ∃ s' P' I' K', r = .ok s' ∧ ParInv f start stop ch n all R g s' P' I' K' := by
  cases hs with
  | @distribute pos a e hm hev =>
    rcases h.main with ⟨h1, h2, h3⟩ | ⟨_, _, i, h1, _⟩ | ⟨_, _, h1, _⟩
    · rw [hm] at h1
      simp only [ParMain.distribute.injEq] at h1
      subst h1
      have hsp := h.split
      have hK : K[0]? = some (a, e) := by
        rw [h.events, List.getElem?_append_right (by simp)] at hev
        simpa using hev
      have ha := h.items
      have hsl := h.slots
      have hnd := h.nodup
      have htm := h.times
      have hevs := h.events
      have hout : s.out.length = ch := by rw [h3, tab2_length]
      cases hsp with
      | nil => simp at hK
      | @drop a' e' l I R d1 d2 d3 =>
        simp only [List.getElem?_cons_zero, Option.some.injEq, Prod.mk.injEq] at hK
        obtain ⟨rfl, rfl⟩ := hK
        refine ⟨{ s with events := s.events.eraseIdx P.length }, P, I, l, ?_, ?_⟩
        · rw [parDistribute, if_pos d1]
          by_cases hf : e'.hasFree = true
          · rw [if_pos hf, d2 hf]; rfl
          · rw [if_neg hf]; rfl
        · refine ⟨ha, h.ok, d3, ?_, hsl, h.allocated, ?_, htm.tail, .inl ⟨hm, h2, h3⟩⟩
          · simp only
            rw [hevs, List.eraseIdx_append_of_length_le (by simp)]
            simp
          · refine hnd.sublist ?_
            exact List.Sublist.append_left (by simp) _
      | @stop a' e' l d1 d2 =>
        simp only [List.getElem?_cons_zero, Option.some.injEq, Prod.mk.injEq] at hK
        obtain ⟨rfl, rfl⟩ := hK
        refine ⟨{ s with main := .merge 0 }, P, [], (a', e') :: l, ?_, ?_⟩
        · rw [parDistribute, if_neg (by omega), if_pos d2]
        · refine ⟨ha, h.ok, .stop d1 d2, hevs, hsl, h.allocated, hnd, htm, .inr (.inl ⟨rfl, rfl, 0, rfl, h2, by omega, ?_, h3⟩)⟩
          intro k hk
          omega
      | @item it l I R d1 d2 =>
        simp only [List.getElem?_cons_zero, Option.some.injEq, Prod.mk.injEq] at hK
        obtain ⟨rfl, rfl⟩ := hK
        have hb := d1.before
        have hact := d1.active
        refine ⟨{ s with main := .distribute (P.length + 1),
                         slots := s.slots.set P.length (some (parSlot start stop ch it.a it.e)),
                         allocated := s.allocated + 1 }, P ++ [(it, .new)], I, l, ?_, ?_⟩
        · rw [parDistribute, if_neg (by omega), if_neg (by omega), if_pos (by omega), h.allocated,
            wr_eq_ok _ (by rw [hsl]; simp), hout]
          rfl
        · refine ⟨by rw [← ha]; simp, ?_, d2, ?_, ?_, ?_, ?_, htm.tail, .inl ⟨?_, h2, h3⟩⟩
          · intro p hp
            rcases List.mem_append.1 hp with hp | hp
            · exact h.ok p hp
            · rw [List.mem_singleton] at hp
              subst hp
              exact ⟨d1, htm.events _ List.mem_cons_self⟩
          · simp only
            rw [hevs]
            simp [evOf]
          · simp only
            rw [hsl]
            simp [List.replicate_succ, slotOf, List.set_append_right]
          · simp only
            rw [h.allocated]
            simp
          · simpa using hnd
          · simp
    · rw [hm] at h1; cases h1
    · rcases h1 with ⟨h1, _⟩ | h1 <;> rw [hm] at h1 <;> cases h1
  | @distributeEnd pos hm hev =>
    rcases h.main with ⟨h1, h2, h3⟩ | ⟨_, _, i, h1, _⟩ | ⟨_, _, h1, _⟩
    · rw [hm] at h1
      simp only [ParMain.distribute.injEq] at h1
      subst h1
      rw [h.events, List.getElem?_append_right (by simp)] at hev
      have hK : K = [] := by
        cases K with
        | nil => rfl
        | cons x K => simp at hev
      subst hK
      have hsp := h.split
      cases hsp
      refine ⟨_, P, [], [], rfl, ⟨h.items, h.ok, .nil, h.events, h.slots, h.allocated, h.nodup, h.times,
        .inr (.inl ⟨rfl, rfl, 0, rfl, h2, by omega, ?_, h3⟩)⟩⟩
      intro k hk
      omega
    · rw [hm] at h1; cases h1
    · rcases h1 with ⟨h1, _⟩ | h1 <;> rw [hm] at h1 <;> cases h1
  | @mergeUnset i hm hsl =>
    exfalso
    rcases h.main with ⟨h1, h2, h3⟩ | ⟨h0, _, j, h1, _⟩ | ⟨_, _, h1, _⟩
    · rw [hm] at h1; cases h1
    · rw [h.slots, h0] at hsl
      simp only [List.length_nil, List.replicate_zero, List.append_nil, List.getElem?_map] at hsl
      cases hp : P[i]? <;> rw [hp] at hsl <;> simp at hsl
    · rcases h1 with ⟨h1, _⟩ | h1 <;> rw [hm] at h1 <;> cases h1
  | @mergeFail i sf hm hsl hr hst =>
    exfalso
    obtain ⟨P1, it, φ, P2, rfl, hk, rfl⟩ := slot_cases h hsl
    exact hst (slotOf_status _)
  | @merge i sf hm hsl hr hst =>
    obtain ⟨P1, it, φ, P2, rfl, hk, rfl⟩ := slot_cases h hsl
    rcases h.main with ⟨h1, h2, h3⟩ | ⟨h0, hKR, j, h1, h2, h3, h4, h5⟩ | ⟨_, _, h1, _⟩
    · rw [hm] at h1; cases h1
    · rw [hm] at h1
      simp only [ParMain.merge.injEq] at h1
      subst h1
      rw [slotOf_fut] at hr
      simp only at hr
      subst hr
      obtain ⟨hok, hle⟩ := h.ok (it, .returned) (by simp)
      have hfit := range_fits (n := n) (e := it.e) h.times.lt h.times.small h.times.size hok.before hok.active hle
      have hmrg := mergeSlot_tab2 (ch := ch) (n := n) (slotOf start stop ch (it, .returned)) (outAt start stop (all.take i) g)
        (fun c j => wfold 0 it.ws c j 0) (len := sub32 (relEnd stop it.e.start it.e.stop) (relStart start it.e.start))
        (by rw [slotOf_stop, slotOf_start]) rfl (by rw [slotOf_outStart]; exact hfit)
      refine ⟨{ s with main := .merge (i + 1), out := tab2 ch n (outAt start stop (all.take (i + 1)) g) },
        P1 ++ (it, .returned) :: P2, I, K, ?_, ?_⟩
      · rw [h5, hmrg]
        simp only [Except.map]
        congr 2
        have hall : all.take (i + 1) = all.take i ++ [it] := by
          rw [List.take_succ, ← h.items]
          have : (List.map Prod.fst (P1 ++ (it, Fut.returned) :: P2) ++ I)[i]? = some it := by
            rw [← hk]
            simp
          rw [this]
          rfl
        rw [hall, outAt_append]
        refine tab2_congr fun c _ j _ => ?_
        rw [outAt, outAt, slotOf_outStart]
        rfl
      · refine ⟨h.items, h.ok, h.split, h.events, h.slots, h.allocated, h.nodup, h.times,
          .inr (.inl ⟨h0, hKR, i + 1, rfl, h2, ?_, ?_, rfl⟩)⟩
        · rw [List.length_append, List.length_cons]; omega
        · intro k hk2 p hp
          by_cases e : k < i
          · exact h4 k e p hp
          · have : k = P1.length := by omega
            subst this
            simp at hp
            rw [← hp]
    · rcases h1 with ⟨h1, _⟩ | h1 <;> rw [hm] at h1 <;> cases h1
  | @mergeEnd i hm hsl =>
    rcases h.main with ⟨h1, h2, h3⟩ | ⟨h0, hKR, j, h1, h2, h3, h4, h5⟩ | ⟨_, _, h1, _⟩
    · rw [hm] at h1; cases h1
    · rw [hm] at h1
      simp only [ParMain.merge.injEq] at h1
      subst h1
      have hi : i = P.length := by
        rw [h.slots, h0, List.getElem?_eq_none_iff] at hsl
        simp at hsl
        omega
      refine ⟨_, P, I, K, rfl, ⟨h.items, h.ok, h.split, h.events, h.slots, h.allocated, h.nodup, h.times,
        .inr (.inr ⟨h0, hKR, .inl ⟨rfl, h2⟩, ?_, ?_⟩)⟩⟩
      · intro p hp
        obtain ⟨k, hk, rfl⟩ := List.getElem_of_mem hp
        exact h4 k (by omega) _ (List.getElem?_eq_getElem hk)
      · simp only
        rw [h5]
        have : all.take i = all := by
          rw [List.take_of_length_le]
          rw [← h.items, h0, hi]
          simp
        rw [this]
    · rcases h1 with ⟨h1, _⟩ | h1 <;> rw [hm] at h1 <;> cases h1
  | @exit st hm =>
    rcases h.main with ⟨h1, h2, h3⟩ | ⟨_, _, i, h1, _⟩ | ⟨h0, hKR, h1, h2, h3⟩
    · rw [hm] at h1; cases h1
    · rw [hm] at h1; cases h1
    · rcases h1 with ⟨h1, _⟩ | h1 <;> rw [hm] at h1 <;> cases h1
      refine ⟨{ s with main := .returned 0, freed := true }, P, I, K, rfl, ⟨h.items, h.ok, h.split, h.events, h.slots,
        h.allocated, h.nodup, h.times, .inr (.inr ⟨h0, hKR, .inr rfl, h2, h3⟩)⟩⟩
  | @prepare k sf hsl hφ =>
    obtain ⟨P1, it, φ, P2, rfl, hk, rfl⟩ := slot_cases h hsl
    rw [slotOf_fut] at hφ
    simp only at hφ
    subst hφ
    obtain ⟨hok, hle⟩ := h.ok (it, .new) (by simp)
    have hfr : s.freed = false := by
      rcases h.main with ⟨_, h2, _⟩ | ⟨_, _, _, _, h2, _⟩ | ⟨_, _, _, h2, _⟩
      · exact h2
      · exact h2
      · have := h2 (it, .new) (by simp)
        cases this
    have hnd : ((P1.map evOf).map Prod.fst ++ it.a :: ((P2.map evOf ++ K).map Prod.fst)).Nodup := by
      have := h.nodup
      simpa [List.map_append, evOf, Function.comp_def] using this
    have hev : s.events = P1.map evOf ++ (it.a, it.e) :: (P2.map evOf ++ K) := by
      rw [h.events]; simp [evOf]
    have hld : loadEvent s.events it.a = .ok it.e := by rw [hev]; exact loadEvent_append hnd
    have hadv := h.advance (φ' := .prepared) (by simp) rfl rfl
    rw [hk] at hadv
    refine ⟨_, _, I, K, ?_, hadv⟩
    rw [futPrepare, hfr]
    simp only [Bool.false_eq_true, if_false, slotOf_event, hld, ok_bind']
    by_cases hp : it.e.prep = true
    · obtain ⟨p, p1, p2⟩ := hok.prepare hp
      rw [if_pos hp, p1]
      simp only [ok_bind', ne_eq, not_true_eq_false, if_false, pure_eq_ok]
      congr 2
      · simp only [evOf]; rw [p2]
    · rw [if_neg hp]
      simp only [pure_eq_ok]
      congr 2
      have : it.e1 = it.e := hok.noPrepare (by simpa using hp)
      simp only [evOf, this]
      rw [hev, setEvent_same hnd]
  | @generate k sf hsl hφ =>
    obtain ⟨P1, it, φ, P2, rfl, hk, rfl⟩ := slot_cases h hsl
    rw [slotOf_fut] at hφ
    simp only at hφ
    subst hφ
    obtain ⟨hok, hle⟩ := h.ok (it, .prepared) (by simp)
    have hfr : s.freed = false := by
      rcases h.main with ⟨_, h2, _⟩ | ⟨_, _, _, _, h2, _⟩ | ⟨_, _, _, h2, _⟩
      · exact h2
      · exact h2
      · have := h2 (it, .prepared) (by simp)
        cases this
    have hnd : ((P1.map evOf).map Prod.fst ++ it.a :: ((P2.map evOf ++ K).map Prod.fst)).Nodup := by
      have := h.nodup
      simpa [List.map_append, evOf, Function.comp_def] using this
    have hev : s.events = P1.map evOf ++ (it.a, it.e1) :: (P2.map evOf ++ K) := by
      rw [h.events]; simp [evOf]
    have hld : loadEvent s.events it.a = .ok it.e1 := by rw [hev]; exact loadEvent_append hnd
    have hadv := h.advance (φ' := .returned) (by simp) rfl rfl
    rw [hk] at hadv
    refine ⟨_, _, I, K, ?_, hadv⟩
    have hout : (slotOf start stop ch (it, Fut.prepared)).out =
        tab2 ch (sub32 (relEnd stop it.e.start it.e.stop) (relStart start it.e.start)) (fun _ _ => 0) := newBlock_eq _ _
    rw [futGenerate, hfr]
    simp only [Bool.false_eq_true, if_false, slotOf_event, hld, ok_bind', slotOf_start, slotOf_stop, hok.generate, hout]
    rw [applyWrites_tab2 it.ws _ (fun w hw => ⟨(hok.range w hw).1, by rw [Nat.zero_add]; exact (hok.range w hw).2⟩)]
    simp only [ok_bind', pure_eq_ok]
    rfl

end Sp
