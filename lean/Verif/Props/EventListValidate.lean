import Verif.Spec.EventList
import Verif.Model.EventListValidate
import Verif.Lemmas.SeqTrace

/-!
# C103: validation of event lists
-/

set_option linter.unusedSectionVars false

namespace Sp
variable {E : Type _}

/-- The elements that are reached from a pointer with the next links, up to the null pointer. -/
def NextChain (h : Heap E) : Option Addr → List Addr → Prop
  | p, [] => p = none
  | p, a :: rest => p = some a ∧ ∃ n, h a = some n ∧ NextChain h n.next rest

theorem Heap.load_ok {h : Heap E} {a : Addr} {n : ListNode E} : h.load a = .ok n ↔ h a = some n := by
  unfold Heap.load
  cases h a <;> simp

theorem NextChain.unique {h : Heap E} {p : Option Addr} {as bs : List Addr} (ha : NextChain h p as) (hb : NextChain h p bs) :
    as = bs := by
  induction as generalizing p bs with
  | nil =>
    cases bs with
    | nil => rfl
    | cons b bs => rw [show p = none from ha] at hb; cases hb.1
  | cons a as ih =>
    obtain ⟨rfl, n, h1, h2⟩ := ha
    cases bs with
    | nil => cases hb
    | cons b bs =>
      obtain ⟨h3, n', h4, h5⟩ := hb
      cases h3
      rw [h1] at h4
      cases h4
      rw [ih h2 h5]

theorem NextChain.from_mem {h : Heap E} {p : Option Addr} {as : List Addr} (ha : NextChain h p as) {b : Addr} (hb : b ∈ as) :
    ∃ bs, NextChain h (some b) (b :: bs) ∧ bs.length < as.length := by
  induction as generalizing p with
  | nil => cases hb
  | cons a as ih =>
    have ha' := ha
    obtain ⟨rfl, n, h1, h2⟩ := ha
    rcases List.mem_cons.1 hb with rfl | hb
    · exact ⟨as, ha', by simp⟩
    · obtain ⟨bs, k1, k2⟩ := ih h2 hb
      exact ⟨bs, k1, by simp; omega⟩

theorem NextChain.nodup {h : Heap E} {p : Option Addr} {as : List Addr} (ha : NextChain h p as) : as.Nodup := by
  induction as generalizing p with
  | nil => exact List.nodup_nil
  | cons a as ih =>
    obtain ⟨rfl, n, h1, h2⟩ := id ha
    refine List.nodup_cons.2 ⟨fun hm => ?_, ih h2⟩
    obtain ⟨bs, k1, k2⟩ := h2.from_mem hm
    have := ha.unique k1
    cases this
    omega

theorem IsList.nextChain {h : Heap E} {p q : Option Addr} {l : List (Addr × E)} (hl : IsList h p q l) :
    NextChain h q (l.map Prod.fst) := by
  induction l generalizing p q with
  | nil => exact hl
  | cons x l ih =>
    obtain ⟨a, e⟩ := x
    obtain ⟨rfl, n, h1, h2⟩ := hl
    exact ⟨rfl, _, h1, ih h2⟩

theorem IsList.wellFormed {h : Heap E} {q : Option Addr} {l : List (Addr × E)} (hl : IsList h none q l) : WellFormed h q l :=
  ⟨hl, hl.nextChain.nodup⟩

theorem findDuplicate_once {h : Heap E} {b : Addr} {p : Option Addr} {as : List Addr} (ha : NextChain h p as) {fuel : Nat}
    (hf : as.length ≤ fuel) (i count : Nat) (hc : count = 0 ∨ count = 1 ∧ b ∉ as) :
    findDuplicate h b fuel p i count = .ok none := by
  induction as generalizing p fuel i count with
  | nil =>
    rw [show p = none from ha]
    unfold findDuplicate
    rfl
  | cons a as ih =>
    have hn := (NextChain.nodup ha)
    obtain ⟨rfl, n, h1, h2⟩ := ha
    cases fuel with
    | zero => simp at hf
    | succ fuel =>
      have hab : count = 1 → a ≠ b := by
        rintro rfl rfl
        rcases hc with hc | ⟨_, hc⟩
        · cases hc
        · exact hc (by simp)
      rw [findDuplicate, if_neg (fun hx => hab hx.2 hx.1), Heap.load_ok.2 h1, ok_bind']
      refine ih h2 (by simpa using hf) _ _ ?_
      by_cases h3 : a = b
      · rw [if_pos h3]
        subst h3
        rcases hc with rfl | ⟨rfl, _⟩
        · exact .inr ⟨rfl, (List.nodup_cons.1 hn).1⟩
        · exact absurd rfl (hab rfl)
      · rw [if_neg h3]
        rcases hc with rfl | ⟨rfl, hc⟩
        · exact .inl rfl
        · exact .inr ⟨rfl, fun hx => hc (by simp [hx])⟩

theorem validateLoop_returns {h : Heap E} {head p c : Option Addr} {fuel0 fuel i : Nat}
    (hr : validateLoop h head fuel0 fuel p c i = .ok none) : ∃ l, IsList h c p l := by
  induction fuel generalizing p c i with
  | zero =>
    cases p with
    | none => exact ⟨[], rfl⟩
    | some b => cases hr
  | succ fuel ih =>
    cases p with
    | none => exact ⟨[], rfl⟩
    | some b =>
      rw [validateLoop, bind_eq_ok] at hr
      obtain ⟨n, h1, hr⟩ := hr
      by_cases hc : c ≠ n.prev
      · rw [if_pos hc] at hr; cases hr
      rw [if_neg hc] at hr
      split at hr
      · cases hr
      rw [bind_eq_ok] at hr
      obtain ⟨d, h2, hr⟩ := hr
      by_cases hd : d ≠ none
      · rw [if_pos hd] at hr
        cases hr
        exact absurd rfl hd
      rw [if_neg hd] at hr
      obtain ⟨l, hl⟩ := ih hr
      refine ⟨(b, n.event) :: l, rfl, n.next, ?_, hl⟩
      rw [Heap.load_ok.1 h1, not_not.1 hc]

theorem validateLoop_chain {h : Heap E} {head p c : Option Addr} {as bs : List Addr} (hh : NextChain h head as)
    (hp : NextChain h p bs) {fuel0 fuel : Nat} (hf0 : as.length ≤ fuel0) (hf : bs.length ≤ fuel) (i : Nat) :
    ∃ r, validateLoop h head fuel0 fuel p c i = .ok r := by
  induction bs generalizing p c fuel i with
  | nil =>
    rw [show p = none from hp]
    refine ⟨none, ?_⟩
    unfold validateLoop
    rfl
  | cons b bs ih =>
    obtain ⟨rfl, n, h1, h2⟩ := hp
    cases fuel with
    | zero => simp at hf
    | succ fuel =>
      rw [validateLoop, Heap.load_ok.2 h1, ok_bind']
      split
      · exact ⟨_, rfl⟩
      split
      · exact ⟨_, rfl⟩
      rw [findDuplicate_once hh hf0 0 0 (.inl rfl), ok_bind', if_neg (by simp)]
      exact ih h2 (by simpa using hf) _

theorem validateLoop_list {h : Heap E} {head p c : Option Addr} {as : List Addr} {l : List (Addr × E)} (hh : NextChain h head as)
    (hl : IsList h c p l) (hc : ∀ x ∈ l, c ≠ some x.1) {fuel0 fuel : Nat} (hf0 : as.length ≤ fuel0) (hf : l.length ≤ fuel) (i : Nat) :
    validateLoop h head fuel0 fuel p c i = .ok none := by
  induction l generalizing p c fuel i with
  | nil =>
    rw [show p = none from hl]
    unfold validateLoop
    rfl
  | cons x l ih =>
    obtain ⟨b, e⟩ := x
    have hn := hl.nextChain.nodup
    obtain ⟨rfl, next, h1, h2⟩ := hl
    cases fuel with
    | zero => simp at hf
    | succ fuel =>
      rw [validateLoop, Heap.load_ok.2 h1, ok_bind', if_neg (by simp), if_neg, findDuplicate_once hh hf0 0 0 (.inl rfl), ok_bind',
        if_neg (by simp)]
      · refine ih h2 ?_ (by simpa using hf) _
        intro x hx he
        cases he
        rw [List.map_cons, List.nodup_cons] at hn
        exact hn.1 (List.mem_map.2 ⟨x, hx, rfl⟩)
      · rintro ⟨k1, k2⟩
        simp only at k1 k2
        cases l with
        | nil => exact k2 h2
        | cons y l =>
          obtain ⟨k3, _⟩ := h2
          exact hc y (by simp) (by rw [← k1, k3])

/-- **C103, valid lists are accepted.** -/
theorem C103_valid_accepted {h : Heap E} {head : Option Addr} {l : List (Addr × E)} (hl : WellFormed h head l) {fuel : Nat}
    (hf : l.length ≤ fuel) : eventListValidate h head fuel = .ok none :=
  validateLoop_list hl.1.nextChain hl.1 (by simp) (by simpa using hf) hf 0

/-- **C103, accepted lists are valid**: if `sp_event_list_validate` returns, then the list is well-formed: it ends, no
element is twice in it, and all links to the previous element are right. -/
theorem C103_accepted_valid {h : Heap E} {head : Option Addr} {fuel : Nat} (hr : eventListValidate h head fuel = .ok none) :
    ∃ l, WellFormed h head l := by
  obtain ⟨l, hl⟩ := validateLoop_returns hr
  exact ⟨l, hl.wellFormed⟩

/-- **C103, lists that end**: a list that ends and is not well-formed because of its links to previous elements is
reported. -/
theorem C103_wrong_previous_reported {h : Heap E} {head : Option Addr} {as : List Addr} (ha : NextChain h head as) {fuel : Nat}
    (hf : as.length ≤ fuel) (hbad : ∀ l, ¬ WellFormed h head l) :
    ∃ r, eventListValidate h head fuel = .ok (some r) := by
  obtain ⟨r, hr⟩ := validateLoop_chain (c := none) ha ha hf hf 0
  cases r with
  | some r => exact ⟨r, hr⟩
  | none =>
    obtain ⟨l, hl⟩ := C103_accepted_valid hr
    exact absurd hl (hbad l)

theorem findDuplicate_cycle {h : Heap E} {b : Addr} {f : Nat → Addr} {k : Nat} (hk : f k = b)
    (hf : ∀ i, i < k → ∃ n, h (f i) = some n ∧ n.next = some (f (i + 1))) (hb : ∀ i, i < k → f i ≠ b) (fuel j : Nat) (hj : j ≤ k)
    (hfuel : k - j < fuel) (i : Nat) :
    ∃ r, findDuplicate h b fuel (some (f j)) i 1 = .ok (some r) := by
  induction fuel generalizing j i with
  | zero => omega
  | succ fuel ih =>
    rw [findDuplicate]
    by_cases hjk : j = k
    · subst hjk
      rw [if_pos ⟨hk, rfl⟩]
      exact ⟨_, rfl⟩
    · obtain ⟨n, h1, h2⟩ := hf j (by omega)
      rw [if_neg (fun hx => hb j (by omega) hx.1), Heap.load_ok.2 h1, ok_bind', h2, if_neg (hb j (by omega))]
      exact ih (j + 1) (by omega) (by omega) _

/-- **C103, a ring is reported**: if the next links lead from the first element back to it after `k + 1` steps, there is a
report. -/
theorem C103_ring_reported {h : Heap E} {f : Nat → Addr} {k : Nat} (hk : f (k + 1) = f 0)
    (hf : ∀ i, i ≤ k → ∃ n, h (f i) = some n ∧ n.next = some (f (i + 1))) (hb : ∀ i, 1 ≤ i → i ≤ k → f i ≠ f 0) {fuel : Nat}
    (hfuel : k + 1 < fuel) : ∃ r, eventListValidate h (some (f 0)) fuel = .ok (some r) := by
  obtain ⟨n, h1, h2⟩ := hf 0 (by omega)
  obtain ⟨fuel', rfl⟩ : ∃ m, fuel = m + 1 := ⟨fuel - 1, by omega⟩
  rw [eventListValidate, validateLoop, Heap.load_ok.2 h1, ok_bind']
  split
  · exact ⟨_, rfl⟩
  split
  · exact ⟨_, rfl⟩
  have := findDuplicate_cycle (h := h) (b := f 0) (f := fun i => f (i + 1)) (k := k) hk (fun i hi => hf (i + 1) (by omega))
    (fun i hi => hb (i + 1) (by omega) (by omega)) fuel' 0 (by omega) (by omega) (u32 (0 + 1))
  obtain ⟨r, hr⟩ := this
  have e : findDuplicate h (f 0) (fuel' + 1) (some (f 0)) 0 0 = .ok (some r) := by
    rw [findDuplicate, if_neg (fun hx => absurd hx.2 (by decide)), Heap.load_ok.2 h1, ok_bind', h2, if_pos rfl]
    exact hr
  rw [e, ok_bind', if_pos (by simp)]
  exact ⟨r, rfl⟩

theorem findDuplicate_endless {h : Heap E} {b : Addr} {f : Nat → Addr}
    (hf : ∀ i, ∃ n, h (f i) = some n ∧ n.next = some (f (i + 1))) (hb : ∀ i, f (i + 1) ≠ b) (fuel j i count : Nat)
    (hc : j = 0 → count = 0) : findDuplicate h b fuel (some (f j)) i count = .error .nonTermination := by
  induction fuel generalizing j i count with
  | zero => rfl
  | succ fuel ih =>
    obtain ⟨n, h1, h2⟩ := hf j
    rw [findDuplicate, if_neg, Heap.load_ok.2 h1, ok_bind', h2]
    · exact ih (j + 1) _ _ (by omega)
    · rintro ⟨k1, k2⟩
      cases j with
      | zero => rw [hc rfl] at k2; cases k2
      | succ j => exact hb j k1

/-- **C103 is false of lists with a ring that does not have the first element in it**: the search for the first element
goes around in the ring and does not end, so that nothing is reported. -/
theorem C103_inner_ring_endless {h : Heap E} {f : Nat → Addr} (hf : ∀ i, ∃ n, h (f i) = some n ∧ n.next = some (f (i + 1)))
    (hb : ∀ i, f (i + 1) ≠ f 0) {n0 : ListNode E} (h0 : h (f 0) = some n0) (hp : n0.prev = none) (fuel : Nat) :
    eventListValidate h (some (f 0)) fuel = .error .nonTermination := by
  cases fuel with
  | zero => rfl
  | succ fuel =>
    rw [eventListValidate, validateLoop, Heap.load_ok.2 h0, ok_bind', if_neg (by simp [hp]), if_neg,
      findDuplicate_endless hf hb (fuel + 1) 0 0 0 (fun _ => rfl)]
    · rfl
    · rintro ⟨k1, k2⟩
      exact k2 (k1.trans hp)

/-- Three elements. -/
def validList : Heap Unit := fun a =>
  if a = 4 then some ⟨none, some 2, ()⟩ else if a = 2 then some ⟨some 4, some 9, ()⟩ else if a = 9 then some ⟨some 2, none, ()⟩ else none

example : eventListValidate validList (some 4) 3 = .ok none :=
  C103_valid_accepted (l := [(4, ()), (2, ()), (9, ())]) ⟨⟨rfl, some 2, rfl, rfl, some 9, rfl, rfl, none, rfl, rfl⟩, by decide⟩ (by decide)

/-- The previous link of the last element is wrong. -/
example : eventListValidate (fun a => if a = 9 then some ⟨some 4, none, ()⟩ else validList a) (some 4) 3 =
    .ok (some (.previous 2 9)) := by decide +kernel

example : ∃ r, eventListValidate (fun a => if a = 9 then some ⟨some 4, none, ()⟩ else validList a) (some 4) 3 = .ok (some r) := by
  have hc : NextChain (fun a => if a = 9 then some ⟨some 4, none, ()⟩ else validList a) (some 4) [4, 2, 9] :=
    ⟨rfl, _, rfl, rfl, _, rfl, rfl, _, rfl, rfl⟩
  refine C103_wrong_previous_reported hc (by decide) ?_
  rintro l hl
  have := C103_valid_accepted hl (Nat.le_refl _)
  have h3 : l.length = 3 := by
    have := hl.1.nextChain.unique hc
    simpa using congrArg List.length this
  rw [h3] at this
  revert this
  decide +kernel

/-- A ring of three elements. -/
example : ∃ r, eventListValidate (fun a => if a = 9 then some ⟨some 2, some 4, ()⟩ else validList a) (some 4) 9 = .ok (some r) :=
  C103_ring_reported (f := fun i => if i % 3 = 0 then 4 else if i % 3 = 1 then 2 else 9) (k := 2) (by decide)
    (by
      intro i hi
      have : i = 0 ∨ i = 1 ∨ i = 2 := by omega
      rcases this with rfl | rfl | rfl <;> exact ⟨_, rfl, rfl⟩)
    (by
      intro i h1 h2
      have : i = 1 ∨ i = 2 := by omega
      rcases this with rfl | rfl <;> decide) (by decide)

/-- The last element leads back to the second. -/
example (fuel : Nat) : eventListValidate (fun a => if a = 9 then some ⟨some 2, some 2, ()⟩ else validList a) (some 4) fuel =
    .error .nonTermination := by
  refine C103_inner_ring_endless (f := fun i => if i = 0 then 4 else if i % 2 = 1 then 2 else 9) ?_ ?_ (n0 := ⟨none, some 2, ()⟩) rfl rfl fuel
  · intro i
    rcases Nat.eq_zero_or_pos i with rfl | h
    · exact ⟨_, rfl, rfl⟩
    · rcases Nat.mod_two_eq_zero_or_one i with h2 | h2
      · refine ⟨⟨some 2, some 2, ()⟩, ?_, ?_⟩
        · simp only [if_neg h.ne', h2]; rfl
        · simp only [if_neg (Nat.succ_ne_zero i), if_pos (show (i + 1) % 2 = 1 by omega)]
      · refine ⟨⟨some 4, some 9, ()⟩, ?_, ?_⟩
        · simp only [if_neg h.ne', h2]; rfl
        · simp only [if_neg (Nat.succ_ne_zero i), if_neg (show ¬ (i + 1) % 2 = 1 by omega)]
  · intro i
    simp only [if_neg (Nat.succ_ne_zero i)]
    split <;> decide

end Sp
