import Verif.Lemmas.EventList

/-!
# C16 to C18: the event list
-/

set_option linter.unusedSectionVars false

namespace Sp
variable {E : Type _}

/-- `l` is the stable ascending sort of `added` by start time: the same events, in ascending order
of start, and for every start time the events with that start in the order in which they were
added. -/
structure StableSorted (start : E → Nat) (added l : List (Addr × E)) : Prop where
  perm : l.Perm added
  ascending : l.Pairwise (fun x y => start x.2 ≤ start y.2)
  stable : ∀ t, l.filter (fun x => start x.2 = t) = added.filter (fun x => start x.2 = t)

/-- **C16**, for at least one event. Adding any nonempty sequence of events, each at a fresh address,
to the empty list and then preparing the list gives, without any invalid memory access, a list in
memory with consistent links that is the stable sort of the added events. `fuel` only bounds the
loops of the model and can be any number larger than the list. No other heap cell changes.
Missing for the full property: the empty list, see `C16_prepare_empty_undefined`. -/
theorem C16_events_sorted_partial (start : E → Nat) (h : Heap E) (added : List (Addr × E))
    (hne : added ≠ []) (hnew : ∀ a ∈ added.map Prod.fst, h a = none)
    (hnd : (added.map Prod.fst).Nodup) (fuel : Nat) (hf : added.length < fuel) :
    ∃ h1 head1 h2 head2 l,
      eventListAddAll start fuel added h none = .ok (h1, head1) ∧
      eventListReverse fuel h1 head1 = .ok (h2, head2) ∧
      WellFormed h2 head2 l ∧ StableSorted start added l ∧
      SameOutside h h2 (added.map Prod.fst) := by
  obtain ⟨h1, head1, l1, e1, w1, p1, o1, f1, s1⟩ := eventListAddAll_spec start fuel added h none []
    (by simp; omega) hnew hnd ⟨rfl, by simp⟩ List.Pairwise.nil
  rw [List.append_nil] at p1 s1
  simp only [List.append_nil] at f1
  have hlen : l1.length = added.length := by rw [p1.length_eq, List.length_reverse]
  have hl1 : l1 ≠ [] := by
    rintro rfl
    exact hne (List.length_eq_zero_iff.1 hlen.symm)
  obtain ⟨h2, head2, e2, w2, s2⟩ := eventListReverse_spec l1 hl1 h1 head1 fuel (by omega) w1
  refine ⟨h1, head1, h2, head2, l1.reverse, e1, e2, w2, ⟨?_, ?_, ?_⟩, ?_⟩
  · exact (List.reverse_perm l1).trans (p1.trans (List.reverse_perm added))
  · rw [List.pairwise_reverse]; exact o1
  · intro t
    rw [List.filter_reverse, f1 t, ← List.filter_reverse, List.reverse_reverse]
  · intro a ha
    rw [s2 a, s1 a ha]
    rw [(p1.map Prod.fst).mem_iff, List.map_reverse, List.mem_reverse]
    exact ha

/-- **C16** is false of the code for the empty list: preparing it stores an uninitialised pointer as
the head. -/
theorem C16_prepare_empty_undefined (h : Heap E) (fuel : Nat) :
    eventListReverse (fuel + 1) h none = .error .uninitialized := rfl

/-- Adding to a list that is in memory keeps it a descending list in memory, so events can be added
at any time before the list is prepared. -/
theorem C16_add_keeps_list (start : E → Nat) (new : Addr) (e : E) (h : Heap E) (hnew : h new = none)
    (head : Option Addr) (l : List (Addr × E)) (fuel : Nat) (hf : l.length ≤ fuel)
    (hl : WellFormed h head l) (hs : l.Pairwise (fun x y => start y.2 ≤ start x.2)) :
    ∃ h' head' l', eventListAdd start fuel new e h head = .ok (h', head') ∧
      WellFormed h' head' l' ∧ l'.Perm ((new, e) :: l) ∧
      l'.Pairwise (fun x y => start y.2 ≤ start x.2) := by
  obtain ⟨h', head', e1, w, _⟩ := eventListAdd_spec start new e h hnew head l fuel hf hl
  exact ⟨h', head', _, e1, w, insertDesc_perm start _ l, insertDesc_sorted start _ l hs⟩

/-- Non-vacuity: three events, two of them with the same start, at addresses 1, 2, 3. -/
example : ∃ h1 head1 h2 head2 l,
    eventListAddAll (E := Nat × Char) (fun e => e.1) 4 [(1, (5, 'a')), (2, (3, 'b')), (3, (5, 'c'))]
      (fun _ => none) none = .ok (h1, head1) ∧
    eventListReverse 4 h1 head1 = .ok (h2, head2) ∧ WellFormed h2 head2 l ∧
    StableSorted (fun e => e.1) [(1, (5, 'a')), (2, (3, 'b')), (3, (5, 'c'))] l ∧
    SameOutside (fun _ => none) h2 [1, 2, 3] :=
  C16_events_sorted_partial _ _ _ (by simp) (by simp) (by simp) 4 (by simp)

/-- The stable sort is unique, so `StableSorted` determines the resulting list. -/
theorem StableSorted.unique {start : E → Nat} {added l l' : List (Addr × E)}
    (h : StableSorted start added l) (h' : StableSorted start added l') : l = l' := by
  have key : ∀ (l l' : List (Addr × E)), l.Pairwise (fun x y => start x.2 ≤ start y.2) →
      l'.Pairwise (fun x y => start x.2 ≤ start y.2) →
      (∀ t, l.filter (fun x => start x.2 = t) = l'.filter (fun x => start x.2 = t)) → l = l' := by
    intro l
    induction l with
    | nil =>
      intro l' _ _ hf
      cases l' with
      | nil => rfl
      | cons y r => have := hf (start y.2); simp at this
    | cons x r ih =>
      intro l' hs hs' hf
      cases l' with
      | nil => have := hf (start x.2); simp at this
      | cons y r' =>
        rw [List.pairwise_cons] at hs hs'
        have hxy : start x.2 = start y.2 := by
          have m1 : x ∈ (y :: r').filter (fun z => start z.2 = start x.2) := by
            rw [← hf]; simp
          have m2 : y ∈ (x :: r).filter (fun z => start z.2 = start y.2) := by
            rw [hf]; simp
          have m1 := (List.mem_filter.1 m1).1
          have m2 := (List.mem_filter.1 m2).1
          rcases List.mem_cons.1 m1 with rfl | m1
          · rfl
          rcases List.mem_cons.1 m2 with rfl | m2
          · rfl
          have := hs'.1 x m1
          have := hs.1 y m2
          omega
        have h0 := hf (start x.2)
        rw [List.filter_cons, List.filter_cons] at h0
        simp only [hxy] at h0
        simp only [decide_true, if_true, List.cons.injEq] at h0
        obtain ⟨rfl, _⟩ := h0
        congr 1
        refine ih r' hs.2 hs'.2 (fun t => ?_)
        have ht := hf t
        rw [List.filter_cons, List.filter_cons] at ht
        split at ht
        · exact (List.cons.inj ht).2
        · exact ht
  exact key l l' h.ascending h'.ascending (fun t => by rw [h.stable, h'.stable])

/-- **C17.** Removing any element of a list in memory succeeds, leaves the other elements in order
with consistent links, calls the event's free function exactly once if there is one and nothing
else, deallocates the element, and changes no memory other than the element and its direct
neighbours. -/
theorem C17_remove (hasFree : E → Bool) (h : Heap E) (head : Option Addr)
    (pre post : List (Addr × E)) (a : Addr) (e : E)
    (hl : WellFormed h head (pre ++ (a, e) :: post)) :
    ∃ h' head' log, eventListRemove hasFree h head a = .ok (h', head', log) ∧
      log = (if hasFree e then [a] else []) ∧
      WellFormed h' head' (pre ++ post) ∧ h' a = none ∧
      SameOutside h h' ((pre.getLast?.toList ++ (a, e) :: post.head?.toList).map Prod.fst) := by
  obtain ⟨h', head', h1, h2, h3, h4⟩ := eventListRemove_spec hasFree h head pre post a e hl
  exact ⟨h', head', _, h1, rfl, h2, h3, h4⟩

/-- A heap with the three element list 1, 2, 3. -/
def exampleHeap : Heap Char := fun b =>
  if b = 1 then some ⟨none, some 2, 'a'⟩ else if b = 2 then some ⟨some 1, some 3, 'b'⟩
  else if b = 3 then some ⟨some 2, none, 'c'⟩ else none

theorem exampleHeap_wellFormed :
    WellFormed exampleHeap (some 1) [(1, 'a'), (2, 'b'), (3, 'c')] := by
  refine ⟨⟨rfl, some 2, by simp [exampleHeap], rfl, some 3, by simp [exampleHeap], rfl, none,
    by simp [exampleHeap], rfl⟩, by simp⟩

/-- Non-vacuity: the middle element of a three element list. -/
example : ∃ h' head' log, eventListRemove (fun _ => true) exampleHeap (some 1) 2 = .ok (h', head', log) ∧
    log = [2] ∧ WellFormed h' head' [(1, 'a'), (3, 'c')] ∧ h' 2 = none := by
  obtain ⟨h', head', log, e1, e2, e3, e4, _⟩ := C17_remove (fun _ => true) exampleHeap (some 1)
    [(1, 'a')] [(3, 'c')] 2 'b' exampleHeap_wellFormed
  exact ⟨h', head', log, e1, by simpa using e2, by simpa using e3, e4⟩

/-- **C18.** Freeing any list in memory succeeds, that is it never touches freed memory and frees no
element twice; it calls the free function of each event that has one exactly once, in list order,
deallocates every element, changes nothing else and leaves the empty list. -/
theorem C18_list_free (hasFree : E → Bool) (h : Heap E) (head : Option Addr) (l : List (Addr × E))
    (hl : WellFormed h head l) (fuel : Nat) (hf : l.length < fuel) :
    ∃ h' head' log, eventListFree hasFree fuel h head = .ok (h', head', log) ∧
      log = (l.filter (fun x => hasFree x.2)).map Prod.fst ∧ log.Nodup ∧
      (∀ a ∈ l.map Prod.fst, h' a = none) ∧ SameOutside h h' (l.map Prod.fst) ∧
      WellFormed h' head' [] := by
  obtain ⟨h', e1, e2, e3⟩ := eventListFreeLoop_spec hasFree l h none head [] fuel hf hl.1 hl.2
  refine ⟨h', none, _, ?_, rfl, ?_, e2, e3, rfl, by simp⟩
  · unfold eventListFree; rw [e1]; rfl
  · exact List.Nodup.sublist (List.Sublist.map _ List.filter_sublist) hl.2

/-- Non-vacuity: a list of three elements, one without free function. -/
example : ∃ h' head' log, eventListFree (fun e => e != 'b') 4 exampleHeap (some 1) = .ok (h', head', log) ∧
    log = [1, 3] ∧ WellFormed h' head' [] := by
  obtain ⟨h', head', log, e1, e2, _, _, _, e3⟩ := C18_list_free (fun e => e != 'b') exampleHeap (some 1)
    _ exampleHeap_wellFormed 4 (by simp)
  exact ⟨h', head', log, e1, by rw [e2]; decide, e3⟩

end Sp
