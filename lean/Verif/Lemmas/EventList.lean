import Verif.Spec.EventList
import Mathlib.Data.List.Nodup
import Mathlib.Tactic.Set

set_option linter.unusedSectionVars false

namespace Sp
variable {E : Type _}

theorem Heap.load_of {h : Heap E} {a : Addr} {n : ListNode E} (e : h a = some n) :
    h.load a = .ok n := by simp [Heap.load, e]

theorem Heap.store_of {h : Heap E} {a : Addr} {n m : ListNode E} (e : h a = some n) :
    h.store a m = .ok (fun b => if b = a then some m else h b) := by simp [Heap.store, e]

theorem Heap.free_of {h : Heap E} {a : Addr} {n : ListNode E} (e : h a = some n) :
    h.free a = .ok (fun b => if b = a then none else h b) := by simp [Heap.free, e]

theorem IsList.congr {h h' : Heap E} {p hd : Option Addr} {l : List (Addr × E)}
    (hl : IsList h p hd l) (e : ∀ a ∈ l.map Prod.fst, h' a = h a) : IsList h' p hd l := by
  induction l generalizing p hd with
  | nil => exact hl
  | cons x rest ih =>
    obtain ⟨a, ev⟩ := x
    obtain ⟨h1, next, h2, h3⟩ := hl
    refine ⟨h1, next, ?_, ?_⟩
    · rw [e a (by simp), h2]
    · exact ih h3 (fun b hb => e b (by simp at hb ⊢; exact Or.inr hb))

theorem IsList.allocated {h : Heap E} {p hd : Option Addr} {l : List (Addr × E)}
    (hl : IsList h p hd l) {a : Addr} (ha : a ∈ l.map Prod.fst) : ∃ n, h a = some n := by
  induction l generalizing p hd with
  | nil => simp at ha
  | cons x rest ih =>
    obtain ⟨b, ev⟩ := x
    obtain ⟨h1, next, h2, h3⟩ := hl
    rw [List.map_cons, List.mem_cons] at ha
    rcases ha with rfl | ha
    · exact ⟨_, h2⟩
    · exact ih h3 ha

theorem IsList.not_mem_of_none {h : Heap E} {p hd : Option Addr} {l : List (Addr × E)}
    (hl : IsList h p hd l) {a : Addr} (ha : h a = none) : a ∉ l.map Prod.fst := by
  intro hm
  obtain ⟨n, hn⟩ := hl.allocated hm
  rw [ha] at hn; simp at hn

/-- Insertion before the first element that does not start later. -/
def insertDesc (start : E → Nat) (x : Addr × E) : List (Addr × E) → List (Addr × E)
  | [] => [x]
  | y :: rest => if start y.2 ≤ start x.2 then x :: y :: rest else y :: insertDesc start x rest

theorem insertDesc_perm (start : E → Nat) (x : Addr × E) (l : List (Addr × E)) :
    (insertDesc start x l).Perm (x :: l) := by
  induction l with
  | nil => exact List.Perm.refl _
  | cons y rest ih =>
    unfold insertDesc
    split
    · exact List.Perm.refl _
    · exact (List.Perm.cons y ih).trans (List.Perm.swap x y rest)

/-- The loop, with `current` the head of a list whose first element starts later. -/
theorem eventListAddLoop_spec (start : E → Nat) (new : Addr) (e : E) (h : Heap E)
    (hnew : h new = none) (rest : List (Addr × E)) (p : Option Addr) (c : Addr) (ce : E) (fuel : Nat)
    (hf : rest.length < fuel)
    (hl : IsList h p (some c) ((c, ce) :: rest)) (hnd : (((c, ce) :: rest).map Prod.fst).Nodup) :
    ∃ h', eventListAddLoop start new e fuel h c = .ok h' ∧
      IsList h' p (some c) ((c, ce) :: insertDesc start (new, e) rest) ∧
      SameOutside h h' (new :: ((c, ce) :: rest).map Prod.fst) := by
  induction rest generalizing p c ce fuel with
  | nil =>
    obtain ⟨_, next, h2, h3⟩ := hl
    have : next = none := h3
    subst this
    obtain ⟨fuel, rfl⟩ : ∃ f, fuel = f + 1 := ⟨fuel - 1, by simp at hf; omega⟩
    have hcn : c ≠ new := by rintro rfl; rw [hnew] at h2; simp at h2
    have h2' : (h.alloc new ⟨some c, none, e⟩) c = some ⟨p, none, ce⟩ := by
      simp [Heap.alloc, hcn, h2]
    refine ⟨fun b => if b = c then some ⟨p, some new, ce⟩ else h.alloc new ⟨some c, none, e⟩ b,
      ?_, ?_, ?_⟩
    · unfold eventListAddLoop
      rw [Heap.load_of h2, ok_bind']
      simp only
      rw [Heap.load_of h2', ok_bind', Heap.store_of h2']
    · refine ⟨rfl, some new, by simp, rfl, none, ?_, rfl⟩
      simp [Ne.symm hcn, Heap.alloc]
    · intro a ha
      simp only [List.map_cons, List.map_nil, List.mem_cons, List.not_mem_nil, or_false, not_or] at ha
      simp [Heap.alloc, ha.1, ha.2]
  | cons y rest ih =>
    obtain ⟨c', ce'⟩ := y
    obtain ⟨_, next, h2, h3⟩ := hl
    have h3' := h3
    obtain ⟨h4, next', h5, h6⟩ := h3
    subst h4
    obtain ⟨fuel, rfl⟩ : ∃ f, fuel = f + 1 := ⟨fuel - 1, by simp at hf; omega⟩
    have hcn : c ≠ new := by rintro rfl; rw [hnew] at h2; simp at h2
    have hcn' : c' ≠ new := by rintro rfl; rw [hnew] at h5; simp at h5
    simp only [List.map_cons, List.nodup_cons, List.mem_cons, not_or] at hnd
    obtain ⟨⟨hcc', hcr⟩, hc'r, hnd'⟩ := hnd
    unfold eventListAddLoop
    rw [Heap.load_of h2, ok_bind']
    simp only
    rw [Heap.load_of h5, ok_bind']
    by_cases hs : start ce' ≤ start e
    · simp only [hs, if_true]
      have e1 : (h.alloc new ⟨some c, some c', e⟩) c = some ⟨p, some c', ce⟩ := by
        simp [Heap.alloc, hcn, h2]
      simp only [deref, ok_bind']
      rw [Heap.load_of e1, ok_bind', Heap.store_of e1, ok_bind']
      have e2 : (fun b => if b = c then some (⟨p, some new, ce⟩ : ListNode E) else
          h.alloc new ⟨some c, some c', e⟩ b) c' = some ⟨some c, next', ce'⟩ := by
        simp [Heap.alloc, hcn', h5, Ne.symm hcc']
      rw [Heap.load_of e2, ok_bind', Heap.store_of e2]
      refine ⟨_, rfl, ?_, ?_⟩
      · simp only [insertDesc, hs, if_true]
        refine ⟨rfl, some new, by simp [hcc'], rfl, some c', ?_, rfl, next', ?_, ?_⟩
        · simp [Heap.alloc, Ne.symm hcn, Ne.symm hcn']
        · simp
        · apply h6.congr
          intro b hb
          have b1 : b ≠ c := by rintro rfl; exact hcr hb
          have b2 : b ≠ c' := by rintro rfl; exact hc'r hb
          have b3 : b ≠ new := by
            rintro rfl
            exact h6.not_mem_of_none hnew hb
          simp [b1, b2, b3, Heap.alloc]
      · intro a ha
        simp only [List.map_cons, List.mem_cons, not_or] at ha
        simp [Heap.alloc, ha.1, ha.2.1, ha.2.2.1]
    · simp only [hs, if_false]
      obtain ⟨h', e1, e2, e3⟩ := ih (some c) c' ce' fuel (by simp at hf ⊢; omega) h3'
        (by simp only [List.map_cons, List.nodup_cons]; exact ⟨hc'r, hnd'⟩)
      refine ⟨h', e1, ?_, ?_⟩
      · simp only [insertDesc, hs, if_false]
        refine ⟨rfl, some c', ?_, e2⟩
        rw [e3 c (by simp [hcn, hcc']; simpa using hcr)]
        exact h2
      · intro a ha
        apply e3
        simp only [List.map_cons, List.mem_cons, not_or] at ha ⊢
        exact ⟨ha.1, ha.2.2⟩

theorem eventListAdd_spec (start : E → Nat) (new : Addr) (e : E) (h : Heap E) (hnew : h new = none)
    (head : Option Addr) (l : List (Addr × E)) (fuel : Nat) (hf : l.length ≤ fuel)
    (hl : WellFormed h head l) :
    ∃ h' head', eventListAdd start fuel new e h head = .ok (h', head') ∧
      WellFormed h' head' (insertDesc start (new, e) l) ∧
      SameOutside h h' (new :: l.map Prod.fst) := by
  obtain ⟨hl, hnd⟩ := hl
  have hnd2 : ((insertDesc start (new, e) l).map Prod.fst).Nodup := by
    rw [List.Perm.nodup_iff ((insertDesc_perm start (new, e) l).map Prod.fst)]
    exact List.nodup_cons.2 ⟨hl.not_mem_of_none hnew, hnd⟩
  cases l with
  | nil =>
    have : head = none := hl
    subst this
    refine ⟨_, _, rfl, ⟨⟨rfl, none, ?_, rfl⟩, hnd2⟩, ?_⟩
    · simp [Heap.alloc]
    · intro a ha
      simp at ha
      simp [Heap.alloc, ha]
  | cons x rest =>
    obtain ⟨c, ce⟩ := x
    have hl' := hl
    obtain ⟨h1, next, h2, h3⟩ := hl
    subst h1
    have hcn : c ≠ new := by rintro rfl; rw [hnew] at h2; simp at h2
    unfold eventListAdd
    simp only
    rw [Heap.load_of h2, ok_bind']
    by_cases hs : start ce ≤ start e
    · simp only [hs, if_true]
      have e1 : (h.alloc new ⟨none, some c, e⟩) c = some ⟨none, next, ce⟩ := by
        simp [Heap.alloc, hcn, h2]
      rw [Heap.load_of e1, ok_bind', Heap.store_of e1, ok_bind']
      refine ⟨_, _, rfl, ⟨?_, hnd2⟩, ?_⟩
      · simp only [insertDesc, hs, if_true]
        refine ⟨rfl, some c, ?_, rfl, next, ?_, ?_⟩
        · simp [Heap.alloc, Ne.symm hcn]
        · simp
        · apply h3.congr
          intro b hb
          have b1 : b ≠ c := by
            rintro rfl
            simp only [List.map_cons, List.nodup_cons] at hnd
            exact hnd.1 hb
          have b3 : b ≠ new := by
            rintro rfl
            exact h3.not_mem_of_none hnew hb
          simp [b1, b3, Heap.alloc]
      · intro a ha
        simp only [List.map_cons, List.mem_cons, not_or] at ha
        simp [Heap.alloc, ha.1, ha.2.1]
    · simp only [hs, if_false]
      obtain ⟨h', e1, e2, e3⟩ := eventListAddLoop_spec start new e h hnew rest none c ce fuel
        (by simp at hf; omega) hl' hnd
      rw [e1, ok_bind']
      refine ⟨_, _, rfl, ⟨?_, hnd2⟩, e3⟩
      simpa only [insertDesc, hs, if_false] using e2

theorem eventListReverseLoop_spec (todo done : List (Addr × E)) (h : Heap E) (cur next : Option Addr)
    (fuel : Nat) (hf : todo.length < fuel) (hne : done ≠ [] ∨ todo ≠ [])
    (h1 : IsList h next cur done) (h2 : IsList h cur next todo)
    (hnd : ((todo ++ done).map Prod.fst).Nodup) :
    ∃ h' c, eventListReverseLoop fuel h cur next = .ok (h', some c) ∧
      IsList h' none (some c) (todo.reverse ++ done) ∧
      SameOutside h h' ((todo ++ done).map Prod.fst) := by
  induction todo generalizing done h cur next fuel with
  | nil =>
    obtain ⟨fuel, rfl⟩ : ∃ f, fuel = f + 1 := ⟨fuel - 1, by simp at hf; omega⟩
    have : next = none := h2
    subst this
    unfold eventListReverseLoop
    cases done with
    | nil => simp at hne
    | cons x rest =>
      obtain ⟨a, e⟩ := x
      have : cur = some a := h1.1
      subst this
      exact ⟨h, a, rfl, h1, fun _ _ => rfl⟩
  | cons x rest ih =>
    obtain ⟨a, e⟩ := x
    obtain ⟨fuel, rfl⟩ : ∃ f, fuel = f + 1 := ⟨fuel - 1, by simp at hf; omega⟩
    obtain ⟨h3, next', h4, h5⟩ := h2
    subst h3
    unfold eventListReverseLoop
    simp only
    rw [Heap.load_of h4, ok_bind', Heap.store_of h4, ok_bind']
    simp only [List.cons_append, List.map_cons, List.nodup_cons] at hnd
    obtain ⟨hnd1, hnd2⟩ := hnd
    rw [List.map_append, List.mem_append, not_or] at hnd1
    obtain ⟨h', c, e1, e2, e3⟩ := ih ((a, e) :: done)
      (fun b => if b = a then some ⟨next', cur, e⟩ else h b) (some a) next' fuel
      (by simp at hf; omega) (Or.inl (by simp))
      ⟨rfl, cur, by simp, h1.congr (by
        intro b hb
        have : b ≠ a := by rintro rfl; exact hnd1.2 hb
        simp [this])⟩
      (h5.congr (by
        intro b hb
        have : b ≠ a := by rintro rfl; exact hnd1.1 hb
        simp [this]))
      (by
        rw [List.map_append, List.map_cons, List.nodup_middle, ← List.map_append, List.nodup_cons]
        exact ⟨by rw [List.map_append, List.mem_append, not_or]; exact hnd1, hnd2⟩)
    refine ⟨h', c, e1, ?_, ?_⟩
    · simpa using e2
    · intro b hb
      rw [e3 b (by simp at hb ⊢; tauto)]
      have : b ≠ a := by rintro rfl; simp at hb
      simp [this]

theorem eventListReverse_spec (l : List (Addr × E)) (hne : l ≠ []) (h : Heap E) (head : Option Addr)
    (fuel : Nat) (hf : l.length < fuel) (hl : WellFormed h head l) :
    ∃ h' head', eventListReverse fuel h head = .ok (h', head') ∧ WellFormed h' head' l.reverse ∧
      SameOutside h h' (l.map Prod.fst) := by
  obtain ⟨h', c, e1, e2, e3⟩ := eventListReverseLoop_spec l [] h none head fuel hf (Or.inr hne) rfl
    hl.1 (by simpa using hl.2)
  refine ⟨h', some c, e1, ⟨by simpa using e2, ?_⟩, by simpa using e3⟩
  rw [List.map_reverse, List.nodup_reverse]
  exact hl.2

theorem eventListFreeLoop_spec (hasFree : E → Bool) (l : List (Addr × E)) (h : Heap E)
    (p cur : Option Addr) (log : List Addr) (fuel : Nat) (hf : l.length < fuel)
    (hl : IsList h p cur l) (hnd : (l.map Prod.fst).Nodup) :
    ∃ h', eventListFreeLoop hasFree fuel h cur log =
        .ok (h', log ++ (l.filter (fun x => hasFree x.2)).map Prod.fst) ∧
      (∀ a ∈ l.map Prod.fst, h' a = none) ∧ SameOutside h h' (l.map Prod.fst) := by
  induction l generalizing h p cur log fuel with
  | nil =>
    obtain ⟨fuel, rfl⟩ : ∃ f, fuel = f + 1 := ⟨fuel - 1, by simp at hf; omega⟩
    have : cur = none := hl
    subst this
    exact ⟨h, by simp [eventListFreeLoop], by simp, fun _ _ => rfl⟩
  | cons x rest ih =>
    obtain ⟨a, e⟩ := x
    obtain ⟨fuel, rfl⟩ : ∃ f, fuel = f + 1 := ⟨fuel - 1, by simp at hf; omega⟩
    obtain ⟨h1, next, h2, h3⟩ := hl
    subst h1
    simp only [List.map_cons, List.nodup_cons] at hnd
    unfold eventListFreeLoop
    simp only
    rw [Heap.load_of h2, ok_bind', Heap.free_of h2, ok_bind']
    obtain ⟨h', e1, e2, e3⟩ := ih (fun b => if b = a then none else h b) (some a) next
      (if hasFree e then log ++ [a] else log) fuel (by simp at hf; omega)
      (h3.congr (by
        intro b hb
        have : b ≠ a := by rintro rfl; exact hnd.1 hb
        simp [this])) hnd.2
    refine ⟨h', ?_, ?_, ?_⟩
    · rw [e1]
      by_cases hh : hasFree e <;> simp [hh]
    · intro b hb
      rw [List.map_cons, List.mem_cons] at hb
      rcases hb with rfl | hb
      · by_cases hm : b ∈ rest.map Prod.fst
        · exact e2 b hm
        · rw [e3 b hm]; simp
      · exact e2 b hb
    · intro b hb
      simp only [List.map_cons, List.mem_cons, not_or] at hb
      rw [e3 b hb.2]
      simp [hb.1]

/-- A segment of a list: nodes `l` from `head`, with `prev` before and `tail` after. -/
def Seg (h : Heap E) : Option Addr → Option Addr → List (Addr × E) → Option Addr → Prop
  | _, head, [], tail => head = tail
  | prev, head, (a, e) :: rest, tail =>
    head = some a ∧ ∃ next, h a = some ⟨prev, next, e⟩ ∧ Seg h (some a) next rest tail

/-- The address of the last node, or `p` if there is none. -/
def lastOf : Option Addr → List (Addr × E) → Option Addr
  | p, [] => p
  | _, (a, _) :: rest => lastOf (some a) rest

theorem lastOf_append (p : Option Addr) (l r : List (Addr × E)) :
    lastOf p (l ++ r) = lastOf (lastOf p l) r := by
  induction l generalizing p with
  | nil => rfl
  | cons x rest ih => exact ih _

theorem isList_append {h : Heap E} {p hd : Option Addr} {l r : List (Addr × E)} :
    IsList h p hd (l ++ r) ↔ ∃ mid, Seg h p hd l mid ∧ IsList h (lastOf p l) mid r := by
  induction l generalizing p hd with
  | nil => simp [Seg, lastOf]
  | cons x rest ih =>
    obtain ⟨a, e⟩ := x
    simp only [List.cons_append, IsList, Seg, lastOf, ih]
    constructor
    · rintro ⟨h1, next, h2, mid, h3, h4⟩
      exact ⟨mid, ⟨h1, next, h2, h3⟩, h4⟩
    · rintro ⟨mid, ⟨h1, next, h2, h3⟩, h4⟩
      exact ⟨h1, next, h2, mid, h3, h4⟩

theorem seg_append {h : Heap E} {p hd t : Option Addr} {l r : List (Addr × E)} :
    Seg h p hd (l ++ r) t ↔ ∃ mid, Seg h p hd l mid ∧ Seg h (lastOf p l) mid r t := by
  induction l generalizing p hd with
  | nil => simp [Seg, lastOf]
  | cons x rest ih =>
    obtain ⟨a, e⟩ := x
    simp only [List.cons_append, Seg, lastOf, ih]
    constructor
    · rintro ⟨h1, next, h2, mid, h3, h4⟩
      exact ⟨mid, ⟨h1, next, h2, h3⟩, h4⟩
    · rintro ⟨mid, ⟨h1, next, h2, h3⟩, h4⟩
      exact ⟨h1, next, h2, mid, h3, h4⟩

theorem Seg.congr {h h' : Heap E} {p hd t : Option Addr} {l : List (Addr × E)}
    (hl : Seg h p hd l t) (e : ∀ a ∈ l.map Prod.fst, h' a = h a) : Seg h' p hd l t := by
  induction l generalizing p hd with
  | nil => exact hl
  | cons x rest ih =>
    obtain ⟨a, ev⟩ := x
    obtain ⟨h1, next, h2, h3⟩ := hl
    refine ⟨h1, next, ?_, ?_⟩
    · rw [e a (by simp), h2]
    · exact ih h3 (fun b hb => e b (by simp at hb ⊢; exact Or.inr hb))

/-- The second half of the removal: unlink from the next element and free. -/
theorem IsList.relink {h : Heap E} {q : Option Addr} {a : Addr} {post : List (Addr × E)}
    {next : Option Addr} (hl : IsList h (some a) next post) (hnd : (post.map Prod.fst).Nodup) :
    ∃ h', relinkNext h next q = .ok h' ∧ IsList h' q next post ∧
      SameOutside h h' (post.head?.toList.map Prod.fst) := by
  cases post with
  | nil =>
    have : next = none := hl
    subst this
    exact ⟨h, rfl, rfl, fun _ _ => rfl⟩
  | cons x rest =>
    obtain ⟨b, be⟩ := x
    obtain ⟨h1, next', h2, h3⟩ := hl
    subst h1
    unfold relinkNext
    simp only
    rw [Heap.load_of h2, ok_bind', Heap.store_of h2]
    refine ⟨_, rfl, ⟨rfl, next', by simp, ?_⟩, ?_⟩
    · apply h3.congr
      intro c hc
      simp only [List.map_cons, List.nodup_cons] at hnd
      have : c ≠ b := by rintro rfl; exact hnd.1 hc
      simp [this]
    · intro c hc
      simp at hc
      simp [hc]

theorem mem_map_head?_toList {post : List (Addr × E)} {b : Addr}
    (h : b ∈ post.head?.toList.map Prod.fst) : b ∈ post.map Prod.fst := by
  cases post with
  | nil => exact h
  | cons x rest => simp at h; simp [h]

theorem eventListRemove_spec (hasFree : E → Bool) (h : Heap E) (head : Option Addr)
    (pre post : List (Addr × E)) (a : Addr) (e : E)
    (hl : WellFormed h head (pre ++ (a, e) :: post)) :
    ∃ h' head', eventListRemove hasFree h head a =
        .ok (h', head', if hasFree e then [a] else []) ∧
      WellFormed h' head' (pre ++ post) ∧ h' a = none ∧
      SameOutside h h' ((pre.getLast?.toList ++ (a, e) :: post.head?.toList).map Prod.fst) := by
  obtain ⟨hl, hnd⟩ := hl
  rw [isList_append] at hl
  obtain ⟨mid, hseg, hm, next, ha, hpost⟩ := hl
  subst hm
  rw [List.map_append, List.map_cons] at hnd
  have hnd2 : ((pre ++ post).map Prod.fst).Nodup := by
    rw [List.nodup_middle, List.nodup_cons] at hnd
    rw [List.map_append]; exact hnd.2
  have ha_pre : a ∉ pre.map Prod.fst := by
    rw [List.nodup_middle, List.nodup_cons, List.mem_append, not_or] at hnd
    exact hnd.1.1
  have ha_post : a ∉ post.map Prod.fst := by
    rw [List.nodup_middle, List.nodup_cons, List.mem_append, not_or] at hnd
    exact hnd.1.2
  have hnd_post : (post.map Prod.fst).Nodup := by
    rw [List.map_append] at hnd2; exact (List.nodup_append.1 hnd2).2.1
  unfold eventListRemove
  rw [Heap.load_of ha, ok_bind']
  rcases List.eq_nil_or_concat pre with rfl | ⟨pre', ⟨b, be⟩, rfl⟩
  · -- first element
    have hh : head = some a := hseg
    subst hh
    simp only [lastOf, pure_eq_ok, ok_bind'] at ha ⊢
    rw [Heap.load_of ha, ok_bind']
    obtain ⟨h', e1, e2, e3'⟩ := hpost.relink (q := none) hnd_post
    have e3 : ∀ b, b ∉ post.map Prod.fst → h' b = h b :=
      fun b hb => e3' b (fun hm => hb (mem_map_head?_toList hm))
    simp only [e1, ok_bind']
    have ha' : h' a = some ⟨none, next, e⟩ := by rw [e3 a ha_post, ha]
    rw [Heap.free_of ha', ok_bind']
    refine ⟨_, _, rfl, ⟨?_, hnd2⟩, by simp, ?_⟩
    · apply e2.congr
      intro c hc
      have : c ≠ a := by rintro rfl; exact ha_post hc
      simp [this]
    · intro c hc
      simp only [List.getLast?_nil, Option.toList_none, List.nil_append, List.map_cons, List.mem_cons,
        not_or] at hc
      simp [hc.1, e3' c hc.2]
  · rw [List.concat_eq_append] at *
    rw [seg_append] at hseg
    obtain ⟨mid', hseg', hb, next', hbn, hn'⟩ := hseg
    have hn' : next' = some a := hn'
    subst hb hn'
    have hlast : lastOf none (pre' ++ [(b, be)]) = some b := by rw [lastOf_append]; rfl
    rw [hlast] at ha
    rw [List.map_append, List.map_append, List.map_cons, List.map_nil] at hnd2
    have hab : a ≠ b := by rintro rfl; simp at ha_pre
    have hb_pre : b ∉ pre'.map Prod.fst := by
      intro hm
      have := (List.nodup_append.1 (List.nodup_append.1 hnd2).1).2.2 b hm b (by simp)
      exact this rfl
    have hb_post : b ∉ post.map Prod.fst := by
      intro hm
      have := (List.nodup_append.1 hnd2).2.2 b (by simp) b hm
      exact this rfl
    have hdisj : ∀ c ∈ pre'.map Prod.fst, c ∉ post.map Prod.fst := by
      intro c hc hm
      have := (List.nodup_append.1 hnd2).2.2 c (by rw [List.mem_append]; exact Or.inl hc) c hm
      exact this rfl
    rw [hlast]
    simp only
    rw [Heap.load_of hbn, ok_bind', Heap.store_of hbn, ok_bind', pure_eq_ok, ok_bind']
    set h1 : Heap E := fun c => if c = b then some ⟨lastOf none pre', next, be⟩ else h c with hh1
    have ha1 : h1 a = some ⟨some b, next, e⟩ := by simp [hh1, hab, ha]
    simp only [Heap.load_of ha1, ok_bind']
    have hpost1 : IsList h1 (some a) next post := by
      apply hpost.congr
      intro c hc
      have : c ≠ b := by rintro rfl; exact hb_post hc
      simp [hh1, this]
    obtain ⟨h', e1, e2, e3'⟩ := hpost1.relink (q := some b) hnd_post
    have e3 : ∀ b, b ∉ post.map Prod.fst → h' b = h1 b :=
      fun b hb => e3' b (fun hm => hb (mem_map_head?_toList hm))
    simp only [e1, ok_bind', pure_eq_ok]
    have ha' : h' a = some ⟨some b, next, e⟩ := by rw [e3 a ha_post, ha1]
    rw [Heap.free_of ha', ok_bind']
    refine ⟨_, _, rfl, ⟨?_, by simpa using hnd2⟩, by simp, ?_⟩
    · rw [isList_append]
      refine ⟨next, ?_, ?_⟩
      · rw [seg_append]
        refine ⟨some b, ?_, rfl, next, ?_, rfl⟩
        · apply hseg'.congr
          intro c hc
          have c1 : c ≠ a := by rintro rfl; simp at ha_pre hc; exact ha_pre.1 _ hc.choose_spec
          have c2 : c ≠ b := by rintro rfl; exact hb_pre hc
          simp [c1, e3 c (hdisj c hc), hh1, c2]
        · simp [Ne.symm hab, e3 b hb_post, hh1]
      · rw [hlast]
        apply e2.congr
        intro c hc
        have : c ≠ a := by rintro rfl; exact ha_post hc
        simp [this]
    · intro c hc
      rw [List.getLast?_concat] at hc
      simp only [Option.toList_some, List.map_append, List.map_cons, List.map_nil, List.mem_append,
        List.mem_cons, List.not_mem_nil, or_false, not_or] at hc
      simp [hc.2.1, e3' c hc.2.2, hh1, hc.1]

theorem insertDesc_sorted (start : E → Nat) (x : Addr × E) (l : List (Addr × E))
    (h : l.Pairwise (fun x y => start y.2 ≤ start x.2)) :
    (insertDesc start x l).Pairwise (fun x y => start y.2 ≤ start x.2) := by
  induction l with
  | nil => simp [insertDesc]
  | cons y rest ih =>
    rw [List.pairwise_cons] at h
    unfold insertDesc
    split
    · rename_i hle
      refine List.pairwise_cons.2 ⟨?_, List.pairwise_cons.2 h⟩
      intro z hz
      rcases List.mem_cons.1 hz with rfl | hz
      · exact hle
      · exact Nat.le_trans (h.1 z hz) hle
    · rename_i hle
      refine List.pairwise_cons.2 ⟨?_, ih h.2⟩
      intro z hz
      rcases List.mem_cons.1 ((insertDesc_perm start x rest).mem_iff.1 hz) with rfl | hz
      · omega
      · exact h.1 z hz

theorem insertDesc_filter (start : E → Nat) (x : Addr × E) (l : List (Addr × E)) (t : Nat) :
    (insertDesc start x l).filter (fun y => start y.2 = t) =
      (x :: l).filter (fun y => start y.2 = t) := by
  induction l with
  | nil => rfl
  | cons y rest ih =>
    unfold insertDesc
    split
    · rfl
    · rename_i hle
      rw [List.filter_cons, ih, List.filter_cons, List.filter_cons, List.filter_cons]
      by_cases h1 : start x.2 = t <;> by_cases h2 : start y.2 = t <;> simp [h1, h2]
      omega

theorem eventListAddAll_spec (start : E → Nat) (fuel : Nat) (added : List (Addr × E)) (h : Heap E)
    (head : Option Addr) (l : List (Addr × E)) (hf : l.length + added.length ≤ fuel)
    (hnew : ∀ a ∈ added.map Prod.fst, h a = none) (hnd : (added.map Prod.fst).Nodup)
    (hl : WellFormed h head l) (hs : l.Pairwise (fun x y => start y.2 ≤ start x.2)) :
    ∃ h' head' l', eventListAddAll start fuel added h head = .ok (h', head') ∧
      WellFormed h' head' l' ∧ l'.Perm (added.reverse ++ l) ∧
      l'.Pairwise (fun x y => start y.2 ≤ start x.2) ∧
      (∀ t, l'.filter (fun y => start y.2 = t) = (added.reverse ++ l).filter (fun y => start y.2 = t)) ∧
      SameOutside h h' ((added ++ l).map Prod.fst) := by
  induction added generalizing h head l with
  | nil => exact ⟨h, head, l, rfl, hl, List.Perm.refl _, hs, fun _ => rfl, fun _ _ => rfl⟩
  | cons x rest ih =>
    obtain ⟨new, e⟩ := x
    simp only [List.length_cons] at hf
    obtain ⟨h1, head1, e1, w1, s1⟩ := eventListAdd_spec start new e h (hnew new (by simp)) head l fuel
      (by omega) hl
    have hp := insertDesc_perm start (new, e) l
    rw [List.map_cons, List.nodup_cons] at hnd
    have hfresh : ∀ a ∈ rest.map Prod.fst, h1 a = none := by
      intro a ha
      have hne : a ≠ new := by rintro rfl; exact hnd.1 ha
      have h0 : h a = none := hnew a (by rw [List.map_cons]; exact List.mem_cons_of_mem _ ha)
      rw [s1 a, h0]
      rw [List.mem_cons, not_or]
      exact ⟨hne, hl.1.not_mem_of_none h0⟩
    obtain ⟨h', head', l', e2, w2, p2, o2, f2, s2⟩ := ih h1 head1 (insertDesc start (new, e) l)
      (by have := hp.length_eq; simp only [List.length_cons] at this; omega) hfresh hnd.2 w1
      (insertDesc_sorted start _ l hs)
    refine ⟨h', head', l', ?_, w2, ?_, o2, ?_, ?_⟩
    · unfold eventListAddAll; rw [e1, ok_bind']; exact e2
    · refine p2.trans ?_
      rw [List.reverse_cons, List.append_assoc]
      exact List.Perm.append_left _ hp
    · intro t
      rw [f2 t, List.filter_append, insertDesc_filter, List.reverse_cons, List.append_assoc,
        List.filter_append]
      rfl
    · intro a ha
      simp only [List.cons_append, List.map_cons, List.map_append, List.mem_cons, List.mem_append,
        not_or] at ha
      rw [s2 a, s1 a]
      · rw [List.mem_cons, not_or]; exact ⟨ha.1, ha.2.2⟩
      · rw [List.map_append, List.mem_append, not_or]
        refine ⟨ha.2.1, ?_⟩
        rw [(hp.map Prod.fst).mem_iff, List.map_cons, List.mem_cons, not_or]
        exact ⟨ha.1, ha.2.2⟩

end Sp
