import Verif.Lemmas.EventList
import Verif.Model.Seq

set_option linter.unusedSectionVars false

namespace Sp
variable {D W : Type} {E : Type _}

theorem IsList.head_eq {h : Heap E} {p hd : Option Addr} {l : List (Addr × E)}
    (hl : IsList h p hd l) : hd = l.head?.map Prod.fst := by
  cases l with
  | nil => exact hl
  | cons x r => obtain ⟨a, e⟩ := x; exact hl.1

theorem WellFormed.get {h : Heap E} {head : Option Addr} {pre post : List (Addr × E)} {a : Addr} {e : E}
    (hl : WellFormed h head (pre ++ (a, e) :: post)) :
    h a = some ⟨lastOf none pre, post.head?.map Prod.fst, e⟩ := by
  obtain ⟨hl, _⟩ := hl
  rw [isList_append] at hl
  obtain ⟨mid, _, _, next, ha, hpost⟩ := hl
  rw [ha, hpost.head_eq]

theorem WellFormed.update {h : Heap E} {head : Option Addr} {pre post : List (Addr × E)} {a : Addr}
    {e e' : E} {p q : Option Addr} (hl : WellFormed h head (pre ++ (a, e) :: post))
    (ha : h a = some ⟨p, q, e⟩) :
    WellFormed (fun b => if b = a then some ⟨p, q, e'⟩ else h b) head (pre ++ (a, e') :: post) := by
  obtain ⟨hl, hnd⟩ := hl
  have hnd' : ((pre ++ (a, e') :: post).map Prod.fst).Nodup := by
    simpa [List.map_append] using hnd
  refine ⟨?_, hnd'⟩
  rw [List.map_append, List.map_cons, List.nodup_middle, List.nodup_cons, List.mem_append, not_or] at hnd
  rw [isList_append] at hl ⊢
  obtain ⟨mid, hseg, hm, next, ha', hpost⟩ := hl
  rw [ha] at ha'
  obtain ⟨rfl, rfl⟩ : p = lastOf none pre ∧ q = next := by simpa using ha'
  refine ⟨mid, ?_, hm, q, by simp, ?_⟩
  · apply hseg.congr
    intro c hc
    have : c ≠ a := by rintro rfl; exact hnd.1.1 hc
    simp [this]
  · apply hpost.congr
    intro c hc
    have : c ≠ a := by rintro rfl; exact hnd.1.2 hc
    simp [this]

/-- `st` is a heap state that holds the list `l`. -/
def Holds (s : SeqState D W) (l : List (Addr × Event D)) : Prop := WellFormed s.heap s.head l

/-- What the heap version must do given the result of the list version. -/
def Refines (s : SeqState D W) (all : List (Addr × Event D)) (pre : List (Addr × Event D))
    (r : C (Nat × List (Addr × Event D) × W × List Call)) (hr : C (Nat × SeqState D W)) : Prop :=
  match r with
  | .error f => hr = .error f
  | .ok (st, l, w, log) => ∃ heap head, hr = .ok (st, ⟨heap, head, w, s.log ++ log⟩) ∧
      WellFormed heap head (pre ++ l) ∧ SameOutside s.heap heap (all.map Prod.fst) ∧
      (∀ a ∈ all.map Prod.fst, a ∉ (pre ++ l).map Prod.fst → heap a = none)

theorem SameOutside.trans {h h' h'' : Heap E} {as bs cs : List Addr} (h1 : SameOutside h h' as)
    (h2 : SameOutside h' h'' bs) (ha : ∀ a ∈ as, a ∈ cs) (hb : ∀ a ∈ bs, a ∈ cs) :
    SameOutside h h'' cs := fun a hn => by
  rw [h2 a (fun h => hn (hb a h)), h1 a (fun h => hn (ha a h))]

theorem seqRemove_spec (cb : Callbacks D W) (s : SeqState D W) (pre post : List (Addr × Event D))
    (a : Addr) (e : Event D) (hl : WellFormed s.heap s.head (pre ++ (a, e) :: post)) :
    match eventFree cb a e s.world with
    | .error f => seqRemove cb s a = .error f
    | .ok (w, log) => ∃ heap head, seqRemove cb s a = .ok ⟨heap, head, w, s.log ++ log ++ [.release a]⟩ ∧
        WellFormed heap head (pre ++ post) ∧ heap a = none ∧
        SameOutside s.heap heap ((pre ++ (a, e) :: post).map Prod.fst) := by
  obtain ⟨h', head', e1, e2, e3, e4⟩ := eventListRemove_spec Event.hasFree s.heap s.head pre post a e hl
  unfold seqRemove
  rw [Heap.load_of hl.get, ok_bind', e1, ok_bind']
  simp only
  cases hf : eventFree cb a e s.world with
  | error f => rfl
  | ok r =>
    obtain ⟨w, log⟩ := r
    refine ⟨h', head', rfl, e2, e3, ?_⟩
    intro c hc
    apply e4 c
    intro hm
    apply hc
    simp only [List.map_append, List.map_cons, List.mem_append, List.mem_cons] at hm ⊢
    rcases hm with hm | hm | hm
    · refine Or.inl ?_
      obtain ⟨x, hx, rfl⟩ := List.mem_map.1 hm
      rw [Option.mem_toList] at hx
      exact List.mem_map_of_mem (List.mem_of_getLast? hx)
    · exact Or.inr (Or.inl hm)
    · exact Or.inr (Or.inr (mem_map_head?_toList hm))

theorem seqLoop_refines (cb : Callbacks D W) (start stop base : Nat) (todo pre : List (Addr × Event D))
    (s : SeqState D W) (fuel : Nat) (hf : todo.length < fuel)
    (hl : WellFormed s.heap s.head (pre ++ todo)) :
    Refines s (pre ++ todo) pre (seqList cb start stop base todo s.world)
      (seqLoop cb start stop base fuel s (todo.head?.map Prod.fst)) := by
  induction todo generalizing pre s fuel with
  | nil =>
    obtain ⟨fuel, rfl⟩ : ∃ f, fuel = f + 1 := ⟨fuel - 1, by simp at hf; omega⟩
    refine ⟨s.heap, s.head, ?_, hl, fun _ _ => rfl, fun a h1 h2 => absurd h1 h2⟩
    simp [seqLoop]
  | cons x rest ih =>
    obtain ⟨a, e⟩ := x
    obtain ⟨fuel, rfl⟩ : ∃ f, fuel = f + 1 := ⟨fuel - 1, by simp at hf; omega⟩
    have hf' : rest.length < fuel := by simp at hf; omega
    unfold seqLoop seqList
    simp only [List.head?_cons, Option.map_some]
    have hget := hl.get
    rw [Heap.load_of hget, ok_bind']
    simp only
    by_cases c1 : e.stop ≤ start
    · rw [if_pos c1, if_pos c1]
      have hr := seqRemove_spec cb s pre rest a e hl
      cases hef : eventFree cb a e s.world with
      | error f => rw [hef] at hr; simp only at hr; rw [hr]; rfl
      | ok r =>
        obtain ⟨w, log⟩ := r
        rw [hef] at hr
        obtain ⟨heap, head, e1, e2, e3, e4⟩ := hr
        rw [e1]
        simp only [ok_bind']
        have hi := ih pre ⟨heap, head, w, s.log ++ log ++ [.release a]⟩ fuel hf' e2
        simp only at hi
        cases hsl : seqList cb start stop base rest w with
        | error f => rw [hsl] at hi; exact hi
        | ok r =>
          obtain ⟨st, l, w', log'⟩ := r
          rw [hsl] at hi
          obtain ⟨heap', head', f1, f2, f3, f4⟩ := hi
          refine ⟨heap', head', ?_, f2, ?_, ?_⟩
          · rw [f1]; simp
          · refine e4.trans f3 (fun _ h => h) ?_
            intro b hb
            simp only [List.map_append, List.mem_append, List.map_cons, List.mem_cons] at hb ⊢
            tauto
          · intro b hb hnb
            by_cases hba : b = a
            · subst hba
              refine (f3 b ?_).trans e3
              have hnd := hl.2
              rw [List.map_append, List.map_cons, List.nodup_middle, List.nodup_cons] at hnd
              rw [List.map_append]
              exact hnd.1
            · apply f4 b _ hnb
              simp only [List.map_append, List.mem_append, List.map_cons, List.mem_cons] at hb ⊢
              tauto
    · rw [if_neg c1, if_neg c1]
      by_cases c2 : stop ≤ e.start
      · rw [if_pos c2, if_pos c2]
        refine ⟨s.heap, s.head, ?_, hl, fun _ _ => rfl, fun a h1 h2 => absurd h1 h2⟩
        simp
      · rw [if_neg c2, if_neg c2, if_pos (by omega)]
        unfold seqEvent
        cases hp : prepareOptional cb a e s.world with
        | error f => rfl
        | ok r =>
          obtain ⟨st, e1, w1, log1⟩ := r
          simp only [ok_bind']
          by_cases hst : st ≠ 0
          · rw [if_pos hst, if_pos hst]
            simp only [pure_eq_ok, ok_bind']
            rw [if_pos hst]
            have he1 : e1 = e := by
              unfold prepareOptional at hp
              split at hp
              · cases hc : cb.prepare e s.world with
                | error f => rw [hc] at hp; simp at hp
                | ok r =>
                  obtain ⟨st', e', w'⟩ := r
                  rw [hc, ok_bind'] at hp
                  simp only at hp
                  split at hp
                  · simp at hp; exact hp.2.1.symm
                  · simp at hp; exact absurd hp.1.symm hst
              · simp at hp; exact hp.2.1.symm
            subst he1
            exact ⟨s.heap, s.head, rfl, hl, fun _ _ => rfl, fun a h1 h2 => absurd h1 h2⟩
          · rw [if_neg hst, if_neg hst]
            rw [Heap.store_of hget, ok_bind']
            cases hg : cb.generate (relStart start e1.start) (relEnd stop e1.start e1.stop)
                (relOffset base start e1.start) e1 w1 with
            | error f => rfl
            | ok r =>
              obtain ⟨st2, e2, w2⟩ := r
              simp only [ok_bind', pure_eq_ok]
              have hwf1 := hl.update (e' := e1) hget
              set h1 : Heap (Event D) := fun b => if b = a then
                some ⟨lastOf none pre, rest.head?.map Prod.fst, e1⟩ else s.heap b with hh1
              have hget1 := hwf1.get
              rw [Heap.load_of hget1, ok_bind', Heap.store_of hget1, ok_bind']
              have hwf2 := hwf1.update (e' := e2) hget1
              set h2 : Heap (Event D) := fun b => if b = a then
                some ⟨lastOf none pre, rest.head?.map Prod.fst, e2⟩ else h1 b with hh2
              have hsame : SameOutside s.heap h2 ((pre ++ (a, e) :: rest).map Prod.fst) := by
                intro b hb
                have : b ≠ a := by rintro rfl; apply hb; simp
                simp [hh2, hh1, this]
              simp only
              by_cases hst2 : st2 ≠ 0
              · rw [if_pos hst2, if_pos hst2]
                refine ⟨h2, s.head, ?_, hwf2, hsame, ?_⟩
                · simp
                · intro b hb hnb
                  exfalso
                  apply hnb
                  simpa using hb
              · rw [if_neg hst2, if_neg hst2]
                have hwf3 : WellFormed h2 s.head ((pre ++ [(a, e2)]) ++ rest) := by simpa using hwf2
                have hi := ih (pre ++ [(a, e2)]) ⟨h2, s.head, w2, s.log ++ log1 ++
                  [.generate a (relStart start e1.start) (relEnd stop e1.start e1.stop)
                    (relOffset base start e1.start) st2]⟩ fuel hf' hwf3
                simp only at hi
                cases hsl : seqList cb start stop base rest w2 with
                | error f => rw [hsl] at hi; exact hi
                | ok r =>
                  obtain ⟨st, l, w', log'⟩ := r
                  rw [hsl] at hi
                  obtain ⟨heap', head', f1, f2, f3, f4⟩ := hi
                  refine ⟨heap', head', ?_, by simpa using f2, ?_, ?_⟩
                  · rw [f1]; simp
                  · refine hsame.trans f3 (fun _ h => h) ?_
                    intro b hb
                    simpa using hb
                  · intro b hb hnb
                    apply f4 b
                    · simpa using hb
                    · simpa using hnb

theorem seqFreeLoop_refines (cb : Callbacks D W) (l : List (Addr × Event D)) (s : SeqState D W)
    (p cur : Option Addr) (fuel : Nat) (hf : l.length < fuel)
    (hl : IsList s.heap p cur l) (hnd : (l.map Prod.fst).Nodup) :
    match freeList cb l s.world with
    | .error f => seqFreeLoop cb fuel s cur = .error f
    | .ok (w, log) => ∃ heap, seqFreeLoop cb fuel s cur = .ok ⟨heap, s.head, w, s.log ++ log⟩ ∧
        (∀ a ∈ l.map Prod.fst, heap a = none) ∧ SameOutside s.heap heap (l.map Prod.fst) := by
  induction l generalizing s p cur fuel with
  | nil =>
    obtain ⟨fuel, rfl⟩ : ∃ f, fuel = f + 1 := ⟨fuel - 1, by simp at hf; omega⟩
    have : cur = none := hl
    subst this
    exact ⟨s.heap, by simp [seqFreeLoop], by simp, fun _ _ => rfl⟩
  | cons x rest ih =>
    obtain ⟨a, e⟩ := x
    obtain ⟨fuel, rfl⟩ : ∃ f, fuel = f + 1 := ⟨fuel - 1, by simp at hf; omega⟩
    obtain ⟨rfl, next, ha, hrest⟩ := hl
    unfold seqFreeLoop freeList
    simp only
    rw [Heap.load_of ha, ok_bind']
    cases hef : eventFree cb a e s.world with
    | error f => simp only [hef, error_bind']
    | ok r =>
      obtain ⟨w, log⟩ := r
      simp only [hef, ok_bind']
      rw [Heap.free_of ha, ok_bind']
      rw [List.map_cons, List.nodup_cons] at hnd
      have hi := ih ⟨fun b => if b = a then none else s.heap b, s.head, w, s.log ++ log ++ [.release a]⟩
        (some a) next fuel (by simp at hf; omega) (by
          apply hrest.congr
          intro c hc
          have : c ≠ a := by rintro rfl; exact hnd.1 hc
          simp [this]) hnd.2
      simp only at hi
      cases hfl : freeList cb rest w with
      | error f => rw [hfl] at hi; exact hi
      | ok r =>
        obtain ⟨w', log'⟩ := r
        rw [hfl] at hi
        obtain ⟨heap, e1, e2, e3⟩ := hi
        refine ⟨heap, ?_, ?_, ?_⟩
        · rw [e1]; simp
        · intro b hb
          rw [List.map_cons, List.mem_cons] at hb
          by_cases hba : b = a
          · subst hba
            rw [e3 b hnd.1]; simp
          · exact e2 b (hb.resolve_left hba)
        · intro b hb
          rw [List.map_cons, List.mem_cons, not_or] at hb
          rw [e3 b hb.2]; simp [hb.1]

theorem seqList_addrs (cb : Callbacks D W) (start stop base : Nat) (l : List (Addr × Event D)) (w : W)
    (st : Nat) (l' : List (Addr × Event D)) (w' : W) (log : List Call)
    (h : seqList cb start stop base l w = .ok (st, l', w', log)) :
    (l'.map Prod.fst).Sublist (l.map Prod.fst) := by
  induction l generalizing w st l' w' log with
  | nil => simp [seqList] at h; simp [← h.2.1]
  | cons x rest ih =>
    obtain ⟨a, e⟩ := x
    unfold seqList at h
    split at h
    · cases h1 : eventFree cb a e w with
      | error f => rw [h1] at h; simp at h
      | ok r =>
        obtain ⟨w1, log1⟩ := r
        simp only [h1, ok_bind'] at h
        cases h2 : seqList cb start stop base rest w1 with
        | error f => rw [h2] at h; simp at h
        | ok r =>
          obtain ⟨st2, l2, w2, log2⟩ := r
          simp only [h2, ok_bind', pure_eq_ok, Except.ok.injEq, Prod.mk.injEq] at h
          have := ih _ _ _ _ _ h2
          rw [← h.2.1]
          exact this.cons _
    · split at h
      · simp at h; simp [← h.2.1]
      · cases h1 : seqEvent cb start stop base a e w with
        | error f => rw [h1] at h; simp at h
        | ok r =>
          obtain ⟨st1, e1, w1, log1⟩ := r
          simp only [h1, ok_bind'] at h
          split at h
          · simp at h; simp [← h.2.1]
          · cases h2 : seqList cb start stop base rest w1 with
            | error f => rw [h2] at h; simp at h
            | ok r =>
              obtain ⟨st2, l2, w2, log2⟩ := r
              simp only [h2, ok_bind', pure_eq_ok, Except.ok.injEq, Prod.mk.injEq] at h
              have := ih _ _ _ _ _ h2
              rw [← h.2.1]
              exact this.cons_cons _

/-- `sp_seq` on the heap does what `seqListTop` does on lists. -/
theorem seq_refines (cb : Callbacks D W) (start stop base : Nat) (l : List (Addr × Event D))
    (s : SeqState D W) (fuel : Nat) (hf : l.length < fuel)
    (hl : WellFormed s.heap s.head l) :
    Refines s l [] (seqListTop cb start stop base l s.world) (seq cb fuel start stop base s) := by
  have h1 := seqLoop_refines cb start stop base l [] s fuel hf hl
  rw [← hl.1.head_eq] at h1
  unfold seqListTop seq
  cases hsl : seqList cb start stop base l s.world with
  | error f => rw [hsl] at h1; simp only [Refines] at h1; rw [h1]; rfl
  | ok r =>
    obtain ⟨st, l', w, log⟩ := r
    have hsub := seqList_addrs cb start stop base l s.world st l' w log hsl
    have hlen' : l'.length ≤ l.length := by simpa using hsub.length_le
    rw [hsl] at h1
    obtain ⟨heap, head, e1, e2, e3, e4⟩ := h1
    simp only [List.nil_append] at e2 e3 e4
    rw [e1]
    simp only [ok_bind']
    by_cases hst : st ≠ 0
    · rw [if_pos hst, if_pos hst]
      have h2 := seqFreeLoop_refines cb l' ⟨heap, head, w, s.log ++ log⟩ none head fuel (by omega) e2.1 e2.2
      simp only at h2
      cases hfl : freeList cb l' w with
      | error f => rw [hfl] at h2; simp only at h2; rw [h2]; rfl
      | ok r =>
        obtain ⟨w', log'⟩ := r
        rw [hfl] at h2
        obtain ⟨heap', g1, g2, g3⟩ := h2
        refine ⟨heap', none, ?_, ⟨rfl, by simp⟩, ?_, ?_⟩
        · rw [g1]; simp
        · intro b hb
          by_cases hm : b ∈ l'.map Prod.fst
          · exact absurd (hsub.subset hm) hb
          · rw [g3 b hm, e3 b hb]
        · intro b hb _
          by_cases hm : b ∈ l'.map Prod.fst
          · exact g2 b hm
          · rw [g3 b hm, e4 b hb hm]
    · rw [if_neg hst, if_neg hst]
      have : st = 0 := by simpa using hst
      subst this
      exact ⟨heap, head, rfl, e2, e3, e4⟩

end Sp
