import Verif.Lemmas.Seq
import Verif.Spec.Seq

set_option linter.unusedSectionVars false

namespace Sp
variable {D W : Type}

/-- Taking a bind apart. -/
theorem bind_eq_ok {α β : Type _} {x : C α} {f : α → C β} {b : β} :
    (x >>= f) = .ok b ↔ ∃ a, x = .ok a ∧ f a = .ok b := by
  cases x with
  | error e => simp
  | ok a => simp

@[simp] theorem traceOf_nil (a : Addr) : traceOf a [] = [] := rfl

theorem traceOf_append (a : Addr) (l l' : List Call) :
    traceOf a (l ++ l') = traceOf a l ++ traceOf a l' := List.filter_append ..

theorem traceOf_self {a : Addr} {l : List Call} (h : ∀ c ∈ l, c.addr = a) : traceOf a l = l :=
  List.filter_eq_self.2 (fun c hc => by simpa using h c hc)

theorem traceOf_none {a : Addr} {l : List Call} (h : ∀ c ∈ l, c.addr ≠ a) : traceOf a l = [] :=
  List.filter_eq_nil_iff.2 (fun c hc => by simpa using h c hc)

/-- The log of freeing the event. -/
def freeTrace (a : Addr) (e : Event D) : List Call :=
  (if e.hasFree then [.free a] else []) ++ [.release a]

theorem eventFree_log {cb : Callbacks D W} {a : Addr} {e : Event D} {w w' : W} {log : List Call}
    (h : eventFree cb a e w = .ok (w', log)) : log ++ [.release a] = freeTrace a e := by
  unfold eventFree at h
  unfold freeTrace
  split at h
  · next hf =>
    rw [bind_eq_ok] at h
    obtain ⟨w1, _, h⟩ := h
    simp at h
    simp [hf, ← h.2]
  · next hf => simp at h; simp [hf, h.2]

theorem freeTrace_addr {a : Addr} {e : Event D} : ∀ c ∈ freeTrace a e, c.addr = a := by
  intro c hc
  unfold freeTrace at hc
  split at hc <;> simp at hc
  · rcases hc with rfl | rfl <;> rfl
  · subst hc; rfl

theorem prepareOptional_cases {cb : Callbacks D W} {a : Addr} {e : Event D} {w : W} {st : Nat}
    {e' : Event D} {w' : W} {log : List Call} (h : prepareOptional cb a e w = .ok (st, e', w', log)) :
    (e.prep = false ∧ st = 0 ∧ e' = e ∧ w' = w ∧ log = []) ∨
    (e.prep = true ∧ st ≠ 0 ∧ e' = e ∧ log = [.prepare a st] ∧
      ∃ e1, cb.prepare e w = .ok (st, e1, w')) ∨
    (e.prep = true ∧ st = 0 ∧ log = [.prepare a 0] ∧
      ∃ e1, cb.prepare e w = .ok (0, e1, w') ∧ e' = { e1 with prep := false }) := by
  unfold prepareOptional at h
  split at h
  · next hp =>
    rw [bind_eq_ok] at h
    obtain ⟨⟨st1, e1, w1⟩, hc, h⟩ := h
    simp only at h
    split at h
    · next hs =>
      simp at h
      obtain ⟨rfl, rfl, rfl, rfl⟩ := h
      exact Or.inr (Or.inl ⟨hp, hs, rfl, rfl, e1, hc⟩)
    · next hs =>
      simp at h hs
      obtain ⟨rfl, rfl, rfl, rfl⟩ := h
      subst hs
      exact Or.inr (Or.inr ⟨hp, rfl, rfl, e1, hc, rfl⟩)
  · next hp =>
    simp at h hp
    obtain ⟨rfl, rfl, rfl, rfl⟩ := h
    exact Or.inl ⟨hp, rfl, rfl, rfl, rfl⟩

/-- What the processing of an event does to it and what it logs. -/
theorem seqEvent_cases {cb : Callbacks D W} (hk : KeepsTimes cb) {start stop base : Nat} {a : Addr}
    {e : Event D} {w : W} {st : Nat} {e' : Event D} {w' : W} {log : List Call}
    (h : seqEvent cb start stop base a e w = .ok (st, e', w', log)) :
    e'.start = e.start ∧ e'.stop = e.stop ∧
    (KeepsFree cb → e.hasFree = true → e'.hasFree = true) ∧
    ((st ≠ 0 ∧ e.prep = true ∧ log = [.prepare a st]) ∨
     (e'.prep = false ∧ log = (if e.prep then [.prepare a 0] else []) ++
       [.generate a (relStart start e.start) (relEnd stop e.start e.stop)
        (relOffset base start e.start) st])) := by
  unfold seqEvent at h
  rw [bind_eq_ok] at h
  obtain ⟨⟨st1, e1, w1, log1⟩, hp, h⟩ := h
  simp only at h
  rcases prepareOptional_cases hp with ⟨p1, rfl, rfl, rfl, rfl⟩ | ⟨p1, p2, rfl, rfl, _⟩ |
    ⟨p1, rfl, rfl, e2, hc, rfl⟩
  · rw [if_neg (by simp), bind_eq_ok] at h
    obtain ⟨⟨st2, e2, w2⟩, hg, h⟩ := h
    simp at h
    obtain ⟨rfl, rfl, rfl, rfl⟩ := h
    obtain ⟨g1, g2, g3⟩ := hk.generate _ _ _ _ _ _ _ _ hg
    exact ⟨g1, g2, fun kf hf => kf.generate _ _ _ _ _ _ _ _ hg hf, Or.inr ⟨g3 p1, by simp [p1]⟩⟩
  · rw [if_pos p2] at h
    simp at h
    obtain ⟨rfl, rfl, rfl, rfl⟩ := h
    exact ⟨rfl, rfl, fun _ h => h, Or.inl ⟨p2, p1, rfl⟩⟩
  · rw [if_neg (by simp), bind_eq_ok] at h
    obtain ⟨⟨st2, e3, w2⟩, hg, h⟩ := h
    simp at h
    obtain ⟨rfl, rfl, rfl, rfl⟩ := h
    obtain ⟨c1, c2⟩ := hk.prepare _ _ _ _ _ hc
    obtain ⟨g1, g2, g3⟩ := hk.generate _ _ _ _ _ _ _ _ hg
    refine ⟨g1.trans c1, g2.trans c2, ?_, Or.inr ⟨g3 rfl, by simp [p1, c1, c2]⟩⟩
    intro kf hf
    have := kf.prepare _ _ _ _ _ hc hf
    exact kf.generate _ _ _ _ _ _ _ _ hg this

theorem seqEvent_addr {cb : Callbacks D W} (hk : KeepsTimes cb) {start stop base : Nat} {a : Addr}
    {e : Event D} {w : W} {st : Nat} {e' : Event D} {w' : W} {log : List Call}
    (h : seqEvent cb start stop base a e w = .ok (st, e', w', log)) : ∀ c ∈ log, c.addr = a := by
  obtain ⟨_, _, _, ⟨_, _, rfl⟩ | ⟨_, rfl⟩⟩ := seqEvent_cases hk h
  · simp [Call.addr]
  · split <;> simp [Call.addr]

/-- Case analysis of `seqList` on a nonempty list. -/
theorem seqList_cons {cb : Callbacks D W} {start stop base : Nat} {a : Addr} {e : Event D}
    {rest : List (Addr × Event D)} {w : W} {st : Nat} {l' : List (Addr × Event D)} {w' : W}
    {log : List Call} (h : seqList cb start stop base ((a, e) :: rest) w = .ok (st, l', w', log)) :
    (e.stop ≤ start ∧ ∃ w1 log2, seqList cb start stop base rest w1 = .ok (st, l', w', log2) ∧
      log = freeTrace a e ++ log2) ∨
    (¬ e.stop ≤ start ∧ stop ≤ e.start ∧ st = 0 ∧ l' = (a, e) :: rest ∧ log = []) ∨
    (¬ e.stop ≤ start ∧ ¬ stop ≤ e.start ∧ ∃ e', st ≠ 0 ∧
      seqEvent cb start stop base a e w = .ok (st, e', w', log) ∧ l' = (a, e') :: rest) ∨
    (¬ e.stop ≤ start ∧ ¬ stop ≤ e.start ∧ ∃ e' w1 log1 l2 log2,
      seqEvent cb start stop base a e w = .ok (0, e', w1, log1) ∧
      seqList cb start stop base rest w1 = .ok (st, l2, w', log2) ∧
      l' = (a, e') :: l2 ∧ log = log1 ++ log2) := by
  unfold seqList at h
  split at h
  · next c1 =>
    rw [bind_eq_ok] at h
    obtain ⟨⟨w1, log1⟩, h1, h⟩ := h
    simp only at h
    rw [bind_eq_ok] at h
    obtain ⟨⟨st2, l2, w2, log2⟩, h2, h⟩ := h
    simp only [pure_eq_ok, Except.ok.injEq, Prod.mk.injEq] at h
    obtain ⟨rfl, rfl, rfl, rfl⟩ := h
    exact Or.inl ⟨c1, w1, log2, h2, by rw [eventFree_log h1]⟩
  · next c1 =>
    split at h
    · next c2 =>
      simp at h
      obtain ⟨rfl, rfl, rfl, rfl⟩ := h
      exact Or.inr (Or.inl ⟨c1, c2, rfl, rfl, rfl⟩)
    · next c2 =>
      rw [bind_eq_ok] at h
      obtain ⟨⟨st1, e1, w1, log1⟩, h1, h⟩ := h
      simp only at h
      split at h
      · next hs =>
        simp at h
        obtain ⟨rfl, rfl, rfl, rfl⟩ := h
        exact Or.inr (Or.inr (Or.inl ⟨c1, c2, e1, hs, h1, rfl⟩))
      · next hs =>
        have hs : st1 = 0 := by simpa using hs
        subst hs
        rw [bind_eq_ok] at h
        obtain ⟨⟨st2, l2, w2, log2⟩, h2, h⟩ := h
        simp only [pure_eq_ok, Except.ok.injEq, Prod.mk.injEq] at h
        obtain ⟨rfl, rfl, rfl, rfl⟩ := h
        exact Or.inr (Or.inr (Or.inr ⟨c1, c2, e1, w1, log1, l2, log2, h1, h2, rfl, rfl⟩))

/-- All log entries are about elements of the list. -/
theorem seqList_log_addr {cb : Callbacks D W} (hk : KeepsTimes cb) {start stop base : Nat}
    {l : List (Addr × Event D)} {w : W} {st : Nat} {l' : List (Addr × Event D)} {w' : W}
    {log : List Call} (h : seqList cb start stop base l w = .ok (st, l', w', log)) :
    ∀ c ∈ log, c.addr ∈ l.map Prod.fst := by
  induction l generalizing w st l' w' log with
  | nil => simp [seqList] at h; simp [h.2.2.2]
  | cons x rest ih =>
    obtain ⟨a, e⟩ := x
    intro c hc
    rw [List.map_cons, List.mem_cons]
    rcases seqList_cons h with ⟨_, w1, log2, h2, rfl⟩ | ⟨_, _, _, _, rfl⟩ | ⟨_, _, e', _, h1, _⟩ |
      ⟨_, _, e', w1, log1, l2, log2, h1, h2, _, rfl⟩
    · rcases List.mem_append.1 hc with hc | hc
      · exact Or.inl (freeTrace_addr c hc)
      · exact Or.inr (ih h2 c hc)
    · simp at hc
    · exact Or.inl (seqEvent_addr hk h1 c hc)
    · rcases List.mem_append.1 hc with hc | hc
      · exact Or.inl (seqEvent_addr hk h1 c hc)
      · exact Or.inr (ih h2 c hc)

/-- Address and times of an element. -/
def times (x : Addr × Event D) : Addr × Nat × Nat := (x.1, x.2.start, x.2.stop)

theorem seqList_times {cb : Callbacks D W} (hk : KeepsTimes cb) {start stop base : Nat}
    {l : List (Addr × Event D)} {w : W} {st : Nat} {l' : List (Addr × Event D)} {w' : W}
    {log : List Call} (h : seqList cb start stop base l w = .ok (st, l', w', log)) :
    (l'.map times).Sublist (l.map times) := by
  induction l generalizing w st l' w' log with
  | nil => simp [seqList] at h; simp [← h.2.1]
  | cons x rest ih =>
    obtain ⟨a, e⟩ := x
    rcases seqList_cons h with ⟨_, w1, log2, h2, rfl⟩ | ⟨_, _, _, rfl, _⟩ | ⟨_, _, e', _, h1, rfl⟩ |
      ⟨_, _, e', w1, log1, l2, log2, h1, h2, rfl, _⟩
    · exact (ih h2).cons _
    · exact List.Sublist.refl _
    · obtain ⟨t1, t2, _⟩ := seqEvent_cases hk h1
      simp [times, t1, t2]
    · obtain ⟨t1, t2, _⟩ := seqEvent_cases hk h1
      simp only [List.map_cons, times, t1, t2]
      exact (ih h2).cons_cons _

theorem SortedEvents.of_times {l l' : List (Addr × Event D)} (h : SortedEvents l)
    (hs : (l'.map times).Sublist (l.map times)) : SortedEvents l' := by
  refine ⟨?_, ?_, ?_⟩
  · have h1 : (l.map times).Pairwise (fun x y => x.2.1 ≤ y.2.1) := by
      rw [List.pairwise_map]; exact h.sorted
    have := h1.sublist hs
    rw [List.pairwise_map] at this
    exact this
  · intro x hx
    have : times x ∈ l.map times := hs.subset (List.mem_map_of_mem hx)
    obtain ⟨y, hy, e⟩ := List.mem_map.1 this
    have := h.ordered y hy
    simp only [times, Prod.mk.injEq] at e
    omega
  · intro x hx
    have : times x ∈ l.map times := hs.subset (List.mem_map_of_mem hx)
    obtain ⟨y, hy, e⟩ := List.mem_map.1 this
    have := h.small y hy
    simp only [times, Prod.mk.injEq] at e
    omega

/-- What one call of the loop means for one event. -/
theorem seqList_event {cb : Callbacks D W} (hk : KeepsTimes cb) {start stop base : Nat}
    {l : List (Addr × Event D)} (hnd : (l.map Prod.fst).Nodup) {w : W} {st : Nat} {l' : List (Addr × Event D)} {w' : W}
    {log : List Call} (h : seqList cb start stop base l w = .ok (st, l', w', log))
    {a : Addr} {e : Event D} (hm : (a, e) ∈ l) :
    (e.stop ≤ start ∧ a ∉ l'.map Prod.fst ∧ traceOf a log = freeTrace a e) ∨
    ((a, e) ∈ l' ∧ traceOf a log = [] ∧ 
      (st ≠ 0 ∨ (start < stop → SortedEvents l → stop ≤ e.start ∧ ¬ e.stop ≤ start))) ∨
    (¬ e.stop ≤ start ∧ ¬ stop ≤ e.start ∧ ∃ w1 e' w2 st', (st' = 0 ∨ st' = st) ∧
      seqEvent cb start stop base a e w1 = .ok (st', e', w2, traceOf a log) ∧ (a, e') ∈ l') := by
  induction l generalizing w st l' w' log with
  | nil => simp at hm
  | cons x rest ih =>
    obtain ⟨b, f⟩ := x
    have hs' : SortedEvents ((b, f) :: rest) → SortedEvents rest := fun hs => hs.of_times (by simp)
    rw [List.map_cons, List.nodup_cons] at hnd
    by_cases hab : a = b
    · subst hab
      have hfe : f = e := by
        rcases List.mem_cons.1 hm with h0 | h0
        · simp at h0; exact h0.symm
        · exact absurd (List.mem_map_of_mem (f := Prod.fst) h0) hnd.1
      subst hfe
      have hrest : ∀ {w1 st1 l1 w2 log2}, seqList cb start stop base rest w1 = .ok (st1, l1, w2, log2) →
          traceOf a log2 = [] := by
        intro w1 st1 l1 w2 log2 h2
        apply traceOf_none
        intro c hc hca
        have := seqList_log_addr hk h2 c hc
        rw [hca] at this
        exact hnd.1 this
      rcases seqList_cons h with ⟨c1, w1, log2, h2, rfl⟩ | ⟨c1, c2, _, rfl, rfl⟩ | ⟨c1, c2, e', c3, h1, rfl⟩ |
        ⟨c1, c2, e', w1, log1, l2, log2, h1, h2, rfl, rfl⟩
      · refine Or.inl ⟨c1, ?_, ?_⟩
        · intro hmem
          exact hnd.1 ((seqList_addrs cb start stop base rest w1 st l' w' log2 h2).subset hmem)
        · rw [traceOf_append, traceOf_self freeTrace_addr, hrest h2, List.append_nil]
      · exact Or.inr (Or.inl ⟨by simp, rfl, Or.inr fun _ _ => ⟨c2, c1⟩⟩)
      · refine Or.inr (Or.inr ⟨c1, c2, w, e', w', st, Or.inr rfl, ?_, by simp⟩)
        rw [traceOf_self (seqEvent_addr hk h1)]; exact h1
      · refine Or.inr (Or.inr ⟨c1, c2, w, e', w1, 0, Or.inl rfl, ?_, by simp⟩)
        rw [traceOf_append, traceOf_self (seqEvent_addr hk h1), hrest h2, List.append_nil]; exact h1
    · have hm' : (a, e) ∈ rest := by
        rcases List.mem_cons.1 hm with h0 | h0
        · simp at h0; exact absurd h0.1 hab
        · exact h0
      have hnil : ∀ {log : List Call}, (∀ c ∈ log, c.addr = b) → traceOf a log = [] := by
        intro log hl
        apply traceOf_none
        intro c hc hca
        exact hab (hca.symm.trans (hl c hc))
      rcases seqList_cons h with ⟨c1, w1, log2, h2, rfl⟩ | ⟨c1, c2, rfl, rfl, rfl⟩ | ⟨c1, c2, e', c3, h1, rfl⟩ |
        ⟨c1, c2, e', w1, log1, l2, log2, h1, h2, rfl, rfl⟩
      · rw [traceOf_append, hnil freeTrace_addr, List.nil_append]
        rcases ih hnd.2 h2 hm' with i | ⟨i1, i2, i3⟩ | i
        · exact Or.inl i
        · exact Or.inr (Or.inl ⟨i1, i2, i3.imp_right fun g hb hs => g hb (hs' hs)⟩)
        · exact Or.inr (Or.inr i)
      · refine Or.inr (Or.inl ⟨hm, rfl, Or.inr fun hblk hs => ?_⟩)
        have h1 := (List.pairwise_cons.1 hs.sorted).1 _ hm'
        have h2 := hs.ordered _ hm
        simp only at h1 h2
        omega
      · refine Or.inr (Or.inl ⟨by simp [hm'], hnil (seqEvent_addr hk h1), Or.inl c3⟩)
      · rw [traceOf_append, hnil (seqEvent_addr hk h1), List.nil_append]
        rcases ih hnd.2 h2 hm' with ⟨i1, i2, i3⟩ | ⟨i1, i2, i3⟩ | ⟨i1, i2, w3, e3, w4, st', i3, i4, i5⟩
        · refine Or.inl ⟨i1, ?_, i3⟩
          rw [List.map_cons, List.mem_cons, not_or]
          exact ⟨hab, i2⟩
        · exact Or.inr (Or.inl ⟨by simp [i1], i2, i3.imp_right fun g hb hs => g hb (hs' hs)⟩)
        · exact Or.inr (Or.inr ⟨i1, i2, w3, e3, w4, st', i3, i4, by simp [i5]⟩)

/-- The status of a log entry. -/
def Call.status : Call → Nat
  | .prepare _ st => st
  | .generate _ _ _ _ st => st
  | _ => 0

theorem freeTrace_status {a : Addr} {e : Event D} : ∀ c ∈ freeTrace a e, c.status = 0 := by
  intro c hc
  unfold freeTrace at hc
  split at hc <;> simp at hc
  · rcases hc with rfl | rfl <;> rfl
  · subst hc; rfl

theorem seqEvent_status {cb : Callbacks D W} (hk : KeepsTimes cb) {start stop base : Nat} {a : Addr}
    {e : Event D} {w : W} {st : Nat} {e' : Event D} {w' : W} {log : List Call}
    (h : seqEvent cb start stop base a e w = .ok (st, e', w', log)) :
    ∃ pre x, log = pre ++ [x] ∧ x.status = st ∧ ∀ c ∈ pre, c.status = 0 := by
  obtain ⟨_, _, _, ⟨_, _, rfl⟩ | ⟨_, rfl⟩⟩ := seqEvent_cases hk h
  · exact ⟨[], _, rfl, rfl, by simp⟩
  · refine ⟨_, _, rfl, rfl, ?_⟩
    split <;> simp [Call.status]

theorem seqList_status {cb : Callbacks D W} (hk : KeepsTimes cb) {start stop base : Nat}
    {l : List (Addr × Event D)} {w : W} {st : Nat} {l' : List (Addr × Event D)} {w' : W}
    {log : List Call} (h : seqList cb start stop base l w = .ok (st, l', w', log)) :
    (st = 0 ∧ ∀ c ∈ log, c.status = 0) ∨
    (st ≠ 0 ∧ ∃ pre x, log = pre ++ [x] ∧ x.status = st ∧ ∀ c ∈ pre, c.status = 0) := by
  induction l generalizing w st l' w' log with
  | nil => simp [seqList] at h; simp [h.1, h.2.2.2]
  | cons x rest ih =>
    obtain ⟨a, e⟩ := x
    have hcomb : ∀ (log1 log2 : List Call), (∀ c ∈ log1, c.status = 0) →
        ((st = 0 ∧ ∀ c ∈ log2, c.status = 0) ∨
          (st ≠ 0 ∧ ∃ pre x, log2 = pre ++ [x] ∧ x.status = st ∧ ∀ c ∈ pre, c.status = 0)) →
        ((st = 0 ∧ ∀ c ∈ log1 ++ log2, c.status = 0) ∨
          (st ≠ 0 ∧ ∃ pre x, log1 ++ log2 = pre ++ [x] ∧ x.status = st ∧ ∀ c ∈ pre, c.status = 0)) := by
      rintro log1 log2 hf (⟨h1, h2⟩ | ⟨h1, pre, x, rfl, h3, h4⟩)
      · refine Or.inl ⟨h1, ?_⟩
        intro c hc
        rcases List.mem_append.1 hc with hc | hc
        · exact hf c hc
        · exact h2 c hc
      · refine Or.inr ⟨h1, log1 ++ pre, x, by simp, h3, ?_⟩
        intro c hc
        rcases List.mem_append.1 hc with hc | hc
        · exact hf c hc
        · exact h4 c hc
    rcases seqList_cons h with ⟨c1, w1, log2, h2, rfl⟩ | ⟨c1, c2, rfl, rfl, rfl⟩ | ⟨c1, c2, e', c3, h1, rfl⟩ |
        ⟨c1, c2, e', w1, log1, l2, log2, h1, h2, rfl, rfl⟩
    · exact hcomb _ _ freeTrace_status (ih h2)
    · simp
    · exact Or.inr ⟨c3, seqEvent_status hk h1⟩
    · refine hcomb _ _ ?_ (ih h2)
      obtain ⟨pre, x, rfl, h3, h4⟩ := seqEvent_status hk h1
      intro c hc
      rcases List.mem_append.1 hc with hc | hc
      · exact h4 c hc
      · simp at hc; subst hc; exact h3

/-- Freeing all. -/
theorem freeList_log {cb : Callbacks D W} {l : List (Addr × Event D)} {w w' : W} {log : List Call}
    (h : freeList cb l w = .ok (w', log)) : log = l.flatMap (fun x => freeTrace x.1 x.2) := by
  induction l generalizing w w' log with
  | nil => simp [freeList] at h; simp [h.2]
  | cons x rest ih =>
    obtain ⟨a, e⟩ := x
    unfold freeList at h
    rw [bind_eq_ok] at h
    obtain ⟨⟨w1, log1⟩, h1, h⟩ := h
    simp only at h
    rw [bind_eq_ok] at h
    obtain ⟨⟨w2, log2⟩, h2, h⟩ := h
    simp only [pure_eq_ok, Except.ok.injEq, Prod.mk.injEq] at h
    rw [← h.2, List.flatMap_cons, ← ih h2, eventFree_log h1]

theorem traceOf_flatMap {l : List (Addr × Event D)} (hnd : (l.map Prod.fst).Nodup) {a : Addr}
    {e : Event D} (hm : (a, e) ∈ l) :
    traceOf a (l.flatMap (fun x => freeTrace x.1 x.2)) = freeTrace a e := by
  induction l with
  | nil => simp at hm
  | cons x rest ih =>
    obtain ⟨b, f⟩ := x
    rw [List.map_cons, List.nodup_cons] at hnd
    rw [List.flatMap_cons, traceOf_append]
    by_cases hab : a = b
    · subst hab
      have hfe : f = e := by
        rcases List.mem_cons.1 hm with h0 | h0
        · simp at h0; exact h0.symm
        · exact absurd (List.mem_map_of_mem (f := Prod.fst) h0) hnd.1
      subst hfe
      rw [traceOf_self freeTrace_addr, traceOf_none, List.append_nil]
      intro c hc hca
      obtain ⟨y, hy, hcy⟩ := List.mem_flatMap.1 hc
      have := freeTrace_addr c hcy
      apply hnd.1
      rw [← hca, this]
      exact List.mem_map.2 ⟨y, hy, rfl⟩
    · have hm' : (a, e) ∈ rest := by
        rcases List.mem_cons.1 hm with h0 | h0
        · simp at h0; exact absurd h0.1 hab
        · exact h0
      rw [ih hnd.2 hm', traceOf_none, List.nil_append]
      intro c hc hca
      exact hab (hca.symm.trans (freeTrace_addr c hc))

theorem traceOf_flatMap_none {l : List (Addr × Event D)} {a : Addr} (hm : a ∉ l.map Prod.fst) :
    traceOf a (l.flatMap (fun x => freeTrace x.1 x.2)) = [] := by
  apply traceOf_none
  intro c hc hca
  obtain ⟨y, hy, hcy⟩ := List.mem_flatMap.1 hc
  have := freeTrace_addr c hcy
  apply hm
  rw [← hca, this]
  exact List.mem_map_of_mem hy

/-- The event at `a` in the list, if any. -/
def Has (l : List (Addr × Event D)) (a : Addr) : Option (Event D) → Prop
  | none => a ∉ l.map Prod.fst
  | some e => (a, e) ∈ l

/-- The log entries for preparing. -/
def prepTrace (a : Addr) (e : Event D) : List Call := if e.prep then [.prepare a 0] else []

/-- The generate call for an event that overlaps the block. -/
def genCall (base : Nat → Nat) (a : Addr) (e : Event D) (start stop st : Nat) : Call :=
  .generate a (relStart start e.start) (relEnd stop e.start e.stop)
    (relOffset (base start) start e.start) st

/-- What a successful call does to the event at `a`: event before, log entries, event after. -/
inductive StepOk (cb : Callbacks D W) (base : Nat → Nat) (a : Addr) (start stop : Nat) :
    Option (Event D) → List Call → Option (Event D) → Prop
  | absent : StepOk cb base a start stop none [] none
  | freed {e : Event D} : e.stop ≤ start → StepOk cb base a start stop (some e) (freeTrace a e) none
  | waiting {e : Event D} : start < e.stop → stop ≤ e.start → StepOk cb base a start stop (some e) [] (some e)
  | played {e e' : Event D} : start < e.stop → e.start < stop → e'.start = e.start → e'.stop = e.stop →
      e'.prep = false → (KeepsFree cb → e.hasFree = true → e'.hasFree = true) →
      StepOk cb base a start stop (some e) (prepTrace a e ++ [genCall base a e start stop 0]) (some e')

/-- What a failing call does to the event at `a`. -/
inductive StepFail (base : Nat → Nat) (a : Addr) (start stop : Nat) :
    Option (Event D) → List Call → Prop
  | absent : StepFail base a start stop none []
  | freed {e : Event D} : StepFail base a start stop (some e) (freeTrace a e)
  | prepareFailed {e e' : Event D} {st : Nat} : start < e.stop → e.start < stop → e.prep = true → st ≠ 0 →
      StepFail base a start stop (some e) (.prepare a st :: freeTrace a e')
  | played {e e' : Event D} {st : Nat} : start < e.stop → e.start < stop →
      StepFail base a start stop (some e)
        (prepTrace a e ++ [genCall base a e start stop st] ++ freeTrace a e')

theorem seqListTop_step {cb : Callbacks D W} (hk : KeepsTimes cb) {start stop : Nat}
    (base : Nat → Nat) (hblk : start < stop) {l : List (Addr × Event D)} (hs : SortedEvents l)
    (hnd : (l.map Prod.fst).Nodup) {w : W} {st : Nat} {l' : List (Addr × Event D)} {w' : W}
    {log : List Call} (h : seqListTop cb start stop (base start) l w = .ok (st, l', w', log))
    {a : Addr} {o : Option (Event D)} (ho : Has l a o) :
    (st ≠ 0 → StepFail base a start stop o (traceOf a log)) ∧
    (st = 0 → ∃ o', StepOk cb base a start stop o (traceOf a log) o' ∧ Has l' a o') := by
  unfold seqListTop at h
  rw [bind_eq_ok] at h
  obtain ⟨⟨st1, l1, w1, log1⟩, h1, h⟩ := h
  simp only at h
  have hnd1 : (l1.map Prod.fst).Nodup := (seqList_addrs cb start stop (base start) l w st1 l1 w1 log1 h1).nodup hnd
  by_cases hst : st1 ≠ 0
  · rw [if_pos hst, bind_eq_ok] at h
    obtain ⟨⟨w2, log2⟩, h2, h⟩ := h
    simp only [pure_eq_ok, Except.ok.injEq, Prod.mk.injEq] at h
    obtain ⟨rfl, rfl, rfl, rfl⟩ := h
    refine ⟨fun _ => ?_, fun h0 => absurd h0 hst⟩
    rw [traceOf_append, freeList_log h2]
    cases o with
    | none =>
      have e1 : traceOf a log1 = [] := by
        apply traceOf_none
        intro c hc hca
        exact ho (hca ▸ seqList_log_addr hk h1 c hc)
      rw [e1, traceOf_flatMap_none, List.nil_append]
      · exact .absent
      · intro hm
        exact ho ((seqList_addrs cb start stop (base start) l w st1 l1 w1 log1 h1).subset hm)
    | some e =>
      rcases seqList_event hk hnd h1 ho with ⟨c1, c2, c3⟩ | ⟨c1, c2, c3⟩ |
        ⟨c1, c2, w3, e', w4, st', c3, c4, c5⟩
      · rw [c3, traceOf_flatMap_none c2, List.append_nil]
        exact .freed
      · rw [c2, traceOf_flatMap hnd1 c1, List.nil_append]
        exact .freed
      · rw [traceOf_flatMap hnd1 c5]
        obtain ⟨_, _, _, ⟨d1, d2, d3⟩ | ⟨d1, d2⟩⟩ := seqEvent_cases hk c4
        · rw [d3]
          exact .prepareFailed (by omega) (by omega) d2 d1
        · rw [d2]
          exact .played (by omega) (by omega)
  · rw [if_neg hst] at h
    simp only [pure_eq_ok, Except.ok.injEq, Prod.mk.injEq] at h
    obtain ⟨rfl, rfl, rfl, rfl⟩ := h
    have hst : st1 = 0 := by simpa using hst
    subst hst
    refine ⟨fun h0 => absurd rfl h0, fun _ => ?_⟩
    cases o with
    | none =>
      refine ⟨none, ?_, ?_⟩
      · have e1 : traceOf a log1 = [] := by
          apply traceOf_none
          intro c hc hca
          exact ho (hca ▸ seqList_log_addr hk h1 c hc)
        rw [e1]; exact .absent
      · intro hm
        exact ho ((seqList_addrs cb start stop (base start) l w 0 l1 w1 log1 h1).subset hm)
    | some e =>
      rcases seqList_event hk hnd h1 ho with ⟨c1, c2, c3⟩ | ⟨c1, c2, c3⟩ |
        ⟨c1, c2, w3, e', w4, st', c3, c4, c5⟩
      · exact ⟨none, by rw [c3]; exact .freed c1, c2⟩
      · rcases c3 with c3 | c3
        · exact absurd rfl c3
        · obtain ⟨c3, c4⟩ := c3 hblk hs
          exact ⟨some e, by rw [c2]; exact .waiting (by omega) c3, c1⟩
      · have : st' = 0 := by omega
        subst this
        obtain ⟨d1, d2, d3, ⟨d4, _, _⟩ | ⟨d4, d5⟩⟩ := seqEvent_cases hk c4
        · exact absurd rfl d4
        · refine ⟨some e', ?_, c5⟩
          rw [d5]
          exact .played (by omega) (by omega) d1 d2 d4 d3

/-- The trace of one event over consecutive calls. -/
def EvTrace (cb : Callbacks D W) (base : Nat → Nat) (a : Addr) (st : Nat) :
    Option (Event D) → Nat → List Nat → List (List Call) → Prop
  | _, _, [], logs => logs = [] ∧ st = 0
  | o, start, stop :: rest, logs => ∃ log logs', logs = log :: logs' ∧
      ((st ≠ 0 ∧ logs' = [] ∧ StepFail base a start stop o (traceOf a log)) ∨
       ∃ o', StepOk cb base a start stop o (traceOf a log) o' ∧ EvTrace cb base a st o' stop rest logs')

theorem seqBlocks_trace {cb : Callbacks D W} (hk : KeepsTimes cb) (base : Nat → Nat) (fuel : Nat)
    {start : Nat} {stops : List Nat} (hb : Blocks start stops) {l : List (Addr × Event D)}
    (hs : SortedEvents l) (hf : l.length < fuel) {s : SeqState D W}
    (hl : WellFormed s.heap s.head l) {st : Nat} {s' : SeqState D W} {logs : List (List Call)}
    (h : seqBlocks cb fuel base start stops s = .ok (st, s', logs)) {a : Addr}
    {o : Option (Event D)} (ho : Has l a o) :
    EvTrace cb base a st o start stops logs := by
  induction stops generalizing start l s o logs with
  | nil =>
    simp [seqBlocks] at h
    exact ⟨h.2.2, h.1.symm⟩
  | cons stop rest ih =>
    obtain ⟨hb1, hb2, hb3⟩ := hb
    unfold seqBlocks at h
    rw [bind_eq_ok] at h
    obtain ⟨⟨st1, s1⟩, h1, h⟩ := h
    simp only at h
    have hr := seq_refines cb start stop (base start) l { s with log := [] } fuel hf hl
    rw [h1] at hr
    simp only at hr
    cases hsl : seqListTop cb start stop (base start) l s.world with
    | error f => rw [hsl] at hr; simp [Refines] at hr
    | ok r =>
      obtain ⟨st2, l2, w2, log2⟩ := r
      rw [hsl] at hr
      obtain ⟨heap, head, e1, e2, _, _⟩ := hr
      simp only [Except.ok.injEq, Prod.mk.injEq, List.nil_append] at e1 e2
      obtain ⟨rfl, rfl⟩ := e1
      obtain ⟨k1, k2⟩ := seqListTop_step hk base hb1 hs hl.2 hsl ho
      by_cases hst : st1 ≠ 0
      · rw [if_pos hst] at h
        simp only [pure_eq_ok, Except.ok.injEq, Prod.mk.injEq] at h
        obtain ⟨rfl, _, rfl⟩ := h
        exact ⟨_, _, rfl, Or.inl ⟨hst, rfl, k1 hst⟩⟩
      · rw [if_neg hst, bind_eq_ok] at h
        obtain ⟨⟨st3, s3, logs3⟩, h3, h⟩ := h
        simp only [pure_eq_ok, Except.ok.injEq, Prod.mk.injEq] at h
        obtain ⟨rfl, rfl, rfl⟩ := h
        have hst : st1 = 0 := by simpa using hst
        subst hst
        obtain ⟨o', k3, k4⟩ := k2 rfl
        have htimes : (l2.map times).Sublist (l.map times) := by
          unfold seqListTop at hsl
          rw [bind_eq_ok] at hsl
          obtain ⟨⟨st4, l4, w4, log4⟩, h4, h5⟩ := hsl
          simp only at h5
          split at h5
          · rw [bind_eq_ok] at h5
            obtain ⟨⟨w5, log5⟩, h6, h5⟩ := h5
            simp only [pure_eq_ok, Except.ok.injEq, Prod.mk.injEq] at h5
            rw [← h5.2.1]; simp
          · simp only [pure_eq_ok, Except.ok.injEq, Prod.mk.injEq] at h5
            rw [← h5.2.1]; exact seqList_times hk h4
        have hlen : l2.length ≤ l.length := by simpa using htimes.length_le
        exact ⟨_, _, rfl, Or.inr ⟨o', k3, ih hb3 (hs.of_times htimes) (by omega) e2 h3 k4⟩⟩

end Sp
