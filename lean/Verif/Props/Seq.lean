import Verif.Lemmas.SeqTrace

/-!
# C19 to C21, C25: the sequencer calls the functions of each event correctly

The theorems are about runs of the heap model `seqBlocks` of consecutive `sp_seq` calls, with
arbitrary event functions. `seqBlocks ... = .ok (status, state, logs)` means that the run does not
fault inside of the event functions (the sequencer itself does not fault, see `C21_no_fault`).
-/

set_option linter.unusedSectionVars false

namespace Sp
variable {D W : Type}

theorem relStart_eq {start s : Nat} (h : start < 4294967296) : relStart start s = max start s - s := by
  unfold relStart
  split
  · rw [sub32_of_le (by omega) h]; omega
  · omega

theorem relEnd_eq {stop s e : Nat} (h1 : s < stop) (h2 : s ≤ e) (h : stop < 4294967296) :
    relEnd stop s e = min stop e - s := by
  unfold relEnd
  rw [sub32_of_le (by omega) (by omega)]

theorem relOffset_eq {base start s : Nat} (h : s < 4294967296) :
    relOffset base start s = base + (max start s - start) := by
  unfold relOffset
  split
  · rw [sub32_of_le (by omega) h]; omega
  · omega

theorem generatesOf_trace (a : Addr) (log : List Call) :
    generatesOf a log = generatesOf a (traceOf a log) := by
  unfold generatesOf traceOf
  rw [List.filterMap_filter]
  apply List.filterMap_congr
  intro c _
  by_cases h : c.addr = a <;> cases c <;> simp_all [Call.addr]

theorem preparesOf_trace (a : Addr) (log : List Call) :
    preparesOf a log = preparesOf a (traceOf a log) := by
  unfold preparesOf traceOf
  rw [List.filterMap_filter]
  apply List.filterMap_congr
  intro c _
  by_cases h : c.addr = a <;> cases c <;> simp_all [Call.addr]

theorem generatesOf_freeTrace (a : Addr) (e : Event D) : generatesOf a (freeTrace a e) = [] := by
  unfold freeTrace generatesOf; split <;> simp

theorem preparesOf_freeTrace (a : Addr) (e : Event D) : preparesOf a (freeTrace a e) = [] := by
  unfold freeTrace preparesOf; split <;> simp

@[simp] theorem generatesOf_nil (a : Addr) : generatesOf a [] = [] := rfl

@[simp] theorem preparesOf_nil (a : Addr) : preparesOf a [] = [] := rfl

theorem generatesOf_append (a : Addr) (l l' : List Call) :
    generatesOf a (l ++ l') = generatesOf a l ++ generatesOf a l' := List.filterMap_append ..

theorem preparesOf_append (a : Addr) (l l' : List Call) :
    preparesOf a (l ++ l') = preparesOf a l ++ preparesOf a l' := List.filterMap_append ..

theorem generatesOf_prepTrace (a : Addr) (e : Event D) : generatesOf a (prepTrace a e) = [] := by
  unfold prepTrace generatesOf; split <;> simp

theorem preparesOf_prepTrace (a : Addr) (e : Event D) :
    preparesOf a (prepTrace a e) = if e.prep then [0] else [] := by
  unfold prepTrace preparesOf; split <;> simp

/-- The part of an event (from `s` to `e`) that is in the block from `t` to `u`, relative to the event,
and the offset of its output in an output block whose sample pointers are at offset `b`. Empty if the
event and the block do not overlap. -/
def overlap (b : Nat) (s e t u : Nat) : List (Nat × Nat × Nat) :=
  if t < e ∧ s < u then [(max t s - s, min u e - s, b + (max t s - t))] else []

theorem evTrace_none {cb : Callbacks D W} {base : Nat → Nat} {a : Addr} {start : Nat} {stops : List Nat}
    {st : Nat} {logs : List (List Call)} (h : EvTrace cb base a st none start stops logs) :
    traceOf a logs.flatten = [] := by
  induction stops generalizing start logs with
  | nil => simp [h.1]
  | cons stop rest ih =>
    obtain ⟨log, logs', rfl, h⟩ := h
    rw [List.flatten_cons, traceOf_append]
    rcases h with ⟨_, rfl, h⟩ | ⟨o', h1, h2⟩
    · generalize traceOf a log = tr at h
      cases h
      rfl
    · generalize traceOf a log = tr at h1
      cases h1
      rw [ih h2]; rfl

theorem traceOf_mem_flatten {a : Addr} {logs : List (List Call)} (h : traceOf a logs.flatten = [])
    {log : List Call} (hm : log ∈ logs) : traceOf a log = [] := by
  unfold traceOf at *
  rw [List.filter_eq_nil_iff] at *
  intro c hc
  exact h c (List.mem_flatten.2 ⟨log, hm, hc⟩)

theorem blocks_mono {start : Nat} {stops : List Nat} (hb : Blocks start stops) {k t u : Nat}
    (h : (blockBounds start stops)[k]? = some (t, u)) : start ≤ t ∧ t < u ∧ u < 4294967296 := by
  induction stops generalizing start k with
  | nil => simp [blockBounds] at h
  | cons stop rest ih =>
    obtain ⟨h1, h2, h3⟩ := hb
    cases k with
    | zero => simp [blockBounds] at h; omega
    | succ k =>
      have := ih h3 (by simpa [blockBounds] using h)
      omega

theorem evTrace_generates {cb : Callbacks D W} {base : Nat → Nat} {a : Addr} {e : Event D}
    {start : Nat} {stops : List Nat} {logs : List (List Call)} (hb : Blocks start stops)
    (he : e.start ≤ e.stop) (he' : e.stop < 4294967296)
    (h : EvTrace cb base a 0 (some e) start stops logs) :
    logs.length = stops.length ∧ ∀ k t u, (blockBounds start stops)[k]? = some (t, u) →
      generatesOf a (logs.getD k []) = overlap (base t) e.start e.stop t u := by
  induction stops generalizing start logs e with
  | nil => exact ⟨by simp [h.1], by simp [blockBounds]⟩
  | cons stop rest ih =>
    obtain ⟨hb1, hb2, hb3⟩ := hb
    obtain ⟨log, logs', rfl, ⟨h0, _⟩ | ⟨o', h1, h2⟩⟩ := h
    · exact absurd rfl h0
    have htr := generatesOf_trace a log
    have hnone : ∀ logs', EvTrace cb base a 0 (none : Option (Event D)) stop rest logs' →
        logs'.length = rest.length := by
      clear * -
      induction rest generalizing stop with
      | nil => intro logs' h; simp [h.1]
      | cons s r ih =>
        rintro logs' ⟨log, logs2, rfl, ⟨h0, _⟩ | ⟨o', h1, h2⟩⟩
        · exact absurd rfl h0
        · generalize traceOf a log = tr at h1
          cases h1
          simp [ih _ _ h2]
    generalize traceOf a log = tr at h1 htr
    cases h1 with
    | freed hf =>
      refine ⟨by simp [hnone _ h2], ?_⟩
      intro k t u hk
      cases k with
      | zero =>
        simp only [blockBounds, List.getElem?_cons_zero, Option.some.injEq, Prod.mk.injEq] at hk
        rw [List.getD_cons_zero, htr, generatesOf_freeTrace, overlap, if_neg (by omega)]
      | succ k =>
        simp only [blockBounds, List.getElem?_cons_succ] at hk
        have := blocks_mono hb3 hk
        rw [List.getD_cons_succ, overlap, if_neg (by omega), generatesOf_trace]
        have hn := evTrace_none h2
        by_cases hlt : k < logs'.length
        · have hm : logs'.getD k [] ∈ logs' := by
            rw [List.getD_eq_getElem?_getD, List.getElem?_eq_getElem hlt]
            simp
          rw [traceOf_mem_flatten hn hm]; rfl
        · rw [List.getD_eq_getElem?_getD, List.getElem?_eq_none (by omega)]
          rfl
    | waiting w1 w2 =>
      obtain ⟨i1, i2⟩ := ih hb3 he he' h2
      refine ⟨by simp [i1], ?_⟩
      intro k t u hk
      cases k with
      | zero =>
        simp only [blockBounds, List.getElem?_cons_zero, Option.some.injEq, Prod.mk.injEq] at hk
        rw [List.getD_cons_zero, htr, overlap, if_neg (by omega)]
        rfl
      | succ k =>
        simp only [blockBounds, List.getElem?_cons_succ] at hk
        rw [List.getD_cons_succ]
        exact i2 k t u hk
    | played p1 p2 p3 p4 p5 p6 =>
      obtain ⟨i1, i2⟩ := ih hb3 (by omega) (by omega) h2
      refine ⟨by simp [i1], ?_⟩
      intro k t u hk
      cases k with
      | zero =>
        simp only [blockBounds, List.getElem?_cons_zero, Option.some.injEq, Prod.mk.injEq] at hk
        obtain ⟨rfl, rfl⟩ := hk
        rw [List.getD_cons_zero, htr, overlap, if_pos (by omega), generatesOf_append,
          generatesOf_prepTrace]
        simp only [genCall, generatesOf, List.nil_append, List.filterMap_cons, if_true,
          List.filterMap_nil]
        rw [relStart_eq (by omega), relEnd_eq p2 he hb2, relOffset_eq (by omega)]
      | succ k =>
        simp only [blockBounds, List.getElem?_cons_succ] at hk
        rw [List.getD_cons_succ, i2 k t u hk, p3, p4]

/-- **C19, per block.** In a successful run of `sp_seq` over consecutive blocks, in each block each
event's generate function is called exactly once with the part of the event that is in the block and
the output pointer at the sample where that part begins, if event and block overlap, and is not
called otherwise. -/
theorem C19_generate_calls {cb : Callbacks D W} (hk : KeepsTimes cb) (base : Nat → Nat) (fuel : Nat)
    {start : Nat} {stops : List Nat} (hb : Blocks start stops) {l : List (Addr × Event D)}
    (hs : SortedEvents l) (hf : l.length < fuel) {s : SeqState D W}
    (hl : WellFormed s.heap s.head l) {s' : SeqState D W} {logs : List (List Call)}
    (h : seqBlocks cb fuel base start stops s = .ok (0, s', logs)) {a : Addr} {e : Event D}
    (he : (a, e) ∈ l) :
    logs.length = stops.length ∧ ∀ k t u, (blockBounds start stops)[k]? = some (t, u) →
      generatesOf a (logs.getD k []) = overlap (base t) e.start e.stop t u :=
  evTrace_generates hb (hs.ordered _ he) (hs.small _ he)
    (seqBlocks_trace hk base fuel hb hs hf hl h (o := some e) he)

/-- The time at which the blocks end. -/
def lastStop : Nat → List Nat → Nat
  | start, [] => start
  | _, stop :: rest => lastStop stop rest

theorem lastStop_ge {start : Nat} {stops : List Nat} (hb : Blocks start stops) :
    start ≤ lastStop start stops := by
  induction stops generalizing start with
  | nil => exact Nat.le_refl _
  | cons stop rest ih => have := ih hb.2.2; have := hb.1; unfold lastStop; omega

/-- All generate calls of an event with times `s`, `e`. -/
def overlaps (base : Nat → Nat) (s e start : Nat) (stops : List Nat) : List (Nat × Nat × Nat) :=
  (blockBounds start stops).flatMap (fun b => overlap (base b.1) s e b.1 b.2)

theorem overlaps_head {base : Nat → Nat} {s e start : Nat} {stops : List Nat} (hb : Blocks start stops)
    {r : Nat × Nat × Nat} {rs : List (Nat × Nat × Nat)} (h : overlaps base s e start stops = r :: rs) :
    r.1 = max start s - s ∧ start < e := by
  induction stops generalizing start with
  | nil => simp [overlaps, blockBounds] at h
  | cons stop rest ih =>
    unfold overlaps at h
    rw [blockBounds, List.flatMap_cons] at h
    by_cases hc : start < e ∧ s < stop
    · simp only [overlap, if_pos hc, List.singleton_append] at h
      simp only [List.cons.injEq] at h
      rw [← h.1]
      exact ⟨rfl, hc.1⟩
    · simp only [overlap, if_neg hc, List.nil_append] at h
      have := ih hb.2.2 h
      have := hb.1
      omega

theorem overlaps_cons {base : Nat → Nat} {s e start stop : Nat} {rest : List Nat} :
    overlaps base s e start (stop :: rest) =
      overlap (base start) s e start stop ++ overlaps base s e stop rest := by
  simp [overlaps, blockBounds]

theorem overlaps_chain {base : Nat → Nat} {s e start : Nat} {stops : List Nat} (hb : Blocks start stops) :
    (overlaps base s e start stops).IsChain (fun r r' => r.2.1 = r'.1) := by
  induction stops generalizing start with
  | nil => simp [overlaps, blockBounds]
  | cons stop rest ih =>
    rw [overlaps_cons]
    by_cases hc : start < e ∧ s < stop
    · simp only [overlap, if_pos hc, List.singleton_append]
      have hi := ih hb.2.2
      cases hr : overlaps base s e stop rest with
      | nil => simp
      | cons r rs =>
        have := overlaps_head hb.2.2 hr
        rw [hr] at hi
        refine List.IsChain.cons_cons ?_ hi
        simp only
        omega
    · simp only [overlap, if_neg hc, List.nil_append]
      exact ih hb.2.2

theorem overlaps_count {base : Nat → Nat} {s e start : Nat} {stops : List Nat} (hb : Blocks start stops)
    (x : Nat) :
    (overlaps base s e start stops).countP (fun r => decide (r.1 ≤ x ∧ x < r.2.1)) =
      if start ≤ s + x ∧ s + x < lastStop start stops ∧ s + x < e then 1 else 0 := by
  induction stops generalizing start with
  | nil =>
    rw [if_neg (by simp only [lastStop]; omega)]
    rfl
  | cons stop rest ih =>
    rw [overlaps_cons, List.countP_append, ih hb.2.2, lastStop]
    have := lastStop_ge hb.2.2
    have := hb.1
    unfold overlap
    by_cases hc : start < e ∧ s < stop
    · rw [if_pos hc]
      simp only [List.countP_cons, List.countP_nil, Nat.zero_add, decide_eq_true_eq]
      split <;> split <;> split <;> omega
    · rw [if_neg hc]
      simp only [List.countP_nil, Nat.zero_add]
      split <;> split <;> omega

theorem generatesOf_flatten {a : Addr} {base : Nat → Nat} {s e start : Nat} {stops : List Nat}
    {logs : List (List Call)} (hlen : logs.length = stops.length)
    (h : ∀ k t u, (blockBounds start stops)[k]? = some (t, u) →
      generatesOf a (logs.getD k []) = overlap (base t) s e t u) :
    generatesOf a logs.flatten = overlaps base s e start stops := by
  induction stops generalizing start logs with
  | nil => simp at hlen; subst hlen; rfl
  | cons stop rest ih =>
    cases logs with
    | nil => simp at hlen
    | cons log logs =>
      rw [List.flatten_cons, generatesOf_append, overlaps_cons]
      congr 1
      · exact h 0 start stop (by simp [blockBounds])
      · refine ih (by simpa using hlen) ?_
        intro k t u hk
        have := h (k + 1) t u (by simpa [blockBounds] using hk)
        simpa using this

/-- **C19.** Over the whole run, the generate calls of each event are for consecutive ranges (each
begins where the one before ended), and each event relative time `x` is in exactly one of them if the
time is rendered and inside the event, and in none otherwise: no gap, no overlap, nothing outside. -/
theorem C19_covers_exactly {cb : Callbacks D W} (hk : KeepsTimes cb) (base : Nat → Nat) (fuel : Nat)
    {start : Nat} {stops : List Nat} (hb : Blocks start stops) {l : List (Addr × Event D)}
    (hs : SortedEvents l) (hf : l.length < fuel) {s : SeqState D W}
    (hl : WellFormed s.heap s.head l) {s' : SeqState D W} {logs : List (List Call)}
    (h : seqBlocks cb fuel base start stops s = .ok (0, s', logs)) {a : Addr} {e : Event D}
    (he : (a, e) ∈ l) :
    (generatesOf a logs.flatten).IsChain (fun r r' => r.2.1 = r'.1) ∧
    ∀ x, (generatesOf a logs.flatten).countP (fun r => decide (r.1 ≤ x ∧ x < r.2.1)) =
      if start ≤ e.start + x ∧ e.start + x < lastStop start stops ∧ e.start + x < e.stop then 1 else 0 := by
  obtain ⟨h1, h2⟩ := C19_generate_calls hk base fuel hb hs hf hl h he
  rw [generatesOf_flatten h1 h2]
  exact ⟨overlaps_chain hb, overlaps_count hb⟩

/-! ### C20 -/

theorem evTrace_shape {cb : Callbacks D W} {base : Nat → Nat} {a : Addr} {st : Nat} {e : Event D}
    {start : Nat} {stops : List Nat} {logs : List (List Call)}
    (h : EvTrace cb base a st (some e) start stops logs) :
    (e.prep = false → preparesOf a logs.flatten = []) ∧
    (e.prep = true →
      (preparesOf a logs.flatten = [] ∧ generatesOf a logs.flatten = []) ∨
      ((∃ b ∈ blockBounds start stops, b.1 < e.stop ∧ e.start < b.2) ∧
        ∃ st' T, traceOf a logs.flatten = .prepare a st' :: T ∧ preparesOf a T = [] ∧
          (st' = 0 ∨ generatesOf a T = []))) := by
  induction stops generalizing start logs e with
  | nil => obtain ⟨rfl, _⟩ := h; exact ⟨fun _ => rfl, fun _ => Or.inl ⟨rfl, rfl⟩⟩
  | cons stop rest ih =>
    obtain ⟨log, logs', rfl, h⟩ := h
    have g1 := generatesOf_trace a log
    have p1 := preparesOf_trace a log
    rw [List.flatten_cons, preparesOf_append, generatesOf_append, traceOf_append, g1, p1,
      preparesOf_trace a logs'.flatten, generatesOf_trace a logs'.flatten]
    have hg0 : ∀ st, preparesOf a [genCall base a e start stop st] = [] := fun _ => rfl
    rcases h with ⟨_, rfl, h⟩ | ⟨o', h1, h2⟩
    · generalize traceOf a log = tr at h
      simp only [List.flatten_nil, traceOf_nil, List.append_nil, show preparesOf a [] = [] from rfl,
        show generatesOf a [] = [] from rfl]
      cases h with
      | freed =>
        exact ⟨fun _ => preparesOf_freeTrace a e, fun _ => Or.inl ⟨preparesOf_freeTrace a e,
          generatesOf_freeTrace a e⟩⟩
      | prepareFailed q1 q2 q3 q4 =>
        refine ⟨fun h0 => ?_, fun _ => Or.inr ⟨⟨(start, stop), by simp [blockBounds], q1, q2⟩,
          _, _, rfl, preparesOf_freeTrace a _, Or.inr (generatesOf_freeTrace a _)⟩⟩
        rw [q3] at h0; simp at h0
      | played q1 q2 =>
        constructor
        · intro h0
          rw [preparesOf_append, preparesOf_append, preparesOf_prepTrace, preparesOf_freeTrace, hg0, h0]
          rfl
        · intro h0
          refine Or.inr ⟨⟨(start, stop), by simp [blockBounds], q1, q2⟩, 0, _,
            by simp only [prepTrace, h0]; rfl, ?_, Or.inl rfl⟩
          exact preparesOf_freeTrace a _
    · generalize traceOf a log = tr at h1
      cases h1 with
      | freed q1 =>
        rw [evTrace_none h2, preparesOf_nil, generatesOf_nil, List.append_nil, List.append_nil,
          List.append_nil]
        exact ⟨fun _ => preparesOf_freeTrace a e, fun _ => Or.inl ⟨preparesOf_freeTrace a e,
          generatesOf_freeTrace a e⟩⟩
      | waiting q1 q2 =>
        obtain ⟨i1, i2⟩ := ih h2
        rw [preparesOf_trace] at i1
        rw [preparesOf_trace, generatesOf_trace] at i2
        refine ⟨fun h0 => by simpa using i1 h0, fun h0 => ?_⟩
        rcases i2 h0 with ⟨j1, j2⟩ | ⟨⟨b, j0, j1⟩, j2⟩
        · exact Or.inl ⟨by simpa using j1, by simpa using j2⟩
        · exact Or.inr ⟨⟨b, by simp [blockBounds, j0], j1⟩, by simpa using j2⟩
      | played q1 q2 q3 q4 q5 q6 =>
        obtain ⟨i1, _⟩ := ih h2
        have i1 := i1 q5
        rw [preparesOf_trace] at i1
        constructor
        · intro h0
          rw [preparesOf_append, preparesOf_prepTrace, i1, h0]
          rfl
        · intro h0
          refine Or.inr ⟨⟨(start, stop), by simp [blockBounds], q1, q2⟩, 0,
            [genCall base a e start stop 0] ++ traceOf a logs'.flatten,
            by simp only [prepTrace, h0]; rfl, ?_, Or.inl rfl⟩
          rw [preparesOf_append, hg0, i1]
          rfl

theorem traceOf_split {a : Addr} {L1 L2 : List Call} {c : Call} (hc : c.addr = a) :
    traceOf a (L1 ++ c :: L2) = traceOf a L1 ++ c :: traceOf a L2 := by
  simp [traceOf, List.filter_append, List.filter_cons, hc]

/-- **C20.** Over any number of consecutive `sp_seq` calls, whether they succeed or the last one
fails: each event is prepared at most once, and not at all if it has no prepare function; it is only
prepared if it overlaps one of the blocks; and every generate call of an event that has a prepare
function comes after a successful prepare call of that event. -/
theorem C20_prepared_once {cb : Callbacks D W} (hk : KeepsTimes cb) (base : Nat → Nat) (fuel : Nat)
    {start : Nat} {stops : List Nat} (hb : Blocks start stops) {l : List (Addr × Event D)}
    (hs : SortedEvents l) (hf : l.length < fuel) {s : SeqState D W}
    (hl : WellFormed s.heap s.head l) {st : Nat} {s' : SeqState D W} {logs : List (List Call)}
    (h : seqBlocks cb fuel base start stops s = .ok (st, s', logs)) {a : Addr} {e : Event D}
    (he : (a, e) ∈ l) :
    (preparesOf a logs.flatten).length ≤ (if e.prep then 1 else 0) ∧
    (preparesOf a logs.flatten ≠ [] → ∃ b ∈ blockBounds start stops, b.1 < e.stop ∧ e.start < b.2) ∧
    (e.prep = true → ∀ L1 L2 x y off st', logs.flatten = L1 ++ .generate a x y off st' :: L2 →
      .prepare a 0 ∈ L1) := by
  obtain ⟨h1, h2⟩ := evTrace_shape (seqBlocks_trace hk base fuel hb hs hf hl h (o := some e) he)
  cases hp : e.prep with
  | false =>
    rw [h1 hp]
    simp
  | true =>
    rcases h2 hp with ⟨i1, i2⟩ | ⟨i0, st', T, i1, i2, i3⟩
    · rw [i1]
      refine ⟨by simp, fun h0 => absurd rfl h0, ?_⟩
      intro _ L1 L2 x y off st' hL
      rw [hL, generatesOf_append] at i2
      simp [generatesOf] at i2
    · refine ⟨?_, fun _ => i0, ?_⟩
      · rw [preparesOf_trace, i1]
        have : preparesOf a (.prepare a st' :: T) = st' :: preparesOf a T := by simp [preparesOf]
        rw [this, i2]; simp
      · intro _ L1 L2 x y off st'' hL
        rw [hL, traceOf_split (by rfl)] at i1
        cases hT : traceOf a L1 with
        | nil => rw [hT] at i1; simp at i1
        | cons c r =>
          rw [hT] at i1
          simp only [List.cons_append, List.cons.injEq] at i1
          obtain ⟨rfl, rfl⟩ := i1
          have hst : st' = 0 := by
            rcases i3 with i3 | i3
            · exact i3
            · rw [generatesOf_append] at i3
              simp [generatesOf] at i3
          subst hst
          have : Call.prepare a 0 ∈ traceOf a L1 := by rw [hT]; simp
          exact (List.mem_filter.1 this).1

/-- **C20, exactly once.** In a successful run, an event with a prepare function that overlaps one of
the blocks is prepared exactly once, successfully. -/
theorem C20_prepared_if_rendered {cb : Callbacks D W} (hk : KeepsTimes cb) (base : Nat → Nat) (fuel : Nat)
    {start : Nat} {stops : List Nat} (hb : Blocks start stops) {l : List (Addr × Event D)}
    (hs : SortedEvents l) (hf : l.length < fuel) {s : SeqState D W}
    (hl : WellFormed s.heap s.head l) {s' : SeqState D W} {logs : List (List Call)}
    (h : seqBlocks cb fuel base start stops s = .ok (0, s', logs)) {a : Addr} {e : Event D}
    (he : (a, e) ∈ l) (hp : e.prep = true)
    (hr : ∃ b ∈ blockBounds start stops, b.1 < e.stop ∧ e.start < b.2) :
    preparesOf a logs.flatten = [0] := by
  obtain ⟨h1, h2⟩ := C19_generate_calls hk base fuel hb hs hf hl h he
  obtain ⟨⟨t, u⟩, hm, hr1, hr2⟩ := hr
  have hg := generatesOf_flatten h1 h2
  have hne : generatesOf a logs.flatten ≠ [] := by
    rw [hg]
    intro h0
    have := List.flatMap_eq_nil_iff.1 h0 (t, u) hm
    simp only [overlap, if_pos (And.intro hr1 hr2)] at this
    simp at this
  obtain ⟨_, h3⟩ := evTrace_shape (seqBlocks_trace hk base fuel hb hs hf hl h (o := some e) he)
  rcases h3 hp with ⟨_, i2⟩ | ⟨_, st', T, i1, i2, i3⟩
  · exact absurd i2 hne
  · rw [preparesOf_trace, i1]
    have hst : st' = 0 := by
      rcases i3 with i3 | i3
      · exact i3
      · exfalso
        apply hne
        rw [generatesOf_trace, i1]
        have : generatesOf a (.prepare a st' :: T) = generatesOf a T := by simp [generatesOf]
        rw [this, i3]
    have : preparesOf a (.prepare a st' :: T) = st' :: preparesOf a T := by simp [preparesOf]
    rw [this, i2, hst]

/-! ### C21 -/

/-- The event functions do not fault. -/
structure NoFault (cb : Callbacks D W) : Prop where
  prepare : ∀ e w, ∃ r, cb.prepare e w = .ok r
  generate : ∀ x y off e w, ∃ r, cb.generate x y off e w = .ok r
  free : ∀ e w, ∃ r, cb.free e w = .ok r

theorem eventFree_noFault {cb : Callbacks D W} (hn : NoFault cb) (a : Addr) (e : Event D) (w : W) :
    ∃ r, eventFree cb a e w = .ok r := by
  unfold eventFree
  split
  · obtain ⟨r, h⟩ := hn.free e w
    rw [h]; exact ⟨_, rfl⟩
  · exact ⟨_, rfl⟩

theorem seqList_noFault {cb : Callbacks D W} (hn : NoFault cb) (start stop base : Nat)
    (l : List (Addr × Event D)) (w : W) : ∃ r, seqList cb start stop base l w = .ok r := by
  induction l generalizing w with
  | nil => exact ⟨_, rfl⟩
  | cons x rest ih =>
    obtain ⟨a, e⟩ := x
    unfold seqList
    split
    · obtain ⟨⟨w1, log1⟩, h⟩ := eventFree_noFault hn a e w
      obtain ⟨r2, h2⟩ := ih w1
      simp only [h, ok_bind', h2]
      exact ⟨_, rfl⟩
    · split
      · exact ⟨_, rfl⟩
      · have : ∃ r, seqEvent cb start stop base a e w = .ok r := by
          unfold seqEvent
          have : ∃ r, prepareOptional cb a e w = .ok r := by
            unfold prepareOptional
            split
            · obtain ⟨r, h⟩ := hn.prepare e w
              rw [h, ok_bind']
              simp only
              split <;> exact ⟨_, rfl⟩
            · exact ⟨_, rfl⟩
          obtain ⟨⟨st, e1, w1, log1⟩, h⟩ := this
          rw [h, ok_bind']
          simp only
          split
          · exact ⟨_, rfl⟩
          · obtain ⟨r2, h2⟩ := hn.generate (relStart start e1.start) (relEnd stop e1.start e1.stop)
              (relOffset base start e1.start) e1 w1
            rw [h2]; exact ⟨_, rfl⟩
        obtain ⟨⟨st, e1, w1, log1⟩, h⟩ := this
        rw [h, ok_bind']
        simp only
        split
        · exact ⟨_, rfl⟩
        · obtain ⟨r2, h2⟩ := ih w1
          rw [h2]; exact ⟨_, rfl⟩

theorem freeList_noFault {cb : Callbacks D W} (hn : NoFault cb)
    (l : List (Addr × Event D)) (w : W) : ∃ r, freeList cb l w = .ok r := by
  induction l generalizing w with
  | nil => exact ⟨_, rfl⟩
  | cons x rest ih =>
    obtain ⟨a, e⟩ := x
    unfold freeList
    obtain ⟨⟨w1, log1⟩, h⟩ := eventFree_noFault hn a e w
    obtain ⟨r2, h2⟩ := ih w1
    simp only [h, ok_bind', h2]
    exact ⟨_, rfl⟩

/-- **C21, memory safety.** `sp_seq` itself never accesses freed memory or frees twice, for any well-formed
list and any block, sorted or not: it faults only if an event function does. -/
theorem C21_no_fault {cb : Callbacks D W} (hn : NoFault cb) (start stop base fuel : Nat)
    {l : List (Addr × Event D)} (hf : l.length < fuel) {s : SeqState D W}
    (hl : WellFormed s.heap s.head l) :
    ∃ st s' l', seq cb fuel start stop base s = .ok (st, s') ∧ WellFormed s'.heap s'.head l' := by
  have hr := seq_refines cb start stop base l s fuel hf hl
  have : ∃ r, seqListTop cb start stop base l s.world = .ok r := by
    unfold seqListTop
    obtain ⟨⟨st, l', w, log⟩, h⟩ := seqList_noFault hn start stop base l s.world
    rw [h, ok_bind']
    simp only
    split
    · obtain ⟨r2, h2⟩ := freeList_noFault hn l' w
      rw [h2]; exact ⟨_, rfl⟩
    · exact ⟨_, rfl⟩
  obtain ⟨⟨st, l', w, log⟩, h⟩ := this
  rw [h] at hr
  obtain ⟨heap, head, e1, e2, _⟩ := hr
  exact ⟨st, _, l', e1, e2⟩

theorem evTrace_release {cb : Callbacks D W} {base : Nat → Nat} {a : Addr} {e : Event D}
    {start : Nat} {stops : List Nat} {logs : List (List Call)} (hb : Blocks start stops)
    (h : EvTrace cb base a 0 (some e) start stops logs) :
    (∀ k t u, (blockBounds start stops)[k]? = some (t, u) →
      (.release a ∈ logs.getD k [] ↔
        e.stop ≤ t ∧ ∀ j t' u', j < k → (blockBounds start stops)[j]? = some (t', u') → t' < e.stop) ∧
      (.release a ∈ logs.getD k [] → KeepsFree cb → e.hasFree = true →
        traceOf a (logs.getD k []) = [.free a, .release a])) ∧
    logs.flatten.count (.release a) ≤ 1 ∧
    logs.flatten.count (.free a) ≤ logs.flatten.count (.release a) := by
  induction stops generalizing start logs e with
  | nil => obtain ⟨rfl, _⟩ := h; simp [blockBounds]
  | cons stop rest ih =>
    obtain ⟨hb1, hb2, hb3⟩ := hb
    obtain ⟨log, logs', rfl, ⟨h0, _⟩ | ⟨o', h1, h2⟩⟩ := h
    · exact absurd rfl h0
    have hmem : ∀ log, .release a ∈ log ↔ .release a ∈ traceOf a log := by
      intro log
      simp [traceOf, Call.addr]
    have hcount : ∀ log (c : Call), c.addr = a → log.count c = (traceOf a log).count c := by
      intro log c hc
      unfold traceOf
      rw [List.count_filter (by simpa using hc)]
    have hm := hmem log
    have hc1 := hcount log (.release a) rfl
    have hc2 := hcount log (.free a) rfl
    rw [List.flatten_cons, List.count_append, List.count_append, hc1, hc2]
    generalize htr : traceOf a log = tr at h1 hm
    cases h1 with
    | freed hf =>
      have hn := evTrace_none h2
      rw [hcount logs'.flatten _ rfl, hcount logs'.flatten _ rfl, hn]
      refine ⟨?_, ?_, ?_⟩
      · intro k t u hk
        cases k with
        | zero =>
          simp only [blockBounds, List.getElem?_cons_zero, Option.some.injEq, Prod.mk.injEq] at hk
          rw [List.getD_cons_zero, hm, htr]
          refine ⟨⟨fun _ => ⟨by omega, fun j _ _ hj => absurd hj (by omega)⟩, fun _ => ?_⟩, ?_⟩
          · unfold freeTrace; simp
          · intro _ _ hfree; simp [freeTrace, hfree]
        | succ k =>
          simp only [blockBounds, List.getElem?_cons_succ] at hk
          rw [List.getD_cons_succ]
          have hnot : .release a ∉ logs'.getD k [] := by
            intro hmm
            by_cases hlt : k < logs'.length
            · have hm' : logs'.getD k [] ∈ logs' := by
                rw [List.getD_eq_getElem?_getD, List.getElem?_eq_getElem hlt]
                simp
              have := traceOf_mem_flatten hn hm'
              rw [hmem, this] at hmm
              simp at hmm
            · rw [List.getD_eq_getElem?_getD, List.getElem?_eq_none (by omega)] at hmm
              simp at hmm
          refine ⟨⟨fun h => absurd h hnot, fun h => ?_⟩, fun h => absurd h hnot⟩
          have := h.2 0 start stop (by omega) (by simp [blockBounds])
          omega
      · unfold freeTrace; split <;> simp
      · unfold freeTrace; split <;> simp
    | waiting w1 w2 =>
      obtain ⟨i1, i2, i3⟩ := ih hb3 h2
      refine ⟨?_, by simpa using i2, by simpa using i3⟩
      intro k t u hk
      cases k with
      | zero =>
        simp only [blockBounds, List.getElem?_cons_zero, Option.some.injEq, Prod.mk.injEq] at hk
        rw [List.getD_cons_zero, hm]
        simp
        omega
      | succ k =>
        simp only [blockBounds, List.getElem?_cons_succ] at hk
        rw [List.getD_cons_succ]
        refine ⟨?_, (i1 k t u hk).2⟩
        rw [(i1 k t u hk).1]
        constructor
        · rintro ⟨j1, j2⟩
          refine ⟨j1, ?_⟩
          intro j t' u' hj hj'
          cases j with
          | zero =>
            simp only [blockBounds, List.getElem?_cons_zero, Option.some.injEq, Prod.mk.injEq] at hj'
            omega
          | succ j => exact j2 j t' u' (by omega) (by simpa [blockBounds] using hj')
        · rintro ⟨j1, j2⟩
          exact ⟨j1, fun j t' u' hj hj' => j2 (j + 1) t' u' (by omega) (by simpa [blockBounds] using hj')⟩
    | played p1 p2 p3 p4 p5 p6 =>
      obtain ⟨i1, i2, i3⟩ := ih hb3 h2
      have hz1 : (prepTrace a e ++ [genCall base a e start stop 0]).count (.release a) = 0 := by
        unfold prepTrace genCall; split <;> simp
      have hz2 : (prepTrace a e ++ [genCall base a e start stop 0]).count (.free a) = 0 := by
        unfold prepTrace genCall; split <;> simp
      refine ⟨?_, by rw [hz1]; simpa using i2, by rw [hz1, hz2]; simpa using i3⟩
      intro k t u hk
      cases k with
      | zero =>
        simp only [blockBounds, List.getElem?_cons_zero, Option.some.injEq, Prod.mk.injEq] at hk
        rw [List.getD_cons_zero, hm]
        have hnot : Call.release a ∉ prepTrace a e ++ [genCall base a e start stop 0] :=
          List.count_eq_zero.1 hz1
        refine ⟨⟨fun h => absurd h hnot, fun h => ?_⟩, fun h => absurd h hnot⟩
        omega
      | succ k =>
        simp only [blockBounds, List.getElem?_cons_succ] at hk
        rw [List.getD_cons_succ]
        refine ⟨?_, fun h1 kf hfree => (i1 k t u hk).2 h1 kf (p6 kf hfree)⟩
        rw [(i1 k t u hk).1, p4]
        constructor
        · rintro ⟨j1, j2⟩
          refine ⟨j1, ?_⟩
          intro j t' u' hj hj'
          cases j with
          | zero =>
            simp only [blockBounds, List.getElem?_cons_zero, Option.some.injEq, Prod.mk.injEq] at hj'
            omega
          | succ j => exact j2 j t' u' (by omega) (by simpa [blockBounds] using hj')
        · rintro ⟨j1, j2⟩
          exact ⟨j1, fun j t' u' hj hj' => j2 (j + 1) t' u' (by omega) (by simpa [blockBounds] using hj')⟩

/-- **C21.** In a successful run an event's list element is released in exactly the first call whose
block starts at or after the event's end: the call for block `k` releases it if and only if that block
starts at or after the event's end and all earlier ones started before it. If the event has a free
function (that prepare and generate do not remove), it is called right then, directly before, and
nothing else happens to the event in that call. Over the whole run the element is released at most
once and the free function called at most once. -/
theorem C21_freed_when_finished {cb : Callbacks D W} (hk : KeepsTimes cb) (base : Nat → Nat) (fuel : Nat)
    {start : Nat} {stops : List Nat} (hb : Blocks start stops) {l : List (Addr × Event D)}
    (hs : SortedEvents l) (hf : l.length < fuel) {s : SeqState D W}
    (hl : WellFormed s.heap s.head l) {s' : SeqState D W} {logs : List (List Call)}
    (h : seqBlocks cb fuel base start stops s = .ok (0, s', logs)) {a : Addr} {e : Event D}
    (he : (a, e) ∈ l) :
    (∀ k t u, (blockBounds start stops)[k]? = some (t, u) →
      (.release a ∈ logs.getD k [] ↔
        e.stop ≤ t ∧ ∀ j t' u', j < k → (blockBounds start stops)[j]? = some (t', u') → t' < e.stop) ∧
      (.release a ∈ logs.getD k [] → KeepsFree cb → e.hasFree = true →
        traceOf a (logs.getD k []) = [.free a, .release a])) ∧
    logs.flatten.count (.release a) ≤ 1 ∧ logs.flatten.count (.free a) ≤ 1 := by
  obtain ⟨h1, h2, h3⟩ := evTrace_release hb (seqBlocks_trace hk base fuel hb hs hf hl h (o := some e) he)
  exact ⟨h1, h2, by omega⟩

/-- **C21, memory.** After a successful call the list in memory consists of exactly the elements
whose event ends after the start of the block, in order; the other elements are deallocated, and
memory outside of the list is unchanged. -/
theorem C21_remaining {cb : Callbacks D W} (hk : KeepsTimes cb) {start stop base fuel : Nat}
    (hblk : start < stop) {l : List (Addr × Event D)} (hs : SortedEvents l) (hf : l.length < fuel)
    {s s' : SeqState D W} (hl : WellFormed s.heap s.head l)
    (h : seq cb fuel start stop base s = .ok (0, s')) :
    ∃ l', WellFormed s'.heap s'.head l' ∧ SortedEvents l' ∧
      l'.map Prod.fst = (l.filter (fun x => start < x.2.stop)).map Prod.fst ∧
      (∀ x ∈ l, x.2.stop ≤ start → s'.heap x.1 = none) ∧
      SameOutside s.heap s'.heap (l.map Prod.fst) := by
  have hr := seq_refines cb start stop base l s fuel hf hl
  rw [h] at hr
  cases hsl : seqListTop cb start stop base l s.world with
  | error f => rw [hsl] at hr; simp [Refines] at hr
  | ok r =>
    obtain ⟨st, l', w, log⟩ := r
    rw [hsl] at hr
    obtain ⟨heap, head, e1, e2, e3, e4⟩ := hr
    simp only [Except.ok.injEq, Prod.mk.injEq, List.nil_append] at e1 e2 e3 e4
    obtain ⟨rfl, rfl⟩ := e1
    unfold seqListTop at hsl
    rw [bind_eq_ok] at hsl
    obtain ⟨⟨st1, l1, w1, log1⟩, h1, h2⟩ := hsl
    simp only at h2
    split at h2
    · next hst =>
      rw [bind_eq_ok] at h2
      obtain ⟨⟨w2, log2⟩, _, h2⟩ := h2
      simp only [pure_eq_ok, Except.ok.injEq, Prod.mk.injEq] at h2
      exact absurd h2.1 hst
    · next hst =>
      simp only [pure_eq_ok, Except.ok.injEq, Prod.mk.injEq] at h2
      obtain ⟨_, rfl, rfl, rfl⟩ := h2
      have hst : st1 = 0 := by simpa using hst
      subst hst
      have haddr : l1.map Prod.fst = (l.filter (fun x => start < x.2.stop)).map Prod.fst := by
        clear e2 e3 e4 h hf hl
        induction l generalizing l1 w1 log1 s with
        | nil => simp [seqList] at h1; simp [h1.1]
        | cons x rest ih =>
          obtain ⟨a, e⟩ := x
          have hs' : SortedEvents rest := hs.of_times (by simp)
          rcases seqList_cons h1 with ⟨c1, w2, log2, h2, rfl⟩ | ⟨c1, c2, _, rfl, rfl⟩ |
            ⟨c1, c2, e', c3, _, _⟩ | ⟨c1, c2, e', w2, log2, l2, log3, h2, h3, rfl, rfl⟩
          · rw [List.filter_cons_of_neg (by simpa using c1)]
            exact ih hs' (s := ⟨s.heap, s.head, w2, []⟩) _ _ _ h2
          · have : ((a, e) :: rest).filter (fun x => start < x.2.stop) = (a, e) :: rest := by
              rw [List.filter_eq_self]
              intro x hx
              rcases List.mem_cons.1 hx with rfl | hx'
              · simpa using c1
              · have h5 := (List.pairwise_cons.1 hs.sorted).1 _ hx'
                have h6 := hs.ordered _ hx
                simp only at h5
                simp; omega
            rw [this]
          · exact absurd rfl c3
          · rw [List.filter_cons_of_pos (by simpa using c1), List.map_cons, List.map_cons]
            congr 1
            exact ih hs' (s := ⟨s.heap, s.head, w2, []⟩) _ _ _ h3
      refine ⟨l1, e2, hs.of_times (seqList_times hk h1), haddr, ?_, e3⟩
      intro x hx hxs
      apply e4 x.1 (List.mem_map_of_mem hx)
      rw [haddr]
      intro hm
      obtain ⟨y, hy, hxy⟩ := List.mem_map.1 hm
      have hy' := List.mem_filter.1 hy
      have : y = x := by
        have hnd := hl.2
        exact List.inj_on_of_nodup_map hnd hy'.1 hx hxy
      subst this
      simp at hy'
      omega

/-- **C21, errors.** When `sp_seq` fails, then: the returned status is that of the last prepare or
generate call, and all calls before it succeeded; after it only free functions are called and list
elements released; every element of the list is released exactly once in this call, with its free
function called at most once, and exactly once if it had one (that prepare and generate do not
remove); the list is empty and all its elements are deallocated. The list can be unsorted. -/
theorem C21_error {cb : Callbacks D W} (hk : KeepsTimes cb) {start stop base fuel : Nat}
    {l : List (Addr × Event D)} (hf : l.length < fuel)
    {s s' : SeqState D W} (hlog : s.log = []) (hl : WellFormed s.heap s.head l) {st : Nat} (hst : st ≠ 0)
    (h : seq cb fuel start stop base s = .ok (st, s')) :
    (∃ pre x post, s'.log = pre ++ x :: post ∧ x.status = st ∧ (∀ c ∈ pre, c.status = 0) ∧
      (∀ c ∈ post, ∃ a, c = .free a ∨ c = .release a)) ∧
    (∀ x ∈ l, s'.log.count (.release x.1) = 1 ∧ s'.log.count (.free x.1) ≤ 1 ∧
      (KeepsFree cb → x.2.hasFree = true → s'.log.count (.free x.1) = 1) ∧ s'.heap x.1 = none) ∧
    s'.head = none ∧ SameOutside s.heap s'.heap (l.map Prod.fst) := by
  have hr := seq_refines cb start stop base l s fuel hf hl
  rw [h] at hr
  cases hsl : seqListTop cb start stop base l s.world with
  | error f => rw [hsl] at hr; simp [Refines] at hr
  | ok r =>
    obtain ⟨st', l', w, log⟩ := r
    rw [hsl] at hr
    obtain ⟨heap, head, e1, e2, e3, e4⟩ := hr
    simp only [Except.ok.injEq, Prod.mk.injEq, List.nil_append, hlog] at e1 e2 e3 e4
    obtain ⟨rfl, rfl⟩ := e1
    unfold seqListTop at hsl
    rw [bind_eq_ok] at hsl
    obtain ⟨⟨st1, l1, w1, log1⟩, h1, h2⟩ := hsl
    simp only at h2
    split at h2
    · next hst1 =>
      rw [bind_eq_ok] at h2
      obtain ⟨⟨w2, log2⟩, h3, h2⟩ := h2
      simp only [pure_eq_ok, Except.ok.injEq, Prod.mk.injEq] at h2
      obtain ⟨rfl, rfl, rfl, rfl⟩ := h2
      refine ⟨?_, ?_, e2.1, e3⟩
      · rcases seqList_status hk h1 with ⟨h0, _⟩ | ⟨_, pre, x, rfl, hx, hpre⟩
        · exact absurd h0 hst
        · refine ⟨pre, x, log2, by simp, hx, hpre, ?_⟩
          intro c hc
          rw [freeList_log h3] at hc
          obtain ⟨y, hy, hcy⟩ := List.mem_flatMap.1 hc
          refine ⟨y.1, ?_⟩
          unfold freeTrace at hcy
          split at hcy <;> simp at hcy
          · exact hcy
          · exact Or.inr hcy
      · intro x hx
        obtain ⟨a, e⟩ := x
        have hnd1 : (l1.map Prod.fst).Nodup :=
          (seqList_addrs cb start stop base l s.world st1 l1 w1 log1 h1).nodup hl.2
        have hcount : ∀ (log : List Call) (c : Call), c.addr = a →
            log.count c = (traceOf a log).count c := by
          intro log c hc
          unfold traceOf
          rw [List.count_filter (by simpa using hc)]
        have hself : ∀ (a : Addr) (e : Event D), (freeTrace a e).count (.release a) = 1 ∧
            (freeTrace a e).count (.free a) ≤ 1 ∧
            (e.hasFree = true → (freeTrace a e).count (.free a) = 1) := by
          intro a e; unfold freeTrace; split <;> simp_all
        have htr : ∃ (T : List Call) (e' : Event D), traceOf a (log1 ++ log2) = T ++ freeTrace a e' ∧
            T.count (.release a) = 0 ∧ T.count (.free a) = 0 ∧
            (KeepsFree cb → e.hasFree = true → e'.hasFree = true) := by
          rw [traceOf_append, freeList_log h3]
          rcases seqList_event hk hl.2 h1 hx with ⟨c1, c2, c3⟩ | ⟨c1, c2, c3⟩ |
            ⟨c1, c2, w3, e', w4, st', c3, c4, c5⟩
          · exact ⟨[], e, by rw [c3, traceOf_flatMap_none c2, List.append_nil]; rfl, rfl, rfl,
              fun _ h => h⟩
          · exact ⟨[], e, by rw [c2, traceOf_flatMap hnd1 c1], rfl, rfl, fun _ h => h⟩
          · rw [traceOf_flatMap hnd1 c5]
            obtain ⟨_, _, d0, ⟨d1, d2, d3⟩ | ⟨d1, d2⟩⟩ := seqEvent_cases hk c4
            · exact ⟨_, e', rfl, by simp [d3], by simp [d3], d0⟩
            · refine ⟨_, e', rfl, ?_, ?_, d0⟩ <;> rw [d2] <;> split <;> simp
        obtain ⟨T, e', t1, t2, t3, t4⟩ := htr
        have k := hself a e'
        simp only
        rw [hcount _ (.release a) rfl, hcount _ (.free a) rfl, t1, List.count_append, t2,
          List.count_append, t3, Nat.zero_add, Nat.zero_add]
        exact ⟨k.1, k.2.1, fun kf hfree => k.2.2 (t4 kf hfree),
          e4 a (List.mem_map.2 ⟨_, hx, rfl⟩) (by simp)⟩
    · simp only [pure_eq_ok, Except.ok.injEq, Prod.mk.injEq] at h2
      exact absurd h2.1.symm hst

end Sp
