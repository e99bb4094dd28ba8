import Verif.Props.Path
import Verif.Model.EventPath
import Verif.Props.EventAlloc

/-!
# C172: paths and envelopes that are made with the macros for events
-/

set_option linter.unusedSectionVars false

namespace Sp

/-- The uses of the macros calculate these paths, each path function returns success. -/
def Makes : List EventPath → List PathData → Prop :=
  List.Forall₂ fun x p => x.path = .ok (some 0, p)

/-- The last of the uses that set variable `i`, with the blocks that were written. -/
def lastBlock (i : Nat) : List EventPath → List (Nat × PathData) → Option Nat
  | x :: xs, b :: bs => (lastBlock i xs bs).or (if x.var = i then some b.1 else none)
  | _, _ => none

theorem pathMemory_spec (p : PathData) {m : Live} (hu : m.Unused) :
    ∃ a m', pathMemory p m = .ok (a, m') ∧ m.live a = false ∧ m'.Unused ∧
      ∀ b, m'.live b = (m.live b || decide (b = a)) := by
  have hnl : ∀ k, m.next ≤ k → m.live k = false := by
    intro k hk
    by_contra h
    have := hu k (by simpa using h)
    omega
  cases p with
  | samples v =>
    refine ⟨m.next, _, rfl, hnl _ le_rfl, ?_, ?_⟩
    · intro a ha
      simp only [Live.malloc] at ha ⊢
      by_cases h : a = m.next
      · omega
      · rw [if_neg h] at ha
        have := hu a ha
        omega
    · intro a
      simp only [Live.malloc]
      by_cases h : a = m.next <;> simp [h]
  | times v =>
    refine ⟨m.next + 1, ⟨m.next + 2, fun b => if b = m.next then false else if b = m.next + 1 then true else
      if b = m.next then true else m.live b⟩, ?_, hnl _ (by omega), ?_, ?_⟩
    · unfold pathMemory pathTimesMemory pathSamplesMemory
      simp [Live.malloc, Live.free]
    · intro a ha
      simp only at ha ⊢
      by_cases h1 : a = m.next
      · omega
      by_cases h2 : a = m.next + 1
      · omega
      rw [if_neg h1, if_neg h2, if_neg h1] at ha
      have := hu a ha
      omega
    · intro a
      simp only
      by_cases h1 : a = m.next
      · subst h1
        simp [hnl _ le_rfl]
      · by_cases h2 : a = m.next + 1 <;> simp [h1, h2]

theorem eventPaths_inv {xs : List EventPath} {ps : List PathData} (hp : Makes xs ps) {vars : Buf (Option Nat)}
    (hv : ∀ x ∈ xs, x.var < vars.length) {e : MemEvent} {addrs : List Nat} {m : Live}
    (hi : MemInv e (addrs.map (⟨·, 0⟩))) (hu : m.Unused) (hnd : addrs.Nodup) (hl : ∀ a ∈ addrs, m.live a = true) :
    ∃ st blocks vars' e' m', eventPaths xs vars e m = .ok (st, blocks, vars', e', m') ∧
      ((∀ x ∈ xs, x.register = true) → st = 0) ∧ (e.hasFree = true → e'.hasFree = true) ∧
      (st = 0 → blocks.map Prod.snd = ps ∧ MemInv e' ((addrs ++ blocks.map Prod.fst).map (⟨·, 0⟩)) ∧
        (addrs ++ blocks.map Prod.fst).Nodup ∧ (∀ b ∈ blocks, m.live b.1 = false) ∧
        (e.memory.data = none → xs ≠ [] → e'.hasFree = true) ∧
        (∀ a, m'.live a = (m.live a || decide (a ∈ blocks.map Prod.fst))) ∧
        vars'.length = vars.length ∧ ∀ i v, vars[i]? = some v → vars'[i]? = some ((lastBlock i xs blocks).or v)) := by
  induction hp generalizing vars e addrs m with
  | nil =>
    refine ⟨0, [], vars, e, m, rfl, fun _ => rfl, id, fun _ => ⟨rfl, by simpa using hi, by simpa using hnd, by simp,
      fun _ h => absurd rfl h, by simp, rfl, fun i v h => by simpa [lastBlock] using h⟩⟩
  | @cons x p xs ps hx _ ih =>
    have hxv : x.var < vars.length := hv x (by simp)
    obtain ⟨a, m1, ha, hna, hu1, hl1⟩ := pathMemory_spec p hu
    have e1 : eventPath x vars e m = (memoryAdd x.register ⟨a, 0⟩ e >>= fun q =>
        (.ok (q.1, (a, p), vars.set x.var (some a), q.2, m1) : C _)) := by
      unfold eventPath
      rw [hx]
      simp only [ok_bind', ha, wr_eq_ok _ hxv, initialized, ne_eq, not_true_eq_false, if_false, pure_eq_ok]
      rw [rd_eq_ok (by rw [List.length_set]; exact hxv)]
      simp only [ok_bind', List.getElem_set_self, initialized]
    obtain ⟨st, e1', q, hq⟩ := memoryAdd_inv hi x.register ⟨a, 0⟩
    unfold eventPaths
    rw [e1, q]
    simp only [ok_bind']
    rcases hq with ⟨rfl, q1, _, q3, q4, q5⟩ | ⟨hne, hf, rfl⟩
    · rw [if_neg (by simp)]
      have haa : a ∉ addrs := fun h => by rw [hl _ h] at hna; cases hna
      have hnd' : (addrs ++ [a]).Nodup := by
        rw [nodup_append_disjoint]
        refine ⟨hnd, by simp, fun y hy h => ?_⟩
        simp only [List.mem_singleton] at h
        exact haa (h ▸ hy)
      have hl' : ∀ b ∈ addrs ++ [a], m1.live b = true := by
        intro b hb
        rw [hl1]
        simp only [List.mem_append, List.mem_singleton] at hb
        rcases hb with hb | hb
        · simp [hl b hb]
        · simp [hb]
      obtain ⟨st, bs, vars', e2, m2, r1, r2, r3, r4⟩ := ih (vars := vars.set x.var (some a))
        (fun y hy => by rw [List.length_set]; exact hv y (by simp [hy])) (e := e1') (addrs := addrs ++ [a])
        (by rw [List.map_append]; exact q1) hu1 hnd' hl'
      rw [r1]
      refine ⟨st, (a, p) :: bs, vars', e2, m2, rfl, fun h => r2 fun y hy => h y (by simp [hy]), fun h => r3 (q5 h),
        fun hst => ?_⟩
      obtain ⟨s1, s2, s3, s4, s5, s6, s7, s8⟩ := r4 hst
      refine ⟨by simp [s1], by simpa using s2, by simpa using s3, ?_, fun h _ => r3 (q3 h), ?_, by simpa using s7, ?_⟩
      · intro b hb
        rcases List.mem_cons.1 hb with rfl | hb
        · exact hna
        · have := s4 b hb
          rw [hl1] at this
          simp only [Bool.or_eq_false_iff] at this
          exact this.1
      · intro b
        rw [s6, hl1, List.map_cons]
        by_cases h : b = a
        · simp [h]
        · simp only [h, decide_false, Bool.or_false, List.mem_cons, false_or]
      · intro i v hiv
        have hil : i < vars.length := (List.getElem?_eq_some_iff.1 hiv).1
        by_cases h : x.var = i
        · subst h
          rw [s8 x.var (some a) (by simp [hil])]
          simp only [lastBlock, if_true]
          cases lastBlock x.var xs bs <;> rfl
        · rw [s8 i v (by rw [List.getElem?_set_ne h]; exact hiv)]
          simp only [lastBlock, h, if_false, Option.or_none]
    · rw [if_pos hne]
      refine ⟨st, _, _, _, _, rfl, ?_, id, fun h => absurd h hne⟩
      intro h
      rw [h x (by simp)] at hf
      cases hf

/-- **C172.** A function that makes any number of paths and envelopes with the macros for events, for an event that has no
event memory yet, where the path functions return success. If enlarging the register succeeds then the function returns
success. If it returns success then each path is in a block of its own in memory that was not in use before, in the order of
the uses, each variable has the address of the path that was made last for it, exactly these blocks have been added to
the memory in use, and freeing the event releases exactly them; the event has a free function if there was a path.
Missing for the full property: the macros for fixed numbers of points, see `C172_fixed_false`. -/
theorem C172_paths_partial {xs : List EventPath} {ps : List PathData} (hp : Makes xs ps) {vars : Buf (Option Nat)}
    (hv : ∀ x ∈ xs, x.var < vars.length) {e : MemEvent} (he : e.memory.data = none) {m : Live} (hu : m.Unused) :
    ∃ st blocks vars' e' m', eventPaths xs vars e m = .ok (st, blocks, vars', e', m') ∧
      ((∀ x ∈ xs, x.register = true) → st = 0) ∧
      (st = 0 → blocks.map Prod.snd = ps ∧ (blocks.map Prod.fst).Nodup ∧ (∀ b ∈ blocks, m.live b.1 = false) ∧
        (∀ a, m'.live a = true ↔ m.live a = true ∨ ∃ b ∈ blocks, b.1 = a) ∧
        (∀ i v, vars[i]? = some v → vars'[i]? = some ((lastBlock i xs blocks).or v)) ∧
        (xs ≠ [] → e'.hasFree = true) ∧
        ∃ e'' m'', eventRelease e' m' = .ok (e'', m'') ∧ e''.memory.data = none ∧ m''.live = m.live) := by
  obtain ⟨st, bs, vars', e', m', r1, r2, _, r4⟩ := eventPaths_inv hp hv (addrs := []) (.inl ⟨he, rfl⟩) hu (by simp) (by simp)
  refine ⟨st, bs, vars', e', m', r1, r2, fun hst => ?_⟩
  obtain ⟨s1, s2, s3, s4, s5, s6, s7, s8⟩ := r4 hst
  rw [List.nil_append] at s2 s3
  refine ⟨s1, s3, s4, fun a => ?_, s8, s5 he, _, _,
    eventRelease_eq s2 s3 (fun a ha => by rw [s6]; simp only [ha, decide_true, Bool.or_true]), rfl, ?_⟩
  · rw [s6, Bool.or_eq_true, decide_eq_true_eq, List.mem_map]
  · funext a
    simp only
    by_cases ha : a ∈ bs.map Prod.fst
    · rw [if_pos ha]
      obtain ⟨b, hb, rfl⟩ := List.mem_map.1 ha
      exact (s4 b hb).symm
    · rw [if_neg ha, s6]
      simp only [ha, decide_false, Bool.or_false]

/-- The calls in the macros for paths and envelopes with three, four or five points: `sp_event_path_samples3_srq` to
`sp_event_envelope_scaled5_srq`. -/
inductive FixedCall : C (Option Nat × PathData) → Prop
  | samples3 (fuel n x1 y1 y2 y3) : FixedCall (samplesResult (pathSamples3 fuel n x1 y1 y2 y3))
  | samples4 (fuel n x1 x2 y1 y2 y3 y4) : FixedCall (samplesResult (pathSamples4 fuel n x1 x2 y1 y2 y3 y4))
  | samples5 (fuel n x1 x2 x3 y1 y2 y3 y4 y5) : FixedCall (samplesResult (pathSamples5 fuel n x1 x2 x3 y1 y2 y3 y4 y5))
  | samplesC3 (fuel n x1 y1 y2 y3 c1 c2) : FixedCall (samplesResult (pathSamplesC3 fuel n x1 y1 y2 y3 c1 c2))
  | samplesC4 (fuel n x1 x2 y1 y2 y3 y4 c1 c2 c3) :
    FixedCall (samplesResult (pathSamplesC4 fuel n x1 x2 y1 y2 y3 y4 c1 c2 c3))
  | samplesC5 (fuel n x1 x2 x3 y1 y2 y3 y4 y5 c1 c2 c3 c4) :
    FixedCall (samplesResult (pathSamplesC5 fuel n x1 x2 x3 y1 y2 y3 y4 y5 c1 c2 c3 c4))
  | times3 (fuel n x1 y1 y2 y3) : FixedCall (timesResult (pathTimes3 fuel n x1 y1 y2 y3))
  | times4 (fuel n x1 x2 y1 y2 y3 y4) : FixedCall (timesResult (pathTimes4 fuel n x1 x2 y1 y2 y3 y4))
  | times5 (fuel n x1 x2 x3 y1 y2 y3 y4 y5) : FixedCall (timesResult (pathTimes5 fuel n x1 x2 x3 y1 y2 y3 y4 y5))
  | timesC3 (fuel n x1 y1 y2 y3 c1 c2) : FixedCall (timesResult (pathTimesC3 fuel n x1 y1 y2 y3 c1 c2))
  | timesC4 (fuel n x1 x2 y1 y2 y3 y4 c1 c2 c3) :
    FixedCall (timesResult (pathTimesC4 fuel n x1 x2 y1 y2 y3 y4 c1 c2 c3))
  | timesC5 (fuel n x1 x2 x3 y1 y2 y3 y4 y5 c1 c2 c3 c4) :
    FixedCall (timesResult (pathTimesC5 fuel n x1 x2 x3 y1 y2 y3 y4 y5 c1 c2 c3 c4))
  | zero3 (fuel n x1 y1) : FixedCall (samplesResult (envelopeZero3 fuel n x1 y1))
  | zero4 (fuel n x1 x2 y1 y2) : FixedCall (samplesResult (envelopeZero4 fuel n x1 x2 y1 y2))
  | zero5 (fuel n x1 x2 x3 y1 y2 y3) : FixedCall (samplesResult (envelopeZero5 fuel n x1 x2 x3 y1 y2 y3))
  | zeroC3 (fuel n x1 y1 c1 c2) : FixedCall (samplesResult (envelopeZeroC3 fuel n x1 y1 c1 c2))
  | zeroC4 (fuel n x1 x2 y1 y2 c1 c2 c3) : FixedCall (samplesResult (envelopeZeroC4 fuel n x1 x2 y1 y2 c1 c2 c3))
  | zeroC5 (fuel n x1 x2 x3 y1 y2 y3 c1 c2 c3 c4) :
    FixedCall (samplesResult (envelopeZeroC5 fuel n x1 x2 x3 y1 y2 y3 c1 c2 c3 c4))
  | scaled3 (fuel n s x1 y1 y2 y3) : FixedCall (timesResult (envelopeScaled3 fuel n s x1 y1 y2 y3))
  | scaled4 (fuel n s x1 x2 y1 y2 y3 y4) : FixedCall (timesResult (envelopeScaled4 fuel n s x1 x2 y1 y2 y3 y4))
  | scaled5 (fuel n s x1 x2 x3 y1 y2 y3 y4 y5) :
    FixedCall (timesResult (envelopeScaled5 fuel n s x1 x2 x3 y1 y2 y3 y4 y5))

theorem samplesResult_none (f : C (Buf ℚ)) : ∀ s p,
    samplesResult (f >>= fun out => pure (none, out)) = .ok (s, p) → s = none := by
  intro s p h
  cases f with
  | error e => cases h
  | ok a => cases h; rfl

theorem timesResult_none (f : C (Buf Nat)) : ∀ s p,
    timesResult (f >>= fun out => pure (none, out)) = .ok (s, p) → s = none := by
  intro s p h
  cases f with
  | error e => cases h
  | ok a => cases h; rfl

theorem FixedCall.none {f : C (Option Nat × PathData)} (h : FixedCall f) : ∀ s p, f = .ok (s, p) → s = none := by
  cases h <;> first | exact samplesResult_none _ | exact timesResult_none _

/-- **C172 is false for the macros with a fixed number of points**: for all arguments, variables and events the macro tests a
status that no one has set, whatever path was calculated. -/
theorem C172_fixed_false {x : EventPath} (hx : FixedCall x.path) (vars : Buf (Option Nat)) (hv : x.var < vars.length)
    (e : MemEvent) {m : Live} (hu : m.Unused) :
    ∀ p, x.path = .ok p → eventPath x vars e m = .error .uninitialized := by
  rintro ⟨s, p⟩ hp
  have hs := hx.none s p hp
  subst hs
  obtain ⟨a, m', ha, _⟩ := pathMemory_spec p hu
  unfold eventPath
  rw [hp]
  simp only [ok_bind', ha, wr_eq_ok _ hv, initialized, error_bind']

/-- What the working macros make: the path of `sp_path_samples`, the rounded path of `sp_path_times` and the envelopes, with
status success. -/
theorem C172_calls (fuel length pointCount : Nat) (scalar : ℚ) (x y : Buf ℚ) (c : Option (Buf ℚ)) :
    (∀ out, pathSamples fuel length pointCount x y c = .ok out →
      callPathSamples fuel length pointCount x y c = .ok (some 0, .samples out)) ∧
    (∀ out, pathTimes fuel length pointCount x y c = .ok out →
      callPathTimes fuel length pointCount x y c = .ok (some 0, .times out)) ∧
    (∀ out, envelopeZero fuel length pointCount x y c = .ok out →
      callEnvelopeZero fuel length pointCount x y c = .ok (some 0, .samples out)) ∧
    (∀ out, envelopeScaled fuel length pointCount scalar x y c = .ok out →
      callEnvelopeScaled fuel length pointCount scalar x y c = .ok (some 0, .times out)) := by
  refine ⟨?_, ?_, ?_, ?_⟩ <;> intro out h <;>
    simp [callPathSamples, callPathTimes, callEnvelopeZero, callEnvelopeScaled, samplesResult, timesResult, h]

/-- **C172 is false for the envelopes** with three or more points: for all arguments, variables and events, using the macro is undefined, because the
arrays of the points in `sp_envelope_zero` and `sp_envelope_scaled` have indeterminate elements or are read outside of their bounds. -/
theorem C172_envelopes_false {fuel length pointCount : Nat} (h3 : 3 ≤ pointCount) (scalar : ℚ) (x y : Buf ℚ) (c : Option (Buf ℚ)) {u : EventPath}
    (hu : u.path = callEnvelopeZero fuel length pointCount x y c ∨ u.path = callEnvelopeScaled fuel length pointCount scalar x y c)
    (vars : Buf (Option Nat)) (e : MemEvent) (m : Live) : ∃ f, eventPath u vars e m = .error f := by
  have key : ∀ r, u.path ≠ .ok r := by
    intro r hr
    rcases hu with hu | hu <;> rw [hu] at hr
    · unfold callEnvelopeZero samplesResult at hr
      simp only [bind_eq_ok] at hr
      obtain ⟨_, ⟨out, ho, _⟩, _⟩ := hr
      exact C76_envelope_zero_false h3 x y c out ho
    · unfold callEnvelopeScaled timesResult at hr
      simp only [bind_eq_ok] at hr
      obtain ⟨_, ⟨out, ho, _⟩, _⟩ := hr
      exact C90_envelope_scaled_false h3 scalar x y c out ho
  unfold eventPath
  cases hp : u.path with
  | ok r => exact absurd hp (key r)
  | error f => exact ⟨f, rfl⟩

/-- **C172 is false when an allocation fails**, for every length above zero: when the variable has not been set, `sp_path_samples` writes the path to
what the variable happens to contain. `sp_path_times` does the same for its own variable whichever of its two allocations fails. -/
theorem C172_allocation_false (register : Bool) {length : Nat} (hl : 0 < length) (i : Nat) (vars : Buf (Option Nat)) (e : MemEvent) (m : Live) :
    (vars[i]? = some none → eventPathSamplesAlloc false register length i vars e m = .error .uninitialized) ∧
    ∀ ok ok2, (ok = false ∨ ok2 = false) → eventPathTimesAlloc ok ok2 register length i vars e m = .error .uninitialized := by
  have hl' : length ≠ 0 := by omega
  refine ⟨fun h => ?_, fun ok ok2 h => ?_⟩
  · simp [eventPathSamplesAlloc, pathSamplesAlloc, helperMalloc, sphHelperStatusIdMemory, rd_ok_iff.2 h, writeThrough, hl', initialized]
  · cases ok
    · simp [eventPathTimesAlloc, pathTimesAlloc, pathSamplesAlloc, helperMalloc, sphHelperStatusIdMemory, rd, writeThrough, hl', initialized]
    · obtain rfl : ok2 = false := by simpa using h
      simp [eventPathTimesAlloc, pathTimesAlloc, pathSamplesAlloc, helperMalloc, sphHelperStatusIdMemory, rd, wr, writeThrough, hl', initialized,
        Live.malloc]

/-- **C172 is false when an allocation fails** and the variable has been used before, for every event without event memory: both macros return success,
the second path is written over the first, its address is registered twice, and freeing the event memory frees it twice. -/
theorem C172_double_free {e : MemEvent} (he : e.memory.data = none) (m : Live) (old : Option Nat) (length length2 : Nat) :
    ∃ vars1 e1 m1, eventPathSamplesAlloc true true length 0 [old] e m = .ok (0, vars1, e1, m1) ∧
      ∃ e2, eventPathSamplesAlloc false true length2 0 vars1 e1 m1 = .ok (0, vars1, e2, m1) ∧ eventRelease e2 m1 = .error .doubleFree := by
  obtain ⟨⟨d, s, u⟩, f⟩ := e
  simp only at he
  subst he
  refine ⟨[some m.malloc.1], ⟨⟨some [some ⟨m.malloc.1, 0⟩, none, none, none], 4, 1⟩, true⟩, m.malloc.2, ?_,
    ⟨⟨some [some ⟨m.malloc.1, 0⟩, some ⟨m.malloc.1, 0⟩, none, none], 4, 2⟩, true⟩, ?_, ?_⟩
  · by_cases h : length = 0 <;>
      simp [eventPathSamplesAlloc, pathSamplesAlloc, helperMalloc, rd, wr, writeThrough, h, initialized, Live.malloc, memoryAdd, memNew, memArrayAdd]
  · by_cases h : length2 = 0 <;>
      simp [eventPathSamplesAlloc, pathSamplesAlloc, helperMalloc, sphHelperStatusIdMemory, rd, wr, writeThrough, h, initialized, Live.malloc,
        memoryAdd, memArrayAdd]
  · simp [eventRelease, memoryFree, forRange, iter, rd, initialized, freeEach, Live.free, Live.malloc]

/-- When the allocations succeed the macros are those of `C172_paths_partial`: the same variables, event and memory. -/
theorem C172_allocation_agrees (register : Bool) {i : Nat} {vars : Buf (Option Nat)} (hi : i < vars.length) (e : MemEvent) (m : Live) :
    (∀ values : Buf ℚ, eventPathSamplesAlloc true register values.length i vars e m =
      (eventPath ⟨i, .ok (some 0, .samples values), register⟩ vars e m).map fun r => (r.1, r.2.2)) ∧
    (∀ values : Buf Nat, eventPathTimesAlloc true true register values.length i vars e m =
      (eventPath ⟨i, .ok (some 0, .times values), register⟩ vars e m).map fun r => (r.1, r.2.2)) := by
  have key : ∀ (n : Nat) (a : Nat) (m' : Live), m'.live a = true → writeThrough (some a) n m' = .ok () := by
    intro n a m' h
    unfold writeThrough
    split
    · rfl
    · simp [initialized, h]
  refine ⟨fun values => ?_, fun values => ?_⟩
  · unfold eventPathSamplesAlloc pathSamplesAlloc helperMalloc eventPath pathMemory pathSamplesMemory
    simp only [if_true, wr_eq_ok _ hi, ok_bind', pure_eq_ok, ne_eq, not_true_eq_false, if_false]
    rw [rd_eq_ok (by simpa using hi)]
    simp only [List.getElem_set_self, ok_bind']
    rw [key _ _ _ (by simp [Live.malloc])]
    simp only [ok_bind', initialized, ne_eq, not_true_eq_false, if_false]
    rw [rd_eq_ok (by simpa using hi)]
    simp only [List.getElem_set_self, ok_bind', initialized]
    cases memoryAdd register ⟨m.malloc.1, 0⟩ e <;> rfl
  · unfold eventPathTimesAlloc pathTimesAlloc pathSamplesAlloc helperMalloc eventPath pathMemory pathTimesMemory pathSamplesMemory
    simp only [if_true, ok_bind', pure_eq_ok, ne_eq, not_true_eq_false, if_false, wr, rd, List.length_cons, List.length_nil,
      Nat.zero_add, Nat.zero_lt_one, dite_true, List.set_cons_zero, List.getElem?_cons_zero]
    rw [key _ _ _ (by simp [Live.malloc])]
    simp only [ok_bind']
    rw [key _ _ _ (by simp [Live.malloc])]
    have h0 : ([some m.malloc.1] : List (Option Nat))[0]? = some (some m.malloc.1) := rfl
    simp only [ok_bind', initialized, hi, if_true, h0]
    generalize m.malloc.2.malloc.2.free (some m.malloc.1) = r
    cases r with
    | error f => rfl
    | ok m' =>
      simp only [ok_bind', not_true_eq_false, if_false, List.getElem?_set_self hi]
      cases memoryAdd register ⟨m.malloc.2.malloc.1, 0⟩ e <;> rfl

/-- Two paths of samples and one of times between them, while address 0 is in use: the times path has its samples at
address 2 for a while. All is released with the event. -/
example :
    (match eventPaths [⟨0, callPathSamples 0 4 2 [] [0, 4] none, true⟩, ⟨1, callPathTimes 0 4 2 [] [0, 2] none, true⟩,
        ⟨0, callPathSamples 0 3 2 [] [6, 0] none, true⟩] [none, none, none]
        ⟨⟨none, 0, 0⟩, false⟩ ⟨1, fun a => a = 0⟩ with
      | .ok (st, blocks, vars, e, m) => (st, blocks, vars, (List.range 6).map m.live, match eventRelease e m with
        | .ok (_, m) => (List.range 6).map m.live
        | .error _ => [])
      | .error _ => (1, [], [], [], [])) =
    (0, [(1, .samples [0, 1, 2, 3]), (3, .times [0, 1, 1, 2]), (4, .samples [6, 4, 2])], [some 4, some 3, none],
      [true, true, false, true, true, false], [true, false, false, false, false, false]) := by
  decide +kernel

/-- A path with three points is calculated, but the macro for it does not work. -/
example (e : MemEvent) :
    samplesResult (pathSamples3 0 4 2 0 4 0) = .ok (none, .samples [0, 2, 4, 2]) ∧
    eventPath ⟨0, samplesResult (pathSamples3 0 4 2 0 4 0), true⟩ [none] e ⟨0, fun _ => false⟩ = .error .uninitialized := by
  have h : samplesResult (pathSamples3 0 4 2 0 4 0) = .ok (none, .samples [0, 2, 4, 2]) := by decide +kernel
  exact ⟨h, C172_fixed_false (.samples3 0 4 2 0 4 0) _ (by simp) e (fun a h => by cases h) _ h⟩

end Sp
