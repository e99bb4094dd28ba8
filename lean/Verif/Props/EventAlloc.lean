import Verif.Model.EventAlloc
import Verif.Lemmas.Noise
import Verif.Props.EventMemory
import Verif.Props.PathMemory

/-!
# C131: memory that is allocated with the macros for events
-/

set_option linter.unusedSectionVars false

namespace Sp

/-- Every variable that is used exists. -/
def UsesVars (xs : List EventAlloc) (vars : Buf (Option Nat)) : Prop := ∀ x ∈ xs, x.var < vars.length

/-- Allocating the memory itself succeeds. Enlarging the register can fail. -/
def MallocSucceeds (xs : List EventAlloc) : Prop := ∀ x ∈ xs, x.malloc = true

theorem eventAllocs_inv (xs : List EventAlloc) (hm : MallocSucceeds xs) {vars : Buf (Option Nat)} (hv : UsesVars xs vars)
    {e : MemEvent} {addrs : List Nat} {m : Live} (hi : MemInv e (addrs.map (⟨·, 0⟩))) (hu : m.Unused)
    (hnd : addrs.Nodup) (hl : ∀ a ∈ addrs, m.live a = true) :
    ∃ st vars' e' m' more, eventAllocs xs vars e m = .ok (st, vars', e', m') ∧
      MemInv e' ((addrs ++ more).map (⟨·, 0⟩)) ∧ (addrs ++ more).Nodup ∧ (∀ a ∈ more, m.live a = false) ∧
      ((∀ x ∈ xs, x.register = true) → st = 0) ∧
      (e.hasFree = true → e'.hasFree = true) ∧ (e.memory.data = none → more ≠ [] → e'.hasFree = true) ∧
      ((st = 0 ∧ more.length = xs.length ∧ ∀ a, m'.live a = (m.live a || decide (a ∈ more))) ∨
        (st ≠ 0 ∧ ∃ x, m.live x = false ∧ x ∉ more ∧ some x ∈ vars' ∧
          ∀ a, m'.live a = (m.live a || decide (a ∈ more) || decide (a = x)))) := by
  induction xs generalizing vars e addrs m with
  | nil =>
    refine ⟨0, vars, e, m, [], rfl, by simpa using hi, by simpa using hnd, by simp, fun _ => rfl,
      id, fun _ h => absurd rfl h, .inl ⟨rfl, rfl, by simp⟩⟩
  | cons x xs ih =>
    have hx : x.var < vars.length := hv x (by simp)
    have hxm : x.malloc = true := hm x (by simp)
    have hnl : m.live m.next = false := by
      by_contra h
      have := hu m.next (by simpa using h)
      omega
    have hna : m.next ∉ addrs := fun h => by rw [hl _ h] at hnl; cases hnl
    have e1 : eventAlloc x vars e m = (memoryAdd x.register ⟨m.next, 0⟩ e >>= fun p =>
        (.ok (p.1, vars.set x.var (some m.next), p.2, m.malloc.2) : C _)) := by
      unfold eventAlloc helperMalloc
      rw [if_pos hxm]
      simp only [Live.malloc, wr_eq_ok _ hx, ok_bind', pure_eq_ok, ne_eq, not_true_eq_false, if_false]
      rw [rd_eq_ok (by rw [List.length_set]; exact hx)]
      simp only [ok_bind', List.getElem_set_self, initialized]
    obtain ⟨st, e', q, hq⟩ := memoryAdd_inv hi x.register ⟨m.next, 0⟩
    unfold eventAllocs
    rw [e1, q]
    simp only [ok_bind']
    rcases hq with ⟨rfl, q1, _, q3, q4, q5⟩ | ⟨hne, hf, rfl⟩
    · rw [if_neg (by simp)]
      have hu' : m.malloc.2.Unused := by
        intro a ha
        simp only [Live.malloc] at ha ⊢
        by_cases h : a = m.next
        · omega
        · rw [if_neg h] at ha
          have := hu a ha
          omega
      have hl' : ∀ a ∈ addrs ++ [m.next], m.malloc.2.live a = true := by
        intro a ha
        simp only [Live.malloc]
        by_cases h : a = m.next
        · rw [if_pos h]
        · rw [if_neg h]
          simp only [List.mem_append, List.mem_singleton, h, or_false] at ha
          exact hl a ha
      have hnd' : (addrs ++ [m.next]).Nodup := by
        rw [nodup_append_disjoint]
        refine ⟨hnd, by simp, fun y hy h => ?_⟩
        simp only [List.mem_singleton] at h
        exact hna (h ▸ hy)
      obtain ⟨st, vars', e2, m2, more, r1, r2, r3, r4, r5, r6, _, r7⟩ := ih (fun y hy => hm y (by simp [hy]))
        (vars := vars.set x.var (some m.next)) (fun y hy => by rw [List.length_set]; exact hv y (by simp [hy]))
        (by rw [List.map_append]; exact q1) hu' hnd' hl'
      have hlive : ∀ a, m.malloc.2.live a = (m.live a || decide (a = m.next)) := by
        intro a
        simp only [Live.malloc]
        by_cases h : a = m.next <;> simp [h]
      refine ⟨st, vars', e2, m2, m.next :: more, r1, by simpa using r2, by simpa using r3, ?_, fun h => r5 fun y hy => h y (by simp [hy]),
        fun h => r6 (q5 h), ?_, ?_⟩
      · intro a ha
        rcases List.mem_cons.1 ha with rfl | ha
        · exact hnl
        · have := r4 a ha
          rw [hlive] at this
          simp only [Bool.or_eq_false_iff] at this
          exact this.1
      · exact fun h _ => r6 (q3 h)
      · rcases r7 with ⟨r7, r8, r9⟩ | ⟨r7, y, r8, r9, r10, r11⟩
        · refine .inl ⟨r7, by simp [r8], fun a => ?_⟩
          rw [r9, hlive]
          by_cases h : a = m.next <;> simp [h]
        · rw [hlive] at r8
          simp only [Bool.or_eq_false_iff, decide_eq_false_iff_not] at r8
          refine .inr ⟨r7, y, r8.1, by simp [r8.2, r9], r10, fun a => ?_⟩
          rw [r11, hlive]
          by_cases h : a = m.next <;> simp [h]
    · rw [if_pos hne]
      refine ⟨st, _, e', _, [], rfl, by simpa using hi, by simpa using hnd, by simp, ?_, id, fun _ h => absurd rfl h, ?_⟩
      · intro h
        rw [h x (by simp)] at hf
        cases hf
      · refine .inr ⟨hne, m.next, hnl, by simp, List.mem_set hx _, fun a => ?_⟩
        simp only [Live.malloc]
        by_cases h : a = m.next <;> simp [h]

/-- Freeing an event that has allocated: the registered addresses are freed. -/
theorem eventRelease_eq {e : MemEvent} {addrs : List Nat} {m : Live} (hi : MemInv e (addrs.map (⟨·, 0⟩)))
    (hnd : addrs.Nodup) (hl : ∀ a ∈ addrs, m.live a = true) :
    eventRelease e m = .ok ({ e with memory := { e.memory with data := none } },
      ⟨m.next, fun a => if a ∈ addrs then false else m.live a⟩) := by
  have h1 : (addrs.map (fun a => some (MemReg.address ⟨a, 0⟩))).filterMap id = addrs := by
    simp [List.filterMap_map]
  have h2 := freeEach_eq (addrs.map fun a => some (MemReg.address ⟨a, 0⟩)) m (by rw [h1]; exact hnd) (by rw [h1]; exact hl)
  rw [h1] at h2
  unfold eventRelease
  rw [memoryFree_inv hi]
  simp only [ok_bind', List.map_map, Function.comp_def]
  simp only at h2
  rw [h2]
  rfl

/-- **C131.** A function that allocates any number of times with the macros for events, for an event that has no event
memory yet, where allocating the memory succeeds: if the function returns success then freeing the event memory releases
exactly what was allocated, and the event has a free function that does it if something was allocated. If enlarging the
register always succeeds then the function returns success.
Missing for the full property: failures of the register, see `C131_leak`, and of the allocations, see
`C131_double_free` and `C131_uninitialized`. -/
theorem C131_released_partial (xs : List EventAlloc) (hm : MallocSucceeds xs) {vars : Buf (Option Nat)} (hv : UsesVars xs vars)
    {e : MemEvent} (he : e.memory.data = none) {m : Live} (hu : m.Unused) :
    ∃ st vars' e' m', eventAllocs xs vars e m = .ok (st, vars', e', m') ∧
      ((∀ x ∈ xs, x.register = true) → st = 0) ∧
      (st = 0 → (xs ≠ [] → e'.hasFree = true) ∧
        (∃ more : List Nat, more.Nodup ∧ more.length = xs.length ∧ (∀ a ∈ more, m.live a = false) ∧
          ∀ a, m'.live a = true ↔ m.live a = true ∨ a ∈ more) ∧
        ∃ e'' m'', eventRelease e' m' = .ok (e'', m'') ∧ e''.memory.data = none ∧ m''.live = m.live) := by
  obtain ⟨st, vars', e', m', more, r1, r2, r3, r4, r5, _, r6, r7⟩ := eventAllocs_inv xs hm hv (addrs := []) (.inl ⟨he, rfl⟩) hu
    (by simp) (by simp)
  rw [List.nil_append] at r2 r3
  refine ⟨st, vars', e', m', r1, r5, fun hst => ?_⟩
  rcases r7 with ⟨_, r7, r8⟩ | ⟨h, _⟩
  · refine ⟨fun hne => r6 he fun h => hne ?_, ⟨more, r3, r7, r4, fun a => ?_⟩, _, _,
      eventRelease_eq r2 r3 (fun a ha => by rw [r8]; simp [ha]), rfl, ?_⟩
    · rw [h] at r7
      exact List.length_eq_zero_iff.1 r7.symm
    · rw [r8, Bool.or_eq_true, decide_eq_true_eq]
    · funext a
      simp only
      by_cases ha : a ∈ more
      · rw [if_pos ha, r4 a ha]
      · rw [if_neg ha, r8]; simp [ha]
  · exact absurd hst h

/-- **C131 is false when the register cannot be enlarged**: for every function as above that returns failure, exactly one
allocation remains after freeing the event memory. It is one that a variable of the function has the address of, but the
macro has left the function. -/
theorem C131_leak (xs : List EventAlloc) (hm : MallocSucceeds xs) {vars : Buf (Option Nat)} (hv : UsesVars xs vars)
    {e : MemEvent} (he : e.memory.data = none) {m : Live} (hu : m.Unused) {st : Nat} {vars' : Buf (Option Nat)} {e' : MemEvent}
    {m' : Live} (hr : eventAllocs xs vars e m = .ok (st, vars', e', m')) (hst : st ≠ 0) :
    ∃ x e'' m'', eventRelease e' m' = .ok (e'', m'') ∧ m.live x = false ∧ some x ∈ vars' ∧
      ∀ a, m''.live a = true ↔ m.live a = true ∨ a = x := by
  obtain ⟨st2, vars2, e2, m2, more, r1, r2, r3, r4, r5, _, r6, r7⟩ := eventAllocs_inv xs hm hv (addrs := []) (.inl ⟨he, rfl⟩) hu
    (by simp) (by simp)
  rw [List.nil_append] at r2 r3
  rw [hr] at r1
  simp only [Except.ok.injEq, Prod.mk.injEq] at r1
  obtain ⟨rfl, rfl, rfl, rfl⟩ := r1
  rcases r7 with ⟨h, _⟩ | ⟨_, x, h1, h2, h3, h4⟩
  · exact absurd h hst
  · refine ⟨x, _, _, eventRelease_eq r2 r3 (fun a ha => by rw [h4]; simp [ha]), h1, h3, fun a => ?_⟩
    simp only
    by_cases ha : a ∈ more
    · rw [if_pos ha]
      have := r4 a ha
      refine ⟨fun h => (by cases h), fun h => ?_⟩
      rcases h with h | h
      · rw [this] at h; cases h
      · exact absurd (h ▸ ha) h2
    · rw [if_neg ha, h4]
      simp [ha]

/-- **C131 is false when an allocation fails**: the failure is not noticed, and when the variable has been used before, its
old address is registered a second time. Freeing the event memory then frees it twice. For every address and event
without event memory. -/
theorem C131_double_free {e : MemEvent} (he : e.memory.data = none) (m : Live) (old : Option Nat) :
    ∃ vars' e' m', eventAllocs [⟨0, true, true⟩, ⟨0, false, true⟩] [old] e m = .ok (0, vars', e', m') ∧
      eventRelease e' m' = .error .doubleFree := by
  obtain ⟨⟨d, s, u⟩, f⟩ := e
  simp only at he
  subst he
  refine ⟨_, _, _, rfl, ?_⟩
  simp [eventRelease, memoryFree, forRange, iter, rd, initialized, freeEach, Live.free, Live.malloc]

/-- **C131 is false when an allocation fails**, if the variable has not been set before: what the variable happens to
contain is registered, to be freed later. -/
theorem C131_uninitialized (x : EventAlloc) (hx : x.malloc = false) {vars : Buf (Option Nat)} (hv : vars[x.var]? = some none)
    (e : MemEvent) (m : Live) : eventAlloc x vars e m = .error .uninitialized := by
  unfold eventAlloc helperMalloc
  rw [hx]
  simp [sphHelperStatusIdMemory, rd_ok_iff.2 hv, initialized]

/-- Five allocations with two variables while address 0 is in use. The fifth enlarges the register: if that succeeds all is
released, if it fails address 5 remains. -/
example (ok : Bool) :
    Live.Unused ⟨1, fun a => a = 0⟩ ∧
    (match eventAllocs [⟨0, true, true⟩, ⟨1, true, true⟩, ⟨0, true, true⟩, ⟨0, true, true⟩, ⟨1, true, ok⟩] [none, none]
        ⟨⟨none, 0, 0⟩, false⟩ ⟨1, fun a => a = 0⟩ with
      | .ok (st, vars, e, m) => (st, vars, (List.range 7).map m.live, match eventRelease e m with
        | .ok (_, m) => (List.range 7).map m.live
        | .error _ => [])
      | .error _ => (0, [], [], [])) =
    (if ok then 0 else 8, [some 4, some 5], [true, true, true, true, true, true, false],
      [true, false, false, false, false, !ok, false]) := by
  refine ⟨fun a h => ?_, by cases ok <;> decide +kernel⟩
  simp only [decide_eq_true_eq] at h
  subst h
  decide

end Sp
