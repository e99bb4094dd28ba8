import Verif.Model.EventMemory
import Verif.Lemmas.SeqTrace

/-!
# C31: event memory
-/

set_option linter.unusedSectionVars false

namespace Sp

/-- What has been registered by calls that returned success. -/
def registered : List MemOp → List Nat → List MemReg
  | .add _ r :: ops, st :: sts => (if st = 0 then [r] else []) ++ registered ops sts
  | .fixedAdd r :: ops, st :: sts => (if st = 0 then [r] else []) ++ registered ops sts
  | .ensure _ _ :: ops, _ :: sts => registered ops sts
  | _, _ => []

/-- The calls respect the documented use of `sp_event_memory_fixed_add`: it is only used with room
left from a successful `sp_event_memory_ensure` (`room` counts how many more are allowed), and
something is ensured when `sp_event_memory_ensure` is called. -/
def RespectsEnsured : Nat → List MemOp → Prop
  | _, [] => True
  | room, .add alloc _ :: ops => alloc = true ∧ RespectsEnsured (room - 1) ops
  | room, .ensure alloc n :: ops => alloc = true ∧ 0 < n ∧ RespectsEnsured (max room n) ops
  | room, .fixedAdd _ :: ops => 0 < room ∧ RespectsEnsured (room - 1) ops

/-- Every size passed to `sp_event_memory_ensure` is at least one. -/
def EnsuresSome (ops : List MemOp) : Prop := ∀ alloc n, MemOp.ensure alloc n ∈ ops → 0 < n

/-- The register holds exactly `regs`, and has room for more. -/
def MemInv (e : MemEvent) (regs : List MemReg) : Prop :=
  (e.memory.data = none ∧ regs = []) ∨
  ∃ b, e.memory.data = some b ∧ b.length = e.memory.size ∧ e.memory.used = regs.length ∧
    regs.length ≤ e.memory.size ∧ 0 < e.memory.size ∧ ∀ i (h : i < regs.length), b[i]? = some (some regs[i])

/-- The room in the register. -/
def MemEvent.room (e : MemEvent) : Nat :=
  match e.memory.data with
  | none => 0
  | some _ => e.memory.size - e.memory.used

theorem MemInv.room_pos {e : MemEvent} {regs : List MemReg} {b : Buf (Option MemReg)}
    (hd : e.memory.data = some b) (h : MemInv e regs) :
    b.length = e.memory.size ∧ e.memory.used = regs.length ∧ regs.length ≤ e.memory.size ∧
      0 < e.memory.size ∧ ∀ i (h : i < regs.length), b[i]? = some (some regs[i]) := by
  rcases h with ⟨h, _⟩ | ⟨b', h1, h2⟩
  · rw [hd] at h; simp at h
  · rw [hd] at h1
    cases h1
    exact h2

theorem memArrayAdd_inv {b : Buf (Option MemReg)} {size : Nat} {regs : List MemReg} (r : MemReg)
    (h1 : b.length = size) (h2 : regs.length < size)
    (h3 : ∀ i (h : i < regs.length), b[i]? = some (some regs[i])) :
    ∃ b', memArrayAdd ⟨some b, size, regs.length⟩ r = .ok ⟨some b', size, regs.length + 1⟩ ∧
      b'.length = size ∧ ∀ i (h : i < (regs ++ [r]).length), b'[i]? = some (some (regs ++ [r])[i]) := by
  refine ⟨b.set regs.length (some r), ?_, by simp [h1], ?_⟩
  · unfold memArrayAdd
    simp only
    rw [wr_eq_ok _ (by omega), ok_bind']
    rfl
  · intro i hi
    simp only [List.length_append, List.length_singleton] at hi
    rw [List.getElem?_set]
    by_cases hir : regs.length = i
    · subst hir
      rw [if_pos rfl, if_pos (by omega)]
      simp
    · rw [if_neg hir, h3 i (by omega)]
      rw [List.getElem_append_left (by omega)]

theorem memoryAdd_inv {e : MemEvent} {regs : List MemReg} (h : MemInv e regs) (alloc : Bool) (r : MemReg) :
    ∃ st e', memoryAdd alloc r e = .ok (st, e') ∧
      ((st = 0 ∧ MemInv e' (regs ++ [r]) ∧ e.room - 1 ≤ e'.room ∧ (e.memory.data = none → e'.hasFree = true) ∧
        e'.memory.data ≠ none ∧ (e.hasFree = true → e'.hasFree = true)) ∨
      (st ≠ 0 ∧ alloc = false ∧ e' = e)) := by
  unfold memoryAdd
  split
  · next b hd =>
    obtain ⟨h1, h2, h3, h4, h5⟩ := h.room_pos hd
    split
    · next hfull =>
      unfold memResize
      cases alloc with
      | false => exact ⟨_, _, rfl, .inr ⟨by simp [memoryStatus], rfl, rfl⟩⟩
      | true =>
        rw [if_pos rfl]
        simp only
        have hmin : min (2 * e.memory.size) e.memory.used = regs.length := by omega
        rw [hmin]
        obtain ⟨b', e1, e2, e3⟩ := memArrayAdd_inv (size := 2 * e.memory.size) (regs := regs) r
          (b := b.take (2 * e.memory.size) ++ List.replicate (2 * e.memory.size - b.length) none)
          (by simp; omega) (by omega) (by
            intro i hi
            rw [List.getElem?_append_left (by simp; omega), List.getElem?_take, if_pos (by omega)]
            exact h5 i hi)
        rw [e1]
        refine ⟨0, _, rfl, .inl ⟨rfl, .inr ⟨b', rfl, e2, ?_, ?_, ?_, e3⟩, ?_, ?_, by simp, fun h => h⟩⟩
        · simp
        · simp only [List.length_append, List.length_singleton]; omega
        · simp only; omega
        · simp only [MemEvent.room, hd]; omega
        · rw [hd]; simp
    · next hfull =>
      obtain ⟨b', e1, e2, e3⟩ := memArrayAdd_inv (size := e.memory.size) (regs := regs) r h1 (by omega) h5
      have hm : e.memory = ⟨some b, e.memory.size, regs.length⟩ := by
        rw [← hd, ← h2]
      rw [hm, e1]
      refine ⟨0, _, rfl, .inl ⟨rfl, .inr ⟨b', rfl, e2, ?_, ?_, ?_, e3⟩, ?_, ?_, by simp, fun h => h⟩⟩
      · simp
      · simp only [List.length_append, List.length_singleton]; omega
      · exact h4
      · simp only [MemEvent.room, hd]; omega
      · simp
  · next hd =>
    have hr : regs = [] := by
      rcases h with ⟨_, h⟩ | ⟨b, h, _⟩
      · exact h
      · rw [hd] at h; simp at h
    subst hr
    unfold memNew
    cases alloc with
    | false => exact ⟨_, _, rfl, .inr ⟨by simp [memoryStatus], rfl, rfl⟩⟩
    | true =>
      obtain ⟨b', e1, e2, e3⟩ := memArrayAdd_inv (size := 4) (regs := []) r (b := List.replicate 4 none)
        (by simp) (by simp) (by simp)
      rw [if_pos rfl]
      simp only
      rw [show (0 : Nat) = ([] : List MemReg).length by rfl, e1]
      refine ⟨0, _, rfl, .inl ⟨rfl, .inr ⟨b', rfl, e2, rfl, by simp, by simp, e3⟩, ?_, fun _ => rfl, by simp,
        fun _ => rfl⟩⟩
      simp [MemEvent.room, hd]

theorem memoryEnsure_inv {e : MemEvent} {regs : List MemReg} (h : MemInv e regs) (alloc : Bool) {n : Nat}
    (hn : 0 < n) :
    ∃ st e', memoryEnsure alloc n e = .ok (st, e') ∧ MemInv e' regs ∧
      (st = 0 → max e.room n ≤ e'.room ∧ e'.memory.data ≠ none) ∧ (alloc = true → st = 0) ∧
      (e.memory.data ≠ none → e'.memory.data ≠ none) ∧ (e.hasFree = true → e'.hasFree = true) ∧
      (e.memory.data = none → e'.memory.data ≠ none → e'.hasFree = true) := by
  unfold memoryEnsure
  split
  · next b hd =>
    obtain ⟨h1, h2, h3, h4, h5⟩ := h.room_pos hd
    split
    · next hfull =>
      unfold memResize
      cases alloc with
      | false =>
        refine ⟨memoryStatus, e, rfl, h, ?_, by simp, fun h => h, fun h => h, fun h h' => absurd h h'⟩
        simp [memoryStatus]
      | true =>
        rw [if_pos rfl]
        simp only
        refine ⟨0, _, rfl, .inr ⟨_, rfl, ?_, ?_, ?_, ?_, ?_⟩, fun _ => ⟨?_, by simp⟩, fun _ => rfl, by simp,
          fun h => h, by rw [hd]; simp⟩
        · simp only [List.length_append, List.length_take, List.length_replicate]; omega
        · simp only; omega
        · simp only; omega
        · simp only; omega
        · intro i hi
          rw [List.getElem?_append_left (by simp; omega), List.getElem?_take, if_pos (by omega)]
          exact h5 i hi
        · simp only [MemEvent.room, hd]; omega
    · next hfull =>
      refine ⟨0, e, rfl, h, fun _ => ⟨?_, by rw [hd]; simp⟩, fun _ => rfl, fun h => h, fun h => h,
        fun h h' => absurd h h'⟩
      simp only [MemEvent.room, hd]; omega
  · next hd =>
    have hr : regs = [] := by
      rcases h with ⟨_, h⟩ | ⟨b, h, _⟩
      · exact h
      · rw [hd] at h; simp at h
    subst hr
    unfold memNew
    cases alloc with
    | false =>
      refine ⟨memoryStatus, e, rfl, h, ?_, by simp, fun h => h, fun h => h, fun h h' => absurd h h'⟩
      simp [memoryStatus]
    | true =>
      refine ⟨0, _, rfl, .inr ⟨_, rfl, ?_, ?_, ?_, ?_, ?_⟩, fun _ => ⟨?_, by simp⟩, fun _ => rfl, by simp,
        fun _ => rfl, fun _ _ => rfl⟩
      · simp
      · rfl
      · simp
      · exact hn
      · simp
      · simp [MemEvent.room, hd]

theorem memoryFree_inv {e : MemEvent} {regs : List MemReg} (h : MemInv e regs) :
    memoryFree e = .ok ({ e with memory := { e.memory with data := none } }, regs) := by
  rcases h with ⟨hd, rfl⟩ | ⟨b, hd, h1, h2, h3, h4, h5⟩
  · unfold memoryFree
    rw [hd]
    obtain ⟨⟨d, s, u⟩, f⟩ := e
    simp only at hd
    subst hd
    rfl
  · unfold memoryFree
    rw [hd]
    simp only
    have := forRange_states (St := fun i => regs.take i) (lo := 0) (hi := e.memory.used)
      (body := fun i calls => do
        let c ← rd b i
        let m ← initialized c
        return calls ++ [m]) (Nat.zero_le _) (by
          intro i _ hi
          have hi' : i < regs.length := by omega
          have : rd b i = .ok (some regs[i]) := rd_ok_iff.2 (h5 i hi')
          simp only [this, ok_bind', initialized]
          rw [List.take_add_one, List.getElem?_eq_getElem hi']
          rfl)
    rw [List.take_zero] at this
    rw [this, ok_bind', h2, List.take_length]
    rfl

/-- The state after calls that return: what is registered is what the calls that succeeded registered. -/
theorem memRun_inv {ops : List MemOp} (hsome : EnsuresSome ops) {e : MemEvent} {regs : List MemReg}
    (h : MemInv e regs) {sts : List Nat} {e' : MemEvent} (hr : memRun ops e = .ok (sts, e')) :
    MemInv e' (regs ++ registered ops sts) ∧ (e'.memory.data ≠ none → e.memory.data = none ∨ e.hasFree = true →
      e'.hasFree = true) := by
  induction ops generalizing e regs sts with
  | nil =>
    simp [memRun] at hr
    obtain ⟨rfl, rfl⟩ := hr
    refine ⟨by simpa [registered] using h, ?_⟩
    rintro h1 (h2 | h2)
    · exact absurd h2 h1
    · exact h2
  | cons op rest ih =>
    have hs' : EnsuresSome rest := fun a n hm => hsome a n (by simp [hm])
    unfold memRun at hr
    rw [bind_eq_ok] at hr
    obtain ⟨⟨st, e1⟩, h1, hr⟩ := hr
    simp only at hr
    rw [bind_eq_ok] at hr
    obtain ⟨⟨sts', e2⟩, h2, hr⟩ := hr
    simp only [pure_eq_ok, Except.ok.injEq, Prod.mk.injEq] at hr
    obtain ⟨rfl, rfl⟩ := hr
    cases op with
    | add alloc r =>
      obtain ⟨st0, e0, q, hq⟩ := memoryAdd_inv h alloc r
      simp only [MemOp.run] at h1
      rw [q] at h1
      simp only [Except.ok.injEq, Prod.mk.injEq] at h1
      obtain ⟨rfl, rfl⟩ := h1
      rcases hq with ⟨rfl, i1, i2, i3, i4, i5⟩ | ⟨hst, _, rfl⟩
      · have := ih hs' i1 h2
        refine ⟨by simpa [registered, List.append_assoc] using this.1, fun q1 q2 => this.2 q1 ?_⟩
        rcases q2 with q2 | q2
        · exact .inr (i3 q2)
        · exact .inr (i5 q2)
      · have := ih hs' h h2
        refine ⟨by simpa [registered, hst] using this.1, this.2⟩
    | ensure alloc n =>
      obtain ⟨st0, e0, q, i1, i2, i3, i4, i5, i6⟩ := memoryEnsure_inv h alloc (hsome alloc n (by simp))
      simp only [MemOp.run] at h1
      rw [q] at h1
      simp only [Except.ok.injEq, Prod.mk.injEq] at h1
      obtain ⟨rfl, rfl⟩ := h1
      have := ih hs' i1 h2
      refine ⟨by simpa [registered] using this.1, fun q1 q2 => this.2 q1 ?_⟩
      rcases q2 with q2 | q2
      · by_cases q3 : e0.memory.data = none
        · exact .inl q3
        · exact .inr (i6 q2 q3)
      · exact .inr (i5 q2)
    | fixedAdd r =>
      simp only [MemOp.run, memoryFixedAdd] at h1
      rw [bind_eq_ok] at h1
      obtain ⟨e3, h3, h1⟩ := h1
      simp only [pure_eq_ok, Except.ok.injEq, Prod.mk.injEq] at h1
      obtain ⟨rfl, rfl⟩ := h1
      rw [bind_eq_ok] at h3
      obtain ⟨m, h3, h4⟩ := h3
      simp only [pure_eq_ok, Except.ok.injEq] at h4
      subst h4
      rcases h with ⟨hd, _⟩ | ⟨b, hd, g1, g2, g3, g4, g5⟩
      · unfold memArrayAdd at h3; rw [hd] at h3; simp at h3
      · have hm : e.memory = ⟨some b, e.memory.size, regs.length⟩ := by rw [← hd, ← g2]
        have hroom : regs.length < e.memory.size := by
          by_contra hc
          unfold memArrayAdd at h3
          rw [hd] at h3
          simp only at h3
          unfold wr at h3
          rw [if_neg (by omega)] at h3
          simp at h3
        obtain ⟨b', e1, e2, e3⟩ := memArrayAdd_inv (size := e.memory.size) (regs := regs) r g1 hroom g5
        rw [hm, e1] at h3
        cases h3
        have := ih hs' (e := ⟨⟨some b', e.memory.size, regs.length + 1⟩, e.hasFree⟩) (regs := regs ++ [r]) (.inr ⟨b', rfl, e2, by simp, by simp; omega, g4, e3⟩) h2
        refine ⟨by simpa [registered, List.append_assoc] using this.1, fun q1 q2 => this.2 q1 ?_⟩
        rcases q2 with q2 | q2
        · rw [hd] at q2; simp at q2
        · exact .inr q2

/-- **C31.** For every sequence of calls on an event without event memory (allocations can fail, and
at least one element is ensured where something is ensured): after it, freeing calls the handler of
each successfully registered address exactly once, in order of registration; freeing again calls
nothing; and if there is something to free then the event has a free function.
Missing for the full property: `sp_event_memory_ensure` with size zero, see `C31_ensure_zero_undefined`. -/
theorem C31_handlers_once_partial (ops : List MemOp) (hsome : EnsuresSome ops) {e : MemEvent}
    (he : e.memory.data = none) {sts : List Nat} {e' : MemEvent} (hr : memRun ops e = .ok (sts, e')) :
    ∃ e'', memoryFree e' = .ok (e'', registered ops sts) ∧ memoryFree e'' = .ok (e'', []) ∧
      (registered ops sts ≠ [] → e'.hasFree = true) := by
  obtain ⟨h1, h2⟩ := memRun_inv hsome (regs := []) (.inl ⟨he, rfl⟩) hr
  rw [List.nil_append] at h1
  refine ⟨_, memoryFree_inv h1, rfl, fun hne => h2 ?_ (.inl he)⟩
  rcases h1 with ⟨_, h1⟩ | ⟨b, h1, _⟩
  · exact absurd h1 hne
  · rw [h1]; simp

/-- **C31, the register never overflows.** When the calls respect what was ensured and allocations
succeed, no call accesses memory outside the register and all succeed. -/
theorem C31_no_overflow_partial (ops : List MemOp) {e : MemEvent} (he : e.memory.data = none)
    (hrespect : RespectsEnsured 0 ops) :
    ∃ sts e', memRun ops e = .ok (sts, e') ∧ ∀ st ∈ sts, st = 0 := by
  have key : ∀ (ops : List MemOp) (room : Nat) (e : MemEvent) (regs : List MemReg), MemInv e regs →
      room ≤ e.room → RespectsEnsured room ops →
      ∃ sts e', memRun ops e = .ok (sts, e') ∧ ∀ st ∈ sts, st = 0 := by
    intro ops
    induction ops with
    | nil => exact fun _ e _ _ _ _ => ⟨[], e, rfl, by simp⟩
    | cons op rest ih =>
      intro room e regs hi hroom hres
      cases op with
      | add alloc r =>
        obtain ⟨rfl, hres⟩ := hres
        obtain ⟨st0, e0, q, hq⟩ := memoryAdd_inv hi true r
        rcases hq with ⟨rfl, i1, i2, _⟩ | ⟨_, h, _⟩
        · obtain ⟨sts, e', g1, g2⟩ := ih (room - 1) e0 _ i1 (by omega) hres
          refine ⟨0 :: sts, e', ?_, by simpa using g2⟩
          unfold memRun
          simp only [MemOp.run, q, ok_bind', g1]
          rfl
        · simp at h
      | ensure alloc n =>
        obtain ⟨rfl, hn, hres⟩ := hres
        obtain ⟨st0, e0, q, i1, i2, i3, _⟩ := memoryEnsure_inv hi true hn
        have hst := i3 rfl
        subst hst
        obtain ⟨sts, e', g1, g2⟩ := ih (max room n) e0 _ i1 (by have := (i2 rfl).1; omega) hres
        refine ⟨0 :: sts, e', ?_, by simpa using g2⟩
        unfold memRun
        simp only [MemOp.run, q, ok_bind', g1]
        rfl
      | fixedAdd r =>
        obtain ⟨hpos, hres⟩ := hres
        rcases hi with ⟨hd, _⟩ | ⟨b, hd, g1, g2, g3, g4, g5⟩
        · simp only [MemEvent.room, hd] at hroom; omega
        · simp only [MemEvent.room, hd] at hroom
          have hm : e.memory = ⟨some b, e.memory.size, regs.length⟩ := by rw [← hd, ← g2]
          obtain ⟨b', e1, e2, e3⟩ := memArrayAdd_inv (size := e.memory.size) (regs := regs) r g1 (by omega) g5
          obtain ⟨sts, e', k1, k2⟩ := ih (room - 1)
            { e with memory := ⟨some b', e.memory.size, regs.length + 1⟩ } (regs ++ [r])
            (.inr ⟨b', rfl, e2, by simp, by simp; omega, g4, e3⟩)
            (by simp only [MemEvent.room]; omega) hres
          refine ⟨0 :: sts, e', ?_, by simpa using k2⟩
          unfold memRun
          simp only [MemOp.run, memoryFixedAdd]
          rw [hm, e1]
          simp only [ok_bind', pure_eq_ok]
          rw [k1]
          rfl
  exact key ops 0 e [] (.inl ⟨he, rfl⟩) (Nat.zero_le _) hrespect

/-- **C31 fails for size zero**: after ensuring zero elements, the register has size zero and the next
registration doubles that to zero and writes outside the register. -/
theorem C31_ensure_zero_undefined (r : MemReg) (e : MemEvent) (he : e.memory.data = none) :
    memRun [.ensure true 0, .add true r] e = .error .outOfBounds := by
  simp [memRun, MemOp.run, memoryEnsure, he, memNew, memoryAdd, memResize, memArrayAdd, wr]

/-- Non-vacuity: growth from 4 to 8 with five additions, then two ensured ones. -/
example : ∃ sts e', memRun [.add true ⟨1, 0⟩, .add true ⟨2, 0⟩, .add true ⟨3, 7⟩, .add true ⟨4, 0⟩,
      .add true ⟨5, 0⟩, .ensure true 4, .fixedAdd ⟨6, 0⟩, .fixedAdd ⟨7, 0⟩] ⟨⟨none, 0, 0⟩, false⟩
      = .ok (sts, e') ∧ e'.memory.size = 9 ∧
    ∃ e'', memoryFree e' = .ok (e'', [⟨1, 0⟩, ⟨2, 0⟩, ⟨3, 7⟩, ⟨4, 0⟩, ⟨5, 0⟩, ⟨6, 0⟩, ⟨7, 0⟩]) :=
  ⟨_, _, rfl, rfl, _, rfl⟩

/-- An allocation that fails: the second registration is refused, the first one is still freed. -/
example : ∃ sts e', memRun [.ensure true 1, .add true ⟨1, 0⟩, .add false ⟨2, 0⟩] ⟨⟨none, 0, 0⟩, false⟩
      = .ok (sts, e') ∧ sts = [0, 0, 8] ∧ ∃ e'', memoryFree e' = .ok (e'', [⟨1, 0⟩]) := by
  have h : ∃ sts e', memRun [.ensure true 1, .add true ⟨1, 0⟩, .add false ⟨2, 0⟩] ⟨⟨none, 0, 0⟩, false⟩
      = .ok (sts, e') ∧ sts = [0, 0, 8] := ⟨_, _, rfl, rfl⟩
  obtain ⟨sts, e', h, hs⟩ := h
  obtain ⟨e'', h2, _⟩ := C31_handlers_once_partial _ (by intro a n; simp; omega) rfl h
  subst hs
  exact ⟨_, e', h, rfl, e'', h2⟩

example : RespectsEnsured 0 [.ensure true 2, .fixedAdd ⟨1, 0⟩, .add true ⟨3, 0⟩, .ensure true 2,
    .fixedAdd ⟨2, 0⟩, .fixedAdd ⟨4, 0⟩] := by simp [RespectsEnsured]

end Sp
