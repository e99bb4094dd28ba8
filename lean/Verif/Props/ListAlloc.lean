import Verif.Model.ListAlloc
import Verif.Props.Group
import Verif.Props.WaveDefaults

/-!
# C182: adding events and making configurations when allocations fail

`r` is what an allocation returns, `none` if it fails.
-/

set_option linter.unusedSectionVars false

namespace Sp
variable {D W E A : Type}

/-- **C182, adding an event.** With a list that is well-formed, the call returns exactly if the allocation succeeds; with success of the allocation the status is success and the
event has been added. A failing allocation is never reported: there is no call that returns a failure status. -/
theorem C182_list_add_iff (start : E → Nat) (r : Option Addr) (e : E) {h : Heap E} {head : Option Addr} {l : List (Addr × E)} {fuel : Nat} (hf : l.length ≤ fuel)
    (hl : WellFormed h head l) (hr : ∀ a, r = some a → h a = none) :
    ((∃ x, eventListAddAlloc start fuel r e h head = .ok x) ↔ r.isSome) ∧
    (∀ a, r = some a → ∃ h' head' l', eventListAddAlloc start fuel r e h head = .ok (0, h', head') ∧ WellFormed h' head' l' ∧ l'.Perm ((a, e) :: l)) ∧
    ∀ st h' head', eventListAddAlloc start fuel r e h head = .ok (st, h', head') → st = 0 := by
  cases r with
  | none =>
    have e0 : eventListAddAlloc start fuel none e h head = .error .uninitialized := rfl
    refine ⟨⟨fun ⟨x, hx⟩ => ?_, fun hx => by cases hx⟩, fun a ha => (by cases ha), fun st h' head' hx => ?_⟩
    · rw [e0] at hx
      cases hx
    · rw [e0] at hx
      cases hx
  | some a =>
    obtain ⟨h', head', e2, w2, s2⟩ := eventListAdd_spec start a e h (hr a rfl) head l fuel hf hl
    have e1 : eventListAddAlloc start fuel (some a) e h head = .ok (0, h', head') := by
      simp only [eventListAddAlloc, primitiveMalloc, ne_eq, not_true_eq_false, if_false, isSet, ok_bind', e2]
      rfl
    refine ⟨⟨fun _ => rfl, fun _ => ⟨_, e1⟩⟩, ?_, ?_⟩
    · intro b hb
      cases hb
      exact ⟨h', head', _, e1, w2, insertDesc_perm _ _ _⟩
    · intro st h1 head1 hx
      rw [e1] at hx
      exact (congrArg (fun x => x.1) (Except.ok.inj hx)).symm

/-- **C182, adding events one after the other.** A caller that stops at the first failure gets a result exactly if none of the allocations fails, and then all events
have been added. -/
theorem C182_list_add_each (start : E → Nat) {fuel : Nat} (es : List (Option Addr × E)) {h : Heap E} {head : Option Addr} {l : List (Addr × E)}
    (hf : l.length + es.length ≤ fuel) (hl : WellFormed h head l) (hr : ∀ x ∈ es, ∀ a, x.1 = some a → h a = none)
    (hn : (es.filterMap Prod.fst).Nodup) :
    ((∃ x, eventListAddEach start fuel es h head = .ok x) ↔ ∀ x ∈ es, x.1.isSome) ∧
    ∀ st h' head', eventListAddEach start fuel es h head = .ok (st, h', head') → st = 0 ∧ ∃ l' added, WellFormed h' head' l' ∧
      List.Forall₂ (fun x y => x.1 = some y.1 ∧ y.2 = x.2) es added ∧ l'.Perm (added ++ l) := by
  induction es generalizing h head l with
  | nil =>
    refine ⟨⟨fun _ x hx => absurd hx (by simp), fun _ => ⟨_, rfl⟩⟩, fun st h' head' hx => ?_⟩
    cases hx
    exact ⟨rfl, l, [], hl, .nil, .refl _⟩
  | cons x rest ih =>
    obtain ⟨r, e⟩ := x
    simp only [List.length_cons] at hf
    cases r with
    | none =>
      have e0 : eventListAddEach start fuel ((none, e) :: rest) h head = .error .uninitialized := rfl
      rw [e0]
      refine ⟨⟨fun ⟨x, hx⟩ => (by cases hx), fun hx => ?_⟩, fun st h' head' hx => (by cases hx)⟩
      have := hx (none, e) (by simp)
      cases this
    | some a =>
      have ha := hr (some a, e) (by simp) a rfl
      obtain ⟨h1, head1, e2, w2, s2⟩ := eventListAdd_spec start a e h ha head l fuel (by omega) hl
      have hp := insertDesc_perm start (a, e) l
      have e1 : eventListAddEach start fuel ((some a, e) :: rest) h head = eventListAddEach start fuel rest h1 head1 := by
        rw [eventListAddEach]
        simp only [eventListAddAlloc, primitiveMalloc, ne_eq, not_true_eq_false, if_false, isSet, ok_bind', e2]
        rfl
      have e3 : ((some a, e) :: rest).filterMap Prod.fst = a :: rest.filterMap Prod.fst := rfl
      rw [e3, List.nodup_cons] at hn
      obtain ⟨i1, i2⟩ := ih (h := h1) (head := head1) (l := insertDesc start (a, e) l) (by rw [hp.length_eq, List.length_cons]; omega) w2 (by
        intro x hx b hb
        have hb0 := hr x (by simp [hx]) b hb
        rw [s2 b]
        · exact hb0
        · simp only [List.mem_cons, not_or]
          exact ⟨fun hba => hn.1 (List.mem_filterMap.2 ⟨x, hx, hba ▸ hb⟩), hl.1.not_mem_of_none hb0⟩) hn.2
      rw [e1]
      refine ⟨i1.trans ⟨fun hx x hm => ?_, fun hx x hm => hx x (by simp [hm])⟩, fun st h' head' hx => ?_⟩
      · rcases List.mem_cons.1 hm with rfl | hm
        · rfl
        · exact hx x hm
      · obtain ⟨j1, l', added, j2, j3, j4⟩ := i2 st h' head' hx
        exact ⟨j1, l', (a, e) :: added, j2, .cons ⟨rfl, rfl⟩ j3, j4.trans ((List.Perm.append_left added hp).trans List.perm_middle)⟩

/-- **C182, groups.** If preparing the event succeeds and the allocation fails, then `sp_group_add` and `sp_group_append` go on with an address that has not been set. If preparing
fails, then they return its status and the group is as before, whatever the allocation would do. -/
theorem C182_group (cb : Callbacks D W) (fuel : Nat) {e : Event D} (g : Group D) {w : W} {st : Nat} {e' : Event D} {w' : W} {log : List Call}
    (hp : addPrepare cb 0 e w = .ok (st, e', w', log)) :
    (st = 0 → groupAddAlloc cb fuel none e g w = .error .uninitialized ∧ groupAppendAlloc cb fuel none e g w = .error .uninitialized) ∧
    (st ≠ 0 → ∀ r, groupAddAlloc cb fuel r e g w = .ok (st, g, w') ∧ groupAppendAlloc cb fuel r e g w = .ok (st, g, w')) := by
  constructor
  · rintro rfl
    constructor
    · rw [groupAddAlloc, hp, ok_bind']
      rfl
    · rw [groupAppendAlloc, hp, ok_bind']
      rfl
  · intro hs r
    constructor
    · rw [groupAddAlloc, hp, ok_bind']
      exact if_pos hs
    · rw [groupAppendAlloc, hp, ok_bind']
      exact if_pos hs

/-- **C182, groups without failures**: when the allocation succeeds, the calls are those of C24. -/
theorem C182_group_succeeds (cb : Callbacks D W) (fuel : Nat) (a : Addr) (e : Event D) (g : Group D) (w : W) :
    groupAddAlloc cb fuel (some a) e g w = groupAdd cb fuel a e g w ∧ groupAppendAlloc cb fuel (some a) e g w = groupAppend cb fuel a e g w := by
  have ha : ∀ e : Event D, eventListAddAlloc Event.start fuel (some a) e g.heap g.head =
      (eventListAdd Event.start fuel a e g.heap g.head).bind fun x => .ok (0, x.1, x.2) := fun e => by
    simp only [eventListAddAlloc, primitiveMalloc, ne_eq, not_true_eq_false, if_false, isSet, ok_bind']
    cases eventListAdd Event.start fuel a e g.heap g.head <;> rfl
  have hq : (do let (st, e, w, _) ← addPrepare cb 0 e w; (.ok (st, e, w) : C (Nat × Event D × W))) =
      (do let (st, e, w, _) ← addPrepare cb a e w; (.ok (st, e, w) : C (Nat × Event D × W))) := by
    unfold addPrepare prepareOptional
    split
    · split
      · cases cb.prepare e w with
        | error x => rfl
        | ok x =>
          rw [ok_bind', ok_bind']
          simp only
          split <;> rfl
      · rfl
    · rfl
  constructor
  · unfold groupAddAlloc groupAdd
    cases h0 : addPrepare cb 0 e w with
    | error x =>
      cases h1 : addPrepare cb a e w with
      | error y =>
        rw [h0, h1] at hq
        cases hq
        rfl
      | ok y =>
        rw [h0, h1] at hq
        cases hq
    | ok x =>
      cases h1 : addPrepare cb a e w with
      | error y =>
        rw [h0, h1] at hq
        cases hq
      | ok y =>
        rw [h0, h1] at hq
        obtain ⟨s1, e1, w1, g1⟩ := x
        obtain ⟨s2, e2, w2, g2⟩ := y
        have hq' : (s1, e1, w1) = (s2, e2, w2) := Except.ok.inj hq
        cases hq'
        rw [ok_bind', ok_bind']
        simp only [ha]
        split
        · rfl
        · cases eventListAdd Event.start fuel a e1 g.heap g.head <;> rfl
  · unfold groupAppendAlloc groupAppend
    cases h0 : addPrepare cb 0 e w with
    | error x =>
      cases h1 : addPrepare cb a e w with
      | error y =>
        rw [h0, h1] at hq
        cases hq
        rfl
      | ok y =>
        rw [h0, h1] at hq
        cases hq
    | ok x =>
      cases h1 : addPrepare cb a e w with
      | error y =>
        rw [h0, h1] at hq
        cases hq
      | ok y =>
        rw [h0, h1] at hq
        obtain ⟨s1, e1, w1, g1⟩ := x
        obtain ⟨s2, e2, w2, g2⟩ := y
        have hq' : (s1, e1, w1) = (s2, e2, w2) := Except.ok.inj hq
        cases hq'
        rw [ok_bind', ok_bind']
        simp only [ha]
        split
        · rfl
        · cases eventListAdd Event.start fuel a { e1 with start := u32 (e1.start + g.stop), stop := u32 (e1.stop + g.stop) } g.heap g.head <;> rfl

/-- Writing defaults to the first elements of an allocated array. -/
private theorem defaults_loop (defaults : A) {count : Nat} {a : Addr} {b : Buf A} (hc : count ≤ b.length) {m : Mem A} (hm : m a = some b) :
    forRange 0 count (fun i (m : Mem A) => do
      let a ← isSet (some a)
      let b ← m.load a
      let b ← wr b i defaults
      return m.set a (some b)) m = .ok (m.set a (some (List.replicate count defaults ++ b.drop count))) := by
  have key := forRange_states (fun n => m.set a (some (List.replicate n defaults ++ b.drop n))) (Nat.zero_le count)
    (body := fun i (m : Mem A) => do
      let a ← isSet (some a)
      let b ← m.load a
      let b ← wr b i defaults
      return m.set a (some b)) (by
      intro i _ hi
      have hl : (m.set a (some (List.replicate i defaults ++ b.drop i))).load a = .ok (List.replicate i defaults ++ b.drop i) := by
        simp [Mem.load, Mem.set]
      simp only [isSet, ok_bind', hl]
      rw [wr_eq_ok _ (by simp; omega), ok_bind']
      refine congrArg Except.ok ?_
      funext x
      simp only [Mem.set]
      split
      · refine congrArg some ?_
        have hd : b.drop i = b[i]'(by omega) :: b.drop (i + 1) := List.drop_eq_getElem_cons (by omega)
        rw [List.set_append_right _ _ (by simp), hd, List.length_replicate, Nat.sub_self, List.set_cons_zero, List.replicate_succ', List.append_assoc]
        rfl
      · rfl)
  have e0 : m.set a (some (List.replicate 0 defaults ++ b.drop 0)) = m := by
    funext x
    simp only [Mem.set, List.replicate_zero, List.nil_append, List.drop_zero]
    split
    · next h => rw [h, hm]
    · rfl
  simp only [e0] at key
  exact key

/-- **C182, configurations, success.** If the allocation succeeds, then the status is success, the variable of the caller has the new address, all of the new configurations have the
default values, and all other memory is as before. -/
theorem C182_config_new_partial (defaults : A) {count : Nat} (a : Addr) {fresh : Buf A} (hc : fresh.length = count) (out : Option Addr) (m : Mem A) :
    configNewAlloc defaults count (some a) fresh out m = .ok (0, some a, fun x => if x = a then some (List.replicate count defaults) else m x) := by
  have hm : (m.set a (some fresh)) a = some fresh := by simp [Mem.set]
  have := defaults_loop defaults (le_of_eq hc.symm) hm
  simp only [configNewAlloc, primitiveMalloc, ne_eq, not_true_eq_false, if_false]
  rw [this, ok_bind']
  refine congrArg (fun z => Except.ok (0, some a, z)) ?_
  funext x
  simp only [Mem.set]
  split
  · rw [← hc, List.drop_length, List.append_nil]
  · rfl

/-- **C182, configurations, failure.** If the allocation fails, then the status is success all the same and the variable keeps its value; if that is the address of
configurations made before, then these lose their values and get the default values. -/
theorem C182_config_new_false (defaults : A) {count : Nat} {fresh : Buf A} {a : Addr} {old : Buf A} {m : Mem A} (hm : m a = some old) (hc : count ≤ old.length) :
    configNewAlloc defaults count none fresh (some a) m =
      .ok (0, some a, fun x => if x = a then some (List.replicate count defaults ++ old.drop count) else m x) := by
  have := defaults_loop defaults hc hm
  simp only [configNewAlloc, primitiveMalloc, sphHelperStatusIdMemory, ne_eq, not_true_eq_false, if_false]
  rw [this, ok_bind']
  rfl

/-- **C182, configurations, with a variable that has not been set**, as in the examples of the documentation: a failing allocation is never without consequences. -/
theorem C182_config_new_unset (defaults : A) {count : Nat} (h0 : 0 < count) (fresh : Buf A) (m : Mem A) :
    configNewAlloc defaults count none fresh none m = .error .uninitialized := by
  simp only [configNewAlloc, primitiveMalloc, sphHelperStatusIdMemory, ne_eq, not_true_eq_false, if_false]
  rw [forRange_head h0]
  rfl

/-- **C182, configurations of map events**: the status is success in all cases, and the variable is not changed if the allocation fails. -/
theorem C182_map_config_new (zero : A) (count : Nat) (r out : Option Addr) (m : Mem A) :
    (mapConfigNewAlloc zero count r out m).1 = 0 ∧ (r = none → mapConfigNewAlloc zero count r out m = (0, out, m)) ∧
    ∀ a, r = some a → (mapConfigNewAlloc zero count r out m).2.1 = some a ∧ (mapConfigNewAlloc zero count r out m).2.2 a = some (List.replicate count zero) := by
  refine ⟨?_, ?_, ?_⟩
  · cases r <;> rfl
  · rintro rfl
    rfl
  · rintro a rfl
    exact ⟨rfl, if_pos rfl⟩

/-! ### Cases -/

/-- Three events are added, the third allocation fails: no result. Without the failure there is one. -/
example : ¬ (∃ x, eventListAddEach (fun e : Nat => e) 5 [(some 1, 7), (some 2, 9), (none, 8)] (fun _ => none) none = .ok x) ∧
    ∃ x, eventListAddEach (fun e : Nat => e) 5 [(some 1, 7), (some 2, 9), (some 3, 8)] (fun _ => none) none = .ok x := by
  constructor
  · rw [(C182_list_add_each (fun e : Nat => e) (fuel := 5) _ (l := []) (by simp) ⟨rfl, by simp⟩ (by simp) (by simp)).1]
    simp
  · rw [(C182_list_add_each (fun e : Nat => e) (fuel := 5) _ (l := []) (by simp) ⟨rfl, by simp⟩ (by simp) (by simp)).1]
    simp

/-- A program makes a configuration, sets it to 7, and uses the same variable for a second one, for which there is no memory: success is returned, and the first
configuration has the default value 5 again. -/
example : ∃ m, configNewAlloc 5 1 none [0] (some 3) (fun x => if x = 3 then some [7] else none) = .ok (0, some 3, m) ∧ m 3 = some [5] :=
  ⟨_, C182_config_new_false 5 (old := [7]) rfl (by simp), rfl⟩

end Sp
