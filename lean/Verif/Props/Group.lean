import Verif.Model.Group
import Verif.Lemmas.EventList
import Verif.Lemmas.SeqTrace

/-!
# C24: building groups
-/

set_option linter.unusedSectionVars false

namespace Sp
variable {D W : Type}

/-- `e'` is the event `e` as it is put in the list: events with end zero that have a prepare function
are prepared first, all others are as given. -/
def Readied (cb : Callbacks D W) (e e' : Event D) : Prop :=
  (e.stop ≠ 0 ∧ e' = e) ∨ (e.stop = 0 ∧ e.prep = false ∧ e' = e) ∨
  (e.stop = 0 ∧ e.prep = true ∧ ∃ w w' e1, cb.prepare e w = .ok (0, e1, w') ∧ e' = { e1 with prep := false })

theorem addPrepare_readied {cb : Callbacks D W} {new : Addr} {e e' : Event D} {w w' : W} {log : List Call}
    (h : addPrepare cb new e w = .ok (0, e', w', log)) : Readied cb e e' := by
  unfold addPrepare at h
  split at h
  · next h0 =>
    rcases prepareOptional_cases h with ⟨p, _, rfl, _⟩ | ⟨_, p, _⟩ | ⟨p, _, _, e1, hc, rfl⟩
    · exact .inr (.inl ⟨h0, p, rfl⟩)
    · exact absurd rfl p
    · exact .inr (.inr ⟨h0, p, w, w', e1, hc, rfl⟩)
  · next h0 =>
    simp only [Except.ok.injEq, Prod.mk.injEq] at h
    exact .inl ⟨h0, h.2.1.symm⟩

/-- One successful `sp_group_add`. -/
theorem groupAdd_ok {cb : Callbacks D W} {fuel : Nat} {new : Addr} {e : Event D} {g g' : Group D} {w w' : W}
    {l : List (Addr × Event D)} (hf : l.length ≤ fuel) (hwf : WellFormed g.heap g.head l)
    (hnew : g.heap new = none) (h : groupAdd cb fuel new e g w = .ok (0, g', w')) :
    ∃ e' l', Readied cb e e' ∧ g'.stop = max g.stop e'.stop ∧ WellFormed g'.heap g'.head l' ∧
      l'.Perm ((new, e') :: l) ∧ SameOutside g.heap g'.heap (new :: l.map Prod.fst) := by
  unfold groupAdd at h
  rw [bind_eq_ok] at h
  obtain ⟨⟨st, e1, w1, log⟩, hp, h⟩ := h
  simp only at h
  split at h
  · next hs => simp at h; exact absurd h.1 hs
  · next hs =>
    simp only [ne_eq, Decidable.not_not] at hs
    subst hs
    obtain ⟨h', head', e2, w2, s2⟩ := eventListAdd_spec Event.start new e1 g.heap hnew g.head l fuel hf hwf
    rw [e2, ok_bind'] at h
    simp only [pure_eq_ok, Except.ok.injEq, Prod.mk.injEq, true_and] at h
    obtain ⟨rfl, rfl⟩ := h
    refine ⟨e1, _, addPrepare_readied hp, ?_, w2, insertDesc_perm _ _ _, s2⟩
    simp only
    split <;> omega

/-- **C24, add.** After any sequence of successful `sp_group_add` calls the group end is the maximum
of its previous end and the ends of all added events, and the group's list consists of the previous
events and the added ones. -/
theorem C24_add {cb : Callbacks D W} {fuel : Nat} (es : List (Addr × Event D)) {g g' : Group D} {w w' : W}
    {l : List (Addr × Event D)} (hf : l.length + es.length ≤ fuel) (hwf : WellFormed g.heap g.head l)
    (hnew : ∀ a ∈ es.map Prod.fst, g.heap a = none) (hnd : (es.map Prod.fst).Nodup)
    (h : groupEach (groupAdd cb fuel) es g w = .ok (0, g', w')) :
    ∃ es' l', List.Forall₂ (fun x y => y.1 = x.1 ∧ Readied cb x.2 y.2) es es' ∧
      WellFormed g'.heap g'.head l' ∧ l'.Perm (es' ++ l) ∧
      (g.stop ≤ g'.stop ∧ ∀ y ∈ es', y.2.stop ≤ g'.stop) ∧
      (g'.stop = g.stop ∨ ∃ y ∈ es', g'.stop = y.2.stop) := by
  induction es generalizing g w l with
  | nil =>
    simp only [groupEach, Except.ok.injEq, Prod.mk.injEq, true_and] at h
    obtain ⟨rfl, rfl⟩ := h
    exact ⟨[], l, .nil, hwf, .refl _, ⟨Nat.le_refl _, by simp⟩, .inl rfl⟩
  | cons x rest ih =>
    obtain ⟨a, e⟩ := x
    unfold groupEach at h
    rw [bind_eq_ok] at h
    obtain ⟨⟨st, g1, w1⟩, h1, h⟩ := h
    simp only at h
    split at h
    · next hs => simp at h; exact absurd h.1 hs
    · next hs =>
      simp only [ne_eq, Decidable.not_not] at hs
      subst hs
      simp only [List.length_cons] at hf
      obtain ⟨e', l1, r1, r2, r3, r4, r5⟩ := groupAdd_ok (by omega) hwf (hnew a (by simp)) h1
      rw [List.map_cons, List.nodup_cons] at hnd
      obtain ⟨es', l', f1, f2, f3, ⟨f4, f5⟩, f6⟩ := ih (l := l1) (g := g1)
        (by rw [r4.length_eq, List.length_cons]; omega) r3 (by
          intro b hb
          rw [r5 b]
          · exact hnew b (by simp only [List.map_cons, List.mem_cons]; exact .inr hb)
          · simp only [List.mem_cons, not_or]
            refine ⟨fun hba => hnd.1 (hba ▸ hb), hwf.1.not_mem_of_none ?_⟩
            exact hnew b (by simp only [List.map_cons, List.mem_cons]; exact .inr hb)) hnd.2 h
      refine ⟨(a, e') :: es', l', .cons ⟨rfl, r1⟩ f1, f2, ?_, ⟨by omega, ?_⟩, ?_⟩
      · refine f3.trans ((List.Perm.append_left es' r4).trans ?_)
        exact List.perm_middle
      · intro y hy
        rcases List.mem_cons.1 hy with rfl | hy
        · simp only; omega
        · exact f5 y hy
      · rcases f6 with f6 | ⟨y, hy, f6⟩
        · rw [f6, r2]
          rcases Nat.le_total e'.stop g.stop with hle | hle
          · exact .inl (by omega)
          · exact .inr ⟨(a, e'), by simp, by simp only; omega⟩
        · exact .inr ⟨y, by simp [hy], f6⟩

/-- **C24, add does not fail by itself**: adding events whose end is set succeeds and keeps them as
they are. -/
theorem C24_add_succeeds {cb : Callbacks D W} {fuel : Nat} (es : List (Addr × Event D)) {g : Group D} (w : W)
    {l : List (Addr × Event D)} (hf : l.length + es.length ≤ fuel) (hwf : WellFormed g.heap g.head l)
    (hnew : ∀ a ∈ es.map Prod.fst, g.heap a = none) (hnd : (es.map Prod.fst).Nodup)
    (hstop : ∀ x ∈ es, x.2.stop ≠ 0) :
    ∃ g' l', groupEach (groupAdd cb fuel) es g w = .ok (0, g', w) ∧ WellFormed g'.heap g'.head l' ∧
      l'.Perm (es ++ l) := by
  induction es generalizing g l with
  | nil => exact ⟨g, l, rfl, hwf, .refl _⟩
  | cons x rest ih =>
    obtain ⟨a, e⟩ := x
    simp only [List.length_cons] at hf
    have h0 := hstop (a, e) (by simp)
    obtain ⟨h', head', e2, w2, s2⟩ := eventListAdd_spec Event.start a e g.heap (hnew a (by simp)) g.head l fuel
      (by omega) hwf
    have h1 : groupAdd cb fuel a e g w = .ok (0, ⟨if g.stop < e.stop then e.stop else g.stop, h', head'⟩, w) := by
      unfold groupAdd addPrepare
      rw [if_neg h0, ok_bind']
      simp only [ne_eq, not_true_eq_false, if_false, e2, ok_bind']
      rfl
    have hp := insertDesc_perm Event.start (a, e) l
    rw [List.map_cons, List.nodup_cons] at hnd
    obtain ⟨g', l', f1, f2, f3⟩ := ih (l := insertDesc Event.start (a, e) l)
      (g := ⟨if g.stop < e.stop then e.stop else g.stop, h', head'⟩)
      (by rw [hp.length_eq, List.length_cons]; omega) w2 (by
        intro b hb
        have hb0 := hnew b (by simp only [List.map_cons, List.mem_cons]; exact .inr hb)
        simp only
        rw [s2 b]
        · exact hb0
        · simp only [List.mem_cons, not_or]
          exact ⟨fun hba => hnd.1 (hba ▸ hb), hwf.1.not_mem_of_none hb0⟩) hnd.2
      (fun x hx => hstop x (by simp [hx]))
    refine ⟨g', l', ?_, f2, ?_⟩
    · unfold groupEach
      rw [h1, ok_bind']
      simp only [ne_eq, not_true_eq_false, if_false]
      exact f1
    · exact f3.trans ((List.Perm.append_left rest hp).trans List.perm_middle)

/-- **C24, append.** After a successful `sp_group_append`, the list has in addition one event: the
appended one with its own start counted from the previous group end, and the same duration; the group
ends where the appended event ends. -/
theorem C24_append {cb : Callbacks D W} {fuel : Nat} {new : Addr} {e : Event D} {g g' : Group D} {w w' : W}
    {l : List (Addr × Event D)} (hf : l.length ≤ fuel) (hwf : WellFormed g.heap g.head l)
    (hnew : g.heap new = none) (h : groupAppend cb fuel new e g w = .ok (0, g', w')) :
    ∃ e', Readied cb e e' ∧ (e'.start ≤ e'.stop → g.stop + e'.stop < 4294967296 →
      ∃ e'' l', WellFormed g'.heap g'.head l' ∧ l'.Perm ((new, e'') :: l) ∧
        e'' = { e' with start := e''.start, stop := e''.stop } ∧
        e''.start = g.stop + e'.start ∧ e''.stop - e''.start = e'.stop - e'.start ∧
        e''.start ≤ e''.stop ∧ g'.stop = e''.stop) := by
  unfold groupAppend at h
  rw [bind_eq_ok] at h
  obtain ⟨⟨st, e1, w1, log⟩, hp, h⟩ := h
  simp only at h
  split at h
  · next hs => simp at h; exact absurd h.1 hs
  · next hs =>
    simp only [ne_eq, Decidable.not_not] at hs
    subst hs
    obtain ⟨h', head', e2, w2, s2⟩ := eventListAdd_spec Event.start new
      { e1 with start := u32 (e1.start + g.stop), stop := u32 (e1.stop + g.stop) } g.heap hnew g.head l fuel hf hwf
    rw [e2, ok_bind'] at h
    simp only [pure_eq_ok, Except.ok.injEq, Prod.mk.injEq, true_and] at h
    obtain ⟨rfl, rfl⟩ := h
    refine ⟨e1, addPrepare_readied hp, fun hle hlt => ?_⟩
    refine ⟨{ e1 with start := u32 (e1.start + g.stop), stop := u32 (e1.stop + g.stop) }, _, w2,
      insertDesc_perm _ _ _, rfl, ?_, ?_, ?_, rfl⟩ <;>
    simp only [u32_of_lt (show e1.start + g.stop < 4294967296 by omega),
      u32_of_lt (show e1.stop + g.stop < 4294967296 by omega)] <;> omega

/-- The events placed one after the other, beginning at time `t`. -/
def playedInSequence (t : Nat) : List (Addr × Event D) → List (Addr × Event D)
  | [] => []
  | x :: rest => (x.1, { x.2 with start := t + x.2.start, stop := t + x.2.stop }) ::
      playedInSequence (t + x.2.stop) rest

/-- **C24, appending a sequence** of events whose ends are set plays them one after the other from the
group end on, and the group ends with the last of them. -/
theorem C24_append_sequence {cb : Callbacks D W} {fuel : Nat} (es : List (Addr × Event D)) {g : Group D}
    (w : W) {l : List (Addr × Event D)} (hf : l.length + es.length ≤ fuel)
    (hwf : WellFormed g.heap g.head l) (hnew : ∀ a ∈ es.map Prod.fst, g.heap a = none)
    (hnd : (es.map Prod.fst).Nodup) (hstop : ∀ x ∈ es, x.2.stop ≠ 0 ∧ x.2.start ≤ x.2.stop)
    (hsum : g.stop + (es.map (fun x => x.2.stop)).sum < 4294967296) :
    ∃ g' l', groupEach (groupAppend cb fuel) es g w = .ok (0, g', w) ∧ WellFormed g'.heap g'.head l' ∧
      l'.Perm (playedInSequence g.stop es ++ l) ∧
      g'.stop = g.stop + (es.map (fun x => x.2.stop)).sum := by
  induction es generalizing g l with
  | nil => exact ⟨g, l, rfl, hwf, .refl _, by simp⟩
  | cons x rest ih =>
    obtain ⟨a, e⟩ := x
    simp only [List.length_cons] at hf
    simp only [List.map_cons, List.sum_cons] at hsum
    obtain ⟨h0, h00⟩ := hstop (a, e) (by simp)
    simp only at h0 h00
    have hu1 : u32 (e.start + g.stop) = g.stop + e.start := by rw [u32_of_lt (by omega)]; omega
    have hu2 : u32 (e.stop + g.stop) = g.stop + e.stop := by rw [u32_of_lt (by omega)]; omega
    obtain ⟨h', head', e2, w2, s2⟩ := eventListAdd_spec Event.start a
      { e with start := g.stop + e.start, stop := g.stop + e.stop } g.heap (hnew a (by simp)) g.head l fuel
      (by omega) hwf
    have h1 : groupAppend cb fuel a e g w = .ok (0, ⟨g.stop + e.stop, h', head'⟩, w) := by
      unfold groupAppend addPrepare
      rw [if_neg h0, ok_bind']
      simp only [ne_eq, not_true_eq_false, if_false, hu1, hu2, e2, ok_bind']
      rfl
    have hp := insertDesc_perm Event.start (a, { e with start := g.stop + e.start, stop := g.stop + e.stop }) l
    rw [List.map_cons, List.nodup_cons] at hnd
    obtain ⟨g', l', f1, f2, f3, f4⟩ := ih (l := insertDesc Event.start _ l)
      (g := ⟨g.stop + e.stop, h', head'⟩)
      (by rw [hp.length_eq, List.length_cons]; omega) w2 (by
        intro b hb
        have hb0 := hnew b (by simp only [List.map_cons, List.mem_cons]; exact .inr hb)
        simp only
        rw [s2 b]
        · exact hb0
        · simp only [List.mem_cons, not_or]
          exact ⟨fun hba => hnd.1 (hba ▸ hb), hwf.1.not_mem_of_none hb0⟩) hnd.2
      (fun x hx => hstop x (by simp [hx])) (by simp only; omega)
    refine ⟨g', l', ?_, f2, ?_, ?_⟩
    · unfold groupEach
      rw [h1, ok_bind']
      simp only [ne_eq, not_true_eq_false, if_false]
      exact f1
    · exact f3.trans ((List.Perm.append_left _ hp).trans List.perm_middle)
    · rw [f4]; simp only [List.map_cons, List.sum_cons]; omega

/-- **C24, failing prepare**: the group is unchanged and the status is passed on. -/
theorem C24_failing_prepare {cb : Callbacks D W} {fuel : Nat} {new : Addr} {e e1 : Event D} {g : Group D}
    {w w' : W} {st : Nat} (h0 : e.stop = 0) (hprep : e.prep = true) (hst : st ≠ 0)
    (hc : cb.prepare e w = .ok (st, e1, w')) :
    groupAdd cb fuel new e g w = .ok (st, g, w') ∧ groupAppend cb fuel new e g w = .ok (st, g, w') := by
  have : addPrepare cb new e w = .ok (st, e, w', [.prepare new st]) := by
    unfold addPrepare prepareOptional
    rw [if_pos h0, if_pos hprep, hc, ok_bind']
    simp only [ne_eq, hst, not_false_eq_true, if_true]
    rfl
  constructor
  · unfold groupAdd; rw [this, ok_bind']; simp [hst]
  · unfold groupAppend; rw [this, ok_bind']; simp [hst]

/-- Non-vacuity: event functions whose prepare sets the end of the event. -/
def setEndCb : Callbacks Nat Unit where
  prepare e w := .ok (0, { e with stop := e.data }, w)
  generate _ _ _ e w := .ok (0, e, w)
  free _ w := .ok w

/-- Adding an event of end 5 and one whose prepare function sets the end to 9 to an empty group. -/
example : ∃ g', groupEach (groupAdd setEndCb 5) [(1, ⟨2, 5, false, false, 0⟩), (2, ⟨3, 0, true, false, 9⟩)]
    ⟨0, fun _ => none, none⟩ () = .ok (0, g', ()) ∧ g'.stop = 9 := ⟨_, rfl, rfl⟩

/-- Appending both: the second one is at 5 + 3 to 5 + 9. -/
example : ∃ g', groupEach (groupAppend setEndCb 5) [(1, ⟨2, 5, false, false, 0⟩), (2, ⟨3, 0, true, false, 9⟩)]
    ⟨0, fun _ => none, none⟩ () = .ok (0, g', ()) ∧ g'.stop = 14 := ⟨_, rfl, rfl⟩

example : ∃ es' l' g', groupEach (groupAdd setEndCb 5) [(1, ⟨2, 5, false, false, 0⟩),
      (2, ⟨3, 0, true, false, 9⟩)] ⟨0, fun _ => none, none⟩ () = .ok (0, g', ()) ∧
    WellFormed g'.heap g'.head l' ∧ l'.Perm es' ∧ ∀ y ∈ es', y.2.stop ≤ g'.stop := by
  have h : ∃ g', groupEach (groupAdd setEndCb 5) [(1, ⟨2, 5, false, false, 0⟩),
      (2, ⟨3, 0, true, false, 9⟩)] ⟨0, fun _ => none, none⟩ () = .ok (0, g', ()) := ⟨_, rfl⟩
  obtain ⟨g', h⟩ := h
  obtain ⟨es', l', _, h1, h2, h3, _⟩ := C24_add _ (g := ⟨0, fun _ => none, none⟩) (l := []) (by simp) ⟨rfl, by simp⟩ (by simp) (by simp) h
  exact ⟨es', l', g', h, h1, by simpa using h2, h3.2⟩

example : ∃ g' l', groupEach (groupAppend setEndCb 5) [(1, ⟨2, 5, false, false, 0⟩),
      (2, ⟨3, 4, true, false, 9⟩)] ⟨7, fun _ => none, none⟩ () = .ok (0, g', ()) ∧
    WellFormed g'.heap g'.head l' ∧
    l'.Perm [(1, ⟨9, 12, false, false, 0⟩), (2, ⟨15, 16, true, false, 9⟩)] ∧ g'.stop = 16 := by
  obtain ⟨g', l', h1, h2, h3, h4⟩ := C24_append_sequence (cb := setEndCb) (fuel := 5)
    [(1, ⟨2, 5, false, false, 0⟩), (2, ⟨3, 4, true, false, 9⟩)] (g := ⟨7, fun _ => none, none⟩) ()
    (l := []) (by simp) ⟨rfl, by simp⟩ (by simp) (by simp) (by simp) (by simp)
  exact ⟨g', l', h1, h2, by simpa [playedInSequence] using h3, by simpa using h4⟩

end Sp
