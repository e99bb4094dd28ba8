import Verif.Lemmas.SeqParallelCount

/-! # `sp_seq_parallel` comes to an end -/

set_option linter.unusedSectionVars false

namespace Sp
variable {D S : Type} [Add S] [Zero S] {f : Adder D S} {start stop : Nat} {s : Par D S}

/-- How many steps a future has to go. -/
def futLeft : Option (Slot S) → Nat
  | none => 0
  | some sf => match sf.fut with
    | .new => 2
    | .prepared => 1
    | .returned => 0

/-- The steps that are left at most. -/
def parLeft (s : Par D S) : Nat :=
  (s.slots.map futLeft).sum + match s.main with
    | .distribute pos => 3 * (s.events.length - pos) + s.slots.length + 3
    | .merge i => s.slots.length - i + 2
    | .exit _ => 1
    | .returned _ => 0

theorem sum_set {l : List Nat} {k x y : Nat} (h : l[k]? = some x) : (l.set k y).sum + x = l.sum + y := by
  induction l generalizing k with
  | nil => simp at h
  | cons z l ih =>
    cases k with
    | zero =>
      simp only [List.getElem?_cons_zero, Option.some.injEq] at h
      subst h
      simp only [List.set_cons_zero, List.sum_cons]
      omega
    | succ k =>
      simp only [List.getElem?_cons_succ] at h
      have := ih h
      simp only [List.set_cons_succ, List.sum_cons]
      omega

theorem futLeft_set {l : List (Option (Slot S))} {k : Nat} {x y : Option (Slot S)} (h : l[k]? = some x) :
    ((l.set k y).map futLeft).sum + futLeft x = (l.map futLeft).sum + futLeft y := by
  rw [List.map_set]
  exact sum_set (by rw [List.getElem?_map, h]; rfl)

theorem futLeft_le (x : Option (Slot S)) : futLeft x ≤ 2 := by
  unfold futLeft
  split
  · omega
  · split <;> omega

/-- The main thread does not change in the step of a future. -/
theorem parLeft_future {k : Nat} {sf sf' : Slot S} (hsl : s.slots[k]? = some (some sf)) {events : List (Addr × Event D)}
    (hev : events.length = s.events.length) (hlt : futLeft (some sf') < futLeft (some sf)) :
    parLeft { s with events := events, slots := s.slots.set k (some sf') } < parLeft s := by
  have := futLeft_set (y := some sf') hsl
  unfold parLeft
  simp only [List.length_set, hev]
  cases s.main <;> simp only <;> omega

theorem setEvent_length (l : List (Addr × Event D)) (a : Addr) (e : Event D) : (setEvent l a e).length = l.length := by
  rw [setEvent, List.length_map]

theorem parLeft_lt {s' : Par D S} (hs : ParStep f start stop s (.ok s')) : parLeft s' < parLeft s := by
  generalize hr : Except.ok s' = r at hs
  cases hs with
  | @distribute pos a e hm hev =>
    have hpos : pos < s.events.length := (List.getElem?_eq_some_iff.1 hev).1
    rw [parDistribute] at hr
    by_cases c1 : e.stop ≤ start
    · rw [if_pos c1] at hr
      have hr2 : s' = { s with events := s.events.eraseIdx pos } := by
        by_cases hf : e.hasFree = true
        · rw [if_pos hf] at hr
          cases hfe : f.free e with
          | error x => rw [hfe] at hr; cases hr
          | ok u =>
            rw [hfe] at hr
            simp only [ok_bind', pure_eq_ok, Except.ok.injEq] at hr
            exact hr
        · rw [if_neg hf] at hr
          simp only [pure_eq_ok, ok_bind', Except.ok.injEq] at hr
          exact hr
      subst hr2
      unfold parLeft
      simp only [hm, List.length_eraseIdx, if_pos hpos]
      omega
    · rw [if_neg c1] at hr
      by_cases c2 : stop ≤ e.start
      · rw [if_pos c2] at hr
        cases hr
        unfold parLeft
        simp only [hm]
        omega
      · rw [if_neg c2, if_pos (by omega)] at hr
        by_cases hal : s.allocated < s.slots.length
        · rw [wr_eq_ok _ hal] at hr
          simp only [ok_bind', pure_eq_ok, Except.ok.injEq] at hr
          subst hr
          have h1 := futLeft_set (y := some (parSlot start stop (List.length s.out) a e)) (List.getElem?_eq_getElem hal)
          have h2 := futLeft_le (some (parSlot start stop (List.length s.out) a e) : Option (Slot S))
          unfold parLeft
          simp only [hm, List.length_set]
          omega
        · rw [wr, if_neg hal] at hr
          cases hr
  | @distributeEnd pos hm hev =>
    cases hr
    unfold parLeft
    simp only [hm]
    omega
  | mergeUnset hm hsl => cases hr
  | @mergeFail i sf hm hsl hr' hst =>
    cases hr
    unfold parLeft
    simp only [hm]
    omega
  | @merge i sf hm hsl hr' hst =>
    cases hmg : mergeSlot sf s.out with
    | error x => rw [hmg] at hr; cases hr
    | ok out =>
      rw [hmg] at hr
      simp only [Except.map, Except.ok.injEq] at hr
      subst hr
      have : i < s.slots.length := (List.getElem?_eq_some_iff.1 hsl).1
      unfold parLeft
      simp only [hm]
      omega
  | @mergeEnd i hm hsl =>
    cases hr
    unfold parLeft
    simp only [hm]
    omega
  | @exit st hm =>
    rw [parExit] at hr
    by_cases hst : st ≠ 0
    · rw [if_pos hst] at hr
      cases hf : (s.events.forM fun p => if p.2.hasFree then f.free p.2 else pure ()) with
      | error x => rw [hf] at hr; cases hr
      | ok u =>
        rw [hf] at hr
        simp only [ok_bind', pure_eq_ok, Except.ok.injEq] at hr
        subst hr
        unfold parLeft
        simp only [hm]
        omega
    · rw [if_neg hst] at hr
      cases hr
      unfold parLeft
      simp only [hm]
      omega
  | @prepare k sf hsl hφ =>
    have hw : futLeft (some sf) = 2 := by simp [futLeft, hφ]
    rw [futPrepare] at hr
    by_cases hf : s.freed = true
    · rw [if_pos hf] at hr; cases hr
    · rw [if_neg hf] at hr
      cases hl : loadEvent s.events sf.event with
      | error x => rw [hl] at hr; cases hr
      | ok e =>
        rw [hl] at hr
        simp only [ok_bind'] at hr
        by_cases hp : e.prep = true
        · rw [if_pos hp] at hr
          cases hfp : f.prepare e with
          | error x => rw [hfp] at hr; cases hr
          | ok r =>
            rw [hfp] at hr
            simp only [ok_bind'] at hr
            by_cases hr1 : r.1 ≠ 0
            · rw [if_pos hr1] at hr
              simp only [pure_eq_ok, Except.ok.injEq] at hr
              subst hr
              exact parLeft_future hsl (by exact setEvent_length _ _ _) (by rw [hw]; simp [futLeft])
            · rw [if_neg hr1] at hr
              simp only [pure_eq_ok, Except.ok.injEq] at hr
              subst hr
              exact parLeft_future hsl (by exact setEvent_length _ _ _) (by rw [hw]; simp [futLeft])
        · rw [if_neg hp] at hr
          simp only [pure_eq_ok, Except.ok.injEq] at hr
          subst hr
          exact parLeft_future hsl rfl (by rw [hw]; simp [futLeft])
  | @generate k sf hsl hφ =>
    have hw : futLeft (some sf) = 1 := by simp [futLeft, hφ]
    rw [futGenerate] at hr
    by_cases hf : s.freed = true
    · rw [if_pos hf] at hr; cases hr
    · rw [if_neg hf] at hr
      cases hl : loadEvent s.events sf.event with
      | error x => rw [hl] at hr; cases hr
      | ok e =>
        rw [hl] at hr
        simp only [ok_bind'] at hr
        cases hg : f.generate sf.start sf.stop e with
        | error x => rw [hg] at hr; cases hr
        | ok r =>
          rw [hg] at hr
          simp only [ok_bind'] at hr
          cases ha : applyWrites 0 r.2.2 sf.out with
          | error x => rw [ha] at hr; cases hr
          | ok out =>
            rw [ha] at hr
            simp only [ok_bind', pure_eq_ok, Except.ok.injEq] at hr
            subst hr
            exact parLeft_future hsl (by exact setEvent_length _ _ _) (by rw [hw]; simp [futLeft])

/-- A thread that has not returned can go on, or waits for a future that can go on. -/
theorem par_progress (s : Par D S) (h : ∀ st, s.main ≠ .returned st) : ∃ r, ParStep f start stop s r := by
  cases hm : s.main with
  | distribute pos =>
    cases hev : s.events[pos]? with
    | none => exact ⟨_, .distributeEnd hm hev⟩
    | some p => exact ⟨_, .distribute (a := p.1) (e := p.2) hm hev⟩
  | merge i =>
    cases hsl : s.slots[i]? with
    | none => exact ⟨_, .mergeEnd hm hsl⟩
    | some o =>
      cases o with
      | none => exact ⟨_, .mergeUnset hm hsl⟩
      | some sf =>
        cases hf : sf.fut with
        | new => exact ⟨_, .prepare hsl hf⟩
        | prepared => exact ⟨_, .generate hsl hf⟩
        | returned =>
          by_cases hst : sf.status = 0
          · exact ⟨_, .merge hm hsl hf hst⟩
          · exact ⟨_, .mergeFail hm hsl hf hst⟩
  | exit st => exact ⟨_, .exit hm⟩
  | returned st => exact absurd hm (h st)

end Sp
