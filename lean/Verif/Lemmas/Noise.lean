import Verif.Model.Noise
import Verif.Lemmas.SeqTrace
import Mathlib.Data.List.Perm.Basic

set_option linter.unusedSectionVars false

namespace Sp
variable {S : Type}

/-! ### freeing -/

theorem freeEach_eq (l : List (Option Nat)) (m : Live) (hnd : (l.filterMap id).Nodup)
    (hl : ∀ a ∈ l.filterMap id, m.live a = true) :
    freeEach l m = .ok ⟨m.next, fun b => if b ∈ l.filterMap id then false else m.live b⟩ := by
  induction l generalizing m with
  | nil => simp [freeEach]
  | cons x l ih =>
    cases x with
    | none =>
      have hx : (none :: l).filterMap id = l.filterMap id := rfl
      rw [hx] at hnd hl ⊢
      rw [freeEach, Live.free, ok_bind', ih m hnd hl]
    | some a =>
      have hx : (some a :: l).filterMap id = a :: l.filterMap id := rfl
      rw [hx] at hnd hl ⊢
      simp only [List.nodup_cons, List.mem_cons] at hnd hl ⊢
      rw [freeEach, Live.free, if_pos (hl a (Or.inl rfl)), ok_bind', ih _ hnd.2]
      · congr 2
        funext b
        by_cases h1 : b = a
        · subst h1
          simp
        · simp [h1]
      · intro b hb
        have : b ≠ a := fun h => hnd.1 (h ▸ hb)
        simp only [this, if_false]
        exact hl b (Or.inr hb)

theorem freeEach_append (l l' : List (Option Nat)) (m : Live) :
    freeEach (l ++ l') m = (freeEach l m >>= freeEach l') := by
  induction l generalizing m with
  | nil => rfl
  | cons x l ih =>
    rw [List.cons_append, freeEach, freeEach]
    cases h : m.free x with
    | error e => rfl
    | ok m1 => rw [ok_bind', ok_bind']; exact ih m1

/-- The pointers that `sp_noise_event_free` frees, in order. -/
def NoiseConfig.owned (c : NoiseConfig S) : List (Option Nat) :=
  (c.channelConfig.take c.channelCount).map NoiseChannel.filterState ++ c.temp

theorem noiseFree_eq (c : NoiseConfig S) (m : Live) (ht : c.temp.length = 3)
    (hc : c.channelCount ≤ c.channelConfig.length) : noiseFree c m = freeEach c.owned m := by
  have hloop : ∀ n, n ≤ c.channelConfig.length → forRange 0 n (fun i (m : Live) => do
      let cc ← rd c.channelConfig i
      m.free cc.filterState) m = freeEach ((c.channelConfig.take n).map NoiseChannel.filterState) m := by
    intro n hn
    induction n with
    | zero => simp [freeEach]
    | succ n ih =>
      rw [forRange_succ (Nat.zero_le n), ih (by omega), List.take_succ_eq_append_getElem (by omega),
        List.map_append, freeEach_append]
      cases freeEach ((c.channelConfig.take n).map NoiseChannel.filterState) m with
      | error e => rfl
      | ok m1 =>
        simp only [Except.bind, ok_bind', List.map_cons, List.map_nil, freeEach]
        rw [rd_eq_ok (by omega), ok_bind']
        cases m1.free _ <;> rfl
  unfold noiseFree NoiseConfig.owned
  rw [hloop _ hc, freeEach_append]
  match h : c.temp, ht with
  | [a, b, d], _ =>
    cases freeEach ((c.channelConfig.take c.channelCount).map NoiseChannel.filterState) m with
    | error e => rfl
    | ok m1 =>
      simp only [ok_bind']
      rw [show rd [a, b, d] 0 = .ok a from rfl, show rd [a, b, d] 1 = .ok b from rfl,
        show rd [a, b, d] 2 = .ok d from rfl]
      simp only [ok_bind', freeEach]
      cases m1.free a with
      | error e => rfl
      | ok m2 =>
        simp only [ok_bind']
        cases m2.free b with
        | error e => rfl
        | ok m3 =>
          simp only [ok_bind']
          cases m3.free d <;> rfl

theorem filterMap_set_some {l : List (Option Nat)} {i : Nat} {a : Nat} (h : l[i]? = some none) :
    ((l.set i (some a)).filterMap id).Perm (a :: l.filterMap id) := by
  induction l generalizing i with
  | nil => simp at h
  | cons x l ih =>
    cases i with
    | zero =>
      simp at h
      subst h
      simp
    | succ i =>
      simp only [List.getElem?_cons_succ] at h
      have := ih h
      cases x with
      | none => simpa using this
      | some b =>
        simp only [List.set_cons_succ, List.filterMap_cons, id]
        exact (List.Perm.cons b this).trans (List.Perm.swap a b _)

/-! ### sizes -/

/-- A channel before the filter states are created. -/
structure NoiseChannel.Fresh (irLen : Nat → Nat) (max : Nat) (cc : NoiseChannel S) : Prop where
  state : cc.filterState = none
  fmod : cc.fmod ≠ some []
  wmod : cc.wmod ≠ some []
  trnl : cc.trnl ≠ 0 → irLen cc.trnl ≤ max
  trnh : cc.trnh ≠ 0 → irLen cc.trnh ≤ max

theorem noiseDefaults_loop {irLen : Nat → Nat} {lim n : Nat} {first : NoiseChannel S}
    {l : Buf (NoiseChannel S)} (h0 : l[0]? = some first) (hn0 : 1 ≤ n) (hn : n ≤ l.length)
    (hl : ∀ cc ∈ l, cc.Fresh irLen lim) (hfl : first.trnl ≠ 0) (hfh : first.trnh ≠ 0) {fm fs : Bool} {irs : Buf Nat}
    {tl : Nat} (hirs : irs.length = l.length) (hir : ∀ x ∈ irs, x ≤ tl ∧ x ≤ lim) :
    ∃ s, forRange 1 n (noiseDefaultsStep irLen) ⟨l, fm, fs, irs, tl⟩ = .ok s ∧
      s.channels.length = l.length ∧ s.irLengths.length = l.length ∧ s.channels[0]? = some first ∧
      (∀ cc ∈ s.channels, cc.Fresh irLen lim) ∧ (∀ x ∈ s.irLengths, x ≤ s.tempLength ∧ x ≤ lim) := by
  have hfirst := hl first (List.mem_of_getElem? h0)
  refine forRange_rule (fun _ (s : NoiseSizes S) => s.channels.length = l.length ∧ s.irLengths.length = l.length ∧
      s.channels[0]? = some first ∧ (∀ cc ∈ s.channels, cc.Fresh irLen lim) ∧
      (∀ x ∈ s.irLengths, x ≤ s.tempLength ∧ x ≤ lim)) hn0 ⟨rfl, hirs, h0, hl, hir⟩ ?_
  rintro i ⟨ch, fm, fs, irs, tl⟩ hi1 hin ⟨p1, p2, p3, p4, p5⟩
  simp only at p1 p2 p3 p4 p5
  have hi : i < ch.length := by omega
  obtain ⟨cc, hcc⟩ : ∃ cc, ch[i]? = some cc := ⟨ch[i], List.getElem?_eq_getElem hi⟩
  have hg := p4 cc (List.mem_of_getElem? hcc)
  unfold noiseDefaultsStep
  simp only [rd_ok_iff.2 p3, rd_ok_iff.2 hcc, ok_bind']
  have hset : ∀ (v : NoiseChannel S), v.Fresh irLen lim → (ch.set i v).length = l.length ∧
      (ch.set i v)[0]? = some first ∧ ∀ cc ∈ ch.set i v, cc.Fresh irLen lim := by
    intro v hv
    refine ⟨by simp [p1], ?_, ?_⟩
    · rw [List.getElem?_set_ne (by omega)]; exact p3
    · intro cc hcc
      rcases List.mem_or_eq_of_mem_set hcc with h | h
      · exact p4 cc h
      · exact h ▸ hv
  by_cases huse : cc.use
  · rw [if_pos huse]
    by_cases hown : ({ cc with amod := cc.amod.or first.amod } : NoiseChannel S).ownFilter
    · rw [if_pos hown]
      have hv : (NoiseChannel.filterDefaults first { cc with amod := cc.amod.or first.amod }).Fresh irLen lim := by
        refine ⟨hg.state, ?_, ?_, ?_, ?_⟩
        · simp only [NoiseChannel.filterDefaults]
          cases h : cc.fmod with
          | none => simpa using hfirst.fmod
          | some b => simpa [h] using hg.fmod
        · simp only [NoiseChannel.filterDefaults]
          cases h : cc.wmod with
          | none => simpa using hfirst.wmod
          | some b => simpa [h] using hg.wmod
        · simp only [NoiseChannel.filterDefaults]
          split
          · exact hfirst.trnl
          · exact hg.trnl
        · simp only [NoiseChannel.filterDefaults]
          split
          · exact hfirst.trnh
          · exact hg.trnh
      have hlen : irLen (min (NoiseChannel.filterDefaults first { cc with amod := cc.amod.or first.amod }).trnl
          (NoiseChannel.filterDefaults first { cc with amod := cc.amod.or first.amod }).trnh) ≤ lim := by
        have hl0 : (NoiseChannel.filterDefaults first { cc with amod := cc.amod.or first.amod }).trnl ≠ 0 := by
          simp only [NoiseChannel.filterDefaults]; split
          · exact hfl
          · assumption
        have hh0 : (NoiseChannel.filterDefaults first { cc with amod := cc.amod.or first.amod }).trnh ≠ 0 := by
          simp only [NoiseChannel.filterDefaults]; split
          · exact hfh
          · assumption
        rcases Nat.le_total (NoiseChannel.filterDefaults first { cc with amod := cc.amod.or first.amod }).trnl
          (NoiseChannel.filterDefaults first { cc with amod := cc.amod.or first.amod }).trnh with h | h
        · rw [Nat.min_eq_left h]; exact hv.trnl hl0
        · rw [Nat.min_eq_right h]; exact hv.trnh hh0
      rw [wr_eq_ok _ (by omega), ok_bind', wr_eq_ok _ hi, ok_bind']
      refine ⟨_, rfl, (hset _ hv).1, by simp [p2], (hset _ hv).2.1, (hset _ hv).2.2, ?_⟩
      intro x hx
      rcases List.mem_or_eq_of_mem_set hx with h | h
      · have := p5 x h
        simp only
        split <;> omega
      · rw [h]
        simp only
        refine ⟨?_, hlen⟩
        split <;> omega
    · rw [if_neg hown, wr_eq_ok _ hi, ok_bind']
      have hv : ({ cc with amod := cc.amod.or first.amod } : NoiseChannel S).Fresh irLen lim :=
        ⟨hg.state, hg.fmod, hg.wmod, hg.trnl, hg.trnh⟩
      exact ⟨_, rfl, (hset _ hv).1, p2, (hset _ hv).2.1, (hset _ hv).2.2, p5⟩
  · rw [if_neg huse, wr_eq_ok _ hi, ok_bind']
    have hv : ({ first with channel := cc.channel } : NoiseChannel S).Fresh irLen lim :=
      ⟨hfirst.state, hfirst.fmod, hfirst.wmod, hfirst.trnl, hfirst.trnh⟩
    exact ⟨_, rfl, (hset _ hv).1, p2, (hset _ hv).2.1, (hset _ hv).2.2, p5⟩

theorem noiseSizes_ok {irLen : Nat → Nat} {rate start stop : Nat} {c : NoiseConfig S} {first : NoiseChannel S}
    (h0 : c.channelConfig[0]? = some first) (hn0 : 1 ≤ c.channelCount) (hn : c.channelCount ≤ c.channelConfig.length)
    (hl : ∀ cc ∈ c.channelConfig, cc.Fresh irLen (u32 (4 * rate))) (hfl : first.trnl ≠ 0) (hfh : first.trnh ≠ 0) :
    ∃ c' s, noiseSizes irLen rate start stop c = .ok (c', s) ∧ c'.channelCount = c.channelCount ∧
      c'.channelConfig.length = c.channelConfig.length ∧ c'.temp = c.temp ∧
      (∀ cc ∈ c'.channelConfig, cc.Fresh irLen (u32 (4 * rate))) ∧ s.irLengths.length = c.channelConfig.length ∧
      (∀ x ∈ s.irLengths, x ≤ s.tempLength) := by
  have hfirst := hl first (List.mem_of_getElem? h0)
  have hlen : irLen (min first.trnl first.trnh) ≤ u32 (4 * rate) := by
    rcases Nat.le_total first.trnl first.trnh with h | h
    · rw [Nat.min_eq_left h]; exact hfirst.trnl hfl
    · rw [Nat.min_eq_right h]; exact hfirst.trnh hfh
  obtain ⟨s, e, q1, q2, q3, q4, q5⟩ := noiseDefaults_loop (fm := first.fmod.isSome || first.wmod.isSome) (fs := false)
    (irs := (List.replicate c.channelConfig.length 0).set 0 (irLen (min first.trnl first.trnh)))
    (tl := irLen (min first.trnl first.trnh)) h0 hn0 hn hl hfl hfh (by simp) (by
      intro x hx
      rcases List.mem_or_eq_of_mem_set hx with h | h
      · rw [List.eq_of_mem_replicate h]; omega
      · subst h; exact ⟨Nat.le_refl _, hlen⟩)
  unfold noiseSizes
  simp only [rd_ok_iff.2 h0, ok_bind']
  rw [wr_eq_ok _ (by simp; omega), ok_bind', e, ok_bind']
  refine ⟨_, _, rfl, rfl, q1, rfl, q4, q2, ?_⟩
  intro x hx
  have := q5 x hx
  simp only
  omega

/-! ### allocations -/

/-- The state of the allocations, compared to the memory `m0` before: the new live allocations are those
in the register and those that the configuration has pointers to. -/
structure NoiseAlloc (m0 : Live) (c : NoiseConfig S) (m : Live) (reg : List (Option Nat)) : Prop where
  le : m0.next ≤ m.next
  regd : reg.filterMap id = List.range' m0.next (m.next - m0.next)
  live : ∀ a, m.live a = (m0.live a || decide (m0.next ≤ a ∧ a < m.next))
  owned : (c.owned.filterMap id).Perm (reg.filterMap id)

theorem NoiseAlloc.malloc {m0 m : Live} {c c' : NoiseConfig S} {reg : List (Option Nat)}
    (h : NoiseAlloc m0 c m reg)
    (ho : (c'.owned.filterMap id).Perm (m.next :: c.owned.filterMap id)) :
    NoiseAlloc m0 c' m.malloc.2 (reg ++ [some m.next]) := by
  have h1 := h.le
  refine ⟨by simp [Live.malloc]; omega, ?_, ?_, ?_⟩
  · rw [List.filterMap_append, h.regd]
    simp only [Live.malloc]
    rw [show m.next + 1 - m0.next = (m.next - m0.next) + 1 by omega, List.range'_concat]
    simp
    omega
  · intro a
    simp only [Live.malloc]
    by_cases ha : a = m.next
    · subst ha
      rw [if_pos rfl]
      simp [h1]
    · rw [if_neg ha, h.live]
      congr 1
      apply decide_eq_decide.2
      omega
  · rw [List.filterMap_append]
    refine ho.trans ?_
    refine (List.Perm.cons _ h.owned).trans ?_
    simp only [List.filterMap_cons, id, List.filterMap_nil]
    exact (List.perm_append_singleton _ _).symm

theorem owned_set_channel {c : NoiseConfig S} {i : Nat} {cc : NoiseChannel S} {a : Nat}
    (hi : i < c.channelCount) (hcc : c.channelConfig[i]? = some cc) (hs : cc.filterState = none) :
    (({ c with channelConfig := c.channelConfig.set i { cc with filterState := some a } } :
      NoiseConfig S).owned.filterMap id).Perm (a :: c.owned.filterMap id) := by
  unfold NoiseConfig.owned
  simp only [List.filterMap_append, List.take_set, List.map_set]
  rw [← List.cons_append]
  refine List.Perm.append_right _ ?_
  refine filterMap_set_some ?_
  rw [List.getElem?_map, List.getElem?_take_of_lt hi, hcc]
  simp [hs]

theorem owned_set_temp {c : NoiseConfig S} {i : Nat} {a : Nat} (tl : Nat) (h : c.temp[i]? = some none) :
    (({ c with temp := c.temp.set i (some a), tempLength := tl } : NoiseConfig S).owned.filterMap id).Perm
      (a :: c.owned.filterMap id) := by
  unfold NoiseConfig.owned
  simp only [List.filterMap_append]
  refine (List.Perm.append_left _ (filterMap_set_some h)).trans ?_
  exact List.perm_middle

theorem noiseFilterState_eq {status i len : Nat} {c : NoiseConfig S} {cc : NoiseChannel S} {m : Live}
    (hcc : c.channelConfig[i]? = some cc) (hs : cc.filterState = none) (hf : cc.fmod ≠ some []) (hw : cc.wmod ≠ some [])
    (hlen : len ≤ c.tempLength) :
    noiseFilterState status i len c m = .ok (if status ≠ 0 then (status, c, m) else
      (0, { c with channelConfig := c.channelConfig.set i { cc with filterState := some m.next } }, m.malloc.2)) := by
  have hi : i < c.channelConfig.length := by
    rcases List.getElem?_eq_some_iff.1 hcc with ⟨h, _⟩
    exact h
  unfold noiseFilterState
  rw [rd_ok_iff.2 hcc, ok_bind', if_neg (by omega), if_neg (by tauto)]
  split
  · rfl
  · rw [hs]
    simp only [Live.malloc]
    rw [wr_eq_ok _ hi, ok_bind']
    rfl

/-- The conditions on a channel for which a filter state can be created. -/
def NoiseChannel.NoState (cc : NoiseChannel S) : Prop :=
  cc.filterState = none ∧ cc.fmod ≠ some [] ∧ cc.wmod ≠ some []

theorem noiseFilterLoop_ok {status : Nat → Nat} {irs : Buf Nat} {n : Nat} (hn1 : 1 ≤ n) {m0 m : Live} {c : NoiseConfig S}
    {reg : List (Option Nat)} (h : NoiseAlloc m0 c m reg) (hc : c.channelCount = n) (hn : n ≤ c.channelConfig.length)
    (hirs : irs.length = c.channelConfig.length) (hir : ∀ x ∈ irs, x ≤ c.tempLength) (ht : c.temp.length = 3)
    (hfr : ∀ j, 1 ≤ j → ∀ cc, c.channelConfig[j]? = some cc → cc.NoState) :
    ∃ st c' m' reg', noiseFilterLoop status irs n c m reg = .ok (st, c', m', reg') ∧ NoiseAlloc m0 c' m' reg' ∧
      c'.channelCount = n ∧ c'.channelConfig.length = c.channelConfig.length ∧ c'.temp.length = 3 ∧
      m.next ≤ m'.next := by
  unfold noiseFilterLoop
  obtain ⟨⟨st, c', m', reg'⟩, e, q⟩ := forRange_rule (fun i (s : Nat × NoiseConfig S × Live × List (Option Nat)) =>
      (NoiseAlloc m0 s.2.1 s.2.2.1 s.2.2.2 ∧ m.next ≤ s.2.2.1.next) ∧ s.2.1.channelCount = n ∧
      s.2.1.channelConfig.length = c.channelConfig.length ∧ s.2.1.temp.length = 3 ∧ s.2.1.tempLength = c.tempLength ∧
      (∀ j, i ≤ j → ∀ cc, s.2.1.channelConfig[j]? = some cc → cc.NoState)) hn1 (body := fun cci (st, c, m, reg) =>
    if st ≠ 0 then .ok (st, c, m, reg)
    else do
      let len ← rd irs cci
      if len = 0 then return (0, c, m, reg)
      else
        let (st, c, m) ← noiseFilterState (status cci) cci len c m
        if st ≠ 0 then return (st, c, m, reg)
        else
          let cc ← rd c.channelConfig cci
          return (0, c, m, reg ++ [cc.filterState])) (s := (0, c, m, reg)) ⟨⟨h, Nat.le_refl _⟩, hc, rfl, ht, rfl, hfr⟩ (by
    rintro i ⟨st, c1, m1, reg1⟩ hi1 hin ⟨a1, a2, a3, a4, a5, a6⟩
    simp only at a1 a2 a3 a4 a5 a6
    simp only
    by_cases hst : st = 0
    · rw [if_neg (by simpa using hst)]
      have hil : i < irs.length := by omega
      rw [rd_eq_ok hil, ok_bind']
      by_cases hz : irs[i] = 0
      · rw [if_pos hz]
        exact ⟨_, rfl, a1, a2, a3, a4, a5, fun j hj => a6 j (by omega)⟩
      · rw [if_neg hz]
        have hcc : c1.channelConfig[i]? = some c1.channelConfig[i] := List.getElem?_eq_getElem (by omega)
        generalize c1.channelConfig[i] = cc at hcc
        obtain ⟨s1, s2, s3⟩ := a6 i (Nat.le_refl i) cc hcc
        have hlen : irs[i] ≤ c1.tempLength := by rw [a5]; exact hir _ (List.getElem_mem hil)
        rw [noiseFilterState_eq hcc s1 s2 s3 hlen, ok_bind']
        by_cases hs0 : status i = 0
        · simp only [hs0, ne_eq, not_true_eq_false, if_false]
          rw [rd_ok_iff.2 (show (c1.channelConfig.set i { cc with filterState := some m1.next })[i]? =
            some { cc with filterState := some m1.next } by
              rw [List.getElem?_set_self (by omega)]), ok_bind']
          refine ⟨_, rfl, ?_, a2, by simp [a3], a4, a5, ?_⟩
          · exact ⟨a1.1.malloc (owned_set_channel (by omega) hcc s1), by have := a1.2; simp [Live.malloc]; omega⟩
          · intro j hj cc' hcc'
            simp only at hcc'
            rw [List.getElem?_set_ne (by omega)] at hcc'
            exact a6 j (by omega) cc' hcc'
        · simp only [ne_eq, hs0, not_false_eq_true, if_true]
          exact ⟨_, rfl, a1, a2, a3, a4, a5, fun j hj => a6 j (by omega)⟩
    · rw [if_pos hst]
      exact ⟨_, rfl, a1, a2, a3, a4, a5, fun j hj => a6 j (by omega)⟩)
  exact ⟨st, c', m', reg', e, q.1.1, q.2.1, q.2.2.1, q.2.2.2.1, q.1.2⟩

theorem noiseAllocate_ok {status : Nat → Nat} {s : NoiseSizes S} {c : NoiseConfig S} {m : Live}
    (hn0 : 1 ≤ c.channelCount) (hn : c.channelCount ≤ c.channelConfig.length) (ht : c.temp = [none, none, none])
    (hirs : s.irLengths.length = c.channelConfig.length) (hir : ∀ x ∈ s.irLengths, x ≤ s.tempLength)
    (hfr : ∀ cc ∈ c.channelConfig, cc.NoState) :
    ∃ st c' m' reg, noiseAllocate status s c m = .ok (st, c', m', reg) ∧ NoiseAlloc m c' m' reg ∧
      c'.channelCount = c.channelCount ∧ c'.channelConfig.length = c.channelConfig.length ∧ c'.temp.length = 3 ∧
      (st = 0 → 3 ≤ m'.next - m.next) := by
  have hcfg : 0 < c.channelConfig.length := by omega
  have hnone : (c.owned.filterMap id) = [] := by
    unfold NoiseConfig.owned
    rw [List.filterMap_append, ht, List.filterMap_map]
    rw [show List.filterMap id [none, none, (none : Option Nat)] = [] from rfl, List.append_nil,
      List.filterMap_eq_nil_iff]
    intro cc hcc
    exact (hfr cc (List.mem_of_mem_take hcc)).1
  have h0 : NoiseAlloc m c m [] := by
    refine ⟨Nat.le_refl _, by simp, ?_, by rw [hnone]; exact List.Perm.refl _⟩
    intro a
    rw [show decide (m.next ≤ a ∧ a < m.next) = false by apply decide_eq_false; omega]
    simp
  have h1 : NoiseAlloc m { c with temp := [some m.next, none, none], tempLength := s.tempLength } m.malloc.2
      ([] ++ [some m.next]) := by
    refine h0.malloc ?_
    have := owned_set_temp (c := c) (i := 0) (a := m.next) s.tempLength (by rw [ht]; rfl)
    rw [ht] at this
    exact this
  have h2 : NoiseAlloc m { c with temp := [some m.next, some (m.next + 1), none], tempLength := s.tempLength }
      m.malloc.2.malloc.2 ([] ++ [some m.next] ++ [some (m.next + 1)]) := by
    refine h1.malloc ?_
    exact owned_set_temp (c := { c with temp := [some m.next, none, none], tempLength := s.tempLength }) (i := 1)
      (a := m.next + 1) s.tempLength rfl
  obtain ⟨cc, hcc⟩ : ∃ cc, c.channelConfig[0]? = some cc := ⟨_, List.getElem?_eq_getElem hcfg⟩
  obtain ⟨f1, f2, f3⟩ := hfr cc (List.mem_of_getElem? hcc)
  have hil : 0 < s.irLengths.length := by omega
  unfold noiseAllocate
  simp only [Live.malloc]
  rw [ht, show wr [none, none, none] 0 (some m.next) = .ok [some m.next, none, none] from rfl, ok_bind',
    show wr [some m.next, none, none] 1 (some (m.next + 1)) = .ok [some m.next, some (m.next + 1), none] from rfl,
    ok_bind', rd_eq_ok hil, ok_bind']
  simp only [Live.malloc, List.nil_append, List.cons_append] at h2
  rw [noiseFilterState_eq (c := { c with temp := [some m.next, some (m.next + 1), none], tempLength := s.tempLength })
    hcc f1 f2 f3 (hir _ (List.getElem_mem hil)), ok_bind']
  by_cases hst : status 0 = 0
  · simp only [hst, ne_eq, not_true_eq_false, if_false]
    rw [rd_ok_iff.2 (show (c.channelConfig.set 0 { cc with filterState := some (m.next + 1 + 1) })[0]? =
      some { cc with filterState := some (m.next + 1 + 1) } by rw [List.getElem?_set_self (by omega)]), ok_bind']
    have h3 := h2.malloc (owned_set_channel (c := { c with temp := [some m.next, some (m.next + 1), none], tempLength := s.tempLength })
      (i := 0) (cc := cc) (a := m.next + 1 + 1) (by simp; omega) hcc f1)
    simp only [Live.malloc, List.cons_append, List.nil_append] at h3 ⊢
    by_cases hfs : s.filterStates
    · rw [if_pos hfs, show wr [some m.next, some (m.next + 1), none] 2 (some (m.next + 1 + 1 + 1)) =
        .ok [some m.next, some (m.next + 1), some (m.next + 1 + 1 + 1)] from rfl, ok_bind']
      have h4 := h3.malloc (owned_set_temp (c := { c with temp := [some m.next, some (m.next + 1), none], tempLength := s.tempLength, channelConfig := c.channelConfig.set 0 { cc with filterState := some (m.next + 1 + 1) } })
        (i := 2) (a := m.next + 1 + 1 + 1) s.tempLength rfl)
      simp only [Live.malloc, List.cons_append, List.nil_append, List.set_cons_succ, List.set_cons_zero] at h4
      obtain ⟨st, c', m', reg', e, q1, q2, q3, q4, q5⟩ := noiseFilterLoop_ok (status := status) (irs := s.irLengths) hn0 h4 rfl
        (by simpa using hn) (by simpa using hirs) hir rfl (by
          intro j hj cc' hcc'
          simp only at hcc'
          rw [List.getElem?_set_ne (by omega)] at hcc'
          exact hfr cc' (List.mem_of_getElem? hcc'))
      refine ⟨st, c', m', reg', e, q1, q2, by simpa using q3, q4, ?_⟩
      intro _
      simp only at q5
      omega
    · rw [if_neg hfs]
      refine ⟨_, _, _, _, rfl, h3, rfl, by simp, rfl, ?_⟩
      intro _
      simp only
      omega
  · simp only [ne_eq, hst, not_false_eq_true, if_true]
    exact ⟨_, _, _, _, rfl, h2, rfl, rfl, rfl, fun h => absurd h hst⟩

end Sp
