import Verif.Model.WaveAdder
import Verif.Model.EventTree
import Verif.Lemmas.SeqParallel

/-! # Wave events as events that add to their output -/

set_option linter.unusedSectionVars false

namespace Sp

/-- A loop whose steps simulate those of another. -/
theorem forRange_sim {σ τ : Type _} (R : σ → τ → Prop) {lo hi : Nat} {b1 : Nat → σ → C σ} {b2 : Nat → τ → C τ}
    (hb : ∀ i s s' t, lo ≤ i → i < hi → R s t → b1 i s = .ok s' → ∃ t', b2 i t = .ok t' ∧ R s' t')
    {s s' : σ} {t : τ} (h0 : R s t) (h : forRange lo hi b1 s = .ok s') : ∃ t', forRange lo hi b2 t = .ok t' ∧ R s' t' := by
  rw [forRange] at h
  simp only [forRange]
  have key : ∀ n i (s : σ) (t : τ), lo ≤ i → i + n ≤ hi ∨ n = 0 → R s t → iter b1 n i s = .ok s' →
      ∃ t', iter b2 n i t = .ok t' ∧ R s' t' := by
    intro n
    induction n with
    | zero =>
      intro i s t _ _ hr h
      rw [iter] at h
      cases h
      exact ⟨t, rfl, hr⟩
    | succ n ih =>
      intro i s t hlo hn hr h
      rw [iter] at h
      cases h1 : b1 i s with
      | error x => rw [h1] at h; cases h
      | ok s2 =>
        rw [h1] at h
        obtain ⟨t2, e2, r2⟩ := hb i s s2 t hlo (by omega) hr h1
        obtain ⟨t3, e3, r3⟩ := ih (i + 1) s2 t2 (by omega) (by omega) r2 h
        exact ⟨t3, by rw [iter, e2]; exact e3, r3⟩
  exact key _ _ _ _ le_rfl (by omega) h0 h

variable {S : Type} [Add S] [Mul S]

theorem applyWrites_append (off : Nat) (ws vs : List (Write S)) (out : Buf (Buf S)) :
    applyWrites off (ws ++ vs) out = (applyWrites off ws out).bind (applyWrites off vs) := by
  induction ws generalizing out with
  | nil => rfl
  | cons w ws ih =>
    rw [List.cons_append, applyWrites, applyWrites]
    cases h : add2 out w.channel (off + w.index) w.value with
    | error x => rfl
    | ok o => simp only [ok_bind']; exact ih o

/-- `sp_wave_event_generate` adds what is collected. -/
theorem waveGenerate_writes {nch x y off : Nat} {c c' : WaveConfig S} {out out' : Buf (Buf S)} (hl : List.length out = nch)
    (h : waveGenerate x y off c out = .ok (c', out')) :
    ∃ ws, waveWrites nch x y c = .ok (c', ws) ∧ applyWrites off ws out = .ok out' ∧ List.length out' = nch := by
  rw [waveGenerate] at h
  cases h1 : forRange 0 c.channelCount (waveEventChannel c x y off) (c.channelConfig, out) with
  | error x => rw [h1] at h; cases h
  | ok r =>
    obtain ⟨ccs, o⟩ := r
    rw [h1] at h
    simp only [ok_bind', pure_eq_ok, Except.ok.injEq, Prod.mk.injEq] at h
    obtain ⟨rfl, rfl⟩ := h
    obtain ⟨⟨ccs', ws⟩, h2, h3, h4, h5⟩ := forRange_sim (fun (s : Buf (WaveChannel S) × Buf (Buf S)) (t : Buf (WaveChannel S) × List (Write S)) =>
        s.1 = t.1 ∧ applyWrites off t.2 out = .ok s.2 ∧ List.length s.2 = nch)
      (b2 := waveChannelWrites nch c x y) (t := (c.channelConfig, []))
      (by
        rintro cci ⟨s1, s2⟩ ⟨s1', s2'⟩ ⟨t1, t2⟩ _ _ ⟨r1, r2, r3⟩ hb
        simp only at r1 r2 r3
        subst r1
        rw [waveEventChannel] at hb
        simp only at hb
        obtain ⟨cc, hcc, hb⟩ := bind_eq_ok.1 hb
        obtain ⟨chan, hch, hb⟩ := bind_eq_ok.1 hb
        obtain ⟨⟨phs, chan'⟩, hf, hb⟩ := bind_eq_ok.1 hb
        simp only at hb
        obtain ⟨ccs, hw, hb⟩ := bind_eq_ok.1 hb
        obtain ⟨o, ho, hb⟩ := bind_eq_ok.1 hb
        simp only [pure_eq_ok, Except.ok.injEq, Prod.mk.injEq] at hb
        obtain ⟨rfl, rfl⟩ := hb
        rw [rd_ok_iff] at hch
        obtain ⟨hlt, hch⟩ := List.getElem?_eq_some_iff.1 hch
        have hset : ∀ ch : Buf S, wr s2 cc.channel ch = .ok (s2.set cc.channel ch) := fun ch => wr_eq_ok _ hlt
        rw [hset] at ho
        cases ho
        obtain ⟨⟨phs', ws⟩, q1, q2, q3⟩ := forRange_sim (fun (s : Nat × Buf S) (t : Nat × List (Write S)) =>
            s.1 = t.1 ∧ applyWrites off t.2 out = .ok (s2.set cc.channel s.2))
          (b2 := waveStepWrites c.wvf c.wvfSize cc x) (t := (cc.phs, t2))
          (by
            rintro i ⟨p, o⟩ ⟨p', o'⟩ ⟨u, ws⟩ _ _ ⟨a1, a2⟩ hs
            simp only at a1 a2
            subst a1
            rw [waveEventStep] at hs
            simp only at hs
            obtain ⟨phsn, b1, hs⟩ := bind_eq_ok.1 hs
            obtain ⟨m, b2, hs⟩ := bind_eq_ok.1 hs
            obtain ⟨v, b3, hs⟩ := bind_eq_ok.1 hs
            obtain ⟨o2, b4, hs⟩ := bind_eq_ok.1 hs
            obtain ⟨d, b5, hs⟩ := bind_eq_ok.1 hs
            obtain ⟨phs, b6, hs⟩ := bind_eq_ok.1 hs
            simp only [pure_eq_ok, Except.ok.injEq, Prod.mk.injEq] at hs
            obtain ⟨rfl, rfl⟩ := hs
            refine ⟨(phs, ws ++ [⟨cc.channel, i - x, cc.amp * m * v⟩]), ?_, rfl, ?_⟩
            · rw [waveStepWrites]
              simp only [b1, b2, b3, b5, b6, ok_bind', pure_eq_ok]
            · simp only
              rw [applyWrites_append, a2]
              rw [addAt] at b4
              obtain ⟨z, z1, z2⟩ := bind_eq_ok.1 b4
              have hlen : cc.channel < (s2.set cc.channel o).length := by simpa using hlt
              have hr : rd (s2.set cc.channel o) cc.channel = .ok o := by
                rw [rd_ok_iff]; simp [hlt]
              change applyWrites off [_] _ = _
              rw [applyWrites, add2, rd2, hr]
              simp only [ok_bind', z1, wr2, hr, z2, wr_eq_ok _ hlen, applyWrites, List.set_set])
          ⟨rfl, by simp only; rw [r2, ← hch, List.set_getElem_self]⟩ hf
        simp only at q1 q2 q3
        subst q2
        refine ⟨(ccs, ws), ?_, rfl, q3, by simpa using r3⟩
        rw [waveChannelWrites]
        simp only [hcc, ok_bind', if_pos (show cc.channel < nch by omega), q1, hw, pure_eq_ok])
      (by exact ⟨rfl, rfl, hl⟩) h1
    simp only at h3 h4 h5
    subst h3
    refine ⟨ws, ?_, h4, h5⟩
    rw [waveWrites, h2]
    rfl

/-- What holds after a loop that succeeds. -/
theorem forRange_post {σ : Type _} (P : Nat → σ → Prop) {lo hi : Nat} (hle : lo ≤ hi) {body : Nat → σ → C σ}
    (hb : ∀ i s s', lo ≤ i → i < hi → P i s → body i s = .ok s' → P (i + 1) s')
    {s s' : σ} (h0 : P lo s) (h : forRange lo hi body s = .ok s') : P hi s' := by
  obtain ⟨n, rfl⟩ := Nat.exists_eq_add_of_le hle
  clear hle
  rw [forRange, Nat.add_sub_cancel_left] at h
  induction n generalizing lo s with
  | zero =>
    rw [iter] at h
    cases h
    exact h0
  | succ n ih =>
    rw [iter] at h
    cases h1 : body lo s with
    | error x => rw [h1] at h; cases h
    | ok s2 =>
      rw [h1] at h
      have := ih (lo := lo + 1) (s := s2) (h0 := hb lo s s2 le_rfl (by omega) h0 h1) (h := h)
        (hb := fun i s s' a b => hb i s s' (by omega) (by omega))
      rw [show lo + (n + 1) = lo + 1 + n by omega]
      exact this

/-- The channels of the configurations. -/
def WaveConfig.channels (c : WaveConfig S) : List Nat := c.channelConfig.map WaveChannel.channel

theorem map_channel_set {l : Buf (WaveChannel S)} {i : Nat} {cc cc' : WaveChannel S} (h : l[i]? = some cc) (hc : cc'.channel = cc.channel) :
    (l.set i cc').map WaveChannel.channel = l.map WaveChannel.channel := by
  obtain ⟨hlt, h⟩ := List.getElem?_eq_some_iff.1 h
  rw [List.map_set, hc, ← h]
  have : l[i].channel = (l.map WaveChannel.channel)[i]'(by simpa using hlt) := by simp
  rw [this, List.set_getElem_self]

/-- `sp_wave_event_prepare` keeps the channels. -/
theorem wavePrepare_channels {c c' : WaveConfig S} (h : wavePrepare c = .ok c') :
    c'.channels = c.channels ∧ c'.channelCount = c.channelCount := by
  rw [wavePrepare] at h
  obtain ⟨t, _, h2⟩ := forRange_sim (fun (s : WaveConfig S) (_ : Unit) => s.channels = c.channels ∧ s.channelCount = c.channelCount)
    (b2 := fun _ _ => .ok ()) (t := ()) (by
      rintro i s s' _ _ _ ⟨r1, r2⟩ hb
      obtain ⟨cc, h1, hb⟩ := bind_eq_ok.1 hb
      obtain ⟨first, _, hb⟩ := bind_eq_ok.1 hb
      obtain ⟨ccs, h3, hb⟩ := bind_eq_ok.1 hb
      simp only [pure_eq_ok, Except.ok.injEq] at hb
      subst hb
      rw [rd_ok_iff] at h1
      obtain ⟨hlt, _⟩ := List.getElem?_eq_some_iff.1 h1
      rw [wr_eq_ok _ hlt] at h3
      cases h3
      refine ⟨(), rfl, ?_, r2⟩
      rw [← r1]
      refine map_channel_set h1 ?_
      split <;> rfl) ⟨rfl, rfl⟩ h
  exact h2

/-- The samples that are added to, in order. -/
theorem waveWrites_keys {nch x y : Nat} {c c' : WaveConfig S} {ws : List (Write S)} (h : waveWrites nch x y c = .ok (c', ws)) :
    (ws.map fun w => (w.channel, w.index)) =
      (c.channels.take c.channelCount).flatMap (fun ch => (List.range (y - x)).map fun i => (ch, i)) ∧
    ∀ ch ∈ c.channels.take c.channelCount, ch < nch := by
  rw [waveWrites] at h
  obtain ⟨⟨ccs, ws'⟩, h1, h⟩ := bind_eq_ok.1 h
  simp only [pure_eq_ok, Except.ok.injEq, Prod.mk.injEq] at h
  obtain ⟨_, rfl⟩ := h
  obtain ⟨_, h2, h3⟩ := forRange_post (fun i (s : Buf (WaveChannel S) × List (Write S)) => s.1.map WaveChannel.channel = c.channels ∧
      (s.2.map fun w => (w.channel, w.index)) = (c.channels.take i).flatMap (fun ch => (List.range (y - x)).map fun i => (ch, i)) ∧
      ∀ ch ∈ c.channels.take i, ch < nch) (Nat.zero_le c.channelCount) (by
    rintro cci ⟨s1, s2⟩ ⟨t1, t2⟩ _ _ ⟨r1, r2, r3⟩ hb
    simp only at r1 r2 r3
    rw [waveChannelWrites] at hb
    obtain ⟨cc, hcc, hb⟩ := bind_eq_ok.1 hb
    simp only at hcc
    by_cases hlt : cc.channel < nch
    · rw [if_pos hlt] at hb
      obtain ⟨⟨phs, vs⟩, hf, hb⟩ := bind_eq_ok.1 hb
      obtain ⟨ccs, hw, hb⟩ := bind_eq_ok.1 hb
      simp only [pure_eq_ok, Except.ok.injEq, Prod.mk.injEq] at hb
      obtain ⟨rfl, rfl⟩ := hb
      rw [rd_ok_iff] at hcc
      obtain ⟨hl, hcc'⟩ := List.getElem?_eq_some_iff.1 hcc
      rw [wr_eq_ok _ hl] at hw
      cases hw
      have hch : c.channels[cci]? = some cc.channel := by
        rw [← r1, List.getElem?_map, hcc]
        rfl
      have hvs : (vs.map fun w => (w.channel, w.index)) =
          (s2.map fun w => (w.channel, w.index)) ++ (List.range (y - x)).map fun i => (cc.channel, i) := by
        by_cases hxy : x ≤ y
        · have := forRange_post (fun i (s : Nat × List (Write S)) => (s.2.map fun w => (w.channel, w.index)) =
              (s2.map fun w => (w.channel, w.index)) ++ (List.range (i - x)).map fun i => (cc.channel, i)) hxy (by
            rintro i ⟨p, o⟩ ⟨p', o'⟩ hi _ q hs
            rw [waveStepWrites] at hs
            obtain ⟨phsn, _, hs⟩ := bind_eq_ok.1 hs
            obtain ⟨m, _, hs⟩ := bind_eq_ok.1 hs
            obtain ⟨v, _, hs⟩ := bind_eq_ok.1 hs
            obtain ⟨d, _, hs⟩ := bind_eq_ok.1 hs
            obtain ⟨phs, _, hs⟩ := bind_eq_ok.1 hs
            simp only [pure_eq_ok, Except.ok.injEq, Prod.mk.injEq] at hs
            obtain ⟨_, rfl⟩ := hs
            simp only at q ⊢
            rw [List.map_append, q, show i + 1 - x = (i - x) + 1 by omega, List.range_succ, List.map_append, List.append_assoc]
            rfl) (by simp) hf
          exact this
        · rw [forRange, show y - x = 0 by omega] at hf
          simp only [iter, Except.ok.injEq, Prod.mk.injEq] at hf
          rw [← hf.2, show y - x = 0 by omega]
          simp
      refine ⟨?_, ?_, ?_⟩
      · simp only
        rw [← r1]
        exact map_channel_set hcc rfl
      · simp only
        rw [hvs, r2, List.take_add_one, hch]
        simp [List.flatMap_append]
      · intro ch hmem
        rw [List.take_add_one, hch] at hmem
        rcases List.mem_append.1 hmem with hmem | hmem
        · exact r3 ch hmem
        · simp only [Option.toList_some, List.mem_singleton] at hmem
          rw [hmem]; exact hlt
    · rw [if_neg hlt] at hb
      cases hb) (by exact ⟨rfl, by simp, by simp⟩) h1
  exact ⟨h2, h3⟩

/-- Two sets of functions of which the second succeeds whenever the first does, with the same result. -/
theorem seqList_transfer {D W : Type} {A B : Callbacks D W} (Inv : W → Prop)
    (hp : ∀ e w r, Inv w → A.prepare e w = .ok r → B.prepare e w = .ok r ∧ Inv r.2.2)
    (hg : ∀ x y off e w r, Inv w → A.generate x y off e w = .ok r → B.generate x y off e w = .ok r ∧ Inv r.2.2)
    (hf : ∀ e w r, Inv w → A.free e w = .ok r → B.free e w = .ok r ∧ Inv r)
    {start stop base : Nat} (l : List (Addr × Event D)) {w : W} {r : Nat × List (Addr × Event D) × W × List Call} (hw : Inv w)
    (h : seqList A start stop base l w = .ok r) : seqList B start stop base l w = .ok r ∧ Inv r.2.2.1 := by
  induction l generalizing w r with
  | nil =>
    rw [seqList] at h
    cases h
    exact ⟨rfl, hw⟩
  | cons p l ih =>
    obtain ⟨a, e⟩ := p
    rw [seqList] at h ⊢
    by_cases h1 : e.stop ≤ start
    · rw [if_pos h1] at h ⊢
      obtain ⟨⟨w1, lg1⟩, e1, h⟩ := bind_eq_ok.1 h
      obtain ⟨⟨st, l2, w2, lg2⟩, e2, h⟩ := bind_eq_ok.1 h
      have : eventFree B a e w = .ok (w1, lg1) ∧ Inv w1 := by
        rw [eventFree] at e1 ⊢
        by_cases hfr : e.hasFree = true
        · rw [if_pos hfr] at e1 ⊢
          obtain ⟨w', e3, e1⟩ := bind_eq_ok.1 e1
          obtain ⟨e4, e5⟩ := hf e w w' hw e3
          simp only [pure_eq_ok, Except.ok.injEq, Prod.mk.injEq] at e1
          obtain ⟨rfl, rfl⟩ := e1
          rw [e4]
          exact ⟨rfl, e5⟩
        · rw [if_neg hfr] at e1 ⊢
          cases e1
          exact ⟨rfl, hw⟩
      obtain ⟨q1, q2⟩ := ih this.2 e2
      rw [this.1]
      simp only [ok_bind', q1]
      simp only [pure_eq_ok, Except.ok.injEq] at h
      subst h
      exact ⟨rfl, q2⟩
    · rw [if_neg h1] at h ⊢
      by_cases h2 : stop ≤ e.start
      · rw [if_pos h2] at h ⊢
        cases h
        exact ⟨rfl, hw⟩
      · rw [if_neg h2] at h ⊢
        obtain ⟨⟨st, e2, w2, lg2⟩, e3, h⟩ := bind_eq_ok.1 h
        have : seqEvent B start stop base a e w = .ok (st, e2, w2, lg2) ∧ Inv w2 := by
          rw [seqEvent] at e3 ⊢
          obtain ⟨⟨st1, e4, w4, lg4⟩, e5, e3⟩ := bind_eq_ok.1 e3
          have hpo : prepareOptional B a e w = .ok (st1, e4, w4, lg4) ∧ Inv w4 := by
            rw [prepareOptional] at e5 ⊢
            by_cases hpr : e.prep = true
            · rw [if_pos hpr] at e5 ⊢
              obtain ⟨⟨st6, e6, w6⟩, e7, e5⟩ := bind_eq_ok.1 e5
              obtain ⟨e8, e9⟩ := hp e w _ hw e7
              rw [e8]
              simp only [ok_bind'] at e5 ⊢
              refine ⟨e5, ?_⟩
              by_cases hst : st6 ≠ 0
              · rw [if_pos hst] at e5
                simp only [pure_eq_ok, Except.ok.injEq, Prod.mk.injEq] at e5
                rw [← e5.2.2.1]; exact e9
              · rw [if_neg hst] at e5
                simp only [pure_eq_ok, Except.ok.injEq, Prod.mk.injEq] at e5
                rw [← e5.2.2.1]; exact e9
            · rw [if_neg hpr] at e5 ⊢
              cases e5
              exact ⟨rfl, hw⟩
          rw [hpo.1]
          simp only [ok_bind'] at e3 ⊢
          by_cases hst : st1 ≠ 0
          · rw [if_pos hst] at e3 ⊢
            simp only [pure_eq_ok, Except.ok.injEq, Prod.mk.injEq] at e3 ⊢
            exact ⟨e3, e3.2.2.1 ▸ hpo.2⟩
          · rw [if_neg hst] at e3 ⊢
            obtain ⟨⟨st6, e6, w6⟩, e7, e3⟩ := bind_eq_ok.1 e3
            obtain ⟨e8, e9⟩ := hg _ _ _ _ _ _ hpo.2 e7
            rw [e8]
            simp only [pure_eq_ok, Except.ok.injEq, Prod.mk.injEq, ok_bind'] at e3 ⊢
            exact ⟨e3, e3.2.2.1 ▸ e9⟩
        rw [this.1]
        simp only [ok_bind'] at h ⊢
        by_cases hst : st ≠ 0
        · rw [if_pos hst] at h ⊢
          simp only [pure_eq_ok, Except.ok.injEq] at h
          subst h
          exact ⟨rfl, this.2⟩
        · rw [if_neg hst] at h ⊢
          obtain ⟨⟨st6, l6, w6, lg6⟩, e7, h⟩ := bind_eq_ok.1 h
          obtain ⟨q1, q2⟩ := ih this.2 e7
          simp only [pure_eq_ok, Except.ok.injEq] at h
          subst h
          rw [q1]
          exact ⟨rfl, q2⟩

/-- A successful `sp_seq` of wave events is one of events that add to their output. -/
theorem seqListTop_wave {start stop base : Nat} {l l' : List (Addr × Event (WaveConfig S))} {out out' : Buf (Buf S)} {log : List Call}
    (h : seqListTop waveCb start stop base l out = .ok (0, l', out', log)) :
    seqListTop (waveAdder (List.length out)).callbacks start stop base l out = .ok (0, l', out', log) := by
  rw [seqListTop] at h ⊢
  obtain ⟨⟨st, l1, w1, lg1⟩, h1, h⟩ := bind_eq_ok.1 h
  obtain ⟨h2, _⟩ := seqList_transfer (B := (waveAdder (List.length out)).callbacks) (fun w => List.length w = List.length out)
    (by
      intro e w r hw hr
      simp only [waveCb] at hr
      obtain ⟨c, e1, hr⟩ := bind_eq_ok.1 hr
      simp only [pure_eq_ok, Except.ok.injEq] at hr
      subst hr
      refine ⟨?_, hw⟩
      simp only [Adder.callbacks, waveAdder, e1, ok_bind', pure_eq_ok])
    (by
      intro x y off e w r hw hr
      simp only [waveCb] at hr
      obtain ⟨⟨c, w2⟩, e1, hr⟩ := bind_eq_ok.1 hr
      simp only [pure_eq_ok, Except.ok.injEq] at hr
      subst hr
      obtain ⟨ws, q1, q2, q3⟩ := waveGenerate_writes hw e1
      refine ⟨?_, q3⟩
      simp only [Adder.callbacks, waveAdder, q1, ok_bind', pure_eq_ok, q2])
    (by
      intro e w r hw hr
      simp only [waveCb, Except.ok.injEq] at hr
      subst hr
      exact ⟨rfl, hw⟩) l rfl h1
  rw [h2]
  simp only [ok_bind'] at h ⊢
  by_cases hst : st ≠ 0
  · rw [if_pos hst] at h
    obtain ⟨⟨w2, lg2⟩, _, h⟩ := bind_eq_ok.1 h
    simp only [pure_eq_ok, Except.ok.injEq, Prod.mk.injEq] at h
    exact absurd h.1 hst
  · rw [if_neg hst] at h ⊢
    exact h

theorem waveAdder_times (nch : Nat) : AdderKeepsTimes (waveAdder (S := S) nch) := by
  intro e r h
  simp only [waveAdder] at h
  obtain ⟨c, _, h⟩ := bind_eq_ok.1 h
  simp only [pure_eq_ok, Except.ok.injEq] at h
  subst h
  exact ⟨rfl, rfl⟩

theorem waveAdder_range (nch : Nat) : AdderInRange (waveAdder (S := S) nch) nch := by
  intro x y e r _ _ h w hw
  simp only [waveAdder] at h
  obtain ⟨⟨c, ws⟩, h1, h⟩ := bind_eq_ok.1 h
  simp only [pure_eq_ok, Except.ok.injEq] at h
  subst h
  obtain ⟨h2, h3⟩ := waveWrites_keys h1
  have hm : (w.channel, w.index) ∈ ws.map fun w => (w.channel, w.index) := List.mem_map_of_mem hw
  rw [h2, List.mem_flatMap] at hm
  obtain ⟨ch, m1, m2⟩ := hm
  rw [List.mem_map] at m2
  obtain ⟨i, m3, m4⟩ := m2
  simp only [Prod.mk.injEq] at m4
  rw [List.mem_range] at m3
  exact ⟨m4.1 ▸ h3 ch m1, by omega⟩

end Sp
