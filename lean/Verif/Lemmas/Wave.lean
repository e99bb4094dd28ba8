import Verif.Spec.Wave
import Verif.Lemmas.Block

set_option linter.unusedSectionVars false

namespace Sp
variable {S : Type} [Add S] [Mul S]

theorem wrapPhase_eq {p w : Nat} (hw : 0 < w) : wrapPhase p w = .ok (p % w) := by
  unfold wrapPhase
  split
  · rw [if_neg (by omega)]
  · rw [Nat.mod_eq_of_lt (by omega)]

theorem phaseAfter_lt {w : Nat} {f : Nat → Nat} {p a : Nat} (hp : p < w) (n : Nat) :
    phaseAfter w f p a n < w := by
  cases n with
  | zero => exact hp
  | succ n => exact Nat.mod_lt _ (by omega)

theorem phaseAfter_add (w : Nat) (f : Nat → Nat) (p a n m : Nat) :
    phaseAfter w f p a (n + m) = phaseAfter w f (phaseAfter w f p a n) (a + n) m := by
  induction m with
  | zero => rfl
  | succ m ih => rw [← Nat.add_assoc]; simp only [phaseAfter]; rw [ih, Nat.add_assoc]

theorem phaseAfter_shift (w : Nat) (f : Nat → Nat) (p a k n : Nat) :
    phaseAfter w (fun i => f (i + k)) p a n = phaseAfter w f p (a + k) n := by
  induction n with
  | zero => rfl
  | succ n ih => simp only [phaseAfter]; rw [ih]; congr 3; congr 1; omega

theorem phaseAfter_congr {w : Nat} {f g : Nat → Nat} {p a n : Nat}
    (h : ∀ i, a ≤ i → i < a + n → f i = g i) : phaseAfter w f p a n = phaseAfter w g p a n := by
  induction n with
  | zero => rfl
  | succ n ih =>
    simp only [phaseAfter]
    rw [ih (fun i h1 h2 => h i h1 (by omega)), h (a + n) (by omega) (by omega)]

theorem optionalArrayGet_eq {α : Type} {b : Option (Buf α)} {d : α} {i n : Nat} (h : OptLen b n)
    (hi : i < n) : optionalArrayGet b d i = .ok (optGet b d i) := by
  cases b with
  | none => rfl
  | some x =>
    have := h x rfl
    simp only [optionalArrayGet, optGet]
    rw [rd_eq_ok (by omega)]
    simp [show i < x.length by omega]

/-- `sp_wave` in closed form. -/
theorem wave_eq {size : Nat} {wvf : Buf S} {amp z : S} {amod : Option (Buf S)} {frq : Nat}
    {fmod : Option (Buf Nat)} {phsState : Option Nat} {n : Nat} {f : Nat → S}
    (hn : size ≤ n) (hp : phsState.getD 0 < wvf.length)
    (ha : OptLen amod size) (hf : OptLen fmod size) :
    wave size wvf wvf.length amp amod frq fmod phsState (tab n f) =
      .ok (phsState.map (fun _ => phaseAfter wvf.length (optGet fmod frq) (phsState.getD 0) 0 size),
        tab n (fun i => if i < size then
          f i + amp * optGet amod amp i *
            wvf.getD (phaseAfter wvf.length (optGet fmod frq) (phsState.getD 0) 0 i) z
          else f i)) := by
  unfold wave
  have key := forRange_states (σ := Nat × Buf S)
    (fun j => (phaseAfter wvf.length (optGet fmod frq) (phsState.getD 0) 0 j,
      tab n (fun i => if i < j then
          f i + amp * optGet amod amp i *
            wvf.getD (phaseAfter wvf.length (optGet fmod frq) (phsState.getD 0) 0 i) z
          else f i))) (Nat.zero_le size)
    (body := waveStep wvf wvf.length amp amod frq fmod) (by
      intro i _ hi
      have hlt := phaseAfter_lt (f := optGet fmod frq) (a := 0) hp i
      unfold waveStep
      rw [optionalArrayGet_eq ha hi, ok_bind', rd_eq_ok hlt, ok_bind', addAt_tab _ (by omega),
        ok_bind', optionalArrayGet_eq hf hi, ok_bind', wrapPhase_eq (by omega), ok_bind']
      simp only [pure_eq_ok]
      congr 2
      · simp only [phaseAfter, u32, Nat.zero_add]
      · apply tab_congr
        intro k _
        rcases Nat.lt_trichotomy k i with h | h | h
        · simp [h, show k < i + 1 by omega, show k ≠ i by omega]
        · subst h; simp [hlt]
        · simp [show ¬ k < i by omega, show ¬ k < i + 1 by omega, show k ≠ i by omega])
  simp only [phaseAfter, Nat.not_lt_zero, if_false] at key
  rw [key]
  rfl

theorem WaveChannel.Ok.phaseAt_lt {w dur nch : Nat} {cc : WaveChannel S} (h : cc.Ok w dur nch) (a i : Nat) :
    cc.phaseAt w a i < w := phaseAfter_lt h.phs _

theorem WaveChannel.Ok.index_lt {w dur nch : Nat} {cc : WaveChannel S} (h : cc.Ok w dur nch) (a i : Nat) :
    cc.index w a i < w := by
  have := h.phaseAt_lt a i
  unfold WaveChannel.index
  split
  · exact Nat.mod_lt _ (by omega)
  · exact this

theorem readPhase_eq {w dur nch : Nat} {cc : WaveChannel S} (h : cc.Ok w dur nch) {a i : Nat} (hi : i < dur) :
    readPhase (cc.phaseAt w a i) cc.pmod w i = .ok (cc.index w a i) := by
  have hp := h.phs
  have hl := h.pmod
  unfold readPhase WaveChannel.index
  cases hm : cc.pmod with
  | none => rfl
  | some p =>
    have := hl p hm
    simp only
    rw [rd_eq_ok (by omega), ok_bind', wrapPhase_eq (by omega)]
    simp [u32, show i < p.length by omega]

theorem phaseChange_eq {w dur nch : Nat} {cc : WaveChannel S} (h : cc.Ok w dur nch) {i : Nat} (hi : i < dur) :
    phaseChange cc.frq cc.fmod i = .ok (cc.change i) := by
  have hl := h.fmod
  unfold phaseChange WaveChannel.change
  cases hm : cc.fmod with
  | none => rfl
  | some p =>
    have := hl p hm
    simp only
    rw [rd_eq_ok (by omega), ok_bind']
    simp [u32, show i < p.length by omega]

theorem amodGet_eq {w dur nch : Nat} {cc : WaveChannel S} (h : cc.Ok w dur nch) {z : S} {i : Nat} (hi : i < dur) :
    amodGet cc.amod i = .ok (optGet cc.amod z i) := by
  obtain ⟨b, hb, hl⟩ := h.amod
  rw [hb]
  simp only [amodGet, optGet]
  rw [rd_eq_ok (by omega)]
  simp [show i < b.length by omega]

/-- The inner loop of `sp_wave_event_generate` in closed form. -/
theorem waveEventLoop_eq {wvf : Buf S} {dur nch : Nat} {cc : WaveChannel S} (h : cc.Ok wvf.length dur nch)
    (z : S) {a b off n : Nat} (hab : a ≤ b) (hb : b ≤ dur) (hoff : off + (b - a) ≤ n) (f : Nat → S) :
    forRange a b (waveEventStep wvf wvf.length cc a off) (cc.phs, tab n f) =
      .ok (cc.phaseAt wvf.length a b, tab n (fun k => if off ≤ k ∧ k < off + (b - a) then
        f k + cc.value wvf wvf.length z a (a + (k - off)) else f k)) := by
  have key := forRange_states (σ := Nat × Buf S)
    (fun j => (cc.phaseAt wvf.length a j, tab n (fun k => if off ≤ k ∧ k < off + (j - a) then
        f k + cc.value wvf wvf.length z a (a + (k - off)) else f k))) hab
    (body := waveEventStep wvf wvf.length cc a off) (by
      intro i hi1 hi2
      have hlt := h.index_lt a i
      have hp := h.phaseAt_lt a i
      unfold waveEventStep
      simp only [readPhase_eq h (show i < dur by omega), ok_bind', amodGet_eq h (z := z) (show i < dur by omega)]
      rw [rd_eq_ok hlt, ok_bind', addAt_tab _ (by omega), ok_bind', phaseChange_eq h (by omega), ok_bind',
        wrapPhase_eq (by omega), ok_bind']
      simp only [pure_eq_ok]
      congr 2
      · unfold WaveChannel.phaseAt
        rw [show i + 1 - a = (i - a) + 1 by omega]
        simp only [phaseAfter, u32]
        rw [show a + (i - a) = i by omega]
      · apply tab_congr
        intro k _
        rcases Nat.lt_trichotomy k (off + (i - a)) with hk | hk | hk
        · rw [if_neg (by omega)]
          by_cases ho : off ≤ k
          · rw [if_pos (by omega), if_pos (by omega)]
          · rw [if_neg (by omega), if_neg (by omega)]
        · subst hk
          rw [if_pos rfl, if_neg (by omega), if_pos (by omega)]
          rw [show a + (off + (i - a) - off) = i by omega]
          unfold WaveChannel.value
          simp [hlt]
        · rw [if_neg (by omega), if_neg (by omega), if_neg (by omega)])
  simp only [Nat.sub_self, Nat.add_zero, show ∀ k, ¬(off ≤ k ∧ k < off) from fun k => by omega,
    if_false] at key
  have h0 : cc.phaseAt wvf.length a a = cc.phs := by simp [WaveChannel.phaseAt, phaseAfter]
  rw [h0] at key
  exact key

/-- The fold over the first channel configurations. -/
theorem waveGenerate_eq {c : WaveConfig S} {dur nch : Nat} (h : c.Ok dur nch) (z : S) {a b off n : Nat}
    (hab : a ≤ b) (hb : b ≤ dur) (hoff : off + (b - a) ≤ n) (f : Nat → Nat → S) :
    waveGenerate a b off c (blk nch n f) =
      .ok (c.advance a b, blk nch n (applyRange (c.mix z a) a off (b - a) f)) := by
  obtain ⟨wvf, wvfSize, count, ccs⟩ := c
  obtain ⟨h1, h2, h3⟩ := h
  simp only at h1 h2 h3
  subst h1; subst h2
  unfold waveGenerate
  simp only
  let cell (j : Nat) (ch k : Nat) : S := if off ≤ k ∧ k < off + (b - a) then
    (ccs.take j).foldl (fun x cc => if cc.channel = ch then
      x + cc.value wvf wvf.length z a (a + (k - off)) else x) (f ch k) else f ch k
  have key := forRange_states (σ := Buf (WaveChannel S) × Buf (Buf S))
    (fun j => ((ccs.take j).map (fun cc => { cc with phs := cc.phaseAt wvf.length a b }) ++ ccs.drop j,
      blk nch n (cell j))) (Nat.zero_le ccs.length)
    (body := waveEventChannel ⟨wvf, wvf.length, ccs.length, ccs⟩ a b off) (by
      intro j _ hj
      have hok := h3 ccs[j] (List.getElem_mem hj)
      unfold waveEventChannel
      have hlen : ((ccs.take j).map (fun cc : WaveChannel S => { cc with phs := cc.phaseAt wvf.length a b })).length = j := by
        simp; omega
      have hget : rd ((ccs.take j).map (fun cc : WaveChannel S => { cc with phs := cc.phaseAt wvf.length a b }) ++ ccs.drop j) j
          = .ok (ccs[j]'hj) := by
        rw [rd_ok_iff, List.getElem?_append_right (by omega), hlen, Nat.sub_self, List.getElem?_drop,
          Nat.add_zero, List.getElem?_eq_getElem hj]
      simp only [hget, ok_bind']
      unfold blk
      rw [rd_tab hok.channel, ok_bind', waveEventLoop_eq hok z hab hb hoff, ok_bind',
        wr_eq_ok _ (by simp; omega), ok_bind', wr_tab _ hok.channel, ok_bind']
      simp only [pure_eq_ok]
      congr 2
      · rw [List.set_append_right _ _ (by omega)]
        simp only [hlen, Nat.sub_self]
        rw [List.drop_eq_getElem_cons hj,
          List.set_cons_zero, List.take_add_one, List.getElem?_eq_getElem hj]
        simp only [List.map_append, List.append_assoc, Option.toList, List.map_cons, List.map_nil,
          List.cons_append, List.nil_append]
      · apply tab_congr
        intro ch _
        by_cases hc : ch = ccs[j].channel
        · subst hc
          rw [if_pos rfl]
          apply tab_congr
          intro k _
          simp only [cell]
          by_cases hk : off ≤ k ∧ k < off + (b - a)
          · simp only [if_pos hk]
            rw [List.take_add_one, List.getElem?_eq_getElem hj]
            simp only [List.foldl_append, Option.toList, List.foldl_cons, List.foldl_nil, if_true]
          · simp only [if_neg hk]
        · rw [if_neg hc]
          apply tab_congr
          intro k _
          simp only [cell]
          by_cases hk : off ≤ k ∧ k < off + (b - a)
          · simp only [if_pos hk]
            rw [List.take_add_one, List.getElem?_eq_getElem hj]
            simp only [List.foldl_append, Option.toList, List.foldl_cons, List.foldl_nil,
              if_neg (Ne.symm hc)]
          · simp only [if_neg hk])
  have e0 : blk nch n (cell 0) = blk nch n f := by
    simp only [cell, List.take_zero, List.foldl_nil, ite_self]
  simp only [List.take_zero, List.map_nil, List.nil_append, List.drop_zero, e0] at key
  rw [key, ok_bind']
  simp only [pure_eq_ok, cell, List.take_length, List.drop_length, List.append_nil]
  rfl

theorem WaveConfig.Ok.advance {c : WaveConfig S} {dur nch : Nat} (h : c.Ok dur nch) (a b : Nat) :
    (c.advance a b).Ok dur nch := by
  constructor
  · exact h.wvf
  · simp [WaveConfig.advance, h.count]
  · intro cc hcc
    simp only [WaveConfig.advance, List.mem_map] at hcc
    obtain ⟨cc0, hm, rfl⟩ := hcc
    have k := h.channels cc0 hm
    exact ⟨k.amod, k.fmod, k.pmod, k.phaseAt_lt a b, k.channel⟩

theorem WaveChannel.phaseAt_advance (w : Nat) (cc : WaveChannel S) {a b i : Nat} (hab : a ≤ b) (hi : b ≤ i) :
    ({ cc with phs := cc.phaseAt w a b } : WaveChannel S).phaseAt w b i = cc.phaseAt w a i := by
  unfold WaveChannel.phaseAt
  simp only
  rw [show i - a = (b - a) + (i - b) by omega, phaseAfter_add, show a + (b - a) = b by omega]
  rfl

/-- The sound after an advance is the continuation of the sound. -/
theorem WaveConfig.mix_advance (c : WaveConfig S) (z : S) {a b i : Nat} (hab : a ≤ b) (hi : b ≤ i)
    (ch : Nat) (x : S) : (c.advance a b).mix z b ch i x = c.mix z a ch i x := by
  unfold WaveConfig.mix WaveConfig.advance
  simp only [List.foldl_map]
  congr 1
  funext x cc
  have := cc.phaseAt_advance c.wvfSize hab hi
  unfold WaveChannel.value WaveChannel.index
  simp only [this]

theorem WaveConfig.advance_advance (c : WaveConfig S) {a b d : Nat} (hab : a ≤ b) (hbd : b ≤ d) :
    (c.advance a b).advance b d = c.advance a d := by
  unfold WaveConfig.advance
  simp only [List.map_map]
  congr 1
  apply List.map_congr_left
  intro cc _
  simp only [Function.comp]
  rw [cc.phaseAt_advance _ hab hbd]

theorem WaveConfig.advance_self (c : WaveConfig S) (a : Nat) : c.advance a a = c := by
  unfold WaveConfig.advance WaveChannel.phaseAt
  simp [phaseAfter]

end Sp
