import Verif.Spec.Noise
import Verif.Lemmas.Noise

/-!
# The channel defaults of noise events
-/

set_option linter.unusedSectionVars false

namespace Sp
variable {S : Type}

theorem NoiseChannel.ownFilter_iff (cc : NoiseChannel S) : cc.ownFilter = true ↔ cc.HasFilter := by
  unfold NoiseChannel.ownFilter NoiseChannel.HasFilter
  simp [Option.isSome_iff_ne_none, or_assoc]

theorem NoiseChannel.Defaulted.unique {first cc a b : NoiseChannel S} (ha : Defaulted first cc a) (hb : Defaulted first cc b) :
    a = b := by
  by_cases hu : cc.use = true
  · obtain ⟨a1, a2, a3, a4, a5⟩ := ha.same hu
    obtain ⟨b1, b2, b3, b4, b5⟩ := hb.same hu
    have e1 := (ha.amod hu).trans (hb.amod hu).symm
    by_cases hf : cc.HasFilter
    · obtain ⟨c1, c2, c3, c4, c5⟩ := ha.filter hu hf
      obtain ⟨d1, d2, d3, d4, d5⟩ := hb.filter hu hf
      cases a; cases b; simp_all
    · obtain ⟨c1, c2, c3, c4, c5⟩ := ha.noFilter hu hf
      obtain ⟨d1, d2, d3, d4, d5⟩ := hb.noFilter hu hf
      cases a; cases b; simp_all
  · have hu : cc.use = false := by simpa using hu
    rw [ha.unused hu, hb.unused hu]

theorem ChannelDefaults.unique {count : Nat} {cs a b : List (NoiseChannel S)} (hc : count ≤ cs.length) (h0 : 1 ≤ count)
    (ha : ChannelDefaults count cs a) (hb : ChannelDefaults count cs b) : a = b := by
  apply List.ext_getElem?
  intro i
  by_cases hi : count ≤ i
  · rw [ha.rest i hi, hb.rest i hi]
  · by_cases hz : i = 0
    · subst hz; rw [ha.first, hb.first]
    · have e0 : cs[0]? = some (cs[0]'(by omega)) := List.getElem?_eq_getElem (by omega)
      have e1 : cs[i]? = some (cs[i]'(by omega)) := List.getElem?_eq_getElem (by omega)
      have e2 : a[i]? = some (a[i]'(by rw [ha.length]; omega)) := List.getElem?_eq_getElem _
      have e3 : b[i]? = some (b[i]'(by rw [hb.length]; omega)) := List.getElem?_eq_getElem _
      rw [e2, e3, (ha.others i _ _ _ (by omega) (by omega) e0 e1 e2).unique (hb.others i _ _ _ (by omega) (by omega) e0 e1 e3)]

/-- The sizes that belong to the channel configurations `cs` and the resulting ones `s.channels`, for the first `n`. -/
structure SizesOf (irLen : Nat → Nat) (cs : List (NoiseChannel S)) (first : NoiseChannel S) (n : Nat) (s : NoiseSizes S) :
    Prop where
  defaults : ChannelDefaults n cs s.channels
  irsLength : s.irLengths.length = cs.length
  irs : ∀ i cc', i < n → s.channels[i]? = some cc' → OwnFilter cs i → s.irLengths[i]? = some (irLen (min cc'.trnl cc'.trnh))
  irs0 : ∀ i, i < cs.length → ¬ (i < n ∧ OwnFilter cs i) → s.irLengths[i]? = some 0
  states : s.filterStates = true ↔ ∃ i, 1 ≤ i ∧ i < n ∧ OwnFilter cs i
  mod : s.filterMod = true ↔ (first.fmod ≠ none ∨ first.wmod ≠ none) ∨
    ∃ i cc, 1 ≤ i ∧ i < n ∧ cs[i]? = some cc ∧ cc.use = true ∧ (cc.fmod ≠ none ∨ cc.wmod ≠ none)
  temp : ∀ x ∈ s.irLengths, x ≤ s.tempLength
  tempMem : s.tempLength ∈ s.irLengths

theorem noiseDefaults_exact {irLen : Nat → Nat} {n : Nat} {first : NoiseChannel S}
    {l : Buf (NoiseChannel S)} (h0 : l[0]? = some first) (hn0 : 1 ≤ n) (hn : n ≤ l.length) :
    ∃ s, forRange 1 n (noiseDefaultsStep irLen) ⟨l, first.fmod.isSome || first.wmod.isSome, false,
        (List.replicate l.length 0).set 0 (irLen (min first.trnl first.trnh)), irLen (min first.trnl first.trnh)⟩ = .ok s ∧
      SizesOf irLen l first n s := by
  have hl0 : 0 < l.length := by omega
  refine forRange_rule (fun n (s : NoiseSizes S) => SizesOf irLen l first n s) hn0 ?_ ?_
  · refine ⟨⟨rfl, rfl, fun i _ _ _ h1 h2 => by omega, fun _ _ => rfl⟩, by simp, ?_, ?_, ?_, ?_, ?_, ?_⟩
    · intro i cc' hi hcc' _
      obtain rfl : i = 0 := by omega
      simp only at hcc'
      rw [h0] at hcc'; cases hcc'
      simp [hl0]
    · intro i hi hno
      have : i ≠ 0 := fun h => hno ⟨by omega, Or.inl h⟩
      rw [List.getElem?_set_ne (by omega), List.getElem?_replicate, if_pos hi]
    · simp only [Bool.false_eq_true, false_iff]
      rintro ⟨i, h1, h2, _⟩; omega
    · simp only [Bool.or_eq_true, Option.isSome_iff_ne_none]
      constructor
      · exact fun h => Or.inl h
      · rintro (h | ⟨i, _, h1, h2, _⟩)
        · exact h
        · omega
    · intro x hx
      rcases List.mem_or_eq_of_mem_set hx with h | h
      · rw [List.eq_of_mem_replicate h]; omega
      · exact h ▸ Nat.le_refl _
    · exact List.mem_of_getElem? (i := 0) (by simp [hl0])
  · rintro i ⟨ch, fm, fs, irs, tl⟩ hi1 hin ⟨⟨d1, d2, d3, d4⟩, p2, p3, p4, p5, p6, p7, p8⟩
    simp only at d1 d2 d3 d4 p2 p3 p4 p5 p6 p7 p8
    have hi : i < ch.length := by omega
    obtain ⟨cc, hcc⟩ : ∃ cc, l[i]? = some cc := ⟨_, List.getElem?_eq_getElem (by omega)⟩
    have hch : ch[i]? = some cc := by rw [d4 i (Nat.le_refl _)]; exact hcc
    -- the channels after writing `v`
    have hset : ∀ v : NoiseChannel S, NoiseChannel.Defaulted first cc v → ChannelDefaults (i + 1) l (ch.set i v) := by
      intro v hv
      refine ⟨by simp [d1], by rw [List.getElem?_set_ne (by omega)]; exact d2, ?_, ?_⟩
      · intro j f c1 c2 hj1 hj2 e0 e1 e2
        by_cases hji : j = i
        · subst hji
          rw [List.getElem?_set_self hi] at e2
          cases e2
          rw [h0] at e0; cases e0
          rw [hcc] at e1; cases e1
          exact hv
        · rw [List.getElem?_set_ne (by omega)] at e2
          exact d3 j f c1 c2 hj1 (by omega) e0 e1 e2
      · intro j hj
        rw [List.getElem?_set_ne (by omega)]
        exact d4 j (by omega)
    have hnot : ¬ (cc.use = true ∧ cc.HasFilter) → ∀ v fm', (fm' = true ↔ fm = true) →
        NoiseChannel.Defaulted first cc v → (cc.use = true → cc.fmod = none ∧ cc.wmod = none) →
        SizesOf irLen l first (i + 1) ⟨ch.set i v, fm', fs, irs, tl⟩ := by
      intro hno v fm' hfm hv hmod
      have hown : ¬ OwnFilter l i := by
        rintro (h | ⟨c', h1, h2⟩)
        · omega
        · rw [hcc] at h1; cases h1; exact hno h2
      refine ⟨hset v hv, p2, ?_, ?_, ?_, ?_, p7, p8⟩
      · intro j c' hj hc' ho
        have hji : j ≠ i := fun h => hown (h ▸ ho)
        simp only at hc'
        rw [List.getElem?_set_ne (by omega)] at hc'
        exact p3 j c' (by omega) hc' ho
      · intro j hj hno
        refine p4 j hj fun h => ?_
        exact hno ⟨by omega, h.2⟩
      · refine p5.trans ⟨?_, ?_⟩
        · rintro ⟨j, q1, q2, q3⟩; exact ⟨j, q1, by omega, q3⟩
        · rintro ⟨j, q1, q2, q3⟩
          have hji : j ≠ i := fun h => hown (h ▸ q3)
          exact ⟨j, q1, by omega, q3⟩
      · refine (hfm.trans p6).trans (or_congr Iff.rfl ⟨?_, ?_⟩)
        · rintro ⟨j, c', q1, q2, q3⟩; exact ⟨j, c', q1, by omega, q3⟩
        · rintro ⟨j, c', q1, q2, q3, q4, q5⟩
          by_cases hji : j = i
          · subst hji
            rw [hcc] at q3; cases q3
            exact absurd q5 (by rw [(hmod q4).1, (hmod q4).2]; simp)
          · exact ⟨j, c', q1, by omega, q3, q4, q5⟩
    unfold noiseDefaultsStep
    simp only [rd_ok_iff.2 (d2.trans h0), rd_ok_iff.2 hch, ok_bind']
    by_cases huse : cc.use = true
    · rw [if_pos huse]
      have hamod : (cc.amod.or first.amod) = if cc.amod = none then first.amod else cc.amod := by
        cases cc.amod <;> simp
      have hof : ({ cc with amod := cc.amod.or first.amod } : NoiseChannel S).ownFilter = true ↔ cc.HasFilter := by
        rw [NoiseChannel.ownFilter_iff]; rfl
      by_cases hown : cc.HasFilter
      · rw [if_pos (hof.2 hown), wr_eq_ok _ (by omega), ok_bind', wr_eq_ok _ hi, ok_bind']
        refine ⟨_, rfl, hset _ ⟨fun h => absurd (huse.symm.trans h) (by simp), fun _ => ⟨huse, rfl, rfl, rfl, rfl⟩, fun _ => hamod,
          fun _ _ => ⟨rfl, rfl, rfl, ?_, ?_⟩, fun _ h => absurd hown h⟩, by simp [p2], ?_, ?_, ?_, ?_, ?_, ?_⟩
        · simp only [NoiseChannel.filterDefaults]; cases cc.fmod <;> simp
        · simp only [NoiseChannel.filterDefaults]; cases cc.wmod <;> simp
        · intro j c' hj hc' ho
          simp only at hc' ⊢
          by_cases hji : j = i
          · subst hji
            rw [List.getElem?_set_self hi] at hc'
            cases hc'
            rw [List.getElem?_set_self (by omega)]
          · rw [List.getElem?_set_ne (by omega)] at hc' ⊢
            exact p3 j c' (by omega) hc' ho
        · intro j hj hno
          have hji : j ≠ i := fun h => hno ⟨by omega, h ▸ Or.inr ⟨cc, hcc, huse, hown⟩⟩
          simp only
          rw [List.getElem?_set_ne (by omega)]
          refine p4 j hj fun h => ?_
          exact hno ⟨by omega, h.2⟩
        · simp only [true_iff]
          exact ⟨i, hi1, by omega, Or.inr ⟨cc, hcc, huse, hown⟩⟩
        · simp only [Bool.or_eq_true, Option.isSome_iff_ne_none, p6]
          constructor
          · rintro (((h | ⟨j, c', q1, q2, q3⟩) | h) | h)
            · exact Or.inl h
            · exact Or.inr ⟨j, c', q1, by omega, q3⟩
            · exact Or.inr ⟨i, cc, hi1, by omega, hcc, huse, Or.inl h⟩
            · exact Or.inr ⟨i, cc, hi1, by omega, hcc, huse, Or.inr h⟩
          · rintro (h | ⟨j, c', q1, q2, q3, q4, q5⟩)
            · exact Or.inl (Or.inl (Or.inl h))
            · by_cases hji : j = i
              · subst hji
                rw [hcc] at q3; cases q3
                exact q5.elim (fun h => Or.inl (Or.inr h)) Or.inr
              · exact Or.inl (Or.inl (Or.inr ⟨j, c', q1, by omega, q3, q4, q5⟩))
        · intro x hx
          simp only at hx ⊢
          rcases List.mem_or_eq_of_mem_set hx with h | h
          · have := p7 x h
            split <;> omega
          · rw [h]; split <;> omega
        · simp only
          split
          · exact List.mem_of_getElem? (i := i) (by rw [List.getElem?_set_self (by omega)])
          · rename_i hlt
            -- the element at `i` was zero before, so the largest is somewhere else, or all are zero
            obtain ⟨j, hj⟩ := List.getElem?_of_mem p8
            by_cases hji : j = i
            · subst hji
              rw [p4 j (by omega) (fun h => by omega)] at hj
              cases hj
              exact List.mem_of_getElem? (i := j) (by rw [List.getElem?_set_self (by omega)]; congr 1; omega)
            · exact List.mem_of_getElem? (i := j) (by rw [List.getElem?_set_ne (by omega)]; exact hj)
      · rw [if_neg (fun h => hown (hof.1 h)), wr_eq_ok _ hi, ok_bind']
        have hnm : cc.fmod = none ∧ cc.wmod = none := by
          unfold NoiseChannel.HasFilter at hown
          exact ⟨by_contra fun h => hown (Or.inr (Or.inr (Or.inl h))),
            by_contra fun h => hown (Or.inr (Or.inr (Or.inr (Or.inl h))))⟩
        exact ⟨_, rfl, hnot (fun h => hown h.2) _ fm Iff.rfl ⟨fun h => absurd (huse.symm.trans h) (by simp),
          fun _ => ⟨huse, rfl, rfl, rfl, rfl⟩, fun _ => hamod, fun _ h => absurd h hown, fun _ _ => ⟨rfl, rfl, rfl, rfl, rfl⟩⟩
          fun _ => hnm⟩
    · rw [if_neg huse, wr_eq_ok _ hi, ok_bind']
      exact ⟨_, rfl, hnot (fun h => huse h.1) _ fm Iff.rfl ⟨fun _ => rfl, fun h => absurd h huse, fun h => absurd h huse,
        fun h => absurd h huse, fun h => absurd h huse⟩ fun h => absurd h huse⟩

theorem noiseSizes_exact {irLen : Nat → Nat} (rate start stop : Nat) {c : NoiseConfig S} {first : NoiseChannel S}
    (h0 : c.channelConfig[0]? = some first) (hn0 : 1 ≤ c.channelCount) (hn : c.channelCount ≤ c.channelConfig.length) :
    ∃ s, SizesOf irLen c.channelConfig first c.channelCount s ∧ noiseSizes irLen rate start stop c =
      .ok ({ c with channelConfig := s.channels, resolution := if s.filterMod then c.resolution else sub32 stop start },
        { s with tempLength :=
            (min (max s.tempLength (if s.filterMod = true then c.resolution else sub32 stop start)) (u32 (4 * rate)) : Nat) }) := by
  obtain ⟨s, e, hs⟩ := noiseDefaults_exact (irLen := irLen) h0 hn0 hn
  refine ⟨s, hs, ?_⟩
  unfold noiseSizes
  rw [rd_ok_iff.2 h0, ok_bind']
  simp only
  rw [wr_eq_ok _ (by simp; omega), ok_bind', e, ok_bind']
  rfl

end Sp
