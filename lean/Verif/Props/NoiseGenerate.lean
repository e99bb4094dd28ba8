import Verif.Props.Noise
import Verif.Spec.Block
import Mathlib.Algebra.Order.Field.Basic
import Mathlib.Algebra.Order.BigOperators.Group.Finset
import Mathlib.Algebra.Order.Field.Rat
import Mathlib.Data.Rat.Cast.Order

/-!
# C100: what noise events add to the output
-/

set_option linter.unusedSectionVars false

namespace Sp
variable {S : Type}

section Generate
variable [Add S] [Mul S] [One S] [Neg S] [Max S] [Min S]

theorem noiseAdd_eq (cc : NoiseChannel S) {M T nch n : Nat} {A B : Nat → S} {dur bi ei : Nat} (f : Nat → Nat → S)
    (hch : cc.channel < nch) (hM : ei + dur ≤ M) (hT : dur ≤ T) (hn : bi + dur ≤ n) :
    noiseAdd cc (tab M A) (tab T B) dur bi ei (blk nch n f) =
      .ok (blk nch n (fun c k => if c = cc.channel ∧ bi ≤ k ∧ k < bi + dur then
        f c k + limit1 (cc.amp * A (ei + (k - bi)) * B (k - bi)) else f c k)) := by
  unfold noiseAdd
  have key := forRange_states (fun i => blk nch n (fun c k => if c = cc.channel ∧ bi ≤ k ∧ k < bi + i then
      f c k + limit1 (cc.amp * A (ei + (k - bi)) * B (k - bi)) else f c k)) (Nat.zero_le dur)
    (body := fun i out => do
      let a ← rd (tab M A) (ei + i)
      let t ← rd (tab T B) i
      let row ← rd out cc.channel
      let row ← addAt row (bi + i) (limit1 (cc.amp * a * t))
      wr out cc.channel row) (by
    intro i _ hi
    unfold blk
    rw [rd_tab (by omega), ok_bind', rd_tab (by omega), ok_bind', rd_tab hch, ok_bind', addAt_tab _ (by omega), ok_bind',
      wr_tab _ hch]
    congr 1
    refine tab_congr fun c _ => ?_
    by_cases hc : c = cc.channel
    · subst hc
      rw [if_pos rfl]
      refine tab_congr fun k _ => ?_
      by_cases hk : k = bi + i
      · subst hk
        beta_reduce
        rw [if_pos rfl, if_neg (by omega), if_pos (by omega), show bi + i - bi = i by omega]
      · rw [if_neg hk]
        beta_reduce
        refine if_congr ?_ rfl rfl
        omega
    · rw [if_neg hc]
      refine tab_congr fun k _ => ?_
      beta_reduce
      rw [if_neg (by tauto), if_neg (by tauto)])
  simp only [Nat.add_zero] at key
  rw [← key]
  congr 1
  unfold blk
  refine tab_congr fun c _ => tab_congr fun k _ => ?_
  beta_reduce
  rw [if_neg (by omega)]

end Generate

/-- The sample that channel configuration number `cci` contributes at index `i` of a block of `dur` samples
starting at event time `ei`: the noise of the block, filtered by the filter of this channel, or by the filter of
the first channel if this one has none, multiplied by amplitude and envelope and limited to −1 to 1. -/
def noiseValue [Field S] [LinearOrder S] (noise : Nat → S) (filter : Nat → Buf S → Nat → S) (channels : List (NoiseChannel S))
    (dur ei cci i : Nat) : S :=
  match channels[cci]? with
  | none => 0
  | some cc =>
    let own := cc.use && cc.filterState.isSome
    let env := match cc.amod with
      | some a => a.getD (ei + i) 0
      | none => 0
    max (-1) (min 1 (cc.amp * env * filter (if own then cci else 0) (tab dur noise) i))

variable [Field S] [LinearOrder S] [IsStrictOrderedRing S]

theorem noiseValue_limit (noise : Nat → S) (filter : Nat → Buf S → Nat → S) (channels : List (NoiseChannel S))
    (dur ei cci i : Nat) : -1 ≤ noiseValue noise filter channels dur ei cci i ∧
      noiseValue noise filter channels dur ei cci i ≤ 1 := by
  unfold noiseValue
  split
  · exact ⟨by linarith [zero_le_one (α := S)], zero_le_one⟩
  · exact ⟨le_max_left _ _, max_le (by linarith [zero_le_one (α := S)]) (min_le_left _ _)⟩

/-- **C100**, for durations within the temporary buffers (for longer ones it is false,
`C100_large_block_overflow`). A block of a noise event whose duration does not exceed the temporary buffers is generated without
a fault. In the output only the samples from `bi` to `bi + dur` change, and there every channel configuration
adds one value, limited to −1 to 1, to its own output channel. -/
theorem C100_noise_generate_partial (noise : Nat → S) (filter : Nat → Buf S → Nat → S) (c : NoiseConfig S)
    (dur bi ei nch n : Nat) (t0 t1 t2 : Buf S) (f : Nat → Nat → S)
    (hcount : c.channelCount ≤ c.channelConfig.length)
    (hch : ∀ cc ∈ c.channelConfig, cc.channel < nch)
    (henv : ∀ cc ∈ c.channelConfig, ∃ a, cc.amod = some a ∧ ei + dur ≤ a.length)
    (hfirst : ∀ cc, c.channelConfig[0]? = some cc → cc.use = true ∧ cc.filterState.isSome = true)
    (h0 : dur ≤ t0.length) (h1 : dur ≤ t1.length)
    (h2 : ∀ i cc, 0 < i → c.channelConfig[i]? = some cc → cc.use = true → cc.filterState.isSome = true → dur ≤ t2.length)
    (hn : bi + dur ≤ n) :
    ∃ temps g, noiseGenerateBlock noise filter c dur bi ei [t0, t1, t2] (blk nch n f) = .ok (temps, blk nch n g) ∧
      (∀ ch k, k < bi ∨ bi + dur ≤ k → g ch k = f ch k) ∧
      (∀ ch i, i < dur → g ch (bi + i) = f ch (bi + i) +
        ∑ cci ∈ (Finset.range c.channelCount).filter (fun cci => (c.channelConfig[cci]?).map (·.channel) = some ch),
          noiseValue noise filter c.channelConfig dur ei cci i) := by
  unfold noiseGenerateBlock
  obtain ⟨T0, F0, rfl⟩ : ∃ T F, t0 = tab T F := ⟨_, _, eq_tab t0 0⟩
  obtain ⟨T1, F1, rfl⟩ : ∃ T F, t1 = tab T F := ⟨_, _, eq_tab t1 0⟩
  obtain ⟨T2, F2, rfl⟩ : ∃ T F, t2 = tab T F := ⟨_, _, eq_tab t2 0⟩
  simp only [tab_length] at h0 h1 h2
  have hm : memcpy (tab T0 F0) 0 (tab dur noise) 0 dur =
      .ok (tab T0 (fun i => if 0 ≤ i ∧ i < 0 + dur then noise (i - 0 + 0) else F0 i)) := memcpy_tab (by omega) (by omega)
  have ht0 : (tab T0 (fun i => if 0 ≤ i ∧ i < 0 + dur then noise (i - 0 + 0) else F0 i)).take dur = tab dur noise := by
    apply List.ext_getElem?
    intro i
    rw [List.getElem?_take, tab_getElem?, tab_getElem?]
    by_cases hi : i < dur
    · simp [hi, show i < T0 by omega]
    · simp [hi]
  generalize (tab T0 (fun i => if 0 ≤ i ∧ i < 0 + dur then noise (i - 0 + 0) else F0 i)) = t0' at hm ht0
  have key := forRange_rule (fun cci (s : Buf (Buf S) × Buf (Buf S)) => ∃ G1 G2 g, s = ([t0', tab T1 G1, tab T2 G2], blk nch n g) ∧
      (0 < cci → ∀ i < dur, G1 i = filter 0 (tab dur noise) i) ∧
      (∀ ch k, k < bi ∨ bi + dur ≤ k → g ch k = f ch k) ∧
      (∀ ch i, i < dur → g ch (bi + i) = f ch (bi + i) +
        ∑ cci ∈ (Finset.range cci).filter (fun cci => (c.channelConfig[cci]?).map (·.channel) = some ch),
          noiseValue noise filter c.channelConfig dur ei cci i)) (Nat.zero_le c.channelCount)
    (body := fun cci (temps, out) => do
      let cc ← rd c.channelConfig cci
      let amod ← derefArray cc.amod
      if cc.use && cc.filterState.isSome then
        let k := if 0 < cci then 2 else 1
        let t ← rd temps k
        let t ← memcpy t 0 (tab dur (filter cci (t0'.take dur))) 0 dur
        let temps ← wr temps k t
        let out ← noiseAdd cc amod t dur bi ei out
        return (temps, out)
      else
        let t ← rd temps 1
        let out ← noiseAdd cc amod t dur bi ei out
        return (temps, out)) (s := ([t0', tab T1 F1, tab T2 F2], blk nch n f))
    ⟨F1, F2, f, rfl, fun h => absurd h (by omega), fun _ _ _ => rfl, fun _ _ _ => by simp⟩ (by
    rintro cci _ _ hcci ⟨G1, G2, g, rfl, p1, p2, p3⟩
    obtain ⟨cc, hcc⟩ : ∃ cc, c.channelConfig[cci]? = some cc := ⟨_, List.getElem?_eq_getElem (by omega)⟩
    have hmem := List.mem_of_getElem? hcc
    obtain ⟨a, ha, hal⟩ := henv cc hmem
    have hchn := hch cc hmem
    obtain ⟨M, A, rfl⟩ : ∃ M A, a = tab M A := ⟨_, _, eq_tab a 0⟩
    rw [tab_length] at hal
    -- the samples after adding the values `B`
    have hsum : ∀ B : Nat → S, (∀ i < dur, B i = filter (if cc.use && cc.filterState.isSome then cci else 0) (tab dur noise) i) →
        (∀ ch k, k < bi ∨ bi + dur ≤ k → (if ch = cc.channel ∧ bi ≤ k ∧ k < bi + dur then
          g ch k + limit1 (cc.amp * A (ei + (k - bi)) * B (k - bi)) else g ch k) = f ch k) ∧
        (∀ ch i, i < dur → (if ch = cc.channel ∧ bi ≤ bi + i ∧ bi + i < bi + dur then
          g ch (bi + i) + limit1 (cc.amp * A (ei + (bi + i - bi)) * B (bi + i - bi)) else g ch (bi + i)) = f ch (bi + i) +
        ∑ cci ∈ (Finset.range (cci + 1)).filter (fun cci => (c.channelConfig[cci]?).map (·.channel) = some ch),
          noiseValue noise filter c.channelConfig dur ei cci i) := by
      intro B hB
      refine ⟨fun ch k hk => ?_, fun ch i hi => ?_⟩
      · rw [if_neg (by omega), p2 ch k hk]
      · rw [Finset.range_add_one, Finset.filter_insert, hcc]
        by_cases hc : ch = cc.channel
        · rw [if_pos ⟨hc, by omega, by omega⟩, if_pos (by simp [hc]), Finset.sum_insert (by simp), p3 ch i hi,
            show bi + i - bi = i by omega, hB i hi]
          have : noiseValue noise filter c.channelConfig dur ei cci i = limit1 (cc.amp * A (ei + i) *
              filter (if cc.use && cc.filterState.isSome then cci else 0) (tab dur noise) i) := by
            unfold noiseValue limit1
            rw [hcc]
            simp only [ha]
            simp [List.getD_eq_getElem?_getD, show ei + i < M by omega]
          rw [this]
          ring
        · rw [if_neg (by tauto), if_neg (by simp [Ne.symm hc]), p3 ch i hi]
    simp only [rd_ok_iff.2 hcc, ok_bind', ha, derefArray, ht0]
    by_cases hown : cc.use && cc.filterState.isSome
    · rw [if_pos hown]
      obtain ⟨ho1, ho2⟩ := Bool.and_eq_true_iff.1 hown
      by_cases hz : 0 < cci
      · have := h2 cci cc hz hcc ho1 ho2
        simp only [if_pos hz]
        rw [show rd [t0', tab T1 G1, tab T2 G2] 2 = .ok (tab T2 G2) from rfl, ok_bind', memcpy_tab (by omega) (by omega), ok_bind']
        refine ⟨_, by
          rw [noiseAdd_eq cc g hchn hal (by omega) hn]
          rfl, G1, _, _, rfl, fun _ => p1 hz, ?_⟩
        refine hsum (fun i => if 0 ≤ i ∧ i < 0 + dur then filter cci (tab dur noise) (i - 0 + 0) else G2 i) fun i hi => ?_
        beta_reduce
        rw [if_pos ⟨by omega, by omega⟩, if_pos hown]
        rfl
      · obtain rfl : cci = 0 := by omega
        simp only [if_neg hz]
        rw [show rd [t0', tab T1 G1, tab T2 G2] 1 = .ok (tab T1 G1) from rfl, ok_bind', memcpy_tab (by omega) (by omega), ok_bind']
        refine ⟨_, by
          rw [noiseAdd_eq cc g hchn hal (by omega) hn]
          rfl, _, G2, _, rfl, fun _ i hi => ?_, ?_⟩
        · rw [if_pos ⟨by omega, by omega⟩]
          rfl
        · refine hsum (fun i => if 0 ≤ i ∧ i < 0 + dur then filter 0 (tab dur noise) (i - 0 + 0) else G1 i) fun i hi => ?_
          beta_reduce
          rw [if_pos ⟨by omega, by omega⟩, if_pos hown]
          rfl
    · rw [if_neg hown]
      have hz : 0 < cci := by
        by_contra hz
        obtain rfl : cci = 0 := by omega
        exact hown (by simp [hfirst cc hcc])
      rw [show rd [t0', tab T1 G1, tab T2 G2] 1 = .ok (tab T1 G1) from rfl, ok_bind']
      refine ⟨_, by
        rw [noiseAdd_eq cc g hchn hal (by omega) hn]
        rfl, G1, G2, _, rfl, fun _ => p1 hz, ?_⟩
      refine hsum G1 fun i hi => ?_
      rw [p1 hz i hi, if_neg hown])
  obtain ⟨_, e, G1, G2, g, rfl, -, q2, q3⟩ := key
  refine ⟨[t0', tab T1 G1, tab T2 G2], g, ?_, q2, q3⟩
  rw [show rd [tab T0 F0, tab T1 F1, tab T2 F2] 0 = .ok (tab T0 F0) from rfl, ok_bind', hm, ok_bind',
    show wr [tab T0 F0, tab T1 F1, tab T2 F2] 0 t0' = .ok [t0', tab T1 F1, tab T2 F2] from rfl, ok_bind']
  exact e

/-- A configuration after prepare: the first channel has a filter, the second is left to the first, the third has its own. -/
def exampleNoiseReady : NoiseConfig ℚ where
  isReject := false
  resolution := 2
  temp := [some 0, some 1, some 2]
  tempLength := 3
  channelCount := 3
  channelConfig := [⟨1, some [1, 1 / 2, 1 / 4], 0, some 3, 10, none, 20, none, 5, 5, true⟩,
    ⟨1 / 2, some [1, 1, 1], 1, none, 10, none, 20, none, 5, 5, true⟩,
    ⟨4, some [1, 1, 1], 1, some 4, 30, none, 20, none, 5, 5, true⟩]

/-- Two samples from event time 1 at index 1 of two channels of four samples. -/
example : ∃ temps g, noiseGenerateBlock (fun i => 1 / ((i : ℚ) + 1)) (fun cci b i => ((cci : ℚ) + 1) * b.getD i 0) exampleNoiseReady 2 1 1
      [[0, 0, 0], [0, 0, 0], [0, 0, 0]] (blk 2 4 (fun _ _ => (10 : ℚ))) = .ok (temps, blk 2 4 g) ∧
    g 0 0 = 10 ∧ g 0 1 = 10 + 1 / 2 ∧ g 0 2 = 10 + 1 / 8 ∧ g 1 1 = 10 + 1 / 2 + 1 ∧ g 1 2 = 10 + 1 / 4 + 1 ∧ g 1 3 = 10 := by
  obtain ⟨temps, g, e, h1, h2⟩ := C100_noise_generate_partial (fun i => 1 / ((i : ℚ) + 1)) (fun cci b i => ((cci : ℚ) + 1) * b.getD i 0)
    exampleNoiseReady 2 1 1 2 4 [0, 0, 0] [0, 0, 0] [0, 0, 0] (fun _ _ => (10 : ℚ))
    (by decide) (by simp [exampleNoiseReady]) (by simp [exampleNoiseReady]) (by simp [exampleNoiseReady])
    (by decide) (by decide) (by simp) (by decide)
  refine ⟨temps, g, e, h1 0 0 (by omega), ?_, ?_, ?_, ?_, h1 1 3 (by omega)⟩
  · rw [h2 0 0 (by omega)]
    simp [Finset.sum_filter, Finset.sum_range_succ, exampleNoiseReady, noiseValue, tab]
    norm_num
  · rw [h2 0 1 (by omega)]
    simp [Finset.sum_filter, Finset.sum_range_succ, exampleNoiseReady, noiseValue, tab]
    norm_num
  · rw [h2 1 0 (by omega)]
    simp [Finset.sum_filter, Finset.sum_range_succ, exampleNoiseReady, noiseValue, tab]
    norm_num
  · rw [h2 1 1 (by omega)]
    simp [Finset.sum_filter, Finset.sum_range_succ, exampleNoiseReady, noiseValue, tab]
    norm_num

/-- A block longer than the temporary buffers is written past their end. The buffers have at most `4 * rate` samples
(`noiseSizes`), and without filter modulation the resolution is the duration of the event, so that this happens when more than
four seconds of an event are requested at once. -/
theorem C100_large_block_overflow (noise : Nat → S) (filter : Nat → Buf S → Nat → S) (c : NoiseConfig S)
    (dur bi ei : Nat) (t0 t1 t2 : Buf S) (out : Buf (Buf S)) (h : t0.length < dur) :
    noiseGenerateBlock noise filter c dur bi ei [t0, t1, t2] out = .error .outOfBounds := by
  unfold noiseGenerateBlock
  rw [show rd [t0, t1, t2] 0 = .ok t0 from rfl, ok_bind']
  unfold memcpy
  rw [if_neg (by omega)]
  rfl

/-- Four samples with buffers for three. -/
example : noiseGenerateBlock (fun _ => 1) (fun _ b i => b.getD i 0) exampleNoiseReady 4 0 0
    [[0, 0, 0], [0, 0, 0], [0, 0, 0]] (blk 2 4 (fun _ _ => (10 : ℚ))) = .error .outOfBounds :=
  C100_large_block_overflow _ _ _ _ _ _ _ _ _ _ (by decide)

end Sp
