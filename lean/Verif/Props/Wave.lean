import Verif.Lemmas.Wave
import Mathlib.Algebra.Order.Field.Rat
import Mathlib.Tactic.NormNum
import Mathlib.Tactic.FieldSimp
import Mathlib.Tactic.Positivity
import Mathlib.Algebra.Order.Field.Basic

/-!
# C10 to C15: oscillators
-/

set_option linter.unusedSectionVars false

namespace Sp

section
variable {S : Type} [Add S] [Mul S]

/-! ### C10 -/

/-- **C10, sp_wave.** Whatever the frequency values are, `sp_wave` never reads outside the waveform
(the buffer `wvf` has exactly the given size and there is no fault) and the phase it writes back is
below the waveform size again. -/
theorem C10_wave_phase {size : Nat} {wvf : Buf S} (amp : S) {amod : Option (Buf S)} (frq : Nat)
    {fmod : Option (Buf Nat)} {phsState : Option Nat} {out : Buf S}
    (hout : size ≤ out.length) (hwvf : 0 < wvf.length) (hp : ∀ p, phsState = some p → p < wvf.length)
    (ha : OptLen amod size) (hf : OptLen fmod size) :
    ∃ phs' out', wave size wvf wvf.length amp amod frq fmod phsState out = .ok (phs', out') ∧
      (∀ p, phs' = some p → p < wvf.length) ∧ (phs'.isSome ↔ phsState.isSome) ∧
      out'.length = out.length := by
  have hp' : phsState.getD 0 < wvf.length := by
    cases phsState with
    | none => exact hwvf
    | some p => exact hp p rfl
  rw [eq_tab out amp]
  refine ⟨_, _, wave_eq (z := amp) hout hp' ha hf, ?_, by simp, by simp⟩
  intro p h
  simp only [Option.map_eq_some_iff] at h
  obtain ⟨_, _, rfl⟩ := h
  exact phaseAfter_lt hp' _

/-- Non-vacuity: a waveform of 3 samples, frequency 2 to the 32 minus 1 that overflows the phase. -/
example : ∃ phs' out', wave 4 [5, 6, 7] 3 (1 : Int) none 4294967295 none (some 2) [0, 0, 0, 0] =
    .ok (phs', out') ∧ (∀ p, phs' = some p → p < 3) ∧ (phs'.isSome ↔ (some 2).isSome) ∧
    out'.length = 4 :=
  C10_wave_phase (wvf := [5, 6, 7]) (1 : Int) 4294967295 (by simp) (by simp) (by simp)
    (by simp [OptLen]) (by simp [OptLen])

/-- **C10, sp_phase.** For every 32 bit sum, wrapped or not, the result is below `cycle`; it is the
sum modulo 2^32 modulo `cycle`. -/
theorem C10_phase {current change cycle : Nat} (h : 0 < cycle) :
    phase current change cycle = .ok ((current + change) % 4294967296 % cycle) ∧
    (current + change) % 4294967296 % cycle < cycle := by
  refine ⟨?_, Nat.mod_lt _ h⟩
  unfold phase u32
  simp only
  split
  · next h1 => rw [Nat.mod_eq_of_lt h1]
  · rw [if_neg (by omega)]

example : phase 90 20 100 = .ok 10 := (C10_phase (by decide)).1

/-- **C10, sp_phase_float.** The change is rounded up to an integer and the result is below
`cycle`. -/
theorem C10_phase_float {current t cycle : Nat} (above : Bool) (h : 0 < cycle) :
    phaseFloat current t above cycle =
      .ok ((current + (t + if above then 1 else 0) % 4294967296) % 4294967296 % cycle) ∧
    (current + (t + if above then 1 else 0) % 4294967296) % 4294967296 % cycle < cycle := by
  refine ⟨?_, Nat.mod_lt _ h⟩
  unfold phaseFloat cheapCeilingPositive u32
  generalize (t + if above then 1 else 0) = c
  simp only
  split
  · next h1 => rw [Nat.mod_eq_of_lt h1]
  · rw [if_neg (by omega)]

example : phaseFloat 90 19 true 100 = .ok 10 := (C10_phase_float true (by decide)).1

/-! ### C11 -/

/-- **C11.** One call of `sp_wave` for `n + m` samples gives the same output and phase as a call for
`n` samples and a call for `m` samples with the phase state of the first call, and the modulation
arrays and the output advanced by `n`. For every split, with no assumption about the arithmetic of
samples. -/
theorem C11_wave_blocks {n m : Nat} {wvf : Buf S} (amp : S) {amod : Option (Buf S)} (frq : Nat)
    {fmod : Option (Buf Nat)} {p : Nat} {out : Buf S}
    (hout : n + m ≤ out.length) (hp : p < wvf.length)
    (ha : OptLen amod (n + m)) (hf : OptLen fmod (n + m)) :
    ∃ p1 out1 p2 out2,
      wave n wvf wvf.length amp amod frq fmod (some p) out = .ok (some p1, out1) ∧
      wave m wvf wvf.length amp (amod.map (List.drop n)) frq (fmod.map (List.drop n)) (some p1)
        (out1.drop n) = .ok (some p2, out2) ∧
      wave (n + m) wvf wvf.length amp amod frq fmod (some p) out =
        .ok (some p2, out1.take n ++ out2) := by
  have hdrop : ∀ {α : Type} {b : Option (Buf α)} {d : α} {i : Nat},
      optGet (b.map (List.drop n)) d i = optGet b d (i + n) := by
    intro α b d i
    cases b with
    | none => rfl
    | some b => simp [optGet, List.getD_eq_getElem?_getD, Nat.add_comm]
  have hlen : ∀ {α : Type} {b : Option (Buf α)}, OptLen b (n + m) → OptLen (b.map (List.drop n)) m := by
    intro α b h x hx
    simp only [Option.map_eq_some_iff] at hx
    obtain ⟨y, hy, rfl⟩ := hx
    have := h y hy
    simp; omega
  have hshort : ∀ {α : Type} {b : Option (Buf α)}, OptLen b (n + m) → OptLen b n :=
    fun h x hx => by have := h x hx; omega
  have hdt : ∀ (N : Nat) (g : Nat → S), (tab N g).drop n = tab (N - n) (fun i => g (n + i)) := by
    intro N g
    apply List.ext_getElem?
    intro i
    simp only [List.getElem?_drop, tab_getElem?]
    split <;> split <;> first | rfl | omega
  have htt : ∀ (N : Nat) (g : Nat → S), n ≤ N → (tab N g).take n = tab n g := by
    intro N g hN
    apply List.ext_getElem?
    intro i
    simp only [List.getElem?_take, tab_getElem?]
    split
    · rw [if_pos (by omega)]
    · rfl
  rw [eq_tab out amp]
  have e1 := wave_eq (S := S) (z := amp) (amp := amp) (frq := frq) (n := out.length)
    (f := fun i => out.getD i amp) (show n ≤ out.length by omega)
    (phsState := some p) (wvf := wvf) hp (hshort ha) (hshort hf)
  have e3 := wave_eq (S := S) (z := amp) (amp := amp) (frq := frq) (n := out.length)
    (f := fun i => out.getD i amp) hout
    (phsState := some p) (wvf := wvf) hp ha hf
  simp only [Option.map_some, Option.getD_some] at e1 e3
  refine ⟨_, _, phaseAfter wvf.length (optGet fmod frq) p 0 (n + m),
    tab (out.length - n) (fun i => if i < m then
        out.getD (n + i) amp + amp * optGet amod amp (n + i) *
          wvf.getD (phaseAfter wvf.length (optGet fmod frq) p 0 (n + i)) amp
        else out.getD (n + i) amp), e1, ?_, ?_⟩
  rotate_right
  · rw [e3, htt _ _ (by omega)]
    congr 2
    rw [tab_append, show n + (out.length - n) = out.length by omega]
    apply tab_congr
    intro i _
    by_cases h1 : i < n
    · simp [h1, show i < n + m by omega]
    · by_cases h2 : i < n + m
      · simp [h1, h2, show i - n < m by omega, show n + (i - n) = i by omega]
      · simp [h1, h2, show ¬ i - n < m by omega, show n + (i - n) = i by omega]
  · rw [hdt]
    rw [wave_eq (z := amp) (show m ≤ out.length - n by omega) (by simpa using phaseAfter_lt hp n)
      (hlen ha) (hlen hf)]
    have hph : ∀ j, phaseAfter wvf.length (optGet (fmod.map (List.drop n)) frq)
        (phaseAfter wvf.length (optGet fmod frq) p 0 n) 0 j =
        phaseAfter wvf.length (optGet fmod frq) p 0 (n + j) := by
      intro j
      rw [phaseAfter_add, Nat.zero_add]
      have : optGet (fmod.map (List.drop n)) frq = fun i => optGet fmod frq (i + n) := by
        funext i; exact hdrop
      rw [this, phaseAfter_shift, Nat.zero_add]
    simp only [Option.getD_some, Option.map_some, hph]
    congr 2
    apply tab_congr
    intro i hi
    simp only [hdrop]
    rw [if_neg (by omega : ¬ n + i < n), Nat.add_comm i n]

/-- Non-vacuity: 5 samples split into 2 and 3 with both modulations. -/
example : ∃ p1 out1 p2 out2,
    wave 2 [5, 6, 7] 3 (2 : Int) (some [1, 2, 3, 4, 5]) 1 (some [1, 2, 1, 2, 1]) (some 1) [0, 0, 0, 0, 0]
      = .ok (some p1, out1) ∧
    wave 3 [5, 6, 7] 3 (2 : Int) (some [3, 4, 5]) 1 (some [1, 2, 1]) (some p1) (out1.drop 2)
      = .ok (some p2, out2) ∧
    wave 5 [5, 6, 7] 3 (2 : Int) (some [1, 2, 3, 4, 5]) 1 (some [1, 2, 1, 2, 1]) (some 1) [0, 0, 0, 0, 0]
      = .ok (some p2, out1.take 2 ++ out2) :=
  C11_wave_blocks (n := 2) (m := 3) (wvf := [5, 6, 7]) (2 : Int) (amod := some [1, 2, 3, 4, 5]) 1
    (fmod := some [1, 2, 1, 2, 1]) (p := 1) (out := [0, 0, 0, 0, 0]) (by simp) (by simp)
    (by simp [OptLen]) (by simp [OptLen])

/-! ### C12 -/

/-- **C12 for given amplitude modulation.** Sample `i` gets `amp * amod[i] * waveform(phase i)`
added, where the phases follow the frequencies. -/
theorem C12_amod_partial {size : Nat} {wvf : Buf S} (amp : S) {amod : Buf S} (frq : Nat)
    {fmod : Option (Buf Nat)} {p : Nat} {out : Buf S} (hout : size ≤ out.length) (hp : p < wvf.length)
    (ha : size ≤ amod.length) (hf : OptLen fmod size) :
    ∃ out', wave size wvf wvf.length amp (some amod) frq fmod (some p) out =
        .ok (some (phaseAfter wvf.length (optGet fmod frq) p 0 size), out') ∧
      out'.length = out.length ∧
      (∀ i (hi : i < size), ∃ o m v, out[i]? = some o ∧ amod[i]? = some m ∧
        wvf[phaseAfter wvf.length (optGet fmod frq) p 0 i]? = some v ∧
        out'[i]? = some (o + amp * m * v)) ∧
      ∀ i, size ≤ i → out'[i]? = out[i]? := by
  have e := wave_eq (S := S) (z := amp) (amp := amp) (frq := frq) (n := out.length) (amod := some amod)
    (f := fun i => out.getD i amp) hout (phsState := some p) (wvf := wvf) hp
    (fun x hx => by cases hx; exact ha) hf
  rw [← eq_tab out amp] at e
  refine ⟨_, e, by simp, ?_, ?_⟩
  · intro i hi
    have hlt := phaseAfter_lt (f := optGet fmod frq) (a := 0) hp i
    refine ⟨_, _, _, List.getElem?_eq_getElem (by omega), List.getElem?_eq_getElem (by omega),
      List.getElem?_eq_getElem hlt, ?_⟩
    rw [tab_getElem?, if_pos (by omega), if_pos hi]
    simp [optGet, show i < amod.length by omega, show i < out.length by omega, hlt]
  · intro i hi
    rw [tab_getElem?]
    by_cases h : i < out.length
    · simp [h, show ¬ i < size by omega]
    · simp [h]

example : ∃ out', wave 2 [5, 6, 7] 3 (2 : Int) (some [1, 10]) 1 none (some 1) [0, 0] = .ok (some 0, out') ∧
    out' = [12, 140] := ⟨_, rfl, rfl⟩

/-- **C12 is false without amplitude modulation**: amplitude 2 and a waveform with sample 1 add 4
instead of 2, because the amplitude is used twice. -/
theorem C12_no_amod_refuted :
    wave 1 [1] 1 (2 : Int) none 0 none (some 0) [0] = .ok (some 0, [4]) ∧ (2 : Int) * 1 ≠ 4 := by
  constructor
  · rfl
  · decide

/-- **C12 without amplitude modulation**, the part that holds: it is right when multiplying the
amplitude with itself gives the amplitude, as for 1 and 0. Missing: other amplitudes, see
`C12_no_amod_refuted`. -/
theorem C12_no_amod_partial {size : Nat} {wvf : Buf S} (amp : S) (hamp : amp * amp = amp) (frq : Nat)
    {fmod : Option (Buf Nat)} {p : Nat} {out : Buf S} (hout : size ≤ out.length) (hp : p < wvf.length)
    (hf : OptLen fmod size) :
    ∃ phs' out', wave size wvf wvf.length amp none frq fmod (some p) out = .ok (phs', out') ∧
      ∀ i (_ : i < size), ∃ o v, out[i]? = some o ∧
        wvf[phaseAfter wvf.length (optGet fmod frq) p 0 i]? = some v ∧
        out'[i]? = some (o + amp * v) := by
  have e := wave_eq (S := S) (z := amp) (amp := amp) (frq := frq) (n := out.length) (amod := none)
    (f := fun i => out.getD i amp) hout (phsState := some p) (wvf := wvf) hp
    (fun x hx => by cases hx) hf
  rw [← eq_tab out amp] at e
  refine ⟨_, _, e, ?_⟩
  intro i hi
  have hlt := phaseAfter_lt (f := optGet fmod frq) (a := 0) hp i
  refine ⟨_, _, List.getElem?_eq_getElem (by omega), List.getElem?_eq_getElem hlt, ?_⟩
  rw [tab_getElem?, if_pos (by omega), if_pos hi]
  simp [optGet, show i < out.length by omega, hlt, hamp]

example : wave 2 [5, 6, 7] 3 (1 : Int) none 1 none (some 1) [0, 10] = .ok (some 0, [6, 17]) ∧
    (1 : Int) * 1 = 1 := ⟨rfl, rfl⟩

/-! ### C13 -/

/-- Calls of `sp_wave_event_generate` for consecutive ranges, the output pointer advancing with
time. -/
def waveGenerateBlocks : Nat → List Nat → Nat → WaveConfig S → Buf (Buf S) →
    C (WaveConfig S × Buf (Buf S))
  | _, [], _, c, out => .ok (c, out)
  | a, b :: rest, off, c, out => do
    let (c, out) ← waveGenerate a b off c out
    waveGenerateBlocks b rest (off + (b - a)) c out

/-- **C13, blocks.** For every division of a range into consecutive ranges, `sp_wave_event_generate`
gives the same samples and the same channel phases as one call. No assumption about the arithmetic of
samples. -/
theorem C13_blocks {c : WaveConfig S} {dur nch n : Nat} (h : c.Ok dur nch) (f : Nat → Nat → S)
    {a off : Nat} (stops : List Nat) (last : Nat) (hs : (a :: stops).Pairwise (· ≤ ·))
    (hlast : (a :: stops).getLast? = some last) (hd : last ≤ dur) (hoff : off + (last - a) ≤ n) :
    waveGenerateBlocks a stops off c (blk nch n f) = waveGenerate a last off c (blk nch n f) := by
  generalize hz : f 0 0 = z
  clear hz
  induction stops generalizing a off c f with
  | nil =>
    simp only [List.getLast?_singleton, Option.some.injEq] at hlast
    subst hlast
    rw [waveGenerate_eq h z (Nat.le_refl a) hd (by omega)]
    simp only [waveGenerateBlocks, Nat.sub_self]
    rw [applyRange_zero, WaveConfig.advance_self]
  | cons b rest ih =>
    have hlast' : (b :: rest).getLast? = some last := by
      rw [← hlast]; simp [List.getLast?_cons_cons]
    have hab : a ≤ b := by
      rw [List.pairwise_cons] at hs; exact hs.1 b (by simp)
    have hbl : b ≤ last := by
      have hm := List.mem_of_getLast? hlast'
      rcases List.mem_cons.1 hm with rfl | hm
      · exact Nat.le_refl _
      · rw [List.pairwise_cons, List.pairwise_cons] at hs; exact hs.2.1 _ hm
    unfold waveGenerateBlocks
    rw [waveGenerate_eq h z hab (by omega) (by omega), ok_bind']
    simp only
    rw [ih (h.advance a b) _ (List.pairwise_cons.1 hs).2 hlast' (by omega),
      waveGenerate_eq (h.advance a b) z hbl hd (by omega), waveGenerate_eq h z (by omega) hd hoff,
      WaveConfig.advance_advance _ hab hbl]
    congr 3
    rw [applyRange_congr (H := c.mix z a), applyRange_comp hab hbl]
    intro ch i x h1 _
    exact c.mix_advance z hab h1 ch x

/-- **C13, where it writes and what it reads.** For every configuration whose phases are inside the
waveform, `sp_wave_event_generate` does not fault, in particular it reads the waveform (of exactly
`wvfSize` samples) only at indices below `wvfSize`; the configuration it leaves is playable again; it
changes only the samples `off` to `off + (b - a)`, and only of channels that are the target of a
channel configuration. -/
theorem C13_frame {c : WaveConfig S} {dur nch n : Nat} (h : c.Ok dur nch) (f : Nat → Nat → S)
    {a b off : Nat} (hab : a ≤ b) (hb : b ≤ dur) (hoff : off + (b - a) ≤ n) :
    ∃ c' f', waveGenerate a b off c (blk nch n f) = .ok (c', blk nch n f') ∧ c'.Ok dur nch ∧
      (∀ ch k, k < off ∨ off + (b - a) ≤ k → f' ch k = f ch k) ∧
      (∀ ch k, (∀ cc ∈ c.channelConfig, cc.channel ≠ ch) → f' ch k = f ch k) := by
  refine ⟨_, _, waveGenerate_eq h (f 0 0) hab hb hoff f, h.advance a b, ?_, ?_⟩
  · intro ch k hk
    unfold applyRange
    rw [if_neg (by omega)]
  · intro ch k hk
    have : ∀ (l : List (WaveChannel S)) x, (∀ cc ∈ l, cc.channel ≠ ch) →
        l.foldl (fun x cc => if cc.channel = ch then
          x + cc.value c.wvf c.wvfSize (f 0 0) a (a + (k - off)) else x) x = x := by
      intro l
      induction l with
      | nil => intros; rfl
      | cons cc l ih =>
        intro x hx
        rw [List.foldl_cons, if_neg (hx cc (by simp))]
        exact ih x (fun d hd => hx d (by simp [hd]))
    unfold applyRange WaveConfig.mix
    split
    · exact this _ _ hk
    · rfl

/-- Non-vacuity: two channels with all modulations. -/
def exampleWave : WaveConfig Int where
  wvf := [5, 6, 7]
  wvfSize := 3
  channelCount := 2
  channelConfig := [⟨some [1, 2, 3, 4], 2, 0, some [1, 0, 2, 1], 1, 2, some [1, 2, 0, 1], true⟩,
    ⟨some [1, 1, 1, 1], 1, 1, none, 2, 0, none, true⟩]

theorem exampleWave_ok : exampleWave.Ok 4 2 := by
  refine ⟨rfl, rfl, ?_⟩
  intro cc hcc
  simp only [exampleWave, List.mem_cons, List.not_mem_nil, or_false] at hcc
  rcases hcc with rfl | rfl
  · exact ⟨⟨_, rfl, by simp⟩, by simp [OptLen], by simp [OptLen], by simp [exampleWave], by simp⟩
  · exact ⟨⟨_, rfl, by simp⟩, by simp [OptLen], by simp [OptLen], by simp [exampleWave], by simp⟩

example : waveGenerateBlocks 0 [1, 1, 4] 0 exampleWave (blk 2 4 fun _ _ => 0) =
    waveGenerate 0 4 0 exampleWave (blk 2 4 fun _ _ => 0) :=
  C13_blocks exampleWave_ok _ [1, 1, 4] 4 (by simp) (by simp) (by simp) (by simp)

example : (waveGenerate 0 4 0 exampleWave (blk 2 4 fun _ _ => (0 : Int))).map Prod.snd =
    .ok [[10, 20, 42, 40], [5, 7, 6, 5]] := by rfl

/-! ### C14 -/

/-- **C14.** After `sp_wave_event_prepare`, the first channel configuration is as before, an unused
one is that of the first channel with its own target channel, and a used one keeps what it had set
and takes `amod`, `pmod`, `fmod`, `frq` from the first where it had none. -/
theorem C14_defaults {c : WaveConfig S} (hc : c.channelCount ≤ c.channelConfig.length) :
    ∃ c', wavePrepare c = .ok c' ∧ c'.wvf = c.wvf ∧ c'.wvfSize = c.wvfSize ∧
      c'.channelCount = c.channelCount ∧ c'.channelConfig.length = c.channelConfig.length ∧
      (∀ i, i = 0 ∨ c.channelCount ≤ i → c'.channelConfig[i]? = c.channelConfig[i]?) ∧
      ∀ i cc first, 0 < i → i < c.channelCount → c.channelConfig[i]? = some cc →
        c.channelConfig[0]? = some first → ∃ cc', c'.channelConfig[i]? = some cc' ∧
        (cc.use = false → cc' = { first with channel := cc.channel }) ∧
        (cc.use = true →
          cc'.amp = cc.amp ∧ cc'.channel = cc.channel ∧ cc'.phs = cc.phs ∧ cc'.use = true ∧
          (cc.amod ≠ none → cc'.amod = cc.amod) ∧ (cc.amod = none → cc'.amod = first.amod) ∧
          (cc.pmod ≠ none → cc'.pmod = cc.pmod) ∧ (cc.pmod = none → cc'.pmod = first.pmod) ∧
          (cc.fmod ≠ none → cc'.fmod = cc.fmod) ∧ (cc.fmod = none → cc'.fmod = first.fmod) ∧
          (cc.frq ≠ 0 → cc'.frq = cc.frq) ∧ (cc.frq = 0 → cc'.frq = first.frq)) := by
  obtain ⟨wvf, wvfSize, count, ccs⟩ := c
  simp only at hc ⊢
  rcases Nat.lt_or_ge count 2 with hlt | hge
  · refine ⟨⟨wvf, wvfSize, count, ccs⟩, ?_, rfl, rfl, rfl, rfl, fun _ _ => rfl, ?_⟩
    · unfold wavePrepare; exact forRange_of_le (by simp; omega) _ _
    · intro i cc first h1 h2; omega
  · let upd (first cc : WaveChannel S) : WaveChannel S :=
      if cc.use then
        { cc with
          amod := inlineDefault cc.amod first.amod
          pmod := inlineDefault cc.pmod first.pmod
          fmod := inlineDefault cc.fmod first.fmod
          frq := if cc.frq = 0 then first.frq else cc.frq }
      else { first with channel := cc.channel }
    let g (i : Nat) : WaveChannel S := (ccs[i]?).getD (ccs[0]'(by omega))
    have hccs : ccs = tab ccs.length g := by
      apply List.ext_getElem?
      intro i
      rw [tab_getElem?]
      split
      · next h => simp [g, h]
      · next h => simp at h; simp [h]
    have key := forRange_states (σ := WaveConfig S)
      (fun j => ⟨wvf, wvfSize, count, tab ccs.length (fun i => if 0 < i ∧ i < j then upd (g 0) (g i) else g i)⟩)
      (show 1 ≤ count by omega)
      (body := fun i c => do
        let cc ← rd c.channelConfig i
        let first ← rd c.channelConfig 0
        let ccs ← wr c.channelConfig i (upd first cc)
        return { c with channelConfig := ccs }) (by
        intro i h1 h2
        simp only
        rw [rd_tab (by omega), ok_bind', rd_tab (by omega), ok_bind', wr_tab _ (by omega), ok_bind']
        simp only [pure_eq_ok]
        congr 2
        apply tab_congr
        intro k _
        rcases Nat.lt_trichotomy k i with h | h | h
        · rw [if_neg (by omega)]
          by_cases h0 : 0 < k
          · rw [if_pos (by omega), if_pos (by omega)]
          · rw [if_neg (by omega), if_neg (by omega)]
        · subst h
          rw [if_pos rfl, if_neg (by omega), if_neg (by omega), if_pos (by omega)]
        · rw [if_neg (by omega), if_neg (by omega), if_neg (by omega)])
    have e0 : tab ccs.length (fun i => if 0 < i ∧ i < 1 then upd (g 0) (g i) else g i) = ccs := by
      refine Eq.trans ?_ hccs.symm
      apply tab_congr
      intro i _
      rw [if_neg (by omega)]
    rw [e0] at key
    refine ⟨_, key, rfl, rfl, rfl, by simp, ?_, ?_⟩
    · intro i hi
      rw [tab_getElem?]
      split
      · next h =>
        rw [if_neg (by omega)]
        simp [g, h]
      · next h => simp at h; simp [h]
    · intro i cc first h1 h2 h3 h4
      have e1 : g i = cc := by simp [g, h3]
      have e2 : g 0 = first := by simp [g, h4]
      refine ⟨upd first cc, ?_, ?_, ?_⟩
      · rw [tab_getElem?, if_pos (by omega), if_pos (by omega), e1, e2]
      · intro hu; simp [upd, hu]
      · intro hu
        have hupd : upd first cc = { cc with
            amod := inlineDefault cc.amod first.amod
            pmod := inlineDefault cc.pmod first.pmod
            fmod := inlineDefault cc.fmod first.fmod
            frq := if cc.frq = 0 then first.frq else cc.frq } := if_pos hu
        have hdef : ∀ {α : Type} (a b : Option α), a ≠ none → inlineDefault a b = a := by
          intro α a b h
          cases a with
          | none => exact absurd rfl h
          | some x => rfl
        rw [hupd]
        refine ⟨rfl, rfl, rfl, hu, ?_, ?_, ?_, ?_, ?_, ?_, ?_, ?_⟩
        · intro h; show inlineDefault cc.amod first.amod = cc.amod; exact hdef _ _ h
        · intro h; simp [h, inlineDefault]
        · intro h; show inlineDefault cc.pmod first.pmod = cc.pmod; exact hdef _ _ h
        · intro h; simp [h, inlineDefault]
        · intro h; show inlineDefault cc.fmod first.fmod = cc.fmod; exact hdef _ _ h
        · intro h; simp [h, inlineDefault]
        · intro h; simp [h]
        · intro h; simp [h]

/-- Non-vacuity: one unused and one used channel after the first. -/
example : ∃ c', wavePrepare (⟨[1], 1, 3, [⟨some [1], 2, 0, none, 5, 0, some [4], true⟩,
      ⟨none, 9, 1, none, 0, 0, none, false⟩, ⟨none, 3, 2, none, 0, 0, some [6], true⟩]⟩ : WaveConfig Int) = .ok c' ∧
    c'.channelConfig = [⟨some [1], 2, 0, none, 5, 0, some [4], true⟩,
      ⟨some [1], 2, 1, none, 5, 0, some [4], true⟩, ⟨some [1], 3, 2, none, 5, 0, some [6], true⟩] :=
  ⟨_, rfl, rfl⟩

end

/-! ### C15 -/

/-- **C15, sp_square, the part that holds**: -1 in the first half and 1 in the second half of each
period. Missing: times and sizes from 2^31 on, where doubling wraps, see `C15_square_refuted`. -/
theorem C15_square_partial {t size : Nat} (hs : 0 < size) (hs2 : size < 2147483648)
    (ht : t < 2147483648) :
    square t size = .ok (if 2 * (t % size) < size then -1 else 1) := by
  have e1 : u32 (2 * size) = 2 * size := u32_of_lt (by omega)
  have e2 : u32 (2 * t) = 2 * t := u32_of_lt (by omega)
  have e3 : 2 * t % (2 * size) = 2 * (t % size) := Nat.mul_mod_mul_left 2 t size
  unfold square
  simp only [e1, e2, e3, show ¬ 2 * size = 0 by omega, if_false]
  split <;> rfl

/-- **C15 is false for sp_square at large times**: at time 2^31 and period 3, which is in the
second half of its period, the value is that of the first half: the period breaks where `2 * t`
wraps. -/
theorem C15_square_refuted : square 2147483648 3 = .ok (-1) ∧ ¬ 2 * (2147483648 % 3) < 3 := by
  constructor
  · rfl
  · decide

/-- The periodicity that the first part implies. -/
theorem C15_square_periodic_partial {t size : Nat} (hs : 0 < size) (ht : t + size < 2147483648) :
    square (t + size) size = square t size := by
  rw [C15_square_partial hs (by omega) ht, C15_square_partial hs (by omega) (by omega),
    Nat.add_mod_right]

example : square 7 4 = .ok 1 ∧ square 5 4 = .ok (-1) := by constructor <;> rfl

/-- **C15, sp_triangle**: at position `r = t mod (a + b)` of the period the value is `r / a` on the
rising part and `(a + b - r) / b` on the falling part, and always in 0 to 1. Every time, all sizes
whose sum is a 32 bit number and not zero. -/
theorem C15_triangle {t a b : Nat} (h0 : 0 < a + b) (h1 : a + b < 4294967296) :
    ∃ v, triangle t a b = .ok v ∧ 0 ≤ v ∧ v ≤ 1 ∧
      (t % (a + b) < a → v = (t % (a + b) : Nat) / a) ∧
      (a ≤ t % (a + b) → v = ((a + b : Nat) - (t % (a + b) : Nat)) / b) ∧
      (t % (a + b) = 0 → 0 < a → v = 0) ∧
      (t % (a + b) = a → v = 1) := by
  have e1 : u32 (a + b) = a + b := u32_of_lt h1
  have hr := Nat.mod_lt t h0
  unfold triangle
  simp only [e1, show ¬ a + b = 0 by omega, if_false]
  generalize t % (a + b) = r at hr
  by_cases h : r < a
  · rw [if_pos h]
    have ha : (0 : ℚ) < a := by exact_mod_cast (by omega : 0 < a)
    have hra : (r : ℚ) ≤ a := by exact_mod_cast (by omega : r ≤ a)
    have hr0 : (0 : ℚ) ≤ r := by positivity
    refine ⟨_, rfl, by positivity, ?_, ?_, by omega, ?_, by omega⟩
    · rw [mul_one_div, div_le_one ha]; exact hra
    · intro _; rw [mul_one_div]
    · intro h0 _; simp [h0]
  · rw [if_neg h]
    have hb : (0 : ℚ) < b := by exact_mod_cast (by omega : 0 < b)
    have hra : (a : ℚ) ≤ r := by exact_mod_cast (by omega : a ≤ r)
    have hrb : (r : ℚ) ≤ a + b := by exact_mod_cast (by omega : r ≤ a + b)
    refine ⟨_, rfl, ?_, ?_, by omega, ?_, by omega, ?_⟩
    · apply mul_nonneg
      · linarith
      · positivity
    · rw [mul_one_div, div_le_one hb]; linarith
    · intro _
      rw [mul_one_div]
      congr 1
      push_cast
      ring
    · intro h2; subst h2; field_simp; ring

/-- **C15, sp_triangle is periodic** with period `a + b`. -/
theorem C15_triangle_periodic {t a b : Nat} (h1 : a + b < 4294967296) :
    triangle (t + (a + b)) a b = triangle t a b := by
  unfold triangle
  simp only [u32_of_lt h1, Nat.add_mod_right]

example : ∃ v, triangle 9 4 2 = .ok v ∧ v = 3 / 4 := ⟨_, rfl, by norm_num [u32]⟩

end Sp
