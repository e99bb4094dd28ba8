import Verif.Model.NoiseRun
import Verif.Spec.Noise
import Verif.Lemmas.Noise
import Verif.Lemmas.ConvolveFrame
import Verif.Props.ConvolutionFilter
import Verif.Props.NoiseGenerate

set_option linter.unusedSectionVars false

namespace Sp
variable {S ρ F : Type}

/-! ### random numbers -/

theorem randomAfter_add (next : ρ → S × ρ) (r : ρ) (m n : Nat) :
    randomAfter next (randomAfter next r m) n = randomAfter next r (m + n) := by
  induction m generalizing r with
  | zero => rw [Nat.zero_add]; rfl
  | succ m ih => rw [Nat.succ_add]; exact ih _

theorem randomAt_after (next : ρ → S × ρ) (r : ρ) (m i : Nat) :
    randomAt next (randomAfter next r m) i = randomAt next r (m + i) := by
  induction m generalizing r with
  | zero => rw [Nat.zero_add]; rfl
  | succ m ih => rw [Nat.succ_add]; exact ih _

theorem randomAfter_succ (next : ρ → S × ρ) (r : ρ) (m : Nat) :
    randomAfter next r (m + 1) = (next (randomAfter next r m)).2 := by
  rw [← randomAfter_add]; rfl

theorem randomFill_eq (next : ρ → S × ρ) {n N : Nat} (r : ρ) (f : Nat → S) (h : n ≤ N) :
    randomFill next n r (tab N f) =
      .ok (tab N (fun i => if i < n then randomAt next r i else f i), randomAfter next r n) := by
  unfold randomFill
  have key := forRange_states (fun k => (tab N (fun i => if i < k then randomAt next r i else f i), randomAfter next r k))
    (Nat.zero_le n) (body := fun i (b, r) => do
      let b ← wr b i (next r).1
      return (b, (next r).2)) (by
    intro k _ hk
    simp only
    rw [wr_tab _ (by omega), ok_bind', pure_eq_ok, randomAfter_succ]
    congr 2
    refine tab_congr fun i _ => ?_
    by_cases hi : i = k
    · subst hi
      rw [if_pos rfl, if_pos (by omega), show i = i + 0 from rfl, ← randomAt_after]
      rfl
    · rw [if_neg hi]
      beta_reduce
      exact if_congr (by omega) rfl rfl)
  rw [← key]
  congr 2

/-! ### one filter -/

section Filter
variable [Zero S] [Add S] [Mul S] [DecidableEq F]

/-- The filter state after the first `m` samples of the endless input `x`. -/
structure Filtering (f : F) (args : List UInt8) (x : Nat → S) (ir : Buf S) (m : Nat) (st : FilterState F S) : Prop where
  inv : FilterInv st (fun k => convAcc x (fun i => ir.getD i 0) ir.length (m + k) 0 m)
  irF : st.irF = f
  argsLen : st.argsLen = args.length
  args : st.args.take args.length = args
  ir : st.ir = some ir

theorem blockConv_stream (x : Nat → S) (ir : Buf S) (m n k : Nat) :
    blockConv (tab n (fun i => x (m + i))) ir (fun k => convAcc x (fun i => ir.getD i 0) ir.length (m + k) 0 m) k =
      convAcc x (fun i => ir.getD i 0) ir.length (m + k) 0 (m + n) := by
  unfold blockConv
  rw [convAcc_split, tab_length]
  refine convAcc_congr fun i hi => ?_
  rw [getD_tab, if_pos hi]

theorem convAcc_stream (x : Nat → S) (ir : Buf S) {m n k : Nat} (hk : k < n) :
    convAcc x (fun i => ir.getD i 0) ir.length (m + k) 0 (m + n) =
      orderedConvolution ((List.range (m + k + 1)).map x) ir (m + k) := by
  rw [convAcc_stop (m := m + k + 1) (by omega) (by intro i h1 h2; omega)]
  unfold orderedConvolution
  rw [convAcc_congr (a' := fun i => ((List.range (m + k + 1)).map x).getD i 0), convAcc_eq_foldl]
  · rw [List.length_map, List.length_range]
  · intro i hi
    exact ((getD_tab (n := m + k + 1) (g := x) ..).trans (if_pos hi)).symm

theorem filtering_step {irOf : F → List UInt8 → Option (Buf S)} (junk : S) {f : F} {args : List UInt8} {x : Nat → S} {ir : Buf S}
    {m n : Nat} {st : FilterState F S} (h : Filtering f args x ir m st) (hir : irOf f args = some ir) (hpos : 1 ≤ ir.length)
    (h32 : n + ir.length ≤ 4294967296) {out : Buf S} (hout : n ≤ out.length) :
    ∃ st', convolutionFilter irOf junk (tab n (fun i => x (m + i))) f args (some st) out =
        .ok ⟨true, some st', false, tab n (fun k => convAcc x (fun i => ir.getD i 0) ir.length (m + k) 0 (m + n)) ++ out.drop n⟩ ∧
      Filtering f args x ir (m + n) st' := by
  have hc : st.irF = f ∧ args.length = st.argsLen ∧ st.args.take args.length = args := ⟨h.irF, h.argsLen.symm, h.args⟩
  have hcl : st.carryLen = ir.length - 1 := by
    obtain ⟨i, h1, h2⟩ := h.inv.irSome
    rw [h.ir] at h1; cases h1
    rw [h.inv.carryLen, h2]
  obtain ⟨st', e, i1, i2, i3, i4, i5⟩ := convolutionFilter_step irOf junk (tab n (fun i => x (m + i))) f
    (o := out.take n) (by rw [tab_length, List.length_take]; omega) args st h.inv
    (by intro i hi; rw [hir] at hi; cases hi; exact hpos) ⟨_, hir⟩ ir (by rw [if_pos hc]; exact h.ir)
    (by rw [tab_length]; exact h32) (by rw [hcl]; omega)
  refine ⟨st', ?_, ?_, i2.trans h.irF, i3.trans h.argsLen, i5, i4⟩
  · have := convolutionFilter_append (r := out.drop n) e
    rw [List.take_append_drop] at this
    rw [this]
    simp only [decide_eq_true hc, Bool.not_true, tab_length]
    congr 3
    exact tab_congr fun k _ => blockConv_stream x ir m n k
  · rw [tab_length] at i1
    have : (fun k => blockConv (tab n (fun i => x (m + i))) ir
        (fun k => convAcc x (fun i => ir.getD i 0) ir.length (m + k) 0 m) (n + k)) =
        (fun k => convAcc x (fun i => ir.getD i 0) ir.length (m + n + k) 0 (m + n)) := by
      funext k
      rw [blockConv_stream, Nat.add_assoc]
    rw [this] at i1
    exact i1

theorem filtering_first {irOf : F → List UInt8 → Option (Buf S)} (junk : S) {f : F} {args : List UInt8} {x : Nat → S} {ir : Buf S}
    {n : Nat} (hir : irOf f args = some ir) (hpos : 1 ≤ ir.length)
    (h32 : n + ir.length ≤ 4294967296) {out : Buf S} (hout : n ≤ out.length) :
    ∃ st' o, convolutionFilter irOf junk (tab n x) f args none out = .ok ⟨true, some st', true, o⟩ ∧
      o.length = out.length ∧ Filtering f args x ir n st' := by
  obtain ⟨st', e, i1, i2, i3, i4, i5⟩ := convolutionFilter_first irOf junk (tab n x) f
    (o := out.take n) (by rw [tab_length, List.length_take]; omega) args ir hir hpos (by rw [tab_length]; exact h32)
  have := convolutionFilter_append (r := out.drop n) e
  rw [List.take_append_drop] at this
  refine ⟨st', _, this, ?_, ?_, i2, i3, by rw [i5]; simp, i4⟩
  · simp; omega
  · have e2 : (fun k => blockConv (tab n x) ir (fun _ => 0) ((tab n x).length + k)) =
        (fun k => convAcc x (fun i => ir.getD i 0) ir.length (n + k) 0 n) := by
      funext k
      have := blockConv_stream x ir 0 n (n + k)
      simp only [Nat.zero_add, convAcc] at this
      rw [tab_length]
      exact this
    rw [e2] at i1
    exact i1

end Filter

/-! ### one block -/

section Block
variable [Zero S] [Add S] [Mul S] [One S] [Neg S] [Max S] [Min S] [DecidableEq F]

/-- What does not change while an event is generated: `own i` tells if channel configuration `i` has a filter
state, `args i` are the arguments of its filter, `T` is the size of the temporary buffers, `total` is how many
random numbers are used before the first sample. -/
structure NoiseSetup (env : NoiseEnv S ρ F) (seed : ρ) (c : NoiseConfig S) (own : Nat → Bool) (args : Nat → List UInt8)
    (flt : Nat → NoiseFilter S) (total T nch dur : Nat) : Prop where
  count : c.channelCount ≤ c.channelConfig.length
  own0 : own 0 = true
  use : ∀ i cc, i < c.channelCount → c.channelConfig[i]? = some cc → own i = true → cc.use = true
  other : ∀ i, own i = false → flt i = flt 0
  channel : ∀ i cc, i < c.channelCount → c.channelConfig[i]? = some cc → cc.channel < nch
  amod : ∀ i cc, i < c.channelCount → c.channelConfig[i]? = some cc → ∃ a, cc.amod = some a ∧ dur ≤ a.length
  pack : ∀ i cc, i < c.channelCount → c.channelConfig[i]? = some cc → own i = true →
    ∀ ei, noiseArgs env c.isReject cc ei = .ok (args i)
  ir : ∀ i, i < c.channelCount → own i = true → env.irOf env.irF (args i) = some (flt i).ir ∧ 1 ≤ (flt i).ir.length ∧
    T + (flt i).ir.length ≤ 4294967296
  input : ∀ i, i < c.channelCount → own i = true → ∀ k,
    (flt i).input ((flt i).warm + k) = randomAt env.next seed (total + k)

/-- The filter states for `pos` samples after the beginning, for the channel configurations that satisfy `q`, and
for `pos'` for the others. -/
def NoiseFilters (env : NoiseEnv S ρ F) (count : Nat) (own : Nat → Bool) (args : Nat → List UInt8) (flt : Nat → NoiseFilter S)
    (pos : Nat → Nat) (filters : Buf (Option (FilterState F S))) : Prop :=
  ∀ i, i < count → if own i then ∃ st, filters[i]? = some (some st) ∧
      Filtering env.irF (args i) (flt i).input (flt i).ir ((flt i).warm + pos i) st
    else filters[i]? = some none

/-- A prepared event, `pos` samples after its beginning. -/
structure NoiseReady (env : NoiseEnv S ρ F) (seed : ρ) (c : NoiseConfig S) (own : Nat → Bool) (args : Nat → List UInt8)
    (flt : Nat → NoiseFilter S) (total T pos : Nat) (s : NoiseRun S ρ F) : Prop where
  config : s.config = c
  random : s.random = randomAfter env.next seed (total + pos)
  temps : ∃ t0 t1 t2, s.temps = [t0, t1, t2] ∧ T ≤ t0.length ∧ T ≤ t1.length ∧
    ∀ i, 0 < i → i < c.channelCount → own i = true → T ≤ t2.length
  filters : NoiseFilters env c.channelCount own args flt (fun _ => pos) s.filters

theorem noiseSound_succ (channels : List (NoiseChannel S)) (i : Nat) (flt : Nat → NoiseFilter S) (p : Nat) {cc : NoiseChannel S}
    (h : channels[i]? = some cc) (ch t : Nat) (x : S) :
    noiseSound channels (i + 1) flt p ch t x = if cc.channel = ch then
      noiseSound channels i flt p ch t x + max (-1) (min 1 (cc.amp * (cc.amod.getD []).getD t 0 * (flt i).out (t - p)))
      else noiseSound channels i flt p ch t x := by
  unfold noiseSound
  rw [List.range_succ, List.foldl_append, List.foldl_cons, List.foldl_nil, h]

theorem tab_take {n N : Nat} (f : Nat → S) (h : n ≤ N) : (tab N f).take n = tab n f := by
  apply List.ext_getElem?
  intro i
  rw [List.getElem?_take, tab_getElem?, tab_getElem?]
  by_cases hi : i < n
  · simp [hi, show i < N by omega]
  · simp [hi]

theorem tab_append_drop {n N : Nat} (f g : Nat → S) (h : n ≤ N) :
    tab n f ++ (tab N g).drop n = tab N (fun i => if i < n then f i else g i) := by
  apply List.ext_getElem?
  intro i
  by_cases hi : i < n
  · rw [List.getElem?_append_left (by rw [tab_length]; exact hi), tab_getElem?, tab_getElem?, if_pos hi, if_pos (by omega), if_pos hi]
  · rw [List.getElem?_append_right (by rw [tab_length]; omega), tab_length, List.getElem?_drop, tab_getElem?, tab_getElem?,
      show n + (i - n) = i by omega, if_neg hi]

/-- One channel configuration. -/
theorem noiseRunChannel_ok {env : NoiseEnv S ρ F} {seed : ρ} {c : NoiseConfig S} {own : Nat → Bool} {args : Nat → List UInt8}
    {flt : Nat → NoiseFilter S} {total T nch dur : Nat} (hs : NoiseSetup env seed c own args flt total T nch dur)
    {n bi ei N p pos : Nat} (hn : n ≤ T) (hei : ei = p + pos) (hdur : ei + n ≤ dur) (hN : bi + n ≤ N)
    {t0 : Buf S} (ht0 : t0.take n = tab n (fun i => randomAt env.next seed (total + pos + i)))
    {i : Nat} (hi : i < c.channelCount) {T1 T2 : Nat} (hT1 : T ≤ T1)
    (hT2 : ∀ i, 0 < i → i < c.channelCount → own i = true → T ≤ T2) {filters : Buf (Option (FilterState F S))}
    (hf : NoiseFilters env c.channelCount own args flt (fun j => if j < i then pos + n else pos) filters)
    {G1 G2 : Nat → S} (hG : 0 < i → ∀ k < n, G1 k = (flt 0).out (pos + k)) (f : Nat → Nat → S) :
    ∃ filters' G1' G2', noiseRunChannel env c t0 n bi ei i
        (0, filters, [t0, tab T1 G1, tab T2 G2], blk nch N (applyRange (noiseSound c.channelConfig i flt p) ei bi n f)) =
      .ok (0, filters', [t0, tab T1 G1', tab T2 G2'],
        blk nch N (applyRange (noiseSound c.channelConfig (i + 1) flt p) ei bi n f)) ∧
      NoiseFilters env c.channelCount own args flt (fun j => if j < i + 1 then pos + n else pos) filters' ∧
      (∀ k < n, G1' k = (flt 0).out (pos + k)) := by
  have hlen := hs.count
  obtain ⟨cc, hcc⟩ : ∃ cc, c.channelConfig[i]? = some cc := ⟨_, List.getElem?_eq_getElem (by omega)⟩
  have hch := hs.channel i cc hi hcc
  obtain ⟨a, ha, hal⟩ := hs.amod i cc hi hcc
  have hfi := hf i hi
  -- adding the output `B` of the filter
  have hadd : ∀ (TT : Nat) (B : Nat → S), n ≤ TT → (∀ k < n, B k = (flt i).out (pos + k)) →
      noiseAdd cc a (tab TT B) n bi ei (blk nch N (applyRange (noiseSound c.channelConfig i flt p) ei bi n f)) =
        .ok (blk nch N (applyRange (noiseSound c.channelConfig (i + 1) flt p) ei bi n f)) := by
    intro TT B hTT hB
    obtain ⟨M, A, hA⟩ : ∃ M A, a = tab M A := ⟨_, _, eq_tab a 0⟩
    have hM : ei + n ≤ M := by
      have := congrArg List.length hA
      rw [tab_length] at this; omega
    rw [hA, noiseAdd_eq cc _ hch hM hTT hN]
    congr 2
    funext ch k
    unfold applyRange
    by_cases hk : bi ≤ k ∧ k < bi + n
    · rw [if_pos hk, if_pos hk, noiseSound_succ _ _ _ _ hcc]
      by_cases hc : cc.channel = ch
      · rw [if_pos ⟨hc.symm, hk⟩, if_pos hc]
        congr 1
        unfold limit1
        rw [ha, hB _ (by omega), Option.getD_some, hA, getD_tab, if_pos (by omega), hei,
          show p + pos + (k - bi) - p = pos + (k - bi) by omega]
      · rw [if_neg (by tauto), if_neg hc]
    · rw [if_neg hk, if_neg hk, if_neg (by tauto)]
  unfold noiseRunChannel
  simp only [ne_eq, not_true_eq_false, if_false]
  rw [rd_ok_iff.2 hcc, ok_bind']
  by_cases ho : own i = true
  · simp only [ho, if_true, Nat.lt_irrefl, if_false] at hfi
    obtain ⟨st, hst, hfs⟩ := hfi
    have huse := hs.use i cc hi hcc ho
    obtain ⟨r1, r2, r3⟩ := hs.ir i hi ho
    have hin : t0.take n = tab n (fun k => (flt i).input ((flt i).warm + pos + k)) := by
      rw [ht0]
      refine tab_congr fun k _ => ?_
      rw [Nat.add_assoc (flt i).warm, hs.input i hi ho, Nat.add_assoc]
    have hlt : i < filters.length := (List.getElem?_eq_some_iff.1 hst).1
    rw [rd_ok_iff.2 hst, ok_bind', if_pos (by simp [huse])]
    rw [hs.pack i cc hi hcc ho, ok_bind', hin]
    -- the states after this one
    have hfilters : ∀ st', Filtering env.irF (args i) (flt i).input (flt i).ir ((flt i).warm + pos + n) st' →
        NoiseFilters env c.channelCount own args flt (fun j => if j < i + 1 then pos + n else pos) (filters.set i (some st')) := by
      intro st' hst' j hj
      have hfj := hf j hj
      by_cases hji : j = i
      · subst hji
        simp only [ho, if_true]
        refine ⟨st', ?_, ?_⟩
        · rw [List.getElem?_set_self hlt]
        · rw [if_pos (by omega), ← Nat.add_assoc]; exact hst'
      · have e1 : (if j < i + 1 then pos + n else pos) = (if j < i then pos + n else pos) :=
          if_congr (by omega) rfl rfl
        simp only [e1]
        rw [List.getElem?_set_ne (by omega)]
        exact hfj
    have hout : ∀ k < n, convAcc (flt i).input (fun j => (flt i).ir.getD j 0) (flt i).ir.length ((flt i).warm + pos + k) 0
        ((flt i).warm + pos + n) = (flt i).out (pos + k) := by
      intro k hk
      rw [convAcc_stream _ _ hk]
      unfold NoiseFilter.out
      rw [Nat.add_assoc (flt i).warm]
    by_cases h0 : 0 < i
    · have hT := hT2 i h0 hi ho
      simp only [if_pos h0]
      rw [show rd [t0, tab T1 G1, tab T2 G2] 2 = .ok (tab T2 G2) from rfl, ok_bind']
      obtain ⟨st', e, hst'⟩ := filtering_step env.junk hfs r1 r2 (n := n) (by omega) (out := tab T2 G2) (by rw [tab_length]; omega)
      rw [e, ok_bind', wr_eq_ok _ hlt, ok_bind']
      simp only [if_true, ha, derefArray, ok_bind']
      rw [tab_append_drop _ _ (by omega), hadd T2 _ (by omega) (fun k hk => by rw [if_pos hk]; exact hout k hk)]
      exact ⟨_, G1, _, rfl, hfilters st' hst', hG h0⟩
    · obtain rfl : i = 0 := by omega
      simp only [if_neg h0]
      rw [show rd [t0, tab T1 G1, tab T2 G2] 1 = .ok (tab T1 G1) from rfl, ok_bind']
      obtain ⟨st', e, hst'⟩ := filtering_step env.junk hfs r1 r2 (n := n) (by omega) (out := tab T1 G1) (by rw [tab_length]; omega)
      rw [e, ok_bind', wr_eq_ok _ hlt, ok_bind']
      simp only [if_true, ha, derefArray, ok_bind']
      rw [tab_append_drop _ _ (by omega), hadd T1 _ (by omega) (fun k hk => by rw [if_pos hk]; exact hout k hk)]
      refine ⟨_, _, G2, rfl, hfilters st' hst', fun k hk => ?_⟩
      rw [if_pos hk]
      exact hout k hk
  · simp only [Bool.not_eq_true] at ho
    simp only [ho] at hfi
    have h0 : 0 < i := by
      by_contra h
      obtain rfl : i = 0 := by omega
      rw [hs.own0] at ho
      cases ho
    rw [rd_ok_iff.2 (by simpa using hfi), ok_bind', if_neg (by simp),
      show rd [t0, tab T1 G1, tab T2 G2] 1 = .ok (tab T1 G1) from rfl, ok_bind', ha]
    simp only [derefArray, ok_bind']
    rw [hadd T1 _ (by omega) (fun k hk => by rw [hG h0 k hk, hs.other i ho])]
    refine ⟨filters, G1, G2, rfl, ?_, hG h0⟩
    intro j hj
    have hfj := hf j hj
    by_cases hji : j = i
    · subst hji
      simp only [ho] at hfj ⊢
      exact hfj
    · have e1 : (if j < i + 1 then pos + n else pos) = (if j < i then pos + n else pos) :=
        if_congr (by omega) rfl rfl
      simp only [e1]
      exact hfj

theorem noiseRunBlock_ok {env : NoiseEnv S ρ F} {seed : ρ} {c : NoiseConfig S} {own : Nat → Bool} {args : Nat → List UInt8}
    {flt : Nat → NoiseFilter S} {total T nch dur : Nat} (hs : NoiseSetup env seed c own args flt total T nch dur)
    {n bi ei N p pos : Nat} (hn : n ≤ T) (hei : ei = p + pos) (hdur : ei + n ≤ dur) (hN : bi + n ≤ N)
    {s : NoiseRun S ρ F} (hr : NoiseReady env seed c own args flt total T pos s) (f : Nat → Nat → S) :
    ∃ s', noiseRunBlock env n bi ei s (blk nch N f) =
        .ok (0, s', blk nch N (applyRange (noiseSound c.channelConfig c.channelCount flt p) ei bi n f)) ∧
      NoiseReady env seed c own args flt total T (pos + n) s' := by
  obtain ⟨h1, h2, ⟨t0, t1, t2, h3, h4, h5, h6⟩, h7⟩ := hr
  obtain ⟨T0, F0, rfl⟩ : ∃ T F, t0 = tab T F := ⟨_, _, eq_tab t0 0⟩
  obtain ⟨T1, F1, rfl⟩ : ∃ T F, t1 = tab T F := ⟨_, _, eq_tab t1 0⟩
  obtain ⟨T2, F2, rfl⟩ : ∃ T F, t2 = tab T F := ⟨_, _, eq_tab t2 0⟩
  rw [tab_length] at h4 h5
  simp only [tab_length] at h6
  unfold noiseRunBlock
  rw [h1, h2, h3, show rd [tab T0 F0, tab T1 F1, tab T2 F2] 0 = .ok (tab T0 F0) from rfl, ok_bind',
    randomFill_eq _ _ _ (by omega), ok_bind']
  simp only
  set t0' := tab T0 (fun i => if i < n then randomAt env.next (randomAfter env.next seed (total + pos)) i else F0 i) with ht0'
  have ht0 : t0'.take n = tab n (fun i => randomAt env.next seed (total + pos + i)) := by
    rw [ht0', tab_take _ (by omega)]
    refine tab_congr fun k hk => ?_
    rw [if_pos hk, randomAt_after]
  have ht0l : t0'.length = T0 := by rw [ht0', tab_length]
  clear_value t0'
  rw [show wr [tab T0 F0, tab T1 F1, tab T2 F2] 0 t0' = .ok [t0', tab T1 F1, tab T2 F2] from rfl, ok_bind']
  obtain ⟨x, e, filters', G1, G2, rfl, q1, q2⟩ := forRange_rule
    (fun i (x : Nat × Buf (Option (FilterState F S)) × Buf (Buf S) × Buf (Buf S)) => ∃ filters' G1 G2,
      x = (0, filters', [t0', tab T1 G1, tab T2 G2], blk nch N (applyRange (noiseSound c.channelConfig i flt p) ei bi n f)) ∧
      NoiseFilters env c.channelCount own args flt (fun j => if j < i then pos + n else pos) filters' ∧
      (0 < i → ∀ k < n, G1 k = (flt 0).out (pos + k))) (Nat.zero_le c.channelCount)
    (body := noiseRunChannel env c t0' n bi ei)
    (s := (0, s.filters, [t0', tab T1 F1, tab T2 F2], blk nch N f))
    ⟨s.filters, F1, F2, by
      congr 4
      funext ch k
      unfold applyRange noiseSound
      simp, by simpa using h7, fun h => absurd h (by omega)⟩ (by
    rintro i _ _ hi ⟨filters', G1, G2, rfl, q1, q2⟩
    obtain ⟨f2, G1', G2', k1, k2, k3⟩ := noiseRunChannel_ok hs hn hei hdur hN ht0 hi h5 h6 q1 q2 f (G2 := G2)
    exact ⟨_, k1, f2, G1', G2', rfl, k2, fun _ => k3⟩)
  rw [e, ok_bind']
  refine ⟨_, rfl, rfl, ?_, ⟨t0', _, _, rfl, by omega, by rw [tab_length]; exact h5, by simpa only [tab_length] using h6⟩, ?_⟩
  · simp only
    rw [randomAfter_add, Nat.add_assoc]
  · intro i hi
    have := q1 i hi
    simpa only [hi, if_true] using this

end Block

end Sp
