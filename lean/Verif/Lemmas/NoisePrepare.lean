import Verif.Lemmas.NoiseSizes
import Verif.Lemmas.NoiseRun

/-!
# Preparing and generating noise events
-/

set_option linter.unusedSectionVars false

namespace Sp
variable {S ρ F : Type}

/-! ### random numbers used -/

theorem randomBefore_zero (own : Nat → Prop) (len : Nat → Nat) : randomBefore own len 0 = 0 := rfl

theorem randomBefore_own {own : Nat → Prop} (len : Nat → Nat) {i : Nat} (h : own i) :
    randomBefore own len (i + 1) = randomBefore own len i + len i := by
  unfold randomBefore
  rw [List.range_succ, List.filter_append, List.map_append, List.sum_append]
  simp [h]

theorem randomBefore_not {own : Nat → Prop} (len : Nat → Nat) {i : Nat} (h : ¬ own i) :
    randomBefore own len (i + 1) = randomBefore own len i := by
  unfold randomBefore
  rw [List.range_succ, List.filter_append, List.map_append, List.sum_append]
  simp [h]

section
variable [Zero S] [Add S] [Mul S] [One S] [Neg S] [Max S] [Min S] [DecidableEq F]

/-- Creating one filter state. -/
theorem noiseRunFilterState_ok (env : NoiseEnv S ρ F) {i len : Nat} {s : NoiseRun S ρ F} {cc : NoiseChannel S}
    (hcc : s.config.channelConfig[i]? = some cc) {args : List UInt8} (hargs : noiseArgs env s.config.isReject cc 0 = .ok args)
    {t0 t1 t2 : Buf S} (ht : s.temps = [t0, t1, t2]) (h0 : len ≤ t0.length) (h1 : len ≤ t1.length)
    (hf : s.filters[i]? = some none) {ir : Buf S} (hir : env.irOf env.irF args = some ir) (hpos : 1 ≤ ir.length)
    (h32 : len + ir.length ≤ 4294967296) {x : Nat → S} (hx : ∀ k < len, x k = randomAt env.next s.random k) :
    ∃ st t0' t1', noiseRunFilterState env i len s = .ok (0, { s with
        random := randomAfter env.next s.random len, filters := s.filters.set i (some st), temps := [t0', t1', t2] }) ∧
      t0'.length = t0.length ∧ t1'.length = t1.length ∧ Filtering env.irF args x ir len st := by
  obtain ⟨T0, F0, rfl⟩ : ∃ T F, t0 = tab T F := ⟨_, _, eq_tab t0 0⟩
  rw [tab_length] at h0
  have hlt : i < s.filters.length := (List.getElem?_eq_some_iff.1 hf).1
  obtain ⟨st, o, e, ho, hst⟩ := filtering_first (x := x) env.junk hir hpos h32 h1
  unfold noiseRunFilterState
  rw [rd_ok_iff.2 hcc, ok_bind', ht, show rd [tab T0 F0, t1, t2] 0 = .ok (tab T0 F0) from rfl, ok_bind',
    randomFill_eq _ _ _ h0, ok_bind']
  simp only
  rw [show wr [tab T0 F0, t1, t2] 0 (tab T0 (fun i => if i < len then randomAt env.next s.random i else F0 i)) =
    .ok [tab T0 (fun i => if i < len then randomAt env.next s.random i else F0 i), t1, t2] from rfl, ok_bind', hargs, ok_bind',
    rd_ok_iff.2 hf, ok_bind', show rd [tab T0 (fun i => if i < len then randomAt env.next s.random i else F0 i), t1, t2] 1 =
      .ok t1 from rfl, ok_bind', tab_take _ h0,
    tab_congr (fun k hk => (if_pos hk).trans (hx k hk).symm), e, ok_bind', wr_eq_ok _ hlt, ok_bind']
  exact ⟨st, _, o, rfl, by rw [tab_length, tab_length], ho, hst⟩

/-- One call of generate for a range that is not longer than the resolution calls the block function once. -/
theorem noiseRunGenerate_eq (env : NoiseEnv S ρ F) {a b off : Nat} {s : NoiseRun S ρ F} (out : Buf (Buf S)) (hab : a < b)
    (hb : b < 4294967296) (hr : b - a ≤ s.config.resolution) {s' : NoiseRun S ρ F} {out' : Buf (Buf S)}
    (h : noiseRunBlock env (b - a) off a s out = .ok (0, s', out')) :
    noiseRunGenerate env a b off s out = .ok (0, s', out') := by
  unfold noiseRunGenerate eventBlockGenerate
  have e1 : sub32 b a = b - a := sub32_of_le (by omega) hb
  have e2 : (if b - a < s.config.resolution then b - a else s.config.resolution) = b - a := by
    split <;> omega
  obtain ⟨k, hk⟩ : ∃ k, b - a = k + 1 := ⟨b - a - 1, by omega⟩
  have e3 : ∀ st : NoiseRun S ρ F × Buf (Buf S),
      blockGenerateLoop (fun n bi ei (x : NoiseRun S ρ F × Buf (Buf S)) => noiseRunBlock env n (off + bi) ei x.1 x.2)
        (b - a) (b - a) a (b - a) (u32 (0 + (b - a))) st = .ok (0, b - a, st) := by
    intro st
    rw [Nat.zero_add, u32_of_lt (n := b - a) (by omega)]
    conv_lhs => rw [hk]
    unfold blockGenerateLoop
    rw [if_neg (by omega), hk]
  simp only [e1, e2]
  rw [if_neg (by omega), Nat.div_self (by omega), Nat.one_mul, u32_of_lt (n := b - a) (by omega), Nat.mod_self]
  unfold blockGenerateLoop
  rw [if_pos (by omega)]
  simp only [Nat.add_zero, Nat.zero_add]
  rw [u32_of_lt (n := a) (by omega), h, ok_bind']
  simp only [ne_eq, not_true_eq_false, if_false]
  have := e3 (s', out')
  rw [Nat.zero_add] at this
  rw [this]
  rfl

/-- A noise event of the length `dur` with the configuration `c`, whose channel configurations after taking defaults
are `cs`. The first channel is used, no used channel has modulation of its filter parameters, output channels exist, each
amplitude envelope is at least as long as the event. `len i` is the length of the impulse response for the transition of
filter `i`, `ir i` is the impulse response, neither is longer than the buffers. -/
structure NoiseEventOk (env : NoiseEnv S ρ F) (c : NoiseConfig S) (cs : List (NoiseChannel S)) (len : Nat → Nat)
    (ir : Nat → List S) (nch dur : Nat) : Prop where
  rate : 4 * env.rate < 4294967296
  count : 1 ≤ c.channelCount ∧ c.channelCount ≤ c.channelConfig.length
  defaults : ChannelDefaults c.channelCount c.channelConfig cs
  first : ∃ cc, cs[0]? = some cc ∧ cc.use = true
  noMod : ∀ i cc, i < c.channelCount → c.channelConfig[i]? = some cc → cc.use = true → cc.fmod = none ∧ cc.wmod = none
  channel : ∀ i cc, i < c.channelCount → cs[i]? = some cc → cc.channel < nch
  amod : ∀ i cc, i < c.channelCount → cs[i]? = some cc → ∃ a, cc.amod = some a ∧ dur ≤ a.length
  len : ∀ i cc, i < c.channelCount → cs[i]? = some cc → OwnFilter c.channelConfig i →
    len i = env.irLen (min cc.trnl cc.trnh) ∧ 1 ≤ len i ∧ len i ≤ 4 * env.rate
  ir : ∀ i cc, i < c.channelCount → cs[i]? = some cc → OwnFilter c.channelConfig i →
    env.irOf env.irF (env.pack (cc.frq % 65536) (u32 (cc.frq % 65536 + cc.wdt)) cc.trnl cc.trnh c.isReject) = some (ir i) ∧
    1 ≤ (ir i).length ∧ 4 * env.rate + (ir i).length ≤ 4294967296

theorem NoiseEventOk.noMod' {env : NoiseEnv S ρ F} {c : NoiseConfig S} {cs : List (NoiseChannel S)} {len : Nat → Nat}
    {ir : Nat → List S} {nch dur : Nat} (h : NoiseEventOk env c cs len ir nch dur) {i : Nat} {cc : NoiseChannel S}
    (hi : i < c.channelCount) (hcc : cs[i]? = some cc) (ho : OwnFilter c.channelConfig i) :
    cc.use = true ∧ cc.fmod = none ∧ cc.wmod = none := by
  obtain ⟨first, f1, f2⟩ := h.first
  have f3 : c.channelConfig[0]? = some first := by rw [← h.defaults.first]; exact f1
  have f4 := h.noMod 0 first (by omega) f3 f2
  by_cases h0 : i = 0
  · subst h0
    rw [f1] at hcc; cases hcc
    exact ⟨f2, f4⟩
  · rcases ho with h' | ⟨cc0, e1, e2, e3⟩
    · exact absurd h' h0
    · have hd := h.defaults.others i first cc0 cc (by omega) hi f3 e1 hcc
      obtain ⟨m1, m2⟩ := h.noMod i cc0 hi e1 e2
      obtain ⟨_, _, _, q1, q2⟩ := hd.filter e2 e3
      rw [if_pos m1] at q1
      rw [if_pos m2] at q2
      exact ⟨(hd.same e2).1, q1.trans f4.1, q2.trans f4.2⟩

/-- The argument bytes of filter `i`. -/
def filterArgs (env : NoiseEnv S ρ F) (isReject : Bool) (cs : List (NoiseChannel S)) (i : Nat) : List UInt8 :=
  match cs[i]? with
  | some cc => env.pack (cc.frq % 65536) (u32 (cc.frq % 65536 + cc.wdt)) cc.trnl cc.trnh isReject
  | none => []

theorem noiseFilters_own (x : Nat → S) {own : Nat → Prop} (len : Nat → Nat) (ir : Nat → List S) (count : Nat) {i : Nat}
    (h : own i) : noiseFilters x own len ir count i =
      ⟨fun k => x (if k < len i then randomBefore own len i + k else randomBefore own len count + (k - len i)), ir i, len i⟩ := by
  unfold noiseFilters
  rw [if_pos h]

open Classical in
theorem noise_setup {env : NoiseEnv S ρ F} {c : NoiseConfig S} {cs : List (NoiseChannel S)} {len : Nat → Nat}
    {ir : Nat → List S} {nch dur T : Nat} (h : NoiseEventOk env c cs len ir nch dur) (seed : ρ) (hT : T ≤ 4 * env.rate)
    (resolution : Nat) :
    NoiseSetup env seed { c with channelConfig := cs, resolution := resolution }
      (fun i => decide (OwnFilter c.channelConfig i)) (filterArgs env c.isReject cs)
      (noiseFilters (randomAt env.next seed) (OwnFilter c.channelConfig) len ir c.channelCount)
      (randomBefore (OwnFilter c.channelConfig) len c.channelCount) T nch dur := by
  have hlen : cs.length = c.channelConfig.length := h.defaults.length
  have hcs : ∀ i, i < c.channelCount → ∃ cc, cs[i]? = some cc := fun i hi =>
    ⟨_, List.getElem?_eq_getElem (by have := h.count.2; omega)⟩
  refine ⟨by rw [hlen]; exact h.count.2, by simp [OwnFilter], ?_, ?_, h.channel, h.amod, ?_, ?_, ?_⟩
  · intro i cc hi hcc ho
    exact (h.noMod' hi hcc (of_decide_eq_true ho)).1
  · intro i ho
    unfold noiseFilters
    rw [if_neg (of_decide_eq_false ho), if_pos (show OwnFilter c.channelConfig 0 from Or.inl rfl)]
  · intro i cc hi hcc ho ei
    obtain ⟨_, m1, m2⟩ := h.noMod' hi hcc (of_decide_eq_true ho)
    unfold noiseArgs filterArgs
    simp only at hcc
    simp only [m1, m2, modAt, ok_bind', hcc]
    rfl
  · intro i hi ho
    obtain ⟨cc, hcc⟩ := hcs i hi
    obtain ⟨r1, r2, r3⟩ := h.ir i cc hi hcc (of_decide_eq_true ho)
    rw [noiseFilters_own _ _ _ _ (of_decide_eq_true ho)]
    refine ⟨?_, r2, by simp only; omega⟩
    unfold filterArgs
    rw [hcc]
    exact r1
  · intro i hi ho k
    rw [noiseFilters_own _ _ _ _ (of_decide_eq_true ho)]
    simp only
    rw [if_neg (by omega), Nat.add_sub_cancel_left]

open Classical in
theorem noiseRunPrepare_ok {env : NoiseEnv S ρ F} {c : NoiseConfig S} {cs : List (NoiseChannel S)} {len : Nat → Nat}
    {ir : Nat → List S} {nch start stop : Nat} (h : NoiseEventOk env c cs len ir nch (stop - start)) (hle : start ≤ stop)
    (h32 : stop < 4294967296) {s : NoiseRun S ρ F} (hc : s.config = c)
    (hf : s.filters = List.replicate c.channelConfig.length none) :
    ∃ T s', T ≤ 4 * env.rate ∧ (∀ n, n ≤ stop - start → n ≤ 4 * env.rate → n ≤ T) ∧
      noiseRunPrepare env start stop s = .ok (0, s') ∧
      NoiseReady env s.random { c with channelConfig := cs, resolution := stop - start }
        (fun i => decide (OwnFilter c.channelConfig i)) (filterArgs env c.isReject cs)
        (noiseFilters (randomAt env.next s.random) (OwnFilter c.channelConfig) len ir c.channelCount)
        (randomBefore (OwnFilter c.channelConfig) len c.channelCount) T 0 s' := by
  obtain ⟨hn1, hn2⟩ := h.count
  obtain ⟨first, f1, f2⟩ := h.first
  have f3 : c.channelConfig[0]? = some first := by rw [← h.defaults.first]; exact f1
  obtain ⟨am, ha, _⟩ := h.amod 0 first (by omega) f1
  have f4 := h.noMod 0 first (by omega) f3 f2
  have hcs : ∀ i, i < c.channelCount → ∃ cc, cs[i]? = some cc := fun i hi =>
    ⟨_, List.getElem?_eq_getElem (by have := h.defaults.length; omega)⟩
  obtain ⟨sz, hs, e⟩ := noiseSizes_exact (irLen := env.irLen) env.rate start stop f3 hn1 hn2
  have hch : sz.channels = cs := hs.defaults.unique hn2 hn1 h.defaults
  have hmod : sz.filterMod = false := by
    rw [← Bool.not_eq_true]
    intro hm
    rcases hs.mod.1 hm with h' | ⟨i, cc, q1, q2, q3, q4, q5⟩
    · simp [f4.1, f4.2] at h'
    · have := h.noMod i cc q2 q3 q4
      simp [this.1, this.2] at q5
  have hsub : sub32 stop start = stop - start := sub32_of_le hle h32
  simp only [hmod, Bool.false_eq_true, if_false, hch, hsub, u32_of_lt (n := 4 * env.rate) h.rate] at e
  set T := min (max sz.tempLength (stop - start)) (4 * env.rate) with hT
  have hirs : ∀ i, i < c.channelCount → OwnFilter c.channelConfig i → sz.irLengths[i]? = some (len i) ∧ len i ≤ T ∧ 1 ≤ len i := by
    intro i hi ho
    obtain ⟨cc, hcc⟩ := hcs i hi
    obtain ⟨l1, l2, l3⟩ := h.len i cc hi hcc ho
    have := hs.irs i cc hi (by rw [hch]; exact hcc) ho
    rw [← l1] at this
    have := hs.temp _ (List.mem_of_getElem? this)
    exact ⟨by assumption, by omega, l2⟩
  have hsetup := noise_setup h s.random (T := T) (by omega) (stop - start)
  set c' : NoiseConfig S := { c with channelConfig := cs, resolution := stop - start } with hc'
  set own := OwnFilter c.channelConfig with hown
  set flt := noiseFilters (randomAt env.next s.random) own len ir c.channelCount with hflt
  -- what is so when the filters before `i` have been created
  let P : Buf S → Nat → Nat × NoiseRun S ρ F → Prop := fun t2 i x => x.1 = 0 ∧ x.2.config = c' ∧
    x.2.random = randomAfter env.next s.random (randomBefore own len i) ∧
    (∃ t0 t1, x.2.temps = [t0, t1, t2] ∧ T ≤ t0.length ∧ T ≤ t1.length) ∧
    x.2.filters.length = c.channelConfig.length ∧
    ∀ j, j < c.channelCount → if own j ∧ j < i then ∃ st, x.2.filters[j]? = some (some st) ∧
      Filtering env.irF (filterArgs env c.isReject cs j) (flt j).input (flt j).ir (flt j).warm st else x.2.filters[j]? = some none
  have hstep : ∀ t2 i x, P t2 i x → i < c.channelCount → own i →
      ∃ x', noiseRunFilterState env i (len i) x.2 = .ok x' ∧ P t2 (i + 1) x' := by
    rintro t2 i ⟨st, x⟩ ⟨p0, p1, p2, ⟨t0, t1, p3, p4, p5⟩, p7, p8⟩ hi ho
    simp only at p0 p1 p2 p3 p7 p8
    obtain ⟨cc, hcc⟩ := hcs i hi
    obtain ⟨i1, i2, i3⟩ := hirs i hi ho
    obtain ⟨r1, r2, r3⟩ := hsetup.ir i hi (decide_eq_true ho)
    have hfi := p8 i hi
    rw [if_neg (by omega)] at hfi
    obtain ⟨st', t0', t1', k1, k2, k3, k4⟩ := noiseRunFilterState_ok env (i := i) (len := len i) (s := x) (cc := cc)
      (by rw [p1]; exact hcc) (args := filterArgs env c.isReject cs i)
      (by rw [p1]; exact hsetup.pack i cc hi hcc (decide_eq_true ho) 0) p3 (by omega) (by omega) hfi r1 r2 (by omega)
      (x := (flt i).input) (by
        intro k hk
        rw [p2, hflt, noiseFilters_own _ _ _ _ ho, randomAt_after]
        simp only
        rw [if_pos hk])
    refine ⟨_, k1, rfl, p1, ?_, ⟨t0', t1', rfl, by omega, by omega⟩, by simpa using p7, ?_⟩
    · simp only
      rw [p2, randomAfter_add, randomBefore_own _ ho]
    · intro j hj
      simp only
      by_cases hji : j = i
      · subst hji
        rw [if_pos ⟨ho, by omega⟩, List.getElem?_set_self (by omega)]
        refine ⟨st', rfl, ?_⟩
        have : (flt j).warm = len j := by rw [hflt, noiseFilters_own _ _ _ _ ho]
        rw [this]
        exact k4
      · rw [List.getElem?_set_ne (by omega)]
        have := p8 j hj
        have e1 : (own j ∧ j < i + 1) ↔ (own j ∧ j < i) := by
          constructor
          · rintro ⟨a, b⟩; exact ⟨a, by omega⟩
          · rintro ⟨a, b⟩; exact ⟨a, by omega⟩
        simp only [e1]
        exact this
  have hskip : ∀ t2 i x, P t2 i x → i < c.channelCount → ¬ own i → P t2 (i + 1) x := by
    rintro t2 i ⟨st, x⟩ ⟨p0, p1, p2, p3, p7, p8⟩ hi ho
    refine ⟨p0, p1, by rw [randomBefore_not _ ho]; exact p2, p3, p7, ?_⟩
    intro j hj
    have := p8 j hj
    have e1 : (own j ∧ j < i + 1) ↔ (own j ∧ j < i) := by
      constructor
      · rintro ⟨a, b⟩
        refine ⟨a, ?_⟩
        rcases Nat.lt_succ_iff_lt_or_eq.1 b with b | b
        · exact b
        · exact absurd (b ▸ a) ho
      · rintro ⟨a, b⟩; exact ⟨a, by omega⟩
    simp only [e1]
    exact this
  have hend : ∀ t2 x, (sz.filterStates = true → T ≤ t2.length) → P t2 c.channelCount x → NoiseReady env s.random c' (fun i => decide (own i)) (filterArgs env c.isReject cs)
      flt (randomBefore own len c.channelCount) T 0 x.2 := by
    rintro t2 ⟨st, x⟩ p6 ⟨p0, p1, p2, ⟨t0, t1, p3, p4, p5⟩, p7, p8⟩
    refine ⟨p1, p2, ⟨t0, t1, t2, p3, p4, p5, ?_⟩, ?_⟩
    · intro i hi0 hi ho
      exact p6 (hs.states.2 ⟨i, by omega, hi, of_decide_eq_true ho⟩)
    · intro j hj
      have := p8 j hj
      simp only
      by_cases ho : own j
      · rw [if_pos ⟨ho, hj⟩] at this
        simpa [ho] using this
      · rw [if_neg (fun h => ho h.1)] at this
        simpa [ho] using this
  have hT1 : T ≤ 4 * env.rate := by omega
  have hT2 : ∀ n, n ≤ stop - start → n ≤ 4 * env.rate → n ≤ T := by intro n h1 h2; omega
  clear_value T
  have hp0 : P [] 0 (0, { s with
      config := c', temps := [List.replicate T env.junk, List.replicate T env.junk, []] }) := by
    refine ⟨rfl, rfl, rfl, ⟨_, _, rfl, by simp, by simp⟩, by simp [hf], ?_⟩
    intro j hj
    rw [if_neg (by omega)]
    simp only [hf]
    rw [List.getElem?_replicate, if_pos (by omega)]
  obtain ⟨⟨st, x⟩, k1, k2⟩ := hstep [] 0 _ hp0 (by omega) (Or.inl rfl)
  obtain rfl : st = 0 := k2.1
  unfold noiseRunPrepare
  rw [hc, rd_ok_iff.2 f3, ok_bind', if_neg (by simp [ha]), e, ok_bind']
  simp only
  rw [rd_ok_iff.2 (hirs 0 (by omega) (Or.inl rfl)).1, ok_bind', k1, ok_bind']
  simp only [ne_eq, not_true_eq_false, if_false]
  by_cases hfs : sz.filterStates = true
  · rw [if_pos hfs]
    obtain ⟨k0, k3, k4, ⟨t0, t1, k5, k6, k7⟩, k8, k9⟩ := k2
    simp only at k3 k4 k5 k8 k9
    rw [k5, show wr [t0, t1, []] 2 (List.replicate T env.junk) = .ok [t0, t1, List.replicate T env.junk] from rfl, ok_bind']
    obtain ⟨⟨st, y⟩, l1, l2⟩ := forRange_rule (fun i (x : Nat × NoiseRun S ρ F) => P (List.replicate T env.junk) i x) hn1
      (s := (0, { x with temps := [t0, t1, List.replicate T env.junk] }))
      (body := fun cci (y : Nat × NoiseRun S ρ F) =>
        if y.1 ≠ 0 then .ok (y.1, y.2)
        else do
          let len ← rd sz.irLengths cci
          if len = 0 then return (0, y.2)
          else noiseRunFilterState env cci len y.2)
      ⟨rfl, k3, k4, ⟨t0, t1, rfl, k6, k7⟩, k8, k9⟩ (by
      rintro i ⟨st, y⟩ hi1 hi hp
      obtain rfl : st = 0 := hp.1
      simp only [ne_eq, not_true_eq_false, if_false]
      by_cases ho : own i
      · obtain ⟨i1, i2, i3⟩ := hirs i hi ho
        rw [rd_ok_iff.2 i1, ok_bind', if_neg (by omega)]
        exact hstep _ i _ hp hi ho
      · rw [rd_ok_iff.2 (hs.irs0 i (by omega) (fun h => ho h.2)), ok_bind', if_pos rfl]
        exact ⟨_, rfl, hskip _ i _ hp hi ho⟩)
    obtain rfl : st = 0 := l2.1
    exact ⟨T, y, hT1, hT2, l1, hend _ _ (fun _ => by simp) l2⟩
  · rw [if_neg hfs]
    have : ∀ i, 1 ≤ i → i ≤ c.channelCount → P [] i (0, x) := by
      intro i hi
      induction i, hi using Nat.le_induction with
      | base => exact fun _ => k2
      | succ i hi ih =>
        intro hi2
        exact hskip [] i _ (ih (by omega)) (by omega) (fun ho => hfs (hs.states.2 ⟨i, hi, by omega, ho⟩))
    exact ⟨T, x, hT1, hT2, rfl, hend [] (0, x) (fun h => absurd h hfs) (this _ hn1 (Nat.le_refl _))⟩

end

end Sp
