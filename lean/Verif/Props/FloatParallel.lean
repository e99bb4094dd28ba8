import Verif.Props.FloatMix
import Verif.Props.ParallelBlocks
import Verif.Spec.DoubleMix

/-!
# C162: parallel rendering in double precision

How far what `sp_seq_parallel` renders is from the exact sum of the tones and from what `sp_seq` renders.
-/

set_option linter.unusedSectionVars false

namespace Sp
variable {rnd : ℚ → ℚ} {h : RoundsToNearest rnd}

theorem nat_isDouble {n : Nat} (hn : n < 2 ^ 53) : IsDouble n :=
  ⟨n, 0, by rw [abs_of_nonneg (by omega)]; exact_mod_cast hn, by omega, by omega, by simp⟩

private theorem nat_le_max {n : Nat} (hn : n < 2 ^ 53) : (n : ℚ) ≤ doubleMax := by
  have := (nat_isDouble hn).le_max
  rwa [abs_of_nonneg (Nat.cast_nonneg n)] at this

private theorem dbl_add {x y : Dbl h} {a b : ℚ} (hx : x.Is a) (hy : y.Is b) {m n : Nat} (ha : |a| ≤ m) (hb : |b| ≤ n)
    (hmn : m + n < 2 ^ 53) : (x + y).Is (rnd (a + b)) ∧ |rnd (a + b)| ≤ (m + n : Nat) ∧ |a + b - rnd (a + b)| ≤ (m + n : Nat) / 2 ^ 53 := by
  obtain ⟨ha', rfl⟩ := hx
  obtain ⟨hb', rfl⟩ := hy
  have h1 : |a + b| ≤ (m + n : Nat) := (abs_add_le _ _).trans (by push_cast; linarith)
  have h2 : |a + b| ≤ doubleMax := h1.trans (nat_le_max hmn)
  refine ⟨⟨h.double _ h2, dif_pos h2⟩, h.abs_le h2 (nat_isDouble hmn) h1, (h.error_add ha' hb' h2).trans ?_⟩
  exact div_le_div_of_nonneg_right h1 (by norm_num)

private theorem dbl_mul {x y : Dbl h} {a b : ℚ} (hx : x.Is a) (hy : y.Is b) (ha : |a| ≤ 1) (hb : |b| ≤ 1) :
    (x * y).Is (rnd (a * b)) ∧ |rnd (a * b)| ≤ 1 := by
  obtain ⟨ha', rfl⟩ := hx
  obtain ⟨hb', rfl⟩ := hy
  have h1 : |a * b| ≤ 1 := by rw [abs_mul]; exact mul_le_one₀ ha (abs_nonneg _) hb
  have h3 : (1 : ℚ) ≤ doubleMax := by simpa using nat_le_max (n := 1) (by norm_num)
  have h2 : |a * b| ≤ doubleMax := h1.trans h3
  have h4 : IsDouble 1 := by simpa using nat_isDouble (n := 1) (by norm_num)
  exact ⟨⟨h.double _ h2, dif_pos h2⟩, h.abs_le h2 h4 h1⟩

theorem Dbl.Is.val {x : Dbl h} {q : ℚ} (hx : x.Is q) : x.val = q := by
  obtain ⟨_, rfl⟩ := hx
  rfl

/-- The tone without the mark of what is not finite. -/
def flTone (t : Dbl h × Dbl h × Dbl h) : Fl rnd × Fl rnd × Fl rnd := (⟨t.1.val⟩, ⟨t.2.1.val⟩, ⟨t.2.2.val⟩)

private theorem exactMix_fl (ts : List (Dbl h × Dbl h × Dbl h)) : exactMix (ts.map flTone) = exactMixDbl ts := by
  simp [exactMix, exactMixDbl, flTone, Function.comp_def]

private theorem fullScale_fl {ts : List (Dbl h × Dbl h × Dbl h)} (hf : FullScaleDbl ts) : FullScale (ts.map flTone) := by
  intro t ht
  obtain ⟨u, hu, rfl⟩ := List.mem_map.1 ht
  obtain ⟨⟨a, ha, ha1⟩, ⟨b, hb, hb1⟩, ⟨c, hc, hc1⟩⟩ := hf u hu
  simp only [flTone, ha.val, hb.val, hc.val]
  exact ⟨ha1, hb1, hc1⟩

/-- Tones are added as in arithmetic without a largest number, and everything stays finite. -/
private theorem addTones_dbl {ts : List (Dbl h × Dbl h × Dbl h)} (hf : FullScaleDbl ts) {x : Dbl h} {a : ℚ} (hx : x.Is a) {j : Nat}
    (ha : |a| ≤ j) (hj : j + ts.length < 2 ^ 53) :
    (addTones x ts).Is (addTones (⟨a⟩ : Fl rnd) (ts.map flTone)).val ∧
      |(addTones (⟨a⟩ : Fl rnd) (ts.map flTone)).val| ≤ (j + ts.length : Nat) := by
  induction ts generalizing x a j with
  | nil => exact ⟨hx, ha⟩
  | cons t ts ih =>
    obtain ⟨⟨p, hp, hp1⟩, ⟨q, hq, hq1⟩, ⟨r, hr, hr1⟩⟩ := hf t (by simp)
    rw [List.length_cons] at hj
    obtain ⟨m1, m2⟩ := dbl_mul hp hq hp1 hq1
    obtain ⟨m3, m4⟩ := dbl_mul m1 hr m2 hr1
    obtain ⟨s1, s2, _⟩ := dbl_add hx m3 (m := j) (n := 1) ha (by simpa using m4) (by omega)
    have := ih (fun u hu => hf u (by simp [hu])) s1 s2 (by omega)
    rw [List.length_cons, show j + (ts.length + 1) = j + 1 + ts.length by omega]
    have e : addTones (⟨a⟩ : Fl rnd) ((t :: ts).map flTone) = addTones (⟨rnd (a + rnd (rnd (p * q) * r))⟩ : Fl rnd) (ts.map flTone) := by
      rw [List.map_cons, addTones, List.foldl_cons]
      simp only [flTone, hp.val, hq.val, hr.val]
      rfl
    rw [e]
    exact this

/-- The sum from zero on of tones at full scale. -/
theorem tones_dbl {ts : List (Dbl h × Dbl h × Dbl h)} (hf : FullScaleDbl ts) (hk : ts.length ≤ 2 ^ 24) :
    ∃ q, (addTones (0 : Dbl h) ts).Is q ∧ |q| ≤ ts.length ∧ |q - exactMixDbl ts| ≤ ts.length * (ts.length + 3) / 2 ^ 53 := by
  obtain ⟨e1, e2⟩ := addTones_dbl hf (x := 0) (a := 0) ⟨.zero, rfl⟩ (j := 0) (by simp) (by omega)
  rw [Nat.zero_add] at e2
  refine ⟨_, e1, e2, ?_⟩
  obtain ⟨r1, r2⟩ := fullScale_bound (fullScale_fl hf) (by simpa using hk)
  have := tones_error h _ r1
  rw [exactMix_fl] at this
  rw [List.length_map] at r2
  exact this.trans r2

/-- Sums of tones, one after the other added: each sum is made from zero on. -/
private theorem sums_dbl {K : Nat} (hK : K ≤ 2 ^ 24) (ll : List (List (Dbl h × Dbl h × Dbl h))) (hf : ∀ ts ∈ ll, FullScaleDbl ts)
    {x : Dbl h} {a : ℚ} (hx : x.Is a) {j : Nat} (ha : |a| ≤ j) (hj : j + (ll.map List.length).sum ≤ K) :
    ∃ q, (ll.foldl (fun acc ts => acc + addTones 0 ts) x).Is q ∧ |q| ≤ (j + (ll.map List.length).sum : Nat) ∧
      |q - (a + exactMixDbl ll.flatten)| ≤ (ll.map List.length).sum * (2 * K + 3) / 2 ^ 53 := by
  induction ll generalizing x a j with
  | nil => exact ⟨a, hx, by simpa using ha, by simp [exactMixDbl]⟩
  | cons ts ll ih =>
    rw [List.map_cons, List.sum_cons] at hj
    have hts := hf ts (by simp)
    obtain ⟨q, q1, q2, q3⟩ := tones_dbl hts (by omega)
    obtain ⟨s1, s2, s3⟩ := dbl_add hx q1 (m := j) (n := ts.length) ha q2 (by omega)
    obtain ⟨r, r1, r2, r3⟩ := ih (fun u hu => hf u (by simp [hu])) s1 s2 (by omega)
    refine ⟨r, r1, by rw [List.map_cons, List.sum_cons, ← Nat.add_assoc]; exact r2, ?_⟩
    have e1 : exactMixDbl (ts :: ll).flatten = exactMixDbl ts + exactMixDbl ll.flatten := by simp [exactMixDbl]
    have s4 : |a + q - rnd (a + q)| ≤ ts.length * K / 2 ^ 53 := by
      rcases Nat.eq_zero_or_pos ts.length with h0 | h0
      · have hq0 : q = 0 := by rw [h0] at q2; simpa using q2
        obtain ⟨ha', _⟩ := hx
        rw [hq0, add_zero, h.exact ha', sub_self, h0]
        simp
      · refine s3.trans (div_le_div_of_nonneg_right ?_ (by norm_num))
        have : j + ts.length ≤ ts.length * K := by nlinarith only [hj, h0, Nat.zero_le (ll.map List.length).sum]
        exact_mod_cast this
    have q4 : |q - exactMixDbl ts| ≤ ts.length * (K + 3) / 2 ^ 53 := by
      refine q3.trans (div_le_div_of_nonneg_right ?_ (by norm_num))
      have : ts.length * (ts.length + 3) ≤ ts.length * (K + 3) := Nat.mul_le_mul_left _ (by omega)
      exact_mod_cast this
    have e2 : r - (a + exactMixDbl (ts :: ll).flatten) =
        (r - (rnd (a + q) + exactMixDbl ll.flatten)) - (a + q - rnd (a + q)) + (q - exactMixDbl ts) := by rw [e1]; ring
    rw [e2, List.map_cons, List.sum_cons]
    refine (abs_add_le _ _).trans ?_
    have := abs_sub (r - (rnd (a + q) + exactMixDbl ll.flatten)) (a + q - rnd (a + q))
    rw [Nat.cast_add]
    generalize |q - exactMixDbl ts| = A at *
    generalize |a + q - rnd (a + q)| = B at *
    generalize |r - (rnd (a + q) + exactMixDbl ll.flatten)| = D at *
    have e3 : ((ts.length : ℚ) + ((ll.map List.length).sum : Nat)) * (2 * K + 3) / 2 ^ 53 =
      ts.length * K / 2 ^ 53 + ts.length * (K + 3) / 2 ^ 53 + ((ll.map List.length).sum : Nat) * (2 * K + 3) / 2 ^ 53 := by ring
    rw [e3]
    linarith

section
variable {fuel nch d : Nat} {l l' : List (Addr × Event (Tree (WaveConfig (Dbl h))))} {F : Addr → Nat → Sound (Dbl h)}
  {T : Addr → Nat → Nat → Nat → List (Dbl h × Dbl h × Dbl h)} {start : Nat} {stops : List Nat}

private theorem par_sample (hp : ∀ x ∈ l, WaveTree 0 fuel nch d x.2 (F x.1) (T x.1)) (ch t : Nat) (x : Dbl h) :
    mixEvents l (fun a q => addSound (F a q)) start ch t x =
      (l.map fun y => if y.2.start ≤ t ∧ t < y.2.stop then T y.1 (start - y.2.start) ch (t - y.2.start) else []).foldl
        (fun acc ts => acc + addTones 0 ts) x := by
  rw [mixEvents, List.foldl_map]
  induction l generalizing x with
  | nil => rfl
  | cons y l ih =>
    rw [List.foldl_cons, List.foldl_cons, ih (fun x hx => hp x (by simp [hx]))]
    congr 1
    split
    · rw [addSound, (hp y (by simp)).tones]
    · exact (add_zero x).symm

/-- C162: a list of trees of wave events is rendered by `sp_seq_parallel`, block by block, for any division into blocks and any schedules, with
amplitudes, modulation and waveforms between -1 and 1 and at most 2^24 tones at a time. All calls that return are successful, each
sample is a finite number, and where `k` tones sound it differs from the exact sum of the tones by no more than `k * (2 * k + 3) / 2^53`. -/
theorem C162_parallel_error (hp : ∀ x ∈ l, WaveTree 0 fuel nch d x.2 (F x.1) (T x.1)) (hs : SortedEvents l)
    (hnd : (l.map Prod.fst).Nodup) (hb : Blocks start stops) {last : Nat}
    (hr : ∀ ch < nch, ∀ t, start ≤ t → t < last → FullScaleDbl (eventTones l T start ch t) ∧ (eventTones l T start ch t).length ≤ 2 ^ 24)
    {outs : List (Nat × Buf (Buf (Dbl h)))}
    (hrun : ParBlocks (blockAdder (treeCb waveCb fuel (d + 1)) nch) nch start stops l l' outs) :
    ∃ g : Nat → Nat → Dbl h, outs = (blockBounds start stops).map (fun b => (0, blk nch (b.2 - b.1) fun ch i => g ch (b.1 + i))) ∧
      ∀ ch < nch, ∀ t, start ≤ t → t < last → ∃ q, (g ch t).Is q ∧
        |q - exactMixDbl (eventTones l T start ch t)| ≤
          (eventTones l T start ch t).length * (2 * (eventTones l T start ch t).length + 3) / 2 ^ 53 := by
  have hpl : ∀ x ∈ l, Plays (fun _ => True) (treeCb waveCb fuel (d + 1)) nch x.2 (F x.1) :=
    fun x hx => (hp x hx).playable.plays (fun _ _ _ _ _ => trivial)
  refine ⟨fun ch t => mixEvents l (fun a q => addSound (F a q)) start ch t 0,
    C158_blocks (ok := fun _ => True) (treeCb_prepareKeepsTimes waveCb_prepareKeepsTimes fuel (d + 1)) hpl hs (.inl trivial) hnd
      (fun _ _ _ _ _ => trivial) hb (fun _ _ => trivial) hrun, fun ch hch t ht1 ht2 => ?_⟩
  obtain ⟨r1, r2⟩ := hr ch hch t ht1 ht2
  beta_reduce
  rw [par_sample hp]
  have e : (l.map fun y => if y.2.start ≤ t ∧ t < y.2.stop then T y.1 (start - y.2.start) ch (t - y.2.start) else []).flatten =
      eventTones l T start ch t := by rw [eventTones, List.flatMap_def]
  rw [← e] at r1 r2 ⊢
  generalize (l.map fun y => if y.2.start ≤ t ∧ t < y.2.stop then T y.1 (start - y.2.start) ch (t - y.2.start) else []) = ll at *
  rw [List.length_flatten] at r2 ⊢
  obtain ⟨q, q1, _, q3⟩ := sums_dbl r2 ll (fun ts hts u hu => r1 u (List.mem_flatten.2 ⟨ts, hts, hu⟩)) (x := 0) (a := 0) ⟨.zero, rfl⟩
    (j := 0) (by simp) (by omega)
  rw [zero_add] at q3
  exact ⟨q, q1, q3⟩

/-- C162: the same events rendered by `sp_seq`, with the same blocks, and by `sp_seq_parallel`: all samples of both are finite, and where
`k` tones sound they differ by no more than `k * (3 * k + 6) / 2^53`. -/
theorem C162_same_but_rounding (hp : ∀ x ∈ l, WaveTree 0 fuel nch d x.2 (F x.1) (T x.1)) (hs : SortedEvents l)
    {heap : Heap (Event (Tree (WaveConfig (Dbl h))))} {head : Option Addr} (hwf : WellFormed heap head l) (hlen : l.length < fuel)
    (hb : Blocks start stops) {last : Nat} (hlast : stops.getLast? = some last)
    (hr : ∀ ch < nch, ∀ t, start ≤ t → t < last → FullScaleDbl (eventTones l T start ch t) ∧ (eventTones l T start ch t).length ≤ 2 ^ 24)
    {outs : List (Nat × Buf (Buf (Dbl h)))}
    (hrun : ParBlocks (blockAdder (treeCb waveCb fuel (d + 1)) nch) nch start stops l l' outs) :
    ∃ s logs, ∃ f g : Nat → Nat → Dbl h, seqBlocks (treeCb waveCb fuel (d + 1)) fuel (fun t => 0 + (t - start)) start stops
        ⟨heap, head, newBlock nch (last - start), []⟩ = .ok (0, s, logs) ∧
      s.world = blk nch (last - start) (fun ch i => f ch (start + i)) ∧
      outs = (blockBounds start stops).map (fun b => (0, blk nch (b.2 - b.1) fun ch i => g ch (b.1 + i))) ∧
      ∀ ch < nch, ∀ t, start ≤ t → t < last → ∃ a b : ℚ, (f ch t).Is a ∧ (g ch t).Is b ∧
        |a - b| ≤ (eventTones l T start ch t).length * (3 * (eventTones l T start ch t).length + 6) / 2 ^ 53 := by
  obtain ⟨s, logs, e1, e2⟩ := C22_blocks (off := 0) (n := last - start) (fun _ _ _ _ _ => trivial) (fun x hx => (hp x hx).playable) hs
    (.inl trivial) hwf hlen (fun _ _ => (0 : Dbl h)) hb hlast (fun _ _ => trivial) (by omega)
  obtain ⟨g, g1, g2⟩ := C162_parallel_error hp hs hwf.2 hb hr hrun
  refine ⟨s, logs, fun ch t => addTones 0 (eventTones l T start ch t), g, by rw [newBlock_blk]; exact e1, ?_, g1,
    fun ch hch t ht1 ht2 => ?_⟩
  · rw [e2]
    refine tab_congr fun ch _ => tab_congr fun i hi => ?_
    beta_reduce
    rw [applyRange, if_pos (by omega), show start + (i - 0) = start + i by omega]
    exact event_tones (fun x hx p ch t y => (hp x hx).tones p ch t y) start ch _ 0
  · obtain ⟨b, b1, b2⟩ := g2 ch hch t ht1 ht2
    obtain ⟨r1, r2⟩ := hr ch hch t ht1 ht2
    obtain ⟨a, a1, _, a3⟩ := tones_dbl r1 r2
    refine ⟨a, b, a1, b1, ?_⟩
    generalize exactMixDbl (eventTones l T start ch t) = X at *
    generalize ((eventTones l T start ch t).length : ℚ) = k at *
    have e : a - b = (a - X) - (b - X) := by ring
    have e' : k * (3 * k + 6) / 2 ^ 53 = k * (k + 3) / 2 ^ 53 + k * (2 * k + 3) / 2 ^ 53 := by ring
    rw [e, e']
    exact (abs_sub _ _).trans (add_le_add a3 b2)

/-! ## A case -/

/-- One half. -/
def dblHalf : Dbl h := .mk (1 / 2) ⟨1, -1, by norm_num, by norm_num, by norm_num, by norm_num⟩

/-- A wave event with one channel: amplitude 1/2, a waveform of two samples. -/
def dblWave : WaveConfig (Dbl h) where
  wvf := [dblHalf, 0]
  wvfSize := 2
  channelCount := 1
  channelConfig := [⟨some [dblHalf, dblHalf, 0], dblHalf, 0, none, 1, 0, none, true⟩]

/-- The event, from `start` on for three samples. -/
def dblEvent (start : Nat) : Event (Tree (WaveConfig (Dbl h))) := ⟨start, start + 3, false, false, .leaf dblWave⟩

theorem dblEvent_tree (fuel d start : Nat) :
    WaveTree 0 fuel 1 d (dblEvent (h := h) start) (fun p => dblWave.mix 0 p) (dblWave.tones 0) := by
  refine .wave (c0 := dblWave) (c := dblWave) rfl (by rw [if_neg (by simp [dblEvent])]) ⟨rfl, rfl, ?_⟩
  intro cc hcc
  simp only [dblWave, List.mem_singleton] at hcc
  subst hcc
  exact ⟨⟨_, rfl, by simp [dblEvent]⟩, fun x hx => (by cases hx), fun x hx => (by cases hx), by simp [dblWave], by simp⟩

/-- Two events that overlap: the hypotheses hold, and runs exist. -/
example : (∀ x ∈ [((1 : Addr), dblEvent (h := h) 0), (2, dblEvent 1)], WaveTree 0 9 1 0 x.2 (fun p => dblWave.mix 0 p) (dblWave.tones 0)) ∧
    SortedEvents [((1 : Addr), dblEvent (h := h) 0), (2, dblEvent 1)] ∧
    (∀ ch < 1, ∀ t, 0 ≤ t → t < 4 →
      FullScaleDbl (eventTones (S := Dbl h) [((1 : Addr), dblEvent (h := h) 0), (2, dblEvent 1)] (fun _ => dblWave.tones 0) 0 ch t)) ∧
    (eventTones (S := Dbl h) [((1 : Addr), dblEvent (h := h) 0), (2, dblEvent 1)] (fun _ => dblWave.tones 0) 0 0 2).length = 2 ∧
    ∃ l' outs, ParBlocks (blockAdder (treeCb waveCb 9 1) 1) 1 0 [1, 4] [((1 : Addr), dblEvent (h := h) 0), (2, dblEvent 1)] l' outs := by
  have hw : ∀ x ∈ [((1 : Addr), dblEvent (h := h) 0), (2, dblEvent 1)],
      WaveTree 0 9 1 0 x.2 (fun p => dblWave.mix 0 p) (dblWave.tones 0) := by
    intro x hx
    simp only [List.mem_cons, List.not_mem_nil, or_false] at hx
    rcases hx with rfl | rfl
    · exact dblEvent_tree _ _ _
    · exact dblEvent_tree _ _ _
  have hs : SortedEvents [((1 : Addr), dblEvent (h := h) 0), (2, dblEvent 1)] :=
    ⟨by simp [dblEvent], by simp [dblEvent], by simp [dblEvent]⟩
  have hh : (dblHalf (h := h)).Unit := ⟨1 / 2, ⟨_, rfl⟩, by norm_num [abs_of_pos]⟩
  have hz : (0 : Dbl h).Unit := ⟨0, ⟨.zero, rfl⟩, by simp⟩
  refine ⟨hw, hs, ?_, ?_, ?_⟩
  · intro ch hch t _ ht
    obtain rfl : ch = 0 := by omega
    intro u hu
    rw [eventTones, List.mem_flatMap] at hu
    obtain ⟨y, _, hu⟩ := hu
    split at hu
    · simp only [WaveConfig.tones, dblWave, List.filter_cons, List.filter_nil, decide_true, if_true, List.map_cons, List.map_nil,
        List.mem_singleton, optGet] at hu
      subst hu
      have key : ∀ (k : Nat) (v : List (Dbl h)), (∀ x ∈ v, x.Unit) → (v.getD k 0).Unit := by
        intro k v hv
        rw [List.getD_eq_getElem?_getD]
        cases e : v[k]? with
        | none => exact hz
        | some x => exact hv x (List.mem_of_getElem? e)
      refine ⟨hh, key _ _ ?_, key _ _ ?_⟩
      · simp only [List.mem_cons, List.not_mem_nil, or_false]
        rintro x (rfl | rfl | rfl)
        exacts [hh, hh, hz]
      · simp only [List.mem_cons, List.not_mem_nil, or_false]
        rintro x (rfl | rfl)
        exacts [hh, hz]
    · cases hu
  · simp [eventTones, dblEvent, WaveConfig.tones, dblWave]
  · exact C158_returns (F := fun _ p => dblWave.mix 0 p) (treeCb_prepareKeepsTimes waveCb_prepareKeepsTimes 9 1)
      (fun x hx => (hw x hx).playable.plays (fun _ _ _ _ _ => trivial)) hs (.inl trivial) (by simp) (fun _ _ _ _ _ => trivial)
      (by simp [Blocks]) (fun _ _ => trivial)

end

end Sp
