import Verif.Props.FloatConvolution
import Verif.Props.EventTree
import Verif.Spec.Mix

/-!
# C157: mixing in double precision

What `sp_seq` renders of trees of wave events, with samples that are numbers of type `double` and operations that round to nearest.
-/

set_option linter.unusedSectionVars false

namespace Sp
variable {S : Type} [Add S] [Mul S]

theorem WaveTree.playable {z : S} {fuel nch d : Nat} {e : Event (Tree (WaveConfig S))} {F : Nat → Sound S}
    {T : Nat → Nat → Nat → List (S × S × S)} (h : WaveTree z fuel nch d e F T) : Playable (fun _ => True) waveCb fuel nch d e F := by
  induction h with
  | wave he hprep hc => exact .leaf he (C22_wave_events z hprep hc)
  | group he hwf hlen hsort hdur _ ih => exact .group he hwf hlen hsort hdur (.inl trivial) ih

/-- The tones are added one after the other. -/
def addTones (x : S) (ts : List (S × S × S)) : S := ts.foldl (fun acc t => acc + t.1 * t.2.1 * t.2.2) x

theorem wave_tones (c : WaveConfig S) (z : S) (p ch i : Nat) (x : S) : c.mix z p ch i x = addTones x (c.tones z p ch i) := by
  rw [WaveConfig.mix, WaveConfig.tones, addTones, List.foldl_map]
  generalize c.channelConfig = l
  induction l generalizing x with
  | nil => rfl
  | cons cc l ih =>
    rw [List.foldl_cons, ih, List.filter_cons]
    by_cases e : cc.channel = ch
    · rw [if_pos e, if_pos (by simpa using e), List.foldl_cons]
      rfl
    · rw [if_neg e, if_neg (by simpa using e)]

theorem event_tones {D : Type} {l : List (Addr × Event D)} {F : Addr → Nat → Sound S} {T : Addr → Nat → Nat → Nat → List (S × S × S)}
    (h : ∀ x ∈ l, ∀ p ch t y, F x.1 p ch t y = addTones y (T x.1 p ch t)) (p ch t : Nat) (y : S) :
    mixEvents l F p ch t y = addTones y (eventTones l T p ch t) := by
  rw [mixEvents, eventTones]
  induction l generalizing y with
  | nil => rfl
  | cons a l ih =>
    rw [List.foldl_cons, ih (fun x hx => h x (by simp [hx])), List.flatMap_cons, addTones, addTones, List.foldl_append]
    congr 1
    by_cases e : a.2.start ≤ t ∧ t < a.2.stop
    · rw [if_pos e, if_pos e]
      exact h a (by simp) _ _ _ _
    · rw [if_neg e, if_neg e]
      rfl

theorem WaveTree.tones {z : S} {fuel nch d : Nat} {e : Event (Tree (WaveConfig S))} {F : Nat → Sound S}
    {T : Nat → Nat → Nat → List (S × S × S)} (h : WaveTree z fuel nch d e F T) (p ch t : Nat) (y : S) :
    F p ch t y = addTones y (T p ch t) := by
  induction h generalizing p ch t y with
  | wave _ _ _ => exact wave_tones _ _ _ _ _ _
  | group _ _ _ _ _ _ ih => exact event_tones (fun x hx p ch t y => ih x hx p ch t y) p ch t y

section
variable {rnd : ℚ → ℚ}

/-- The largest error of a mix of tones: that of a sum of products, of amplitudes that are rounded products. -/
def mixErrorBound (ts : List (Fl rnd × Fl rnd × Fl rnd)) : ℚ :=
  dotErrorBound ts.length ((1 + 1 / 2 ^ 53) * absMix ts + (2 : ℚ) ^ (-1075 : ℤ) * waveMix ts) +
    (1 / 2 ^ 53 * absMix ts + (2 : ℚ) ^ (-1075 : ℤ) * waveMix ts)

/-- The amplitudes and the sums of the tones are far enough below the largest number. -/
structure MixInRange (ts : List (Fl rnd × Fl rnd × Fl rnd)) : Prop where
  amp : ∀ t ∈ ts, |t.1.val * t.2.1.val| ≤ doubleMax
  sum : 2 * ((1 + 1 / 2 ^ 53) * absMix ts + (2 : ℚ) ^ (-1075 : ℤ) * waveMix ts) + 1 ≤ doubleMax
  count : ts.length ≤ 2 ^ 50

/-- The pairs of rounded amplitudes and waveform values. -/
private def tonePairs (ts : List (Fl rnd × Fl rnd × Fl rnd)) : List (Fl rnd × Fl rnd) := ts.map fun t => (t.1 * t.2.1, t.2.2)

private theorem pairs_bounds (h : RoundsToNearest rnd) (ts : List (Fl rnd × Fl rnd × Fl rnd))
    (ha : ∀ t ∈ ts, |t.1.val * t.2.1.val| ≤ doubleMax) :
    absDot (tonePairs ts) ≤ (1 + 1 / 2 ^ 53) * absMix ts + (2 : ℚ) ^ (-1075 : ℤ) * waveMix ts ∧
    |exactDot (tonePairs ts) - exactMix ts| ≤ 1 / 2 ^ 53 * absMix ts + (2 : ℚ) ^ (-1075 : ℤ) * waveMix ts := by
  induction ts with
  | nil => simp [tonePairs, absDot, exactDot, exactMix, absMix, waveMix]
  | cons t ts ih =>
    obtain ⟨i1, i2⟩ := ih (fun t ht => ha t (by simp [ht]))
    have hr := h.error_gen (ha t (by simp))
    have e1 : absDot (tonePairs (t :: ts)) = |rnd (t.1.val * t.2.1.val) * t.2.2.val| + absDot (tonePairs ts) := by
      simp [tonePairs, absDot]
    have e2 : exactDot (tonePairs (t :: ts)) = rnd (t.1.val * t.2.1.val) * t.2.2.val + exactDot (tonePairs ts) := by
      simp [tonePairs, exactDot]
    have e3 : exactMix (t :: ts) = t.1.val * t.2.1.val * t.2.2.val + exactMix ts := by simp [exactMix]
    have e4 : absMix (t :: ts) = |t.1.val * t.2.1.val * t.2.2.val| + absMix ts := by simp [absMix]
    have e5 : waveMix (t :: ts) = |t.2.2.val| + waveMix ts := by simp [waveMix]
    generalize t.1.val * t.2.1.val = q at *
    generalize t.2.2.val = w at *
    generalize rnd q = r at *
    have hw := abs_nonneg w
    have k1 : |q - r| * |w| ≤ (|q| / 2 ^ 53 + (2 : ℚ) ^ (-1075 : ℤ)) * |w| := mul_le_mul_of_nonneg_right hr hw
    have k2 : |r| ≤ |q| + |q - r| := by
      have := abs_sub_abs_le_abs_sub r q
      rw [abs_sub_comm r q] at this
      linarith
    have k3 : |r| * |w| ≤ (|q| + |q - r|) * |w| := mul_le_mul_of_nonneg_right k2 hw
    have k4 : |(r * w + exactDot (tonePairs ts)) - (q * w + exactMix ts)| ≤ |q - r| * |w| + |exactDot (tonePairs ts) - exactMix ts| := by
      have e : (r * w + exactDot (tonePairs ts)) - (q * w + exactMix ts) = -((q - r) * w) + (exactDot (tonePairs ts) - exactMix ts) := by ring
      rw [e]
      refine (abs_add_le _ _).trans ?_
      rw [abs_neg, abs_mul]
    have e6 : (|q| / 2 ^ 53 + (2 : ℚ) ^ (-1075 : ℤ)) * |w| = 1 / 2 ^ 53 * (|q| * |w|) + (2 : ℚ) ^ (-1075 : ℤ) * |w| := by ring
    rw [e1, e2, e3, e4, e5, abs_mul, abs_mul]
    constructor
    · linarith
    · linarith

/-- The rounded sum of tones. -/
theorem tones_error (h : RoundsToNearest rnd) (ts : List (Fl rnd × Fl rnd × Fl rnd)) (hr : MixInRange ts) :
    |(addTones (0 : Fl rnd) ts).val - exactMix ts| ≤ mixErrorBound ts := by
  obtain ⟨b1, b2⟩ := pairs_bounds h ts hr.amp
  have hl : (tonePairs ts).length = ts.length := by simp [tonePairs]
  have hs := hr.sum
  have hd := dot_error h (tonePairs ts) (by rw [hl]; exact hr.count) (by linarith)
  rw [hl] at hd
  have e1 : (tonePairs ts).foldl (fun acc p => acc + p.1 * p.2) (0 : Fl rnd) = addTones 0 ts := by
    rw [tonePairs, List.foldl_map]
    rfl
  rw [e1] at hd
  have h0 := absDot_nonneg (tonePairs ts)
  have hn : (0 : ℚ) ≤ ((ts.length : ℚ) + 1) * (1 / 2 ^ 53) * (1 + ((ts.length : ℚ) + 1) * (1 / 2 ^ 53)) := by positivity
  have hm := mul_le_mul_of_nonneg_left b1 hn
  have e2 : (addTones (0 : Fl rnd) ts).val - exactMix ts =
      ((addTones (0 : Fl rnd) ts).val - exactDot (tonePairs ts)) + (exactDot (tonePairs ts) - exactMix ts) := by ring
  rw [e2, mixErrorBound, dotErrorBound]
  refine (abs_add_le _ _).trans ?_
  linarith

/-- C157: a list of trees of wave events, groups in groups to any depth, is rendered block by block, for any division into blocks, into a block
of zeros. Every sample differs from the exact sum of the tones that sound at its time, each the exact product of amplitude, amplitude
modulation and waveform, by no more than `mixErrorBound`, if the sum is in the range of numbers. -/
theorem C157_mix_error (h : RoundsToNearest rnd) {fuel nch d n : Nat} {l : List (Addr × Event (Tree (WaveConfig (Fl rnd))))}
    {F : Addr → Nat → Sound (Fl rnd)} {T : Addr → Nat → Nat → Nat → List (Fl rnd × Fl rnd × Fl rnd)}
    (hp : ∀ x ∈ l, WaveTree 0 fuel nch d x.2 (F x.1) (T x.1)) (hs : SortedEvents l)
    {heap : Heap (Event (Tree (WaveConfig (Fl rnd))))} {head : Option Addr} (hwf : WellFormed heap head l) (hlen : l.length < fuel)
    {start off : Nat} {stops : List Nat} {last : Nat} (hb : Blocks start stops) (hlast : stops.getLast? = some last)
    (hoff : off + (last - start) ≤ n)
    (hr : ∀ ch < nch, ∀ t, start ≤ t → t < last → MixInRange (eventTones l T start ch t)) :
    ∃ s logs g, seqBlocks (treeCb waveCb fuel (d + 1)) fuel (fun t => off + (t - start)) start stops
        ⟨heap, head, blk nch n (fun _ _ => 0), []⟩ = .ok (0, s, logs) ∧ s.world = blk nch n g ∧
      ∀ ch < nch, ∀ t, start ≤ t → t < last →
        |(g ch (off + (t - start))).val - exactMix (eventTones l T start ch t)| ≤ mixErrorBound (eventTones l T start ch t) := by
  obtain ⟨s, logs, e1, e2⟩ := C22_blocks (fun _ _ _ _ _ => trivial) (fun x hx => (hp x hx).playable) hs (.inl trivial) hwf hlen
    (fun _ _ => (0 : Fl rnd)) hb hlast (fun _ _ => trivial) hoff
  refine ⟨s, logs, _, e1, e2, fun ch hch t ht1 ht2 => ?_⟩
  have e3 : applyRange (mixEvents l F start) start off (last - start) (fun _ _ => (0 : Fl rnd)) ch (off + (t - start)) =
      addTones 0 (eventTones l T start ch t) := by
    rw [applyRange, if_pos (by omega)]
    rw [show start + (off + (t - start) - off) = t by omega]
    exact event_tones (fun x hx p ch t y => (hp x hx).tones p ch t y) start ch t 0
  rw [e3]
  exact tones_error h _ (hr ch hch t ht1 ht2)

/-- The tones have amplitudes, modulation and waveforms between -1 and 1. -/
def FullScale (ts : List (Fl rnd × Fl rnd × Fl rnd)) : Prop := ∀ t ∈ ts, |t.1.val| ≤ 1 ∧ |t.2.1.val| ≤ 1 ∧ |t.2.2.val| ≤ 1

private theorem fullScale_sums {ts : List (Fl rnd × Fl rnd × Fl rnd)} (h : FullScale ts) :
    0 ≤ absMix ts ∧ absMix ts ≤ ts.length ∧ 0 ≤ waveMix ts ∧ waveMix ts ≤ ts.length := by
  induction ts with
  | nil => simp [absMix, waveMix]
  | cons t ts ih =>
    obtain ⟨i1, i2, i3, i4⟩ := ih (fun t ht => h t (by simp [ht]))
    obtain ⟨a1, a2, a3⟩ := h t (by simp)
    have e4 : absMix (t :: ts) = |t.1.val * t.2.1.val * t.2.2.val| + absMix ts := by simp [absMix]
    have e5 : waveMix (t :: ts) = |t.2.2.val| + waveMix ts := by simp [waveMix]
    have b1 : |t.1.val * t.2.1.val * t.2.2.val| ≤ 1 := by
      rw [abs_mul, abs_mul]
      exact mul_le_one₀ (mul_le_one₀ a1 (abs_nonneg _) a2) (abs_nonneg _) a3
    have b2 := abs_nonneg (t.1.val * t.2.1.val * t.2.2.val)
    have b3 := abs_nonneg t.2.2.val
    rw [e4, e5, List.length_cons]
    push_cast
    exact ⟨by linarith, by linarith, by linarith, by linarith⟩

/-- At full scale everything is in range, and the error of `k` tones is at most `k * (k + 3) / 2^53`. -/
theorem fullScale_bound {ts : List (Fl rnd × Fl rnd × Fl rnd)} (h : FullScale ts) (hk : ts.length ≤ 2 ^ 24) :
    MixInRange ts ∧ mixErrorBound ts ≤ ts.length * (ts.length + 3) / 2 ^ 53 := by
  obtain ⟨h1, h2, h3, h4⟩ := fullScale_sums h
  have hη0 := (two_zpow_pos (-1075)).le
  have hη : (2 : ℚ) ^ (-1075 : ℤ) ≤ 1 / 2 ^ 60 := by
    rw [show (1 : ℚ) / 2 ^ 60 = (2 : ℚ) ^ (-60 : ℤ) by rw [zpow_neg, one_div]; rfl]
    exact two_zpow_le (by norm_num)
  have hkq : (ts.length : ℚ) ≤ 2 ^ 24 := by exact_mod_cast hk
  have hk0 : (0 : ℚ) ≤ ts.length := Nat.cast_nonneg _
  have hmax : (2 : ℚ) ^ (100 : ℤ) ≤ doubleMax := le_doubleMax (by norm_num)
  have hmax' : (2 : ℚ) ^ 100 ≤ doubleMax := by exact_mod_cast hmax
  have hc : (1 + 1 / 2 ^ 53) * absMix ts + (2 : ℚ) ^ (-1075 : ℤ) * waveMix ts ≤ (1 + 1 / 2 ^ 52) * ts.length := by
    have m1 := mul_le_mul_of_nonneg_left h2 (show (0 : ℚ) ≤ 1 + 1 / 2 ^ 53 by norm_num)
    have m2 := mul_le_mul hη h4 h3 (by norm_num)
    have m3 : (1 : ℚ) / 2 ^ 60 * ts.length ≤ 1 / 2 ^ 53 * ts.length := mul_le_mul_of_nonneg_right (by norm_num) hk0
    have e : (1 + 1 / 2 ^ 52 : ℚ) * ts.length = (1 + 1 / 2 ^ 53) * ts.length + 1 / 2 ^ 53 * ts.length := by ring
    linarith
  refine ⟨⟨?_, ?_, hk.trans (by norm_num)⟩, ?_⟩
  · intro t ht
    obtain ⟨a1, a2, _⟩ := h t ht
    have : |t.1.val * t.2.1.val| ≤ 1 := by
      rw [abs_mul]
      exact mul_le_one₀ a1 (abs_nonneg _) a2
    have h100 : (1 : ℚ) ≤ 2 ^ 100 := by norm_num
    linarith
  · have h100 : 2 * ((1 + 1 / 2 ^ 52) * (2 : ℚ) ^ 24) + 1 ≤ 2 ^ 100 := by norm_num
    have := mul_le_mul_of_nonneg_left hkq (show (0 : ℚ) ≤ 1 + 1 / 2 ^ 52 by norm_num)
    linarith
  · rw [mixErrorBound, dotErrorBound]
    generalize (ts.length : ℚ) = k at *
    have hX0 : 0 ≤ (1 + 1 / 2 ^ 53) * absMix ts + (2 : ℚ) ^ (-1075 : ℤ) * waveMix ts := by positivity
    generalize hX : (1 + 1 / 2 ^ 53) * absMix ts + (2 : ℚ) ^ (-1075 : ℤ) * waveMix ts = X at *
    have hY : 1 / 2 ^ 53 * absMix ts + (2 : ℚ) ^ (-1075 : ℤ) * waveMix ts ≤ (1 / 2 ^ 53 + 1 / 2 ^ 60) * k := by
      have m1 := mul_le_mul_of_nonneg_left h2 (show (0 : ℚ) ≤ 1 / 2 ^ 53 by norm_num)
      have m2 := mul_le_mul hη h4 h3 (by norm_num)
      linarith
    have hP : (k + 1) * (1 / 2 ^ 53) * (1 + (k + 1) * (1 / 2 ^ 53)) ≤ (k + 1 + 1 / 4) * (1 / 2 ^ 53) := by
      have : (k + 1) * ((k + 1) * (1 / 2 ^ 53)) ≤ 1 / 4 := by
        have a : k + 1 ≤ 2 ^ 25 := by norm_num at hkq ⊢; linarith
        have b := mul_le_mul a a (by linarith) (by norm_num)
        norm_num at b ⊢
        linarith
      have e : (k + 1) * (1 / 2 ^ 53) * (1 + (k + 1) * (1 / 2 ^ 53)) = (k + 1 + (k + 1) * ((k + 1) * (1 / 2 ^ 53))) * (1 / 2 ^ 53) := by ring
      rw [e]
      exact mul_le_mul_of_nonneg_right (by linarith) (by norm_num)
    have hP0 : 0 ≤ (k + 1) * (1 / 2 ^ 53 : ℚ) * (1 + (k + 1) * (1 / 2 ^ 53)) := by positivity
    have hM := mul_le_mul hP hc hX0 (by positivity)
    have hη2 : 2 * k * (2 : ℚ) ^ (-1075 : ℤ) ≤ 2 * k * (1 / 2 ^ 60) := mul_le_mul_of_nonneg_left hη (by linarith)
    have hfin : (k + 1 + 1 / 4) * (1 / 2 ^ 53) * ((1 + 1 / 2 ^ 52) * k) + 2 * k * (1 / 2 ^ 60) + (1 / 2 ^ 53 + 1 / 2 ^ 60) * k ≤
        k * (k + 3) / 2 ^ 53 := by
      have e : k * (k + 3) / 2 ^ 53 - ((k + 1 + 1 / 4) * (1 / 2 ^ 53) * ((1 + 1 / 2 ^ 52) * k) + 2 * k * (1 / 2 ^ 60) +
          (1 / 2 ^ 53 + 1 / 2 ^ 60) * k) = k / 2 ^ 53 * (3 / 4 - (k + 1 + 1 / 4) / 2 ^ 52 - 3 / 2 ^ 7) := by ring
      have h7 : 0 ≤ 3 / 4 - (k + 1 + 1 / 4) / 2 ^ 52 - 3 / 2 ^ 7 := by norm_num at hkq ⊢; linarith
      have h8 : 0 ≤ k / 2 ^ 53 * (3 / 4 - (k + 1 + 1 / 4) / 2 ^ 52 - 3 / 2 ^ 7) := mul_nonneg (by positivity) h7
      linarith
    linarith

/-- C157 at full scale: if amplitudes, modulation and waveforms are between -1 and 1 and at most 2^24 tones sound at a time, then a sample
where `k` tones sound differs from the exact sum by no more than `k * (k + 3) / 2^53`. Nothing else is assumed about numbers. -/
theorem C157_full_scale (h : RoundsToNearest rnd) {fuel nch d n : Nat} {l : List (Addr × Event (Tree (WaveConfig (Fl rnd))))}
    {F : Addr → Nat → Sound (Fl rnd)} {T : Addr → Nat → Nat → Nat → List (Fl rnd × Fl rnd × Fl rnd)}
    (hp : ∀ x ∈ l, WaveTree 0 fuel nch d x.2 (F x.1) (T x.1)) (hs : SortedEvents l)
    {heap : Heap (Event (Tree (WaveConfig (Fl rnd))))} {head : Option Addr} (hwf : WellFormed heap head l) (hlen : l.length < fuel)
    {start off : Nat} {stops : List Nat} {last : Nat} (hb : Blocks start stops) (hlast : stops.getLast? = some last)
    (hoff : off + (last - start) ≤ n)
    (hr : ∀ ch < nch, ∀ t, start ≤ t → t < last → FullScale (eventTones l T start ch t) ∧ (eventTones l T start ch t).length ≤ 2 ^ 24) :
    ∃ s logs g, seqBlocks (treeCb waveCb fuel (d + 1)) fuel (fun t => off + (t - start)) start stops
        ⟨heap, head, blk nch n (fun _ _ => 0), []⟩ = .ok (0, s, logs) ∧ s.world = blk nch n g ∧
      ∀ ch < nch, ∀ t, start ≤ t → t < last →
        |(g ch (off + (t - start))).val - exactMix (eventTones l T start ch t)| ≤
          (eventTones l T start ch t).length * ((eventTones l T start ch t).length + 3) / 2 ^ 53 := by
  obtain ⟨s, logs, g, e1, e2, e3⟩ := C157_mix_error h hp hs hwf hlen hb hlast hoff
    (fun ch hch t ht1 ht2 => (fullScale_bound (hr ch hch t ht1 ht2).1 (hr ch hch t ht1 ht2).2).1)
  refine ⟨s, logs, g, e1, e2, fun ch hch t ht1 ht2 => (e3 ch hch t ht1 ht2).trans ?_⟩
  exact (fullScale_bound (hr ch hch t ht1 ht2).1 (hr ch hch t ht1 ht2).2).2

/-- C157: where no event sounds the output is zero. -/
theorem C157_silence {fuel nch d n : Nat} {l : List (Addr × Event (Tree (WaveConfig (Fl rnd))))}
    {F : Addr → Nat → Sound (Fl rnd)} {T : Addr → Nat → Nat → Nat → List (Fl rnd × Fl rnd × Fl rnd)}
    (hp : ∀ x ∈ l, WaveTree 0 fuel nch d x.2 (F x.1) (T x.1)) (hs : SortedEvents l)
    {heap : Heap (Event (Tree (WaveConfig (Fl rnd))))} {head : Option Addr} (hwf : WellFormed heap head l) (hlen : l.length < fuel)
    {start off : Nat} {stops : List Nat} {last : Nat} (hb : Blocks start stops) (hlast : stops.getLast? = some last)
    (hoff : off + (last - start) ≤ n) :
    ∃ s logs g, seqBlocks (treeCb waveCb fuel (d + 1)) fuel (fun t => off + (t - start)) start stops
        ⟨heap, head, blk nch n (fun _ _ => 0), []⟩ = .ok (0, s, logs) ∧ s.world = blk nch n g ∧
      ∀ ch < nch, ∀ t, start ≤ t → t < last → (∀ x ∈ l, ¬(x.2.start ≤ t ∧ t < x.2.stop)) → g ch (off + (t - start)) = 0 := by
  obtain ⟨s, logs, e1, e2⟩ := C22_blocks (fun _ _ _ _ _ => trivial) (fun x hx => (hp x hx).playable) hs (.inl trivial) hwf hlen
    (fun _ _ => (0 : Fl rnd)) hb hlast (fun _ _ => trivial) hoff
  refine ⟨s, logs, _, e1, e2, fun ch hch t ht1 ht2 hno => ?_⟩
  rw [applyRange, if_pos (by omega), show start + (off + (t - start) - off) = t by omega,
    event_tones (fun x hx p ch t y => (hp x hx).tones p ch t y) start ch t 0]
  have : eventTones l T start ch t = [] := by
    rw [eventTones, List.flatMap_eq_nil_iff]
    intro x hx
    rw [if_neg (hno x hx)]
  rw [this]
  rfl

/-! ## A case -/

/-- A wave event with one channel: amplitude 1/2, a waveform of two samples. -/
def halfWave : WaveConfig (Fl rnd) where
  wvf := [⟨1 / 3⟩, ⟨-1⟩]
  wvfSize := 2
  channelCount := 1
  channelConfig := [⟨some [⟨1⟩, ⟨1 / 5⟩, ⟨1⟩], ⟨1 / 2⟩, 0, none, 1, 0, none, true⟩]

/-- The event, from `start` on for three samples. -/
def halfEvent (start : Nat) : Event (Tree (WaveConfig (Fl rnd))) := ⟨start, start + 3, false, false, .leaf halfWave⟩

/-- A group that is to be prepared, with the event at time 1. -/
def halfGroup : Event (Tree (WaveConfig (Fl rnd))) where
  start := 1
  stop := 5
  prep := true
  hasFree := false
  data := .group (fun b => if b = 5 then some ⟨none, none, halfEvent 1⟩ else none) (some 5)

theorem halfEvent_tree (fuel d start : Nat) :
    WaveTree 0 fuel 1 d (halfEvent (rnd := rnd) start) (fun p => halfWave.mix 0 p) (halfWave.tones 0) := by
  refine .wave (c0 := halfWave) (c := halfWave) rfl (by rw [if_neg (by simp [halfEvent])]) ⟨rfl, rfl, ?_⟩
  intro cc hcc
  simp only [halfWave, List.mem_singleton] at hcc
  subst hcc
  exact ⟨⟨_, rfl, by simp [halfEvent]⟩, fun x hx => (by cases hx), fun x hx => (by cases hx), by simp [halfWave], by simp⟩

/-- A group in the list: both are trees of wave events. -/
example : WaveTree 0 9 1 1 (halfGroup (rnd := rnd)) (mixEvents [(5, halfEvent (rnd := rnd) 1)] (fun _ p => halfWave.mix 0 p))
      (eventTones [(5, halfEvent (rnd := rnd) 1)] (fun _ => halfWave.tones 0)) ∧
    WaveTree 0 9 1 1 (halfEvent (rnd := rnd) 0) (fun p => halfWave.mix 0 p) (halfWave.tones 0) := by
  refine ⟨.group (heap := fun b => if b = 5 then some ⟨none, none, halfEvent 1⟩ else none) (head := some 5) rfl
    ⟨⟨rfl, none, rfl, rfl⟩, by simp⟩ (by simp) ⟨by simp, by simp [halfEvent], by simp [halfEvent]⟩ (by simp [halfGroup]) ?_,
    halfEvent_tree _ _ _⟩
  intro x hx
  simp only [List.mem_singleton] at hx
  subst hx
  exact halfEvent_tree _ _ _

/-- A tone. -/
def tone (a b c : ℚ) : Fl rnd × Fl rnd × Fl rnd := (⟨a⟩, ⟨b⟩, ⟨c⟩)

/-- At time 2 the event is at its last sample and the group's event at its first, so that two tones sound. They are at full scale. -/
example : eventTones (S := Fl rnd) [(1, halfEvent (rnd := rnd) 0), (2, halfGroup)] (fun a => if a = 1 then halfWave.tones 0 else
      eventTones [(5, halfEvent (rnd := rnd) 1)] (fun _ => halfWave.tones 0)) 0 0 2 = [tone (rnd := rnd) (1 / 2) 1 (1 / 3), tone (1 / 2) 1 (1 / 3)] ∧
    FullScale (rnd := rnd) [tone (1 / 2) 1 (1 / 3), tone (1 / 2) 1 (1 / 3)] := by
  refine ⟨by simp [eventTones, halfEvent, halfGroup, WaveConfig.tones, halfWave, tone, optGet, WaveChannel.index, WaveChannel.phaseAt,
    phaseAfter, WaveChannel.change], ?_⟩
  intro t ht
  simp only [List.mem_cons, List.not_mem_nil, or_false, or_self] at ht
  subst ht
  norm_num [abs_of_pos, tone]

end

end Sp
