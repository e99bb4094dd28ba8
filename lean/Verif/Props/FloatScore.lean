import Verif.Props.Score
import Verif.Props.FloatFile
import Verif.Props.FloatFft
import Verif.Lemmas.FftBluesteinError

/-!
# C166: scores rendered to files in double precision

The table of `sp_sine_period` in double precision, and what is in the file that is written for a score.
-/

set_option linter.unusedSectionVars false

namespace Sp
variable {rnd : ℚ → ℚ}

/-! ## The sine table -/

theorem sine_angle_error (h : RoundsToNearest rnd) [Trig (Fl rnd)] (ht : TrigAccurate rnd) {m i : Nat} (hm : 0 < m) (hm62 : m ≤ 2 ^ 62) (hi : i ≤ 2 * m) :
    |(((i * (Trig.pi / m) : Fl rnd)).val : ℝ) - i * (Real.pi / m)| ≤ 1 / 2 ^ 48 - 1 / 2 ^ 52 ∧
      |((i * (Trig.pi / m) : Fl rnd)).val| ≤ 7 := by
  have hpi1 := Real.pi_gt_d20
  have hpi2 := Real.pi_lt_d20
  have he := feta_pos
  have he2 := feta_le
  have hmax : (2 : ℝ) ^ (100 : ℤ) ≤ fmax := fmax_ge (by norm_num)
  have hmax' : (2 : ℝ) ^ 100 ≤ fmax := by exact_mod_cast hmax
  have hm0 : (0 : ℝ) < m := by exact_mod_cast hm
  have hmr : (m : ℝ) ≤ 2 ^ 62 := by exact_mod_cast hm62
  have hir : (i : ℝ) ≤ 2 * m := by exact_mod_cast hi
  have hi0 : (0 : ℝ) ≤ i := by positivity
  have hm1 : (1 : ℝ) ≤ m := by exact_mod_cast hm
  set x0 : ℚ := 884279719003555 / 281474976710656 with hx0
  set x1 : ℚ := rnd (x0 / m) with hx1
  have e2 : ((i * (Trig.pi / m) : Fl rnd)).val = rnd (i * x1) := by
    show rnd ((i : ℚ) * rnd ((Trig.pi : Fl rnd).val / m)) = _
    rw [ht.pi]
  rw [e2]
  have c0 : |(x0 : ℝ) - Real.pi| ≤ 2 / 2 ^ 53 := by
    rw [hx0]
    push_cast
    rw [abs_le]
    constructor <;> linarith
  have c0' : |(x0 : ℝ)| ≤ 32 / 10 := by
    rw [abs_le] at c0 ⊢
    constructor <;> linarith
  have m1 : |(x0 : ℝ) / m| ≤ 32 / 10 / m := by
    rw [abs_div, abs_of_pos hm0]
    exact div_le_div_of_nonneg_right c0' hm0.le
  have m2 : (32 / 10 : ℝ) / m ≤ 32 / 10 := div_le_self (by norm_num) hm1
  have b1 := rnd_real h (q := x0 / m) (by
    push_cast
    refine m1.trans (m2.trans (le_trans ?_ hmax'))
    norm_num)
  rw [← hx1, fu] at b1
  push_cast at b1
  have hf0 : (0 : ℝ) ≤ i / m := by positivity
  have hf1 : (i : ℝ) / m ≤ 2 := by
    rw [div_le_iff₀ hm0]; linarith
  have c1 : |(i : ℝ) * x1 - x0 * (i / m)| ≤ 64 / 10 / 2 ^ 53 + 1 / 2 ^ 100 := by
    have : (i : ℝ) * x1 - x0 * (i / m) = i * (x1 - x0 / m) := by ring
    rw [this, abs_mul, abs_of_nonneg hi0]
    have k1 := mul_le_mul_of_nonneg_left b1 hi0
    have k2 : (i : ℝ) * (1 / 2 ^ 53 * |(x0 : ℝ) / m| + feta) ≤ i * (1 / 2 ^ 53 * (32 / 10 / m) + 1 / 2 ^ 200) := by
      refine mul_le_mul_of_nonneg_left ?_ hi0
      linarith
    have k3 : (i : ℝ) * (1 / 2 ^ 53 * (32 / 10 / m) + 1 / 2 ^ 200) = 32 / 10 / 2 ^ 53 * (i / m) + i / 2 ^ 200 := by ring
    have k4 : (i : ℝ) / 2 ^ 200 ≤ 1 / 2 ^ 100 := by
      rw [div_le_div_iff₀ (by norm_num) (by norm_num)]
      have : (i : ℝ) ≤ 2 ^ 63 := by linarith
      norm_num at this ⊢
      linarith
    have k5 : (32 / 10 / 2 ^ 53 : ℝ) * (i / m) ≤ 32 / 10 / 2 ^ 53 * 2 := mul_le_mul_of_nonneg_left hf1 (by norm_num)
    linarith
  have c2 : |(x0 : ℝ) * (i / m) - i * (Real.pi / m)| ≤ 4 / 2 ^ 53 := by
    have : (x0 : ℝ) * (i / m) - i * (Real.pi / m) = (x0 - Real.pi) * (i / m) := by ring
    rw [this, abs_mul, abs_of_nonneg hf0]
    have := mul_le_mul c0 hf1 hf0 (by norm_num)
    linarith
  have c3 : |(x0 : ℝ) * (i / m)| ≤ 64 / 10 := by
    rw [abs_mul, abs_of_nonneg hf0]
    have := mul_le_mul c0' hf1 hf0 (by norm_num)
    linarith
  have c4 : |(i : ℝ) * x1| ≤ 65 / 10 := by
    rw [abs_le] at c1 c3 ⊢
    constructor <;> linarith
  have b2 := rnd_real h (q := i * x1) (by
    push_cast
    refine c4.trans (le_trans ?_ hmax')
    norm_num)
  rw [fu] at b2
  push_cast at b2
  have d1 : |((rnd (i * x1) : ℚ) : ℝ) - i * (Real.pi / m)| ≤ 1 / 2 ^ 48 - 1 / 2 ^ 52 := by
    rw [abs_le] at b2 c1 c2 ⊢
    constructor <;> linarith
  refine ⟨d1, ?_⟩
  have d2 : |((rnd (i * x1) : ℚ) : ℝ)| ≤ 7 := by
    have c5 := abs_le.1 c4
    rw [abs_le] at b2 ⊢
    constructor <;> linarith
  exact_mod_cast d2

theorem sinePeriod_gen {S : Type} [Mul S] [Div S] [NatCast S] [Trig S] {size : Nat} (h : 2 ≤ size) {N : Nat} {z : Nat → S} (hN : size ≤ N) :
    sinePeriod size (tab N z) =
      .ok (tab N fun a => if a < size then Trig.sin ((a : S) * (Trig.pi / ((size / 2 : Nat) : S))) else z a) := by
  rw [sinePeriod]
  refine tab_loop fun i o hi _ => ?_
  rw [sineBody, if_neg (by omega), wr_tab _ (by omega)]

/-- C81 in double precision, for even sizes: exactly the first `size` values are written, and they differ from one period of a sine by at most
`2 ^ -48`, if the function `sin` of the math library is accurate. Missing: odd sizes. -/
theorem C81_double_partial (h : RoundsToNearest rnd) [Trig (Fl rnd)] (ht : TrigAccurate rnd) {size : Nat} {out : List (Fl rnd)} (h2 : 2 ≤ size)
    (heven : size % 2 = 0) (hs : size < 4294967296) (ho : size ≤ out.length) :
    ∃ out', sinePeriod size out = .ok out' ∧ out'.length = out.length ∧
      (∀ i, i < size → ∃ v, out'[i]? = some v ∧ |(v.val : ℝ) - Real.sin (2 * Real.pi * i / size)| ≤ 1 / 2 ^ 48) ∧
      ∀ i, size ≤ i → out'[i]? = out[i]? := by
  rw [eq_tab out 0, sinePeriod_gen h2 (by simpa [tab_length] using ho)]
  refine ⟨_, rfl, by rw [tab_length, tab_length], fun i hi => ⟨Trig.sin ((i : Fl rnd) * (Trig.pi / ((size / 2 : Nat) : Fl rnd))), ?_, ?_⟩, fun i hi => ?_⟩
  · rw [tab_getElem?, if_pos (by omega), if_pos hi]
  · obtain ⟨a1, a2⟩ := sine_angle_error h ht (m := size / 2) (i := i) (by omega) (by omega) (by omega)
    have a3 := ht.sin _ a2
    have h1 : ((size / 2 : Nat) : ℝ) = size / 2 := by
      rw [Nat.cast_div (by omega) (by norm_num)]
      norm_num
    have h0 : (size : ℝ) ≠ 0 := by
      have : size ≠ 0 := by omega
      exact_mod_cast this
    have e : 2 * Real.pi * i / size = i * (Real.pi / ((size / 2 : Nat) : ℝ)) := by
      rw [h1]
      field_simp
    rw [e]
    have a4 := Real.abs_sin_sub_sin_le (((i : Fl rnd) * (Trig.pi / ((size / 2 : Nat) : Fl rnd))).val : ℝ) (i * (Real.pi / ((size / 2 : Nat) : ℝ)))
    generalize (i : Fl rnd) * (Trig.pi / ((size / 2 : Nat) : Fl rnd)) = y at *
    exact (abs_sub_le _ (Real.sin y.val) _).trans (by linarith)
  · rw [tab_getElem?, tab_getElem?]
    have : ¬ i < size := by omega
    simp only [if_neg this]

/-! ## Scores -/

variable {fmt : FloatFmt (Fl rnd) (Fin (2 ^ 32))}

/-- The tones of the program, compared with those of the score. -/
theorem mix_score (tbl : List (Fl rnd)) {rate : Nat} {conv : ℝ → Fl rnd} {xs : List (Nat × ℝ × Nat)}
    (htab : ∀ n : Nat, |((tbl.getD (n % rate) 0).val : ℝ) - Real.sin (2 * Real.pi * n / rate)| ≤ 1 / 2 ^ 48)
    (hx : ∀ x ∈ xs, |(conv x.2.1).val| ≤ 1 ∧ |((conv x.2.1).val : ℝ) - x.2.1| ≤ 1 / 2 ^ 53) :
    |((exactMix (xs.map (toneOf tbl rate conv)) : ℚ) : ℝ) - (xs.map fun x => x.2.1 * Real.sin (2 * Real.pi * x.1 * (x.2.2 : ℝ) / rate)).sum| ≤
      xs.length / 2 ^ 47 := by
  induction xs with
  | nil => simp [exactMix]
  | cons x xs ih =>
    have i1 := ih fun y hy => hx y (by simp [hy])
    obtain ⟨h1, h2⟩ := hx x (by simp)
    have h3 := htab (x.1 * x.2.2)
    have e0 : (2 * Real.pi * ((x.1 * x.2.2 : ℕ) : ℝ) / rate) = 2 * Real.pi * x.1 * (x.2.2 : ℝ) / rate := by push_cast; ring
    rw [e0] at h3
    have e1 : exactMix ((x :: xs).map (toneOf tbl rate conv)) =
        (conv x.2.1).val * (tbl.getD (x.1 * x.2.2 % rate) 0).val + exactMix (xs.map (toneOf tbl rate conv)) := by
      have : ((1 : Fl rnd).val : ℚ) = 1 := rfl
      simp only [exactMix, List.map_cons, List.sum_cons, toneOf, this, one_mul]
    rw [e1, List.map_cons, List.sum_cons, List.length_cons]
    push_cast
    generalize (tbl.getD (x.1 * x.2.2 % rate) 0).val = w at *
    generalize (conv x.2.1).val = a at *
    have hs := Real.abs_sin_le_one (2 * Real.pi * x.1 * (x.2.2 : ℝ) / rate)
    generalize Real.sin (2 * Real.pi * x.1 * (x.2.2 : ℝ) / rate) = v at *
    generalize ((exactMix (xs.map (toneOf tbl rate conv)) : ℚ) : ℝ) = X at *
    generalize (xs.map fun x => x.2.1 * Real.sin (2 * Real.pi * x.1 * (x.2.2 : ℝ) / rate)).sum = Y at *
    have h1' : |(a : ℝ)| ≤ 1 := by exact_mod_cast h1
    have e2 : (a : ℝ) * w + X - (x.2.1 * v + Y) = a * (w - v) + (a - x.2.1) * v + (X - Y) := by ring
    rw [e2]
    refine (abs_add_le _ _).trans ((add_le_add_left (abs_add_le _ _) _).trans ?_)
    rw [abs_mul, abs_mul]
    have k1 := mul_le_mul h1' h3 (abs_nonneg _) (by norm_num)
    have k2 := mul_le_mul h2 hs (abs_nonneg _) (by norm_num)
    have e3 : ((xs.length : ℝ) + 1) / 2 ^ 47 = 1 / 2 ^ 47 + xs.length / 2 ^ 47 := by ring
    have k3 : (1 : ℝ) * (1 / 2 ^ 48) + 1 / 2 ^ 53 * 1 ≤ 1 / 2 ^ 47 := by norm_num
    linarith only [k1, k2, k3, e3, i1]

/-- **C166.** A score of tones, together and one after the other, groups in groups to any depth, is made into events and rendered to a file as in C148, but
with numbers of type `double`, with the sine table and the sums that the rounding operations give, and samples of type `float` in the file. The math
library is accurate (`TrigAccurate`) and its `sin` is between -1 and 1. The envelopes are between -1 and 1, `conv` gives a number of type `double` for each
value, and at most 2^24 tones sound at a time. Then the call is successful and the file is a wav file with one number of 32 bit per frame and channel, each
finite, and where `k` tones sound the number differs from the sample of the score by no more than `k / 2^22`. Where nothing sounds it is zero. -/
theorem C166_score_double (h : RoundsToNearest rnd) [Trig (Fl rnd)] (htrig : TrigAccurate rnd) (hsin : ∀ x : Fl rnd, |(Trig.sin x).val| ≤ 1)
    (hfmt : IsSingleFmt fmt) {header : Buf Nat} (hh : header.length = 40) (new : Addr) (w : Buf (Buf (Fl rnd)))
    {rate limit fuel d : Nat} {s : Score} {conv : ℝ → Fl rnd} (hr : 2 ≤ rate) (heven : rate % 2 = 0) (hl : 0 < limit)
    (hrate : rate * limit * 4 < 4294967296) (hfuel : 1 < fuel) (hd : s.depth < d) (hv : s.Valid rate fuel)
    (hsize : 36 + 4 * (s.stop * limit) < 4294967296)
    (hconv : ∀ t, ∀ x ∈ s.sounding t, |(conv x.2.1).val| ≤ 1 ∧ |((conv x.2.1).val : ℝ) - x.2.1| ≤ 1 / 2 ^ 53)
    (hcount : ∀ t, (s.sounding t).length ≤ 2 ^ 24) :
    ∃ table c e, ∃ bits : Nat → Nat → Nat, sinePeriod rate (List.replicate rate (0 : Fl rnd)) = .ok table ∧ waveDefaults limit table rate = .ok c ∧
      scoreEvent (treeCb waveCb fuel d) fuel c conv s w = .ok (e, w) ∧
      renderFile (treeCb waveCb fuel d) fmt fuel header none new e limit rate =
        .ok (0, wavFile limit rate ((List.range s.stop).flatMap fun t => (List.range limit).flatMap fun ch => bytesLE 4 (bits ch t))) ∧
      ∀ ch < limit, ∀ t < s.stop, bits ch t < 2 ^ 32 ∧ SingleFinite (bits ch t) ∧
        |(singleValue (bits ch t) : ℝ) - s.sample rate t| ≤ (s.sounding t).length / 2 ^ 22 := by
  obtain ⟨d, rfl⟩ : ∃ k, d = k + 1 := ⟨d - 1, by omega⟩
  have ht : s.stop < 4294967296 := by
    have := Nat.le_mul_of_pos_right s.stop hl
    omega
  have hr32 : rate < 4294967296 := by
    have := Nat.le_mul_of_pos_right rate hl
    omega
  have hrep : List.replicate rate (0 : Fl rnd) = tab rate fun _ => 0 := by rw [tab_replicate]
  have t1 := sinePeriod_gen (S := Fl rnd) hr (N := rate) (z := fun _ => 0) (le_refl _)
  rw [← hrep] at t1
  obtain ⟨tbl, t1', t2, t3, _⟩ := C81_double_partial h htrig (out := List.replicate rate (0 : Fl rnd)) hr heven hr32 (by simp)
  rw [List.length_replicate] at t2
  have hfull : ∀ n, |(tbl.getD n 0).val| ≤ 1 := by
    intro n
    rw [t1] at t1'
    cases t1'
    rw [List.getD_eq_getElem?_getD, tab_getElem?]
    split
    · exact hsin _
    · show |(0 : ℚ)| ≤ 1
      norm_num
  have htab : ∀ n : Nat, |((tbl.getD (n % rate) 0).val : ℝ) - Real.sin (2 * Real.pi * n / rate)| ≤ 1 / 2 ^ 48 := by
    intro n
    obtain ⟨v, v1, v2⟩ := t3 (n % rate) (Nat.mod_lt _ (by omega))
    rw [List.getD_eq_getElem?_getD, v1, Option.getD_some]
    rwa [sin_mod (by omega)] at v2
  obtain ⟨c, c1, _⟩ := wavePrepare_tone hl tbl rate 0 ([] : Buf (Fl rnd))
  obtain ⟨e, G, U, e1, e2, e3, e4, e5⟩ := scoreEvent_ok (cb := treeCb waveCb fuel (d + 1)) (fuel := fuel) hr hl t2 c1 conv w s d (by omega) hv ht
  simp only at e3 e4
  have hw : WaveTree 0 fuel limit d e G U := by
    have := e2 0 (by omega)
    simp only [Nat.zero_add] at this
    exact this
  have hpart : ∀ ch t, eventTones [(new, e)] (fun _ => U) 0 ch t = partTones (fun _ => U) ch t (0, e) := by
    intro ch t
    rw [eventTones_part, List.flatMap_cons, List.flatMap_nil, List.append_nil]
    rfl
  have hfs : ∀ ch < limit, ∀ t, FullScale (partTones (fun _ => U) ch t (0, e)) ∧ (partTones (fun _ => U) ch t (0, e)).length ≤ 2 ^ 24 := by
    intro ch hch t
    have hp := e5 ch hch t
    refine ⟨fun u hu => ?_, ?_⟩
    · obtain ⟨x, hx, rfl⟩ := List.mem_map.1 (hp.mem_iff.1 hu)
      refine ⟨?_, (hconv t x hx).1, hfull _⟩
      show |(1 : ℚ)| ≤ 1
      norm_num
    · rw [hp.length_eq, List.length_map]
      exact hcount t
  obtain ⟨bits, b1, b2⟩ := C163_file_error h hfmt hh new (rate := rate) hfuel hw e4.le (by omega) hl (by omega) hrate (by rw [e3]; exact hsize) (by
    intro ch hch t h1 h2
    have := hfs ch hch t
    unfold partTones at this
    rw [if_pos ⟨h1, h2⟩] at this
    exact this)
  rw [e3] at b1 b2
  refine ⟨tbl, c, e, bits, t1', c1, e1, b1, fun ch hch t htt => ?_⟩
  obtain ⟨p1, p2, p3⟩ := b2 ch hch t htt
  refine ⟨p1, p2, ?_⟩
  have hp := e5 ch hch t
  have hlen : (partTones (fun _ => U) ch t (0, e)).length = (s.sounding t).length := by rw [hp.length_eq, List.length_map]
  have hmix : exactMix (partTones (fun _ => U) ch t (0, e)) = exactMix ((s.sounding t).map (toneOf tbl rate conv)) := (hp.map _).sum_eq
  rw [hpart, hlen, hmix] at p3
  have q := mix_score tbl htab (hconv t)
  rw [← sample_sounding] at q
  have p3' : |(singleValue (bits ch t) : ℝ) - (exactMix ((s.sounding t).map (toneOf tbl rate conv)) : ℚ)| ≤ (s.sounding t).length / 2 ^ 23 := by
    have := (Rat.cast_le (K := ℝ)).2 p3
    push_cast at this
    exact this
  refine (abs_sub_le _ ((exactMix ((s.sounding t).map (toneOf tbl rate conv)) : ℚ) : ℝ) _).trans ((add_le_add p3' q).trans ?_)
  have hk : (0 : ℝ) ≤ (s.sounding t).length := by positivity
  generalize ((s.sounding t).length : ℝ) = k at *
  have e6 : k / 2 ^ 22 - (k / 2 ^ 23 + k / 2 ^ 47) = k * (1 / 2 ^ 22 - (1 / 2 ^ 23 + 1 / 2 ^ 47)) := by ring
  have : 0 ≤ k * (1 / 2 ^ 22 - (1 / 2 ^ 23 + 1 / 2 ^ 47)) := mul_nonneg hk (by norm_num)
  linarith only [e6, this]

/-! ## A case -/

attribute [local instance] libm

theorem libm_sin_le (x : Fl nearestDouble) : |(Trig.sin x).val| ≤ 1 := by
  have one : IsDouble 1 := ⟨1, 0, by norm_num, by norm_num, by norm_num, by norm_num⟩
  have key : ∀ q : ℚ, |q| ≤ 1 → |nearestDouble q| ≤ 1 := fun q hq =>
    nearestDouble_rounds.abs_le (hq.trans (by simpa using one.le_max)) one hq
  refine key _ ?_
  obtain ⟨h1, h2⟩ := abs_le.1 (Real.abs_sin_le_one (x.val : ℝ))
  have f1 : (-2 ^ 60 : ℤ) ≤ ⌊Real.sin (x.val : ℝ) * 2 ^ 60⌋ := by
    rw [Int.le_floor]
    push_cast
    linarith
  have f2 : ⌊Real.sin (x.val : ℝ) * 2 ^ 60⌋ ≤ (2 ^ 60 : ℤ) := by
    have := Int.floor_le (Real.sin (x.val : ℝ) * 2 ^ 60)
    have h3 : ((⌊Real.sin (x.val : ℝ) * 2 ^ 60⌋ : ℤ) : ℝ) ≤ ((2 ^ 60 : ℤ) : ℝ) := by
      push_cast
      linarith
    exact_mod_cast h3
  generalize ⌊Real.sin (x.val : ℝ) * 2 ^ 60⌋ = m at *
  have f1' : (-2 ^ 60 : ℚ) ≤ m := by exact_mod_cast f1
  have f2' : (m : ℚ) ≤ 2 ^ 60 := by exact_mod_cast f2
  rw [abs_le]
  constructor
  · rw [le_div_iff₀ (by norm_num)]; linarith
  · rw [div_le_iff₀ (by norm_num)]; linarith

/-- An envelope that is always one half. -/
noncomputable def halfEnv : List ℝ := List.replicate 24000 (1 / 2)

theorem halfEnv_length : halfEnv.length = 24000 := List.length_replicate

/-- A chord of two tones with envelopes of one half, and then another tone. -/
noncomputable def chordScore : Score :=
  .sequence 0 [.together 100 [.tone 0 24000 440 halfEnv, .tone 5 1000 550 halfEnv],
    .tone 7 1000 660 halfEnv]

theorem chordScore_stop : chordScore.stop = 25107 := by simp [chordScore, Score.stop, total, longest]

theorem chordScore_sounding (t : Nat) : (∀ x ∈ chordScore.sounding t, x.2.1 = 1 / 2 ∨ x.2.1 = 0) ∧ (chordScore.sounding t).length ≤ 3 := by
  have hg : ∀ k, halfEnv.getD k 0 = 1 / 2 ∨ halfEnv.getD k 0 = 0 := by
    intro k
    rw [List.getD_eq_getElem?_getD, halfEnv, List.getElem?_replicate]
    split
    · exact .inl rfl
    · exact .inr rfl
  unfold chordScore
  generalize halfEnv = env at hg
  simp only [Score.sounding, soundingInTurn, soundingOf, List.append_nil]
  constructor
  · intro x hx
    have key : ∀ (p : Prop) [Decidable p] (a k : Nat), x ∈ (if p then [(a, env.getD k 0, k)] else []) → x.2.1 = 1 / 2 ∨ x.2.1 = 0 := by
      intro p _ a k hx
      split at hx
      · rw [List.mem_singleton] at hx
        rw [hx]
        exact hg k
      · cases hx
    rw [if_pos (Nat.zero_le _), List.mem_append] at hx
    rcases hx with hx | hx
    · split at hx
      · rw [List.mem_append] at hx
        rcases hx with hx | hx
        · exact key _ _ _ hx
        · exact key _ _ _ hx
      · cases hx
    · split at hx
      · rw [ite_self, List.append_nil] at hx
        exact key _ _ _ hx
      · cases hx
  · rw [if_pos (Nat.zero_le _), List.length_append]
    have key : ∀ (p : Prop) [Decidable p] (a k : Nat), (if p then [(a, env.getD k 0, k)] else []).length ≤ 1 := by
      intro p _ a k
      split <;> simp
    have h1 : ∀ (p : Prop) [Decidable p] (l : List (Nat × ℝ × Nat)) (n : Nat), l.length ≤ n → (if p then l else []).length ≤ n := by
      intro p _ l n hl
      split
      · exact hl
      · simp
    show _ ≤ 2 + 1
    refine Nat.add_le_add ?_ ?_
    · apply h1
      rw [List.length_append]
      exact Nat.add_le_add (key _ _ _) (key _ _ _)
    · apply h1
      rw [ite_self, List.append_nil]
      exact key _ _ _

/-- The score is written to a file. -/
example : ∃ (fmt : FloatFmt (Fl nearestDouble) (Fin (2 ^ 32))) (bits : Nat → Nat → Nat), IsSingleFmt fmt ∧ ∃ table c e,
    sinePeriod 48000 (List.replicate 48000 (0 : Fl nearestDouble)) = .ok table ∧ waveDefaults 2 table 48000 = .ok c ∧
    scoreEvent (treeCb waveCb 10 3) 10 c (fun v => if v = 0 then 0 else ⟨1 / 2⟩) chordScore [] = .ok (e, []) ∧
    renderFile (treeCb waveCb 10 3) fmt 10 (List.replicate 40 7) none 1 e 2 48000 =
      .ok (0, wavFile 2 48000 ((List.range chordScore.stop).flatMap fun t => (List.range 2).flatMap fun ch => bytesLE 4 (bits ch t))) ∧
    |(singleValue (bits 1 300) : ℝ) - chordScore.sample 48000 300| ≤ 3 / 2 ^ 22 := by
  obtain ⟨fmt, hfmt⟩ := exists_singleFmt nearestDouble
  obtain ⟨table, c, e, bits, b1, b2, b3, b4, b5⟩ := C166_score_double nearestDouble_rounds libm_accurate libm_sin_le hfmt (header := List.replicate 40 7)
    (by rfl) 1 [] (rate := 48000) (limit := 2) (fuel := 10) (d := 3) (s := chordScore) (conv := fun v => if v = 0 then 0 else ⟨1 / 2⟩)
    (by omega) (by omega) (by omega) (by omega) (by omega)
    (by simp [chordScore, Score.depth, deepest]) (by simp [chordScore, Score.Valid, AllValid, halfEnv_length]) (by rw [chordScore_stop]; omega) (by
      intro t x hx
      rcases (chordScore_sounding t).1 x hx with h | h
      · rw [h, if_neg (by norm_num)]
        norm_num [abs_of_pos]
      · rw [h, if_pos rfl]
        show |(0 : ℚ)| ≤ 1 ∧ |((0 : ℚ) : ℝ) - 0| ≤ 1 / 2 ^ 53
        norm_num) (fun t => (chordScore_sounding t).2.trans (by norm_num))
  refine ⟨fmt, bits, hfmt, table, c, e, b1, b2, b3, b4, (b5 1 (by omega) 300 (by rw [chordScore_stop]; omega)).2.2.trans ?_⟩
  have : ((chordScore.sounding 300).length : ℝ) ≤ 3 := by exact_mod_cast (chordScore_sounding 300).2
  exact div_le_div_of_nonneg_right this (by norm_num)

end Sp
