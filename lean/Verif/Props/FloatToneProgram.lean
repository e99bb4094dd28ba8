import Verif.Model.ToneProgram
import Verif.Props.FloatTone
import Verif.Props.FloatSine

/-! # C174: tones of the library through filters of the library -/

set_option linter.unusedSectionVars false

noncomputable section

namespace Sp
variable {rnd : ℚ → ℚ}

/-- The samples of the program. -/
private theorem sineBlocks_eq (h : RoundsToNearest rnd) [Trig (Fl rnd)] (ht : TrigAccurate rnd) {rate frq : Nat} {amp : Fl rnd} (hr : 2 ≤ rate)
    (heven : rate % 2 = 0) (hf : rate + frq ≤ 4294967296) (hr2 : rate < 4294967296) (hamp : |amp.val| ≤ 1) {table lfo : Buf (Fl rnd)}
    (hi : sineTables rate = .ok (table, lfo)) (sizes : List Nat) {p : Nat} (hp : p < rate) :
    ∃ blocks, sineBlocks table rate amp frq sizes p = .ok blocks ∧ blocks.map List.length = sizes ∧
      ∀ n, n < sizes.sum →
        |((blocks.flatten.getD n 0).val : ℝ) - amp.val * Real.sin (2 * Real.pi * (p + frq * n) / rate)| ≤ 1 / 2 ^ 47 := by
  induction sizes generalizing p with
  | nil => exact ⟨[], rfl, rfl, fun n hn => absurd hn (by simp)⟩
  | cons size rest ih =>
    have h1 : ((1 : Fl rnd).val : ℚ) = 1 := rfl
    have h0 : ((0 : Fl rnd).val : ℚ) = 0 := rfl
    obtain ⟨out, o1, o2, o3, -⟩ := C113_double_sine_partial h ht (size := size) (amp := amp) (amod := List.replicate size 1) (out := List.replicate size 0)
      hr heven hf hr2 hp (by simp) (by simp) hamp (fun m hm => by rw [List.eq_of_mem_replicate hm, h1]; norm_num)
      (fun x hx => by rw [List.eq_of_mem_replicate hx, h0]; norm_num) hi
    rw [List.length_replicate] at o2
    obtain ⟨bs, b1, b2, b3⟩ := ih (Nat.mod_lt (p + frq * size) (by omega : 0 < rate))
    refine ⟨out :: bs, ?_, by rw [List.map_cons, b2, o2], fun n hn => ?_⟩
    · rw [sineBlocks, o1, ok_bind']
      simp only [Option.getD_some]
      rw [b1, ok_bind']
      rfl
    · rw [List.flatten_cons, List.getD_eq_getElem?_getD]
      by_cases hs : n < size
      · obtain ⟨y, y1, y2⟩ := o3 n 0 1 hs (by rw [List.getElem?_replicate, if_pos hs]) (by rw [List.getElem?_replicate, if_pos hs])
        rw [List.getElem?_append_left (by omega), y1, Option.getD_some]
        rw [h1, h0] at y2
        simpa using y2
      · rw [List.getElem?_append_right (by omega), ← List.getD_eq_getElem?_getD, o2]
        have := b3 (n - size) (by rw [List.sum_cons] at hn; omega)
        have e : Real.sin (2 * Real.pi * (((p + frq * size) % rate : Nat) + frq * ((n - size : Nat) : ℝ)) / rate) =
            Real.sin (2 * Real.pi * (p + frq * n) / rate) := by
          have e1 := sin_mod (w := rate) (by omega) ((p + frq * size) % rate + frq * (n - size))
          have e2 := sin_mod (w := rate) (by omega) (p + frq * n)
          have e3 : ((p + frq * size) % rate + frq * (n - size)) % rate = (p + frq * n) % rate := by
            rw [Nat.mod_add_mod]
            congr 1
            have : frq * n = frq * size + frq * (n - size) := by rw [← Nat.mul_add]; congr 1; omega
            omega
          rw [e3, e2] at e1
          push_cast at e1 ⊢
          exact e1.symm
        rwa [e] at this


/-- The sine as a tone of the theorems about filters. -/
theorem tone_form (a : ℝ) {rate : Nat} (frq p : Nat) (y : ℝ) :
    toneSample a (frq / rate) (2 * Real.pi * p / rate - Real.pi / 2) y = a * Real.sin (2 * Real.pi * (p + frq * y) / rate) := by
  rw [toneSample, show 2 * Real.pi * ((frq : ℝ) / rate) * y + (2 * Real.pi * p / rate - Real.pi / 2) = 2 * Real.pi * (p + frq * y) / rate - Real.pi / 2 by ring,
    Real.cos_sub_pi_div_two]

/-- The frequency as a fraction of the sampling rate. -/
private theorem frq_abs {rate frq : Nat} : |((frq : ℝ) / rate)| = frq / rate := abs_of_nonneg (by positivity)

theorem le_frq {x : ℚ} {rate frq : Nat} (hr : 2 ≤ rate) (hf : x * rate ≤ frq) : (x : ℝ) ≤ |((frq : ℝ) / rate)| := by
  have h0 : (0 : ℝ) < rate := by exact_mod_cast (by omega : 0 < rate)
  rw [frq_abs, le_div_iff₀ h0]
  exact_mod_cast hf

theorem frq_le {x : ℚ} {rate frq : Nat} (hr : 2 ≤ rate) (hf : frq ≤ x * rate) : |((frq : ℝ) / rate)| ≤ (x : ℝ) := by
  have h0 : (0 : ℝ) < rate := by exact_mod_cast (by omega : 0 < rate)
  rw [frq_abs, div_le_iff₀ h0]
  exact_mod_cast hf

theorem frq_half {rate frq : Nat} (hr : 2 ≤ rate) (hf : 2 * frq ≤ rate) : |((frq : ℝ) / rate)| ≤ 1 / 2 := by
  have := frq_le (x := 1 / 2) (frq := frq) hr (by
    have : (2 : ℚ) * frq ≤ rate := by exact_mod_cast hf
    linarith)
  simpa using this

private theorem small {x a c w : ℝ} (hw : w ≤ 614) (h : x ≤ c * a + w * (1 / 2 ^ 47) + 1 / 2 ^ 100) : x ≤ c * a + 1 / 2 ^ 37 := by
  have : w * (1 / 2 ^ 47) ≤ 614 * (1 / 2 ^ 47) := mul_le_mul_of_nonneg_right hw (by norm_num)
  have e : (614 : ℝ) * (1 / 2 ^ 47) + 1 / 2 ^ 100 ≤ 1 / 2 ^ 37 := by norm_num
  linarith

private theorem amp_bound {amp : Fl rnd} (hamp : |amp.val| ≤ 1) : |(amp.val : ℝ)| + 1 / 2 ^ 47 ≤ 2 ^ 100 := by
  have : |(amp.val : ℝ)| ≤ 1 := by exact_mod_cast hamp
  refine (add_le_add_left this _).trans ?_
  norm_num

theorem blocks_size {α : Type} {blocks : List (List α)} {sizes : List Nat} (h : blocks.map List.length = sizes) {m k : Nat}
    (hs : ∀ s ∈ sizes, s + m ≤ k) : ∀ x ∈ blocks, x.length + m ≤ k :=
  fun x hx => hs _ (by rw [← h]; exact List.mem_map_of_mem hx)

/-- **C174, low-pass.** A program initialises the library, plays a tone with `sp_sine` block by block, with blocks of any sizes, and filters these blocks with
a low-pass filter, all with numbers of type `double`. Then, once the kernel is filled, a tone with a frequency above the cutoff comes out with less than 1/100 of
its amplitude, and one below is the same sine, delayed by half of the kernel length, with an error of less than 1/60 of the amplitude (and `2 ^ -37`). The
frequency is given in hertz and compared with the cutoff times the sampling rate. -/
theorem C174_low_pass {F : Type} [DecidableEq F] (h : RoundsToNearest rnd) [Trig (Fl rnd)] (ht : TrigAccurate rnd) (ht' : LibmAccurate rnd)
    {rate frq p : Nat} {amp : Fl rnd} (hr : 2 ≤ rate) (heven : rate % 2 = 0) (hf : rate + frq ≤ 4294967296) (hr2 : rate < 4294967296)
    (hamp : |amp.val| ≤ 1) (hp : p < rate) {table lfo : Buf (Fl rnd)} (hi : sineTables rate = .ok (table, lfo)) (junk junk' : Fl rnd)
    {c t : Fl rnd} (hc : IsDouble c.val) (t0 : 1 / 2 ^ 20 ≤ t.val) (h0 : t.val ≤ c.val)
    (h1 : c.val ≤ 1 / 2) :
    ∃ ir : List (Fl rnd), lpHpIr junk c t false = .ok ir ∧
      ∀ (irOf : F → List UInt8 → Option (Buf (Fl rnd))) (kind : F) (args : List UInt8), irOf kind args = some ir →
      ∀ sizes : List Nat, (∀ s ∈ sizes, s + ir.length ≤ 4294967296) →
      ∃ blocks rs, sineBlocks table rate amp frq sizes p = .ok blocks ∧ blocks.map List.length = sizes ∧
        filterCalls irOf junk' (blocks.map fun x => (x, kind, args)) none = .ok rs ∧ (∀ r ∈ rs, r.success = true) ∧
        ∀ n, ir.length ≤ n + 1 → n < sizes.sum → ∃ y, (rs.map fun r => r.out).flatten[n]? = some y ∧
          ((c.val + t.val) * rate ≤ frq → 2 * frq ≤ rate → |(y.val : ℝ)| ≤ 1 / 100 * |(amp.val : ℝ)| + 1 / 2 ^ 37) ∧
          (frq ≤ (c.val - t.val) * rate →
            |(y.val : ℝ) - amp.val * Real.sin (2 * Real.pi * (p + frq * ((n : ℝ) - ((ir.length - 1) / 2 : Nat))) / rate)| ≤
              1 / 60 * |(amp.val : ℝ)| + 1 / 2 ^ 37) := by
  obtain ⟨ir, i1, -, i2⟩ := C169_double_tone_low_pass (F := F) h ht' junk hc t0 h0 h1
  refine ⟨ir, i1, fun irOf kind args hir sizes hs => ?_⟩
  obtain ⟨blocks, b1, b2, b3⟩ := sineBlocks_eq h ht hr heven hf hr2 hamp hi sizes hp
  have hlen : blocks.flatten.length = sizes.sum := by rw [List.length_flatten, b2]
  obtain ⟨rs, r1, r2, r3⟩ := i2 irOf kind args hir (frq / rate) amp.val (2 * Real.pi * p / rate - Real.pi / 2) (1 / 2 ^ 47) (amp_bound hamp) junk' blocks
    (blocks_size b2 hs) (fun n hn => by rw [tone_form]; exact b3 n (by omega))
  refine ⟨blocks, rs, b1, b2, r1, r2, fun n n1 n2 => ?_⟩
  obtain ⟨y, y1, y2, y3⟩ := r3 n n1 (by omega)
  rw [tone_form] at y3
  refine ⟨y, y1, fun q q' => small (by norm_num) (y2 ?_ (frq_half hr q')), fun q => small (by norm_num) (y3 ?_)⟩
  · exact_mod_cast le_frq hr q
  · exact_mod_cast frq_le hr q

/-- **C174, high-pass.** The same for a high-pass filter: tones below the cutoff come out with less than 1/60 of the amplitude, those above are kept. -/
theorem C174_high_pass {F : Type} [DecidableEq F] (h : RoundsToNearest rnd) [Trig (Fl rnd)] (ht : TrigAccurate rnd) (ht' : LibmAccurate rnd)
    {rate frq p : Nat} {amp : Fl rnd} (hr : 2 ≤ rate) (heven : rate % 2 = 0) (hf : rate + frq ≤ 4294967296) (hr2 : rate < 4294967296)
    (hamp : |amp.val| ≤ 1) (hp : p < rate) {table lfo : Buf (Fl rnd)} (hi : sineTables rate = .ok (table, lfo)) (junk junk' : Fl rnd)
    {c t : Fl rnd} (hc : IsDouble c.val) (t0 : 1 / 2 ^ 20 ≤ t.val) (h0 : t.val ≤ c.val)
    (h1 : c.val ≤ 1 / 2) :
    ∃ ir : List (Fl rnd), lpHpIr junk c t true = .ok ir ∧
      ∀ (irOf : F → List UInt8 → Option (Buf (Fl rnd))) (kind : F) (args : List UInt8), irOf kind args = some ir →
      ∀ sizes : List Nat, (∀ s ∈ sizes, s + ir.length ≤ 4294967296) →
      ∃ blocks rs, sineBlocks table rate amp frq sizes p = .ok blocks ∧ blocks.map List.length = sizes ∧
        filterCalls irOf junk' (blocks.map fun x => (x, kind, args)) none = .ok rs ∧ (∀ r ∈ rs, r.success = true) ∧
        ∀ n, ir.length ≤ n + 1 → n < sizes.sum → ∃ y, (rs.map fun r => r.out).flatten[n]? = some y ∧
          (frq ≤ (c.val - t.val) * rate → |(y.val : ℝ)| ≤ 1 / 60 * |(amp.val : ℝ)| + 1 / 2 ^ 37) ∧
          ((c.val + t.val) * rate ≤ frq → 2 * frq ≤ rate →
            |(y.val : ℝ) - amp.val * Real.sin (2 * Real.pi * (p + frq * ((n : ℝ) - ((ir.length - 1) / 2 : Nat))) / rate)| ≤
              1 / 100 * |(amp.val : ℝ)| + 1 / 2 ^ 37) := by
  obtain ⟨ir, i1, -, i2⟩ := C169_double_tone_high_pass (F := F) h ht' junk hc t0 h0 h1
  refine ⟨ir, i1, fun irOf kind args hir sizes hs => ?_⟩
  obtain ⟨blocks, b1, b2, b3⟩ := sineBlocks_eq h ht hr heven hf hr2 hamp hi sizes hp
  have hlen : blocks.flatten.length = sizes.sum := by rw [List.length_flatten, b2]
  obtain ⟨rs, r1, r2, r3⟩ := i2 irOf kind args hir (frq / rate) amp.val (2 * Real.pi * p / rate - Real.pi / 2) (1 / 2 ^ 47) (amp_bound hamp) junk' blocks
    (blocks_size b2 hs) (fun n hn => by rw [tone_form]; exact b3 n (by omega))
  refine ⟨blocks, rs, b1, b2, r1, r2, fun n n1 n2 => ?_⟩
  obtain ⟨y, y1, y2, y3⟩ := r3 n n1 (by omega)
  rw [tone_form] at y3
  refine ⟨y, y1, fun q => small (by norm_num) (y2 ?_), fun q q' => small (by norm_num) (y3 ?_ (frq_half hr q'))⟩
  · exact_mod_cast frq_le hr q
  · exact_mod_cast le_frq hr q

/-- **C174, band-pass.** The same for a band-pass filter: tones inside of the band are kept, those outside come out with less than 1/60 of the amplitude. -/
theorem C174_band_pass {F : Type} [DecidableEq F] (h : RoundsToNearest rnd) [Trig (Fl rnd)] (ht : TrigAccurate rnd) (ht' : LibmAccurate rnd)
    {rate frq p : Nat} {amp : Fl rnd} (hr : 2 ≤ rate) (heven : rate % 2 = 0) (hf : rate + frq ≤ 4294967296) (hr2 : rate < 4294967296)
    (hamp : |amp.val| ≤ 1) (hp : p < rate) {table lfo : Buf (Fl rnd)} (hi : sineTables rate = .ok (table, lfo)) (junk junk' : Fl rnd)
    {cl ch tl th : Fl rnd} (hcl : IsDouble cl.val) (hch : IsDouble ch.val) (tl0 : 1 / 2 ^ 20 ≤ tl.val) (th0 : 1 / 2 ^ 20 ≤ th.val)
    (h0 : tl.val ≤ cl.val) (hm : cl.val + tl.val ≤ ch.val - th.val) (h1 : ch.val < 1 / 2) :
    ∃ ir : List (Fl rnd), bpBrIr junk cl ch tl th false = .ok (ir, 3) ∧
      ∀ (irOf : F → List UInt8 → Option (Buf (Fl rnd))) (kind : F) (args : List UInt8), irOf kind args = some ir →
      ∀ sizes : List Nat, (∀ s ∈ sizes, s + ir.length ≤ 4294967296) →
      ∃ blocks rs, sineBlocks table rate amp frq sizes p = .ok blocks ∧ blocks.map List.length = sizes ∧
        filterCalls irOf junk' (blocks.map fun x => (x, kind, args)) none = .ok rs ∧ (∀ r ∈ rs, r.success = true) ∧
        ∀ n, ir.length ≤ n + 1 → n < sizes.sum → ∃ y, (rs.map fun r => r.out).flatten[n]? = some y ∧
          (frq ≤ (cl.val - tl.val) * rate → |(y.val : ℝ)| ≤ 1 / 60 * |(amp.val : ℝ)| + 1 / 2 ^ 37) ∧
          ((cl.val + tl.val) * rate ≤ frq → frq ≤ (ch.val - th.val) * rate →
            |(y.val : ℝ) - amp.val * Real.sin (2 * Real.pi * (p + frq * ((n : ℝ) - ((ir.length - 1) / 2 : Nat))) / rate)| ≤
              1 / 40 * |(amp.val : ℝ)| + 1 / 2 ^ 37) ∧
          ((ch.val + th.val) * rate ≤ frq → 2 * frq ≤ rate → |(y.val : ℝ)| ≤ 1 / 60 * |(amp.val : ℝ)| + 1 / 2 ^ 37) := by
  obtain ⟨ir, i1, -, i2⟩ := C169_double_tone_band_pass (F := F) h ht' junk hcl hch tl0 th0 h0 hm h1
  refine ⟨ir, i1, fun irOf kind args hir sizes hs => ?_⟩
  obtain ⟨blocks, b1, b2, b3⟩ := sineBlocks_eq h ht hr heven hf hr2 hamp hi sizes hp
  have hlen : blocks.flatten.length = sizes.sum := by rw [List.length_flatten, b2]
  obtain ⟨rs, r1, r2, r3⟩ := i2 irOf kind args hir (frq / rate) amp.val (2 * Real.pi * p / rate - Real.pi / 2) (1 / 2 ^ 47) (amp_bound hamp) junk' blocks
    (blocks_size b2 hs) (fun n hn => by rw [tone_form]; exact b3 n (by omega))
  refine ⟨blocks, rs, b1, b2, r1, r2, fun n n1 n2 => ?_⟩
  obtain ⟨y, y1, y2, y3, y4⟩ := r3 n n1 (by omega)
  rw [tone_form] at y3
  refine ⟨y, y1, fun q => small (by norm_num) (y2 ?_), fun q q' => small (by norm_num) (y3 ?_ ?_), fun q q' => small (by norm_num) (y4 ?_ (frq_half hr q'))⟩
  · exact_mod_cast frq_le hr q
  · exact_mod_cast le_frq hr q
  · exact_mod_cast frq_le hr q'
  · exact_mod_cast le_frq hr q

/-- **C174, band-reject.** The same for a band-reject filter: tones inside of the band come out with less than 1/45 of the amplitude, those outside are kept. -/
theorem C174_band_reject {F : Type} [DecidableEq F] (h : RoundsToNearest rnd) [Trig (Fl rnd)] (ht : TrigAccurate rnd) (ht' : LibmAccurate rnd)
    {rate frq p : Nat} {amp : Fl rnd} (hr : 2 ≤ rate) (heven : rate % 2 = 0) (hf : rate + frq ≤ 4294967296) (hr2 : rate < 4294967296)
    (hamp : |amp.val| ≤ 1) (hp : p < rate) {table lfo : Buf (Fl rnd)} (hi : sineTables rate = .ok (table, lfo)) (junk junk' : Fl rnd)
    {cl ch tl th : Fl rnd} (hcl : IsDouble cl.val) (hch : IsDouble ch.val) (tl0 : 1 / 2 ^ 20 ≤ tl.val) (th0 : 1 / 2 ^ 20 ≤ th.val)
    (h0 : tl.val ≤ cl.val) (hm : cl.val + tl.val ≤ ch.val - th.val) (h1 : ch.val < 1 / 2) :
    ∃ ir : List (Fl rnd), bpBrIr junk cl ch tl th true = .ok (ir, 1) ∧
      ∀ (irOf : F → List UInt8 → Option (Buf (Fl rnd))) (kind : F) (args : List UInt8), irOf kind args = some ir →
      ∀ sizes : List Nat, (∀ s ∈ sizes, s + ir.length ≤ 4294967296) →
      ∃ blocks rs, sineBlocks table rate amp frq sizes p = .ok blocks ∧ blocks.map List.length = sizes ∧
        filterCalls irOf junk' (blocks.map fun x => (x, kind, args)) none = .ok rs ∧ (∀ r ∈ rs, r.success = true) ∧
        ∀ n, ir.length ≤ n + 1 → n < sizes.sum → ∃ y, (rs.map fun r => r.out).flatten[n]? = some y ∧
          (frq ≤ (cl.val - tl.val) * rate →
            |(y.val : ℝ) - amp.val * Real.sin (2 * Real.pi * (p + frq * ((n : ℝ) - ((ir.length - 1) / 2 : Nat))) / rate)| ≤
              1 / 30 * |(amp.val : ℝ)| + 1 / 2 ^ 37) ∧
          ((cl.val + tl.val) * rate ≤ frq → frq ≤ (ch.val - th.val) * rate → |(y.val : ℝ)| ≤ 1 / 45 * |(amp.val : ℝ)| + 1 / 2 ^ 37) ∧
          ((ch.val + th.val) * rate ≤ frq → 2 * frq ≤ rate →
            |(y.val : ℝ) - amp.val * Real.sin (2 * Real.pi * (p + frq * ((n : ℝ) - ((ir.length - 1) / 2 : Nat))) / rate)| ≤
              1 / 30 * |(amp.val : ℝ)| + 1 / 2 ^ 37) := by
  obtain ⟨ir, i1, -, i2⟩ := C169_double_tone_band_reject (F := F) h ht' junk hcl hch tl0 th0 h0 hm h1
  refine ⟨ir, i1, fun irOf kind args hir sizes hs => ?_⟩
  obtain ⟨blocks, b1, b2, b3⟩ := sineBlocks_eq h ht hr heven hf hr2 hamp hi sizes hp
  have hlen : blocks.flatten.length = sizes.sum := by rw [List.length_flatten, b2]
  obtain ⟨rs, r1, r2, r3⟩ := i2 irOf kind args hir (frq / rate) amp.val (2 * Real.pi * p / rate - Real.pi / 2) (1 / 2 ^ 47) (amp_bound hamp) junk' blocks
    (blocks_size b2 hs) (fun n hn => by rw [tone_form]; exact b3 n (by omega))
  refine ⟨blocks, rs, b1, b2, r1, r2, fun n n1 n2 => ?_⟩
  obtain ⟨y, y1, y2, y3, y4⟩ := r3 n n1 (by omega)
  rw [tone_form] at y2 y4
  refine ⟨y, y1, fun q => small (by norm_num) (y2 ?_), fun q q' => small (by norm_num) (y3 ?_ ?_), fun q q' => small (by norm_num) (y4 ?_ (frq_half hr q'))⟩
  · exact_mod_cast frq_le hr q
  · exact_mod_cast le_frq hr q
  · exact_mod_cast frq_le hr q'
  · exact_mod_cast le_frq hr q

/-! ### A case -/

attribute [local instance] kernelLibm

/-- The same math library meets both conditions. -/
theorem kernelLibm_trig : TrigAccurate nearestDouble := by
  refine ⟨rfl, fun _ _ => libmResult_error (Real.abs_cos_le_one _), fun x _ => ?_⟩
  show |((relativeResult (Real.sin x.val)).val : ℝ) - Real.sin x.val| ≤ _
  have hv := Real.abs_sin_le_one (x.val : ℝ)
  generalize Real.sin (x.val : ℝ) = v at *
  have h1 := (exists_relative v).choose_spec
  rw [relativeResult]
  generalize (exists_relative v).choose = q at *
  have h2 : |(q : ℝ)| ≤ 1 + 1 / 2 ^ 60 := by
    have := abs_add_le ((q : ℝ) - v) v
    rw [sub_add_cancel] at this
    linarith
  have hmax' : (2 : ℝ) ^ 100 ≤ fmax := by exact_mod_cast fmax_ge (e := 100) (by norm_num)
  have h3 := rnd_real nearestDouble_rounds (q := q) (by linarith)
  have h4 := feta_le
  have h5 := abs_sub_le ((nearestDouble q : ℚ) : ℝ) q v
  rw [fu] at h3
  show |((nearestDouble q : ℚ) : ℝ) - v| ≤ _
  generalize feta = z at *
  linarith

/-- A tone of 440 hertz and one of 12000 hertz at a rate of 48000 through a low-pass with the cutoff 1/16, that is 3000 hertz, and the transition 1/32, in
three blocks of different sizes. -/
example : ∃ (table lfo : Buf (Fl nearestDouble)) (ir : Buf (Fl nearestDouble)), sineTables 48000 = .ok (table, lfo) ∧
    lpHpIr (⟨7⟩ : Fl nearestDouble) ⟨1 / 16⟩ ⟨1 / 32⟩ false = .ok ir ∧ ∃ low rs1 high rs2,
    sineBlocks table 48000 (⟨1 / 2⟩ : Fl nearestDouble) 440 [1000, 0, 4096] 7 = .ok low ∧
    filterCalls (fun (_ : Unit) _ => some ir) ⟨5⟩ (low.map fun x => (x, (), [])) none = .ok rs1 ∧
    sineBlocks table 48000 (⟨1 / 2⟩ : Fl nearestDouble) 12000 [1000, 0, 4096] 7 = .ok high ∧
    filterCalls (fun (_ : Unit) _ => some ir) ⟨5⟩ (high.map fun x => (x, (), [])) none = .ok rs2 ∧
    ∀ n, ir.length ≤ n + 1 → n < 5096 → ∃ y1 y2 : Fl nearestDouble, (rs1.map fun r => r.out).flatten[n]? = some y1 ∧
      (rs2.map fun r => r.out).flatten[n]? = some y2 ∧
      |(y1.val : ℝ) - 1 / 2 * Real.sin (2 * Real.pi * (7 + 440 * ((n : ℝ) - ((ir.length - 1) / 2 : Nat))) / 48000)| ≤ 1 / 119 ∧ |(y2.val : ℝ)| ≤ 1 / 199 := by
  have hd : IsDouble (1 / 16) := ⟨1, -4, by norm_num, by norm_num, by norm_num, by norm_num⟩
  have hu : u32 (48000 * sineLfoFactor) = 4800000 := by decide
  obtain ⟨table, t1, -⟩ := C81_double_partial nearestDouble_rounds kernelLibm_trig (size := 48000) (out := List.replicate 48000 0) (by norm_num) (by norm_num)
    (by norm_num) (by rw [List.length_replicate])
  obtain ⟨lfo, l1, -⟩ := C81_double_partial nearestDouble_rounds kernelLibm_trig (size := 4800000) (out := List.replicate 4800000 0) (by norm_num)
    (by norm_num) (by norm_num) (by rw [List.length_replicate])
  have hi : sineTables (S := Fl nearestDouble) 48000 = .ok (table, lfo) := by
    rw [sineTables, t1, hu, l1, ok_bind', ok_bind']
    rfl
  obtain ⟨ir, i1, i2⟩ := C174_low_pass (F := Unit) nearestDouble_rounds kernelLibm_trig kernelLibm_accurate (rate := 48000) (frq := 440) (p := 7)
    (amp := ⟨1 / 2⟩) (by norm_num) (by norm_num) (by norm_num) (by norm_num) (by norm_num [abs_of_pos]) (by norm_num) hi ⟨7⟩ ⟨5⟩ (c := ⟨1 / 16⟩)
    (t := ⟨1 / 32⟩) hd (by norm_num) (by norm_num) (by norm_num)
  obtain ⟨ir', j1, j2⟩ := C174_low_pass (F := Unit) nearestDouble_rounds kernelLibm_trig kernelLibm_accurate (rate := 48000) (frq := 12000) (p := 7)
    (amp := ⟨1 / 2⟩) (by norm_num) (by norm_num) (by norm_num) (by norm_num) (by norm_num [abs_of_pos]) (by norm_num) hi ⟨7⟩ ⟨5⟩ (c := ⟨1 / 16⟩)
    (t := ⟨1 / 32⟩) hd (by norm_num) (by norm_num) (by norm_num)
  have e : ir' = ir := by rw [i1] at j1; exact (Except.ok.inj j1).symm
  subst e
  have hl : ir'.length ≤ 4194307 := by
    obtain ⟨k, k1, k2, -⟩ := C169_double_tone_low_pass (F := Unit) nearestDouble_rounds kernelLibm_accurate ⟨7⟩ (c := ⟨1 / 16⟩)
      (t := ⟨1 / 32⟩) hd (by norm_num) (by norm_num) (by norm_num)
    rw [i1] at k1
    rw [Except.ok.inj k1]
    exact k2
  have hs : ∀ s ∈ [1000, 0, 4096], s + ir'.length ≤ 4294967296 := by
    intro s hs
    simp only [List.mem_cons, List.not_mem_nil, or_false] at hs
    omega
  obtain ⟨low, rs1, a1, -, a3, -, a5⟩ := i2 (fun _ _ => some ir') () [] rfl _ hs
  obtain ⟨high, rs2, b1, -, b3, -, b5⟩ := j2 (fun _ _ => some ir') () [] rfl _ hs
  refine ⟨table, lfo, ir', hi, i1, low, rs1, high, rs2, a1, a3, b1, b3, fun n n1 n2 => ?_⟩
  obtain ⟨y1, c1, -, c3⟩ := a5 n n1 (by simpa using n2)
  obtain ⟨y2, d1, d2, -⟩ := b5 n n1 (by simpa using n2)
  have ha : |(((1 / 2 : ℚ)) : ℝ)| = 1 / 2 := by push_cast; norm_num [abs_of_pos]
  refine ⟨y1, y2, c1, d1, ?_, ?_⟩
  · have := c3 (by norm_num)
    rw [ha] at this
    push_cast at this
    refine this.trans ?_
    norm_num
  · have := d2 (by norm_num) (by norm_num)
    rw [ha] at this
    refine this.trans ?_
    norm_num

end Sp
