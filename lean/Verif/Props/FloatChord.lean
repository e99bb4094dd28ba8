import Verif.Spec.Chord
import Verif.Props.FloatToneProgram

/-! # C175: several tones together through filters -/

set_option linter.unusedSectionVars false

noncomputable section

namespace Sp
variable {rnd : ℚ → ℚ}

theorem chordAt_abs (rate : Nat) (tones : List (SineTone (Fl rnd))) (y : ℝ) : |chordAt rate tones y| ≤ chordAmp tones := by
  induction tones with
  | nil => simp [chordAt, chordAmp]
  | cons x xs ih =>
    simp only [chordAt, chordAmp, List.map_cons, List.sum_cons] at ih ⊢
    refine (abs_add_le _ _).trans (add_le_add ?_ ih)
    rw [abs_mul]
    exact mul_le_of_le_one_right (abs_nonneg _) (Real.abs_sin_le_one _)

theorem chordAmp_le {rate : Nat} {tones : List (SineTone (Fl rnd))} (h : ChordValid rate tones) : 0 ≤ chordAmp tones ∧ chordAmp tones ≤ tones.length := by
  induction tones with
  | nil => simp [chordAmp]
  | cons x xs ih =>
    obtain ⟨i0, i1⟩ := ih fun y hy => h y (by simp [hy])
    have : |(x.amp.val : ℝ)| ≤ 1 := by exact_mod_cast (h x (by simp)).1
    simp only [chordAmp, List.map_cons, List.sum_cons, List.length_cons, Nat.cast_add, Nat.cast_one] at i0 i1 ⊢
    have h0 := abs_nonneg (x.amp.val : ℝ)
    constructor <;> linarith

/-- The tones after `m` samples. -/
private def after (rate m : Nat) (tones : List (SineTone (Fl rnd))) : List (SineTone (Fl rnd)) :=
  tones.map fun x => { x with phase := (x.phase + x.frq * m) % rate }

private theorem after_valid {rate m : Nat} (hr : 0 < rate) {tones : List (SineTone (Fl rnd))} (h : ChordValid rate tones) : ChordValid rate (after rate m tones) := by
  intro x hx
  obtain ⟨y, hy, rfl⟩ := List.mem_map.1 hx
  exact ⟨(h y hy).1, (h y hy).2.1, Nat.mod_lt _ hr⟩

private theorem sin_after {rate p frq m i : Nat} (hr : 0 < rate) :
    Real.sin (2 * Real.pi * (((p + frq * m) % rate : Nat) + frq * (i : ℝ)) / rate) = Real.sin (2 * Real.pi * (p + frq * ((m + i : Nat) : ℝ)) / rate) := by
  have e1 := sin_mod (w := rate) hr ((p + frq * m) % rate + frq * i)
  have e2 := sin_mod (w := rate) hr (p + frq * (m + i))
  have e3 : ((p + frq * m) % rate + frq * i) % rate = (p + frq * (m + i)) % rate := by
    rw [Nat.mod_add_mod, Nat.mul_add, Nat.add_assoc]
  rw [e3, e2] at e1
  push_cast at e1 ⊢
  exact e1.symm

private theorem chordAt_after {rate : Nat} (hr : 0 < rate) (m i : Nat) (tones : List (SineTone (Fl rnd))) :
    chordAt rate (after rate m tones) i = chordAt rate tones ((m + i : Nat) : ℝ) := by
  induction tones with
  | nil => rfl
  | cons x xs ih =>
    simp only [chordAt, after, List.map_cons, List.sum_cons] at ih ⊢
    rw [ih, sin_after hr]

/-- One block: the error grows with the square of the number of tones. -/
private theorem chordBlock_eq (h : RoundsToNearest rnd) [Trig (Fl rnd)] (ht : TrigAccurate rnd) {rate size : Nat} (hr : 2 ≤ rate) (heven : rate % 2 = 0)
    (hr2 : rate < 4294967296) {table lfo : Buf (Fl rnd)} (hi : sineTables rate = .ok (table, lfo)) {tones : List (SineTone (Fl rnd))}
    (hp : ChordValid rate tones) {out : Buf (Fl rnd)} (ho : out.length = size) {s : Nat → ℝ} {k : Nat} (hk : k + tones.length ≤ 2 ^ 20) (hs : ∀ i, |s i| ≤ k)
    (hx : ∀ i, i < size → |((out.getD i 0).val : ℝ) - s i| ≤ k * (k + 1) / 2 ^ 47) :
    ∃ out', chordBlock table rate size tones out = .ok (after rate size tones, out') ∧ out'.length = size ∧
      ∀ i, i < size → |((out'.getD i 0).val : ℝ) - (s i + chordAt rate tones i)| ≤
        ((k + tones.length : Nat) : ℝ) * ((k + tones.length : Nat) + 1) / 2 ^ 47 := by
  induction tones generalizing out s k with
  | nil => exact ⟨out, rfl, ho, fun i hi => by simpa [chordAt] using hx i hi⟩
  | cons x xs ih =>
    obtain ⟨p1, p2, p3⟩ := hp x (by simp)
    have h1 : ((1 : Fl rnd).val : ℚ) = 1 := rfl
    rw [List.length_cons] at hk
    have hkr : (k : ℝ) ≤ 2 ^ 20 := by
      have : k ≤ 2 ^ 20 := by omega
      exact_mod_cast this
    have hk0 : (0 : ℝ) ≤ k := Nat.cast_nonneg _
    have he : (k : ℝ) * (k + 1) / 2 ^ 47 ≤ 1 := by
      rw [div_le_one (by norm_num)]
      refine (mul_le_mul hkr (by linarith : (k : ℝ) + 1 ≤ 2 ^ 20 + 1) (by linarith) (by norm_num)).trans (by norm_num)
    have hb : ∀ i, i < size → |((out.getD i 0).val : ℝ)| ≤ k + 1 := by
      intro i hi
      have a1 := hx i hi
      have a2 := hs i
      rw [abs_le] at a1 a2 ⊢
      constructor <;> linarith
    obtain ⟨o, o1, o2, o3, -⟩ := C113_double_sine_partial h ht (size := size) (amp := x.amp) (amod := List.replicate size 1) (out := out) (frq := x.frq)
      (p := x.phase) hr heven p2 hr2 p3 (by omega) (by simp) p1 (fun m hm => by rw [List.eq_of_mem_replicate hm, h1]; norm_num)
      (fun y hy => by
        obtain ⟨i, hi, rfl⟩ := List.mem_iff_getElem.1 hy
        have := hb i (by omega)
        rw [List.getD_eq_getElem?_getD, List.getElem?_eq_getElem hi, Option.getD_some] at this
        have h2 : |((out[i]).val : ℝ)| ≤ ((2 ^ 50 : ℚ) : ℝ) := by
          push_cast
          refine this.trans ?_
          linarith [(by norm_num : (2 : ℝ) ^ 20 + 1 ≤ 2 ^ 50)]
        exact_mod_cast h2) hi
    obtain ⟨o', q1, q2, q3⟩ := ih (fun y hy => hp y (by simp [hy])) (out := o) (by omega)
      (s := fun i => s i + x.amp.val * Real.sin (2 * Real.pi * (x.phase + x.frq * (i : ℝ)) / rate)) (k := k + 1) (by omega) (fun i => by
        push_cast
        refine (abs_add_le _ _).trans (add_le_add (hs i) ?_)
        rw [abs_mul]
        have : |(x.amp.val : ℝ)| ≤ 1 := by exact_mod_cast p1
        exact mul_le_one₀ this (abs_nonneg _) (Real.abs_sin_le_one _)) (fun i hi => by
        obtain ⟨y, y1, y2⟩ := o3 i (out.getD i 0) 1 hi (by
          rw [List.getD_eq_getElem?_getD, List.getElem?_eq_getElem (by omega), Option.getD_some]) (by rw [List.getElem?_replicate, if_pos hi])
        rw [List.getD_eq_getElem?_getD, y1, Option.getD_some]
        rw [h1] at y2
        have a1 := hx i hi
        have a2 := hb i hi
        push_cast at y2 ⊢
        rw [mul_one] at y2
        have a3 : |((out.getD i 0).val : ℝ)| / 2 ^ 53 ≤ (k + 1) / 2 ^ 53 := div_le_div_of_nonneg_right a2 (by norm_num)
        have a4 : (k : ℝ) * (k + 1) / 2 ^ 47 + (1 / 2 ^ 47 + (k + 1) / 2 ^ 53) ≤ (k + 1) * (k + 1 + 1) / 2 ^ 47 := by
          have e : ((k : ℝ) + 1) * (k + 1 + 1) / 2 ^ 47 = k * (k + 1) / 2 ^ 47 + 2 * (k + 1) / 2 ^ 47 := by ring
          rw [e]
          have : (1 : ℝ) / 2 ^ 47 + (k + 1) / 2 ^ 53 ≤ 2 * (k + 1) / 2 ^ 47 := by
            rw [show (2 : ℝ) * (k + 1) / 2 ^ 47 = (k + 1) / 2 ^ 47 + (k + 1) / 2 ^ 47 by ring]
            refine add_le_add (div_le_div_of_nonneg_right (by linarith) (by norm_num)) (div_le_div_of_nonneg_left (by linarith) (by norm_num) (by norm_num))
          linarith
        generalize Real.sin (2 * Real.pi * (x.phase + x.frq * (i : ℝ)) / rate) = v at *
        rw [abs_le] at a1 y2 ⊢
        constructor <;> linarith)
    refine ⟨o', ?_, q2, fun i hi => ?_⟩
    · rw [chordBlock, o1, ok_bind']
      simp only
      rw [q1, ok_bind']
      rfl
    · have := q3 i hi
      simp only [chordAt, List.map_cons, List.sum_cons, List.length_cons] at this ⊢
      rw [show k + (xs.length + 1) = k + 1 + xs.length by omega, ← add_assoc]
      exact this

/-- All blocks. -/
theorem chordBlocks_eq (h : RoundsToNearest rnd) [Trig (Fl rnd)] (ht : TrigAccurate rnd) {rate : Nat} (hr : 2 ≤ rate) (heven : rate % 2 = 0)
    (hr2 : rate < 4294967296) {table lfo : Buf (Fl rnd)} (hi : sineTables rate = .ok (table, lfo)) (sizes : List Nat) {tones : List (SineTone (Fl rnd))}
    (hp : ChordValid rate tones) (hk : tones.length ≤ 2 ^ 20) :
    ∃ blocks, chordBlocks table rate sizes tones = .ok blocks ∧ blocks.map List.length = sizes ∧
      ∀ n, n < sizes.sum → |((blocks.flatten.getD n 0).val : ℝ) - chordAt rate tones n| ≤ (tones.length : ℝ) * (tones.length + 1) / 2 ^ 47 := by
  induction sizes generalizing tones with
  | nil => exact ⟨[], rfl, rfl, fun n hn => absurd hn (by simp)⟩
  | cons size rest ih =>
    have hz : ((0 : Fl rnd).val : ℚ) = 0 := rfl
    obtain ⟨out, o1, o2, o3⟩ := chordBlock_eq h ht (size := size) hr heven hr2 hi hp (out := List.replicate size 0) (by simp) (s := fun _ => 0) (k := 0) (by omega)
      (fun _ => by simp) (fun i hi => by
        rw [List.getD_eq_getElem?_getD, List.getElem?_replicate, if_pos hi, Option.getD_some, hz]
        simp)
    obtain ⟨bs, b1, b2, b3⟩ := ih (after_valid (m := size) (by omega) hp) (by rw [after, List.length_map]; exact hk)
    refine ⟨out :: bs, ?_, by rw [List.map_cons, b2, o2], fun n hn => ?_⟩
    · rw [chordBlocks, o1, ok_bind']
      simp only
      rw [b1, ok_bind']
      rfl
    · rw [List.flatten_cons, List.getD_eq_getElem?_getD]
      by_cases hs : n < size
      · rw [List.getElem?_append_left (by omega), ← List.getD_eq_getElem?_getD]
        have := o3 n hs
        simpa using this
      · rw [List.getElem?_append_right (by omega), ← List.getD_eq_getElem?_getD, o2]
        have := b3 (n - size) (by rw [List.sum_cons] at hn; omega)
        rw [chordAt_after (by omega), show size + (n - size) = n by omega, after, List.length_map] at this
        exact this

/-- The tones through a kernel in exact arithmetic. -/
private theorem chord_kernel (b : List ℝ) {rate d n : Nat} (hn : b.length ≤ n + 1) (keep : SineTone (Fl rnd) → Bool) {ε : ℝ}
    (tones : List (SineTone (Fl rnd)))
    (hk : ∀ x ∈ tones, ‖response b (x.frq / rate) - (if keep x then delayResponse d (x.frq / rate) else 0)‖ ≤ ε) :
    |∑ j ∈ Finset.range b.length, b.getD j 0 * chordAt rate tones ((n - j : Nat) : ℝ) - chordAt rate (tones.filter keep) ((n : ℝ) - d)| ≤
      ε * chordAmp tones := by
  induction tones with
  | nil => simp [chordAt, chordAmp]
  | cons x xs ih =>
    have i1 := ih fun y hy => hk y (by simp [hy])
    obtain ⟨z, z1, z2, z3⟩ := tone_sum b (x.frq / rate) x.amp.val (2 * Real.pi * x.phase / rate - Real.pi / 2) hn
    simp only [tone_form] at z2 z3
    have hx := hk x (by simp)
    have e1 : ∑ j ∈ Finset.range b.length, b.getD j 0 * chordAt rate (x :: xs) ((n - j : Nat) : ℝ) =
        (z * response b (x.frq / rate)).re + ∑ j ∈ Finset.range b.length, b.getD j 0 * chordAt rate xs ((n - j : Nat) : ℝ) := by
      rw [← z2, ← Finset.sum_add_distrib]
      refine Finset.sum_congr rfl fun j _ => ?_
      simp only [chordAt, List.map_cons, List.sum_cons]
      ring
    have e2 : chordAt rate ((x :: xs).filter keep) ((n : ℝ) - d) =
        (z * (if keep x then delayResponse d (x.frq / rate) else 0)).re + chordAt rate (xs.filter keep) ((n : ℝ) - d) := by
      by_cases hx : keep x = true
      · rw [List.filter_cons_of_pos hx, if_pos hx, ← z3 d]
        rfl
      · rw [List.filter_cons_of_neg hx, if_neg hx, mul_zero]
        simp
    have e3 : chordAmp (x :: xs) = |(x.amp.val : ℝ)| + chordAmp xs := rfl
    have e4 : |(z * (response b (x.frq / rate) - (if keep x then delayResponse d (x.frq / rate) else 0))).re| ≤ ε * |(x.amp.val : ℝ)| := by
      refine (Complex.abs_re_le_norm _).trans ?_
      rw [norm_mul, z1, mul_comm]
      exact mul_le_mul_of_nonneg_right hx (abs_nonneg _)
    rw [e1, e2, e3, mul_add]
    rw [mul_sub, Complex.sub_re] at e4
    rw [abs_le] at i1 e4 ⊢
    constructor <;> linarith

/-- Tones of the program through a kernel of bounded length and size. -/
private theorem chord_through {F : Type} [DecidableEq F] (h : RoundsToNearest rnd) [Trig (Fl rnd)] (ht : TrigAccurate rnd) {rate : Nat} (hr : 2 ≤ rate)
    (heven : rate % 2 = 0) (hr2 : rate < 4294967296) {table lfo : Buf (Fl rnd)} (hi : sineTables rate = .ok (table, lfo)) {ir : List (Fl rnd)}
    (hpos : 1 ≤ ir.length) (hlen : ir.length ≤ 8388613) (hsize : kernelSize ir ≤ 613) (irOf : F → List UInt8 → Option (Buf (Fl rnd))) (kind : F)
    (args : List UInt8) (hir : irOf kind args = some ir) (junk' : Fl rnd) {sizes : List Nat} (hs : ∀ s ∈ sizes, s + ir.length ≤ 4294967296)
    {tones : List (SineTone (Fl rnd))} (hp : ChordValid rate tones) (hk : tones.length ≤ 2 ^ 20) (keep : SineTone (Fl rnd) → Bool) {d : Nat} {ε ε' : ℝ}
    (hkeep : ∀ x ∈ tones, ‖response (realValues ir) (x.frq / rate) - (if keep x then delayResponse d (x.frq / rate) else 0)‖ ≤ ε + ir.length / 2 ^ 38)
    (hε : ε + 1 / 2 ^ 14 ≤ ε') :
    ∃ blocks rs, chordBlocks table rate sizes tones = .ok blocks ∧ blocks.map List.length = sizes ∧
      filterCalls irOf junk' (blocks.map fun x => (x, kind, args)) none = .ok rs ∧ (∀ r ∈ rs, r.success = true) ∧
      ∀ n, ir.length ≤ n + 1 → n < sizes.sum → ∃ y, (rs.map fun r => r.out).flatten[n]? = some y ∧
        |(y.val : ℝ) - chordAt rate (tones.filter keep) ((n : ℝ) - d)| ≤ ε' * chordAmp tones + ((tones.length : ℝ) + 1) ^ 2 / 2 ^ 37 := by
  obtain ⟨blocks, b1, b2, b3⟩ := chordBlocks_eq h ht hr heven hr2 hi sizes hp hk
  have hl : blocks.flatten.length = sizes.sum := by rw [List.length_flatten, b2]
  obtain ⟨A0, A1⟩ := chordAmp_le hp
  have hm : (tones.length : ℝ) ≤ 2 ^ 20 := by exact_mod_cast hk
  have hm0 : (0 : ℝ) ≤ tones.length := Nat.cast_nonneg _
  have hW0 : 0 ≤ kernelSize ir := by
    rw [kernelSize]
    refine List.sum_nonneg fun v hv => ?_
    obtain ⟨w, -, rfl⟩ := List.mem_map.1 hv
    exact abs_nonneg _
  set δ : ℝ := (tones.length : ℝ) * (tones.length + 1) / 2 ^ 47 with hδ
  have δ0 : 0 ≤ δ := by positivity
  have δ1 : δ ≤ (tones.length + 1) ^ 2 / 2 ^ 47 := by
    rw [hδ]
    refine div_le_div_of_nonneg_right ?_ (by norm_num)
    nlinarith
  have δ2 : δ ≤ 1 := by
    rw [hδ, div_le_one (by norm_num)]
    refine (mul_le_mul hm (by linarith : (tones.length : ℝ) + 1 ≤ 2 ^ 20 + 1) (by linarith) (by norm_num)).trans (by norm_num)
  have hprod : kernelSize ir * (chordAmp tones + δ) ≤ 613 * (chordAmp tones + δ) := mul_le_mul_of_nonneg_right hsize (by linarith)
  obtain ⟨rs, r1, r2, r3⟩ := signal_through h hpos (by omega) irOf kind args hir (s := fun n => chordAt rate tones n) (fun n => chordAt_abs rate tones n)
    (δ := δ) (by
      refine hprod.trans ?_
      have : 613 * (chordAmp tones + δ) ≤ 613 * (2 ^ 20 + 1) := mul_le_mul_of_nonneg_left (by linarith) (by norm_num)
      exact this.trans (by norm_num)) junk' blocks (blocks_size b2 hs) (fun n hn => b3 n (by omega))
  refine ⟨blocks, rs, b1, b2, r1, r2, fun n n1 n2 => ?_⟩
  obtain ⟨y, y1, y2⟩ := r3 n n1 (by omega)
  refine ⟨y, y1, ?_⟩
  have k1 := chord_kernel (realValues ir) (n := n) (by rw [realValues, List.length_map]; exact n1) keep tones hkeep
  rw [show (realValues ir).length = ir.length by rw [realValues, List.length_map]] at k1
  have hlr : (ir.length : ℝ) ≤ 8388613 := by exact_mod_cast hlen
  have hl0 : (0 : ℝ) ≤ ir.length := Nat.cast_nonneg _
  have hR : ((ir.length : ℝ) + 1) / 2 ^ 52 * (kernelSize ir * (chordAmp tones + δ)) ≤ 1 / 2 ^ 18 * (chordAmp tones + δ) := by
    have h3 : ((ir.length : ℝ) + 1) / 2 ^ 52 ≤ 8388614 / 2 ^ 52 := div_le_div_of_nonneg_right (by linarith) (by norm_num)
    refine (mul_le_mul h3 hprod (mul_nonneg hW0 (by linarith)) (by norm_num)).trans ?_
    rw [← mul_assoc]
    exact mul_le_mul_of_nonneg_right (by norm_num) (by linarith)
  have hE : (ir.length : ℝ) / 2 ^ 38 ≤ 3 / 2 ^ 16 := by
    rw [div_le_iff₀ (by norm_num)]
    norm_num
    linarith
  have hEA := mul_le_mul_of_nonneg_right hE A0
  have hεA := mul_le_mul_of_nonneg_right hε A0
  have hS := mul_le_mul_of_nonneg_right hsize δ0
  have hq : (1 : ℝ) ≤ (tones.length + 1) ^ 2 := by nlinarith
  have hfin : (614 : ℝ) * ((tones.length + 1) ^ 2 / 2 ^ 47) + 1 / 2 ^ 100 ≤ (tones.length + 1) ^ 2 / 2 ^ 37 := by
    generalize ((tones.length : ℝ) + 1) ^ 2 = q at *
    have : (1 : ℝ) / 2 ^ 100 ≤ q / 2 ^ 100 := div_le_div_of_nonneg_right hq (by norm_num)
    have e : (614 : ℝ) * (q / 2 ^ 47) + q / 2 ^ 100 = q * (614 / 2 ^ 47 + 1 / 2 ^ 100) := by ring
    have e' : q / 2 ^ 37 = q * (1 / 2 ^ 37) := by ring
    have : q * (614 / 2 ^ 47 + 1 / 2 ^ 100) ≤ q * (1 / 2 ^ 37) := mul_le_mul_of_nonneg_left (by norm_num) (by linarith)
    linarith
  have hsum := abs_sub_le (y.val : ℝ) (∑ j ∈ Finset.range ir.length, (realValues ir).getD j 0 * chordAt rate tones ((n - j : Nat) : ℝ))
    (chordAt rate (tones.filter keep) ((n : ℝ) - d))
  generalize ((tones.length : ℝ) + 1) ^ 2 / 2 ^ 37 = X at *
  generalize ((tones.length : ℝ) + 1) ^ 2 / 2 ^ 47 = X' at *
  generalize (∑ j ∈ Finset.range ir.length, (realValues ir).getD j 0 * chordAt rate tones ((n - j : Nat) : ℝ)) = V at *
  generalize chordAmp tones = A at *
  generalize ((ir.length : ℝ) + 1) / 2 ^ 52 * (kernelSize ir * (A + δ)) = R at *
  generalize kernelSize ir = W at *
  clear_value δ
  linarith

/-- The kernels, with what is needed of them. -/
private theorem low_high_kernel (h : RoundsToNearest rnd) [Trig (Fl rnd)] (ht : LibmAccurate rnd) (junk : Fl rnd) {c t : Fl rnd} (hc : IsDouble c.val)
    (t0 : 1 / 2 ^ 20 ≤ t.val) (h0 : t.val ≤ c.val) (h1 : c.val ≤ 1 / 2) (high : Bool) :
    ∃ ir : List (Fl rnd), lpHpIr junk c t high = .ok ir ∧ 1 ≤ ir.length ∧ ir.length ≤ 8388613 ∧ kernelSize ir ≤ 613 ∧ ∀ f : ℝ,
      (|f| ≤ c.val - t.val → ‖response (realValues ir) f - (if high then 0 else delayResponse ((ir.length - 1) / 2) f)‖ ≤ 1 / 75 + ir.length / 2 ^ 38) ∧
      (c.val + t.val ≤ |f| → |f| ≤ 1 / 2 →
        ‖response (realValues ir) f - (if high then delayResponse ((ir.length - 1) / 2) f else 0)‖ ≤ 1 / 75 + ir.length / 2 ^ 38) := by
  have t1 : 4 / 1073741824 ≤ t.val := le_trans (by norm_num) t0
  obtain ⟨M, y, z, -, hl, y1, z1, -, -, -⟩ := both_kernels h ht junk hc t1 h0 h1
  have hs := fun ir => C169_double_sizes h ht junk hc t1 h0 h1 (ir := ir)
  have more : ∀ (ir : List (Fl rnd)) (ε : ℝ), ε ≤ 1 / 75 → ε + (ir.length : ℝ) / 2 ^ 40 ≤ 1 / 75 + ir.length / 2 ^ 38 := by
    intro ir ε hε
    have : (0 : ℝ) ≤ ir.length := Nat.cast_nonneg _
    linarith
  cases high with
  | false =>
    obtain ⟨ir, i1, -, i2⟩ := C169_double_low_pass h ht junk hc (le_trans (by norm_num) t1) h0 h1
    have el : ir.length = 2 * M + 1 := by
      rw [i1] at y1
      rw [Except.ok.inj y1, tab_length]
    have hlen : ir.length ≤ 4194307 := length_le t0 (by rw [el]; exact hl)
    refine ⟨ir, i1, by omega, by omega, ((hs ir).1 i1).trans (by norm_num), fun f => ⟨fun hf => ?_, fun hf hf' => ?_⟩⟩
    · exact ((i2 f).1 hf).trans (more _ _ le_rfl)
    · simp only [Bool.false_eq_true, if_false, sub_zero]
      exact ((i2 f).2 hf hf').trans (more _ _ (by norm_num))
  | true =>
    obtain ⟨ir, i1, -, i2⟩ := C169_double_high_pass h ht junk hc (le_trans (by norm_num) t1) h0 h1
    have el : ir.length = 2 * M + 1 := by
      rw [i1] at z1
      rw [Except.ok.inj z1, tab_length]
    have hlen : ir.length ≤ 4194307 := length_le t0 (by rw [el]; exact hl)
    refine ⟨ir, i1, by omega, by omega, ((hs ir).2 i1).trans (by norm_num), fun f => ⟨fun hf => ?_, fun hf hf' => ?_⟩⟩
    · simp only [if_true, sub_zero]
      exact ((i2 f).1 hf).trans (more _ _ le_rfl)
    · exact ((i2 f).2 hf hf').trans (more _ _ (by norm_num))

/-- **C175, low-pass.** A program initialises the library, plays up to 2^20 tones together with `sp_sine`, block by block with blocks of any sizes and each
tone with amplitude, frequency and phase of its own, and filters these blocks with a low-pass filter, all with numbers of type `double`. No tone is inside of
the transition or above half of the sampling rate. Then, once the kernel is filled, what comes out is the sum of the tones below the cutoff alone, delayed by
half of the kernel length, with an error of at most 1/60 of the sum of the amplitudes (and rounding errors). -/
theorem C175_low_pass {F : Type} [DecidableEq F] (h : RoundsToNearest rnd) [Trig (Fl rnd)] (ht : TrigAccurate rnd) (ht' : LibmAccurate rnd)
    {rate : Nat} (hr : 2 ≤ rate) (heven : rate % 2 = 0) (hr2 : rate < 4294967296) {table lfo : Buf (Fl rnd)} (hi : sineTables rate = .ok (table, lfo))
    (junk junk' : Fl rnd) 
    {c t : Fl rnd} (hc : IsDouble c.val) (t0 : 1 / 2 ^ 20 ≤ t.val) (h0 : t.val ≤ c.val) (h1 : c.val ≤ 1 / 2) :
    ∃ ir : List (Fl rnd), lpHpIr junk c t false = .ok ir ∧
      ∀ (irOf : F → List UInt8 → Option (Buf (Fl rnd))) (kind : F) (args : List UInt8), irOf kind args = some ir →
      ∀ sizes : List Nat, (∀ s ∈ sizes, s + ir.length ≤ 4294967296) →
      ∀ tones : List (SineTone (Fl rnd)), ChordValid rate tones → tones.length ≤ 2 ^ 20 →
      (∀ x ∈ tones, x.frq ≤ (c.val - t.val) * rate ∨ (c.val + t.val) * rate ≤ x.frq ∧ 2 * x.frq ≤ rate) →
      ∃ blocks rs, chordBlocks table rate sizes tones = .ok blocks ∧ blocks.map List.length = sizes ∧
        filterCalls irOf junk' (blocks.map fun x => (x, kind, args)) none = .ok rs ∧ (∀ r ∈ rs, r.success = true) ∧
        ∀ n, ir.length ≤ n + 1 → n < sizes.sum → ∃ y, (rs.map fun r => r.out).flatten[n]? = some y ∧
          |(y.val : ℝ) - chordAt rate (tones.filter fun x => x.frq ≤ (c.val - t.val) * rate) ((n : ℝ) - ((ir.length - 1) / 2 : Nat))| ≤
            1 / 60 * chordAmp tones + ((tones.length : ℝ) + 1) ^ 2 / 2 ^ 37 := by
  obtain ⟨ir, i1, i2, i3, i4, i5⟩ := low_high_kernel h ht' junk hc t0 h0 h1 false
  refine ⟨ir, i1, fun irOf kind args hir sizes hs tones hp hk hb => ?_⟩
  refine chord_through h ht hr heven hr2 hi i2 i3 i4 irOf kind args hir junk' hs hp hk _ (ε := 1 / 75) (fun x hx => ?_) (by norm_num)
  have hrq : (0 : ℚ) < rate := by exact_mod_cast (by omega : 0 < rate)
  have ht0 : 0 < t.val := lt_of_lt_of_le (by norm_num) t0
  rcases hb x hx with hl | ⟨hl, hl'⟩
  · have := (i5 (x.frq / rate)).1 (by exact_mod_cast frq_le hr hl)
    rw [if_pos (by simpa using hl)]
    simpa using this
  · have hn : ¬ ((x.frq : ℚ) ≤ (c.val - t.val) * rate) := by
      have := mul_lt_mul_of_pos_right (by linarith : c.val - t.val < c.val + t.val) hrq
      linarith
    have := (i5 (x.frq / rate)).2 (by exact_mod_cast le_frq hr hl) (frq_half hr hl')
    rw [if_neg (by simpa using hn)]
    simpa using this

/-- **C175, high-pass.** The same for a high-pass filter: the tones above the cutoff alone. -/
theorem C175_high_pass {F : Type} [DecidableEq F] (h : RoundsToNearest rnd) [Trig (Fl rnd)] (ht : TrigAccurate rnd) (ht' : LibmAccurate rnd)
    {rate : Nat} (hr : 2 ≤ rate) (heven : rate % 2 = 0) (hr2 : rate < 4294967296) {table lfo : Buf (Fl rnd)} (hi : sineTables rate = .ok (table, lfo))
    (junk junk' : Fl rnd) 
    {c t : Fl rnd} (hc : IsDouble c.val) (t0 : 1 / 2 ^ 20 ≤ t.val) (h0 : t.val ≤ c.val) (h1 : c.val ≤ 1 / 2) :
    ∃ ir : List (Fl rnd), lpHpIr junk c t true = .ok ir ∧
      ∀ (irOf : F → List UInt8 → Option (Buf (Fl rnd))) (kind : F) (args : List UInt8), irOf kind args = some ir →
      ∀ sizes : List Nat, (∀ s ∈ sizes, s + ir.length ≤ 4294967296) →
      ∀ tones : List (SineTone (Fl rnd)), ChordValid rate tones → tones.length ≤ 2 ^ 20 →
      (∀ x ∈ tones, x.frq ≤ (c.val - t.val) * rate ∨ (c.val + t.val) * rate ≤ x.frq ∧ 2 * x.frq ≤ rate) →
      ∃ blocks rs, chordBlocks table rate sizes tones = .ok blocks ∧ blocks.map List.length = sizes ∧
        filterCalls irOf junk' (blocks.map fun x => (x, kind, args)) none = .ok rs ∧ (∀ r ∈ rs, r.success = true) ∧
        ∀ n, ir.length ≤ n + 1 → n < sizes.sum → ∃ y, (rs.map fun r => r.out).flatten[n]? = some y ∧
          |(y.val : ℝ) - chordAt rate (tones.filter fun x => (c.val + t.val) * rate ≤ x.frq) ((n : ℝ) - ((ir.length - 1) / 2 : Nat))| ≤
            1 / 60 * chordAmp tones + ((tones.length : ℝ) + 1) ^ 2 / 2 ^ 37 := by
  obtain ⟨ir, i1, i2, i3, i4, i5⟩ := low_high_kernel h ht' junk hc t0 h0 h1 true
  refine ⟨ir, i1, fun irOf kind args hir sizes hs tones hp hk hb => ?_⟩
  refine chord_through h ht hr heven hr2 hi i2 i3 i4 irOf kind args hir junk' hs hp hk _ (ε := 1 / 75) (fun x hx => ?_) (by norm_num)
  have hrq : (0 : ℚ) < rate := by exact_mod_cast (by omega : 0 < rate)
  have ht0 : 0 < t.val := lt_of_lt_of_le (by norm_num) t0
  rcases hb x hx with hl | ⟨hl, hl'⟩
  · have hn : ¬ ((c.val + t.val) * rate ≤ x.frq) := by
      have := mul_lt_mul_of_pos_right (by linarith : c.val - t.val < c.val + t.val) hrq
      linarith
    have := (i5 (x.frq / rate)).1 (by exact_mod_cast frq_le hr hl)
    rw [if_neg (by simpa using hn)]
    simpa using this
  · have := (i5 (x.frq / rate)).2 (by exact_mod_cast le_frq hr hl) (frq_half hr hl')
    rw [if_pos (by simpa using hl)]
    simpa using this

/-- **C175, band-pass.** The same for a band-pass filter: the tones inside of the band alone. -/
theorem C175_band_pass {F : Type} [DecidableEq F] (h : RoundsToNearest rnd) [Trig (Fl rnd)] (ht : TrigAccurate rnd) (ht' : LibmAccurate rnd)
    {rate : Nat} (hr : 2 ≤ rate) (heven : rate % 2 = 0) (hr2 : rate < 4294967296) {table lfo : Buf (Fl rnd)} (hi : sineTables rate = .ok (table, lfo))
    (junk junk' : Fl rnd) 
    {cl ch tl th : Fl rnd} (hcl : IsDouble cl.val) (hch : IsDouble ch.val) (tl0 : 1 / 2 ^ 20 ≤ tl.val) (th0 : 1 / 2 ^ 20 ≤ th.val)
    (h0 : tl.val ≤ cl.val) (hm : cl.val + tl.val ≤ ch.val - th.val) (h1 : ch.val < 1 / 2) :
    ∃ ir : List (Fl rnd), bpBrIr junk cl ch tl th false = .ok (ir, 3) ∧
      ∀ (irOf : F → List UInt8 → Option (Buf (Fl rnd))) (kind : F) (args : List UInt8), irOf kind args = some ir →
      ∀ sizes : List Nat, (∀ s ∈ sizes, s + ir.length ≤ 4294967296) →
      ∀ tones : List (SineTone (Fl rnd)), ChordValid rate tones → tones.length ≤ 2 ^ 20 →
      (∀ x ∈ tones, x.frq ≤ (cl.val - tl.val) * rate ∨ (cl.val + tl.val) * rate ≤ x.frq ∧ x.frq ≤ (ch.val - th.val) * rate ∨
        (ch.val + th.val) * rate ≤ x.frq ∧ 2 * x.frq ≤ rate) →
      ∃ blocks rs, chordBlocks table rate sizes tones = .ok blocks ∧ blocks.map List.length = sizes ∧
        filterCalls irOf junk' (blocks.map fun x => (x, kind, args)) none = .ok rs ∧ (∀ r ∈ rs, r.success = true) ∧
        ∀ n, ir.length ≤ n + 1 → n < sizes.sum → ∃ y, (rs.map fun r => r.out).flatten[n]? = some y ∧
          |(y.val : ℝ) - chordAt rate (tones.filter fun x => (cl.val + tl.val) * rate ≤ x.frq ∧ x.frq ≤ (ch.val - th.val) * rate) ((n : ℝ) - ((ir.length - 1) / 2 : Nat))| ≤
            1 / 40 * chordAmp tones + ((tones.length : ℝ) + 1) ^ 2 / 2 ^ 37 := by
  obtain ⟨ir, i1, i2, il, i4, i5⟩ := C169_double_band_pass h ht' junk hcl hch (le_trans (by norm_num) tl0) (le_trans (by norm_num) th0) h0 hm h1
  have hlen : ir.length ≤ 8388613 := by
    have q : ∀ t : ℚ, 1 / 2 ^ 20 ≤ t → 4 / t ≤ 4194304 := by
      intro t t0
      rw [div_le_iff₀ (by norm_num)] at t0
      rw [div_le_iff₀ (by linarith)]
      linarith
    have q1 := q _ tl0
    have q2 := q _ th0
    have : (ir.length : ℚ) ≤ 8388613 := by linarith
    exact_mod_cast this
  refine ⟨ir, i1, fun irOf kind args hir sizes hs tones hp hk hb => ?_⟩
  refine chord_through h ht hr heven hr2 hi i2 hlen (i4.trans (by norm_num)) irOf kind args hir junk' hs hp hk _ (ε := 1 / 45) (fun x hx => ?_) (by norm_num)
  have hrq : (0 : ℚ) < rate := by exact_mod_cast (by omega : 0 < rate)
  have htl0 : 0 < tl.val := lt_of_lt_of_le (by norm_num) tl0
  have hth0 : 0 < th.val := lt_of_lt_of_le (by norm_num) th0
  have m1 := mul_lt_mul_of_pos_right (by linarith : cl.val - tl.val < cl.val + tl.val) hrq
  have m2 := mul_lt_mul_of_pos_right (by linarith : ch.val - th.val < ch.val + th.val) hrq
  have m3 := mul_le_mul_of_nonneg_right hm hrq.le
  obtain ⟨j1, j2, j3⟩ := i5 (x.frq / rate)
  rcases hb x hx with hl | ⟨hl, hl'⟩ | ⟨hl, hl'⟩
  · have := j1 (by exact_mod_cast frq_le hr hl)
    rw [if_neg (by simp only [decide_eq_true_eq]; rintro ⟨q1, q2⟩; linarith)]
    first | exact this | (rw [sub_zero]; exact this.trans (by linarith))
  · have := j2 (by exact_mod_cast le_frq hr hl) (by exact_mod_cast frq_le hr hl')
    rw [if_pos (by simp only [decide_eq_true_eq]; exact ⟨hl, hl'⟩)]
    first | exact this | (rw [sub_zero]; exact this.trans (by linarith))
  · have := j3 (by exact_mod_cast le_frq hr hl) (frq_half hr hl')
    rw [if_neg (by simp only [decide_eq_true_eq]; rintro ⟨q1, q2⟩; linarith)]
    first | exact this | (rw [sub_zero]; exact this.trans (by linarith))

/-- **C175, band-reject.** The same for a band-reject filter: the tones outside of the band alone. -/
theorem C175_band_reject {F : Type} [DecidableEq F] (h : RoundsToNearest rnd) [Trig (Fl rnd)] (ht : TrigAccurate rnd) (ht' : LibmAccurate rnd)
    {rate : Nat} (hr : 2 ≤ rate) (heven : rate % 2 = 0) (hr2 : rate < 4294967296) {table lfo : Buf (Fl rnd)} (hi : sineTables rate = .ok (table, lfo))
    (junk junk' : Fl rnd) 
    {cl ch tl th : Fl rnd} (hcl : IsDouble cl.val) (hch : IsDouble ch.val) (tl0 : 1 / 2 ^ 20 ≤ tl.val) (th0 : 1 / 2 ^ 20 ≤ th.val)
    (h0 : tl.val ≤ cl.val) (hm : cl.val + tl.val ≤ ch.val - th.val) (h1 : ch.val < 1 / 2) :
    ∃ ir : List (Fl rnd), bpBrIr junk cl ch tl th true = .ok (ir, 1) ∧
      ∀ (irOf : F → List UInt8 → Option (Buf (Fl rnd))) (kind : F) (args : List UInt8), irOf kind args = some ir →
      ∀ sizes : List Nat, (∀ s ∈ sizes, s + ir.length ≤ 4294967296) →
      ∀ tones : List (SineTone (Fl rnd)), ChordValid rate tones → tones.length ≤ 2 ^ 20 →
      (∀ x ∈ tones, x.frq ≤ (cl.val - tl.val) * rate ∨ (cl.val + tl.val) * rate ≤ x.frq ∧ x.frq ≤ (ch.val - th.val) * rate ∨
        (ch.val + th.val) * rate ≤ x.frq ∧ 2 * x.frq ≤ rate) →
      ∃ blocks rs, chordBlocks table rate sizes tones = .ok blocks ∧ blocks.map List.length = sizes ∧
        filterCalls irOf junk' (blocks.map fun x => (x, kind, args)) none = .ok rs ∧ (∀ r ∈ rs, r.success = true) ∧
        ∀ n, ir.length ≤ n + 1 → n < sizes.sum → ∃ y, (rs.map fun r => r.out).flatten[n]? = some y ∧
          |(y.val : ℝ) - chordAt rate (tones.filter fun x => ¬ ((cl.val + tl.val) * rate ≤ x.frq ∧ x.frq ≤ (ch.val - th.val) * rate)) ((n : ℝ) - ((ir.length - 1) / 2 : Nat))| ≤
            1 / 30 * chordAmp tones + ((tones.length : ℝ) + 1) ^ 2 / 2 ^ 37 := by
  obtain ⟨ir, i1, i2, il, i4, i5⟩ := C169_double_band_reject h ht' junk hcl hch (le_trans (by norm_num) tl0) (le_trans (by norm_num) th0) h0 hm h1
  have hlen : ir.length ≤ 8388613 := by
    have q : ∀ t : ℚ, 1 / 2 ^ 20 ≤ t → 4 / t ≤ 4194304 := by
      intro t t0
      rw [div_le_iff₀ (by norm_num)] at t0
      rw [div_le_iff₀ (by linarith)]
      linarith
    have q1 := q _ tl0
    have q2 := q _ th0
    have : (ir.length : ℚ) ≤ 8388613 := by linarith [max_le q1 q2]
    exact_mod_cast this
  refine ⟨ir, i1, fun irOf kind args hir sizes hs tones hp hk hb => ?_⟩
  refine chord_through h ht hr heven hr2 hi i2 hlen (i4.trans (by norm_num)) irOf kind args hir junk' hs hp hk _ (ε := 2 / 75) (fun x hx => ?_) (by norm_num)
  have hrq : (0 : ℚ) < rate := by exact_mod_cast (by omega : 0 < rate)
  have htl0 : 0 < tl.val := lt_of_lt_of_le (by norm_num) tl0
  have hth0 : 0 < th.val := lt_of_lt_of_le (by norm_num) th0
  have m1 := mul_lt_mul_of_pos_right (by linarith : cl.val - tl.val < cl.val + tl.val) hrq
  have m2 := mul_lt_mul_of_pos_right (by linarith : ch.val - th.val < ch.val + th.val) hrq
  have m3 := mul_le_mul_of_nonneg_right hm hrq.le
  obtain ⟨j1, j2, j3⟩ := i5 (x.frq / rate)
  rcases hb x hx with hl | ⟨hl, hl'⟩ | ⟨hl, hl'⟩
  · have := j1 (by exact_mod_cast frq_le hr hl)
    rw [if_pos (by simp only [decide_eq_true_eq]; rintro ⟨q1, q2⟩; linarith)]
    first | exact this | (rw [sub_zero]; exact this.trans (by linarith))
  · have := j2 (by exact_mod_cast le_frq hr hl) (by exact_mod_cast frq_le hr hl')
    rw [if_neg (by simp only [decide_eq_true_eq]; exact fun q => q ⟨hl, hl'⟩)]
    first | exact this | (rw [sub_zero]; exact this.trans (by linarith))
  · have := j3 (by exact_mod_cast le_frq hr hl) (frq_half hr hl')
    rw [if_pos (by simp only [decide_eq_true_eq]; rintro ⟨q1, q2⟩; linarith)]
    first | exact this | (rw [sub_zero]; exact this.trans (by linarith))

/-! ### A case -/

attribute [local instance] kernelLibm

/-- Three tones of 440, 660 and 12000 hertz together at a rate of 48000 through a low-pass with the cutoff 1/16, that is 3000 hertz, in three blocks: the
first two are left. -/
example : ∃ (table lfo ir : Buf (Fl nearestDouble)) (a b c : SineTone (Fl nearestDouble)), sineTables 48000 = .ok (table, lfo) ∧
    lpHpIr (⟨7⟩ : Fl nearestDouble) ⟨1 / 16⟩ ⟨1 / 32⟩ false = .ok ir ∧ (a.frq, b.frq, c.frq) = (440, 660, 12000) ∧ ∃ blocks rs,
    chordBlocks table 48000 [1000, 0, 4096] [a, b, c] = .ok blocks ∧
    filterCalls (fun (_ : Unit) _ => some ir) ⟨5⟩ (blocks.map fun x => (x, (), [])) none = .ok rs ∧
    ∀ n, ir.length ≤ n + 1 → n < 5096 → ∃ y : Fl nearestDouble, (rs.map fun r => r.out).flatten[n]? = some y ∧
      |(y.val : ℝ) - chordAt 48000 [a, b] ((n : ℝ) - ((ir.length - 1) / 2 : Nat))| ≤ 1 / 39 := by
  have hd : IsDouble (1 / 16) := ⟨1, -4, by norm_num, by norm_num, by norm_num, by norm_num⟩
  have hu : u32 (48000 * sineLfoFactor) = 4800000 := by decide
  obtain ⟨table, t1, -⟩ := C81_double_partial nearestDouble_rounds kernelLibm_trig (size := 48000) (out := List.replicate 48000 0) (by norm_num) (by norm_num)
    (by norm_num) (by rw [List.length_replicate])
  obtain ⟨lfo, l1, -⟩ := C81_double_partial nearestDouble_rounds kernelLibm_trig (size := 4800000) (out := List.replicate 4800000 0) (by norm_num)
    (by norm_num) (by norm_num) (by rw [List.length_replicate])
  have hi : sineTables (S := Fl nearestDouble) 48000 = .ok (table, lfo) := by
    rw [sineTables, t1, hu, l1, ok_bind', ok_bind']
    rfl
  obtain ⟨ir, i1, i2⟩ := C175_low_pass (F := Unit) nearestDouble_rounds kernelLibm_trig kernelLibm_accurate (rate := 48000) (by norm_num) (by norm_num)
    (by norm_num) hi ⟨7⟩ ⟨5⟩ (c := ⟨1 / 16⟩) (t := ⟨1 / 32⟩) hd (by norm_num) (by norm_num) (by norm_num)
  have hl : ir.length ≤ 4194307 := by
    obtain ⟨k, k1, k2, -⟩ := C169_double_tone_low_pass (F := Unit) nearestDouble_rounds kernelLibm_accurate ⟨7⟩ (c := ⟨1 / 16⟩)
      (t := ⟨1 / 32⟩) hd (by norm_num) (by norm_num) (by norm_num)
    rw [i1] at k1
    rw [Except.ok.inj k1]
    exact k2
  let a : SineTone (Fl nearestDouble) := ⟨⟨1 / 2⟩, 440, 7⟩
  let b : SineTone (Fl nearestDouble) := ⟨⟨-1 / 2⟩, 660, 0⟩
  let c : SineTone (Fl nearestDouble) := ⟨⟨1 / 2⟩, 12000, 5⟩
  obtain ⟨blocks, rs, b1, -, b3, -, b5⟩ := i2 (fun _ _ => some ir) () [] rfl [1000, 0, 4096] (by
    intro s hs
    simp only [List.mem_cons, List.not_mem_nil, or_false] at hs
    omega) [a, b, c] (by
    intro x hx
    simp only [List.mem_cons, List.not_mem_nil, or_false] at hx
    rcases hx with rfl | rfl | rfl <;> simp only [a, b, c] <;> norm_num [abs_of_pos, abs_of_neg]) (by simp) (by
    intro x hx
    simp only [List.mem_cons, List.not_mem_nil, or_false] at hx
    rcases hx with rfl | rfl | rfl
    · left; norm_num [a]
    · left; norm_num [b]
    · right; norm_num [c])
  refine ⟨table, lfo, ir, a, b, c, hi, i1, rfl, blocks, rs, b1, b3, fun n n1 n2 => ?_⟩
  obtain ⟨y, y1, y2⟩ := b5 n n1 (by simpa using n2)
  refine ⟨y, y1, ?_⟩
  have e : [a, b, c].filter (fun x => (x.frq : ℚ) ≤ ((⟨1 / 16⟩ : Fl nearestDouble).val - (⟨1 / 32⟩ : Fl nearestDouble).val) * ((48000 : Nat) : ℚ)) = [a, b] := by
    rw [List.filter_cons_of_pos (by norm_num [a]), List.filter_cons_of_pos (by norm_num [b]), List.filter_cons_of_neg (by norm_num [c]), List.filter_nil]
  rw [e] at y2
  refine y2.trans ?_
  have ea : chordAmp [a, b, c] = 3 / 2 := by
    simp only [chordAmp, a, b, c, List.map_cons, List.map_nil, List.sum_cons, List.sum_nil]
    push_cast
    norm_num [abs_of_pos, abs_of_neg]
  rw [ea]
  norm_num

end Sp
