import Verif.Props.ConvolutionFilter
import Verif.Props.FilterFormula

/-!
# C149: steady tones through the windowed sinc filters
-/

set_option linter.unusedSectionVars false

namespace Sp

/-- Sample `n` of a tone with frequency `f`, as a fraction of the sampling rate, amplitude `a` and phase `p`. -/
noncomputable def toneSample (a f p : ℝ) (n : ℝ) : ℝ := a * Real.cos (2 * Real.pi * f * n + p)

theorem orderedConvolution_settled {x b : List ℝ} {n : Nat} (h1 : b.length ≤ n + 1) (h2 : n < x.length) :
    orderedConvolution x b n = ∑ j ∈ Finset.range b.length, b.getD j 0 * x.getD (n - j) 0 := by
  unfold orderedConvolution
  have hf : ∀ (l : List Nat) (g : Nat → ℝ) (acc : ℝ), l.foldl (fun acc i => acc + g i) acc = acc + (l.map g).sum := by
    intro l g
    induction l with
    | nil => intro acc; simp
    | cons i l ih => intro acc; rw [List.foldl_cons, ih, List.map_cons, List.sum_cons, add_assoc]
  rw [hf, zero_add]
  have hnd : ((List.range x.length).filter fun i => i ≤ n ∧ n - i < b.length).Nodup := List.Nodup.filter _ List.nodup_range
  rw [← List.sum_toFinset _ hnd]
  refine Finset.sum_bij' (fun i _ => n - i) (fun j _ => n - j) ?_ ?_ ?_ ?_ ?_
  · intro i hi
    simp only [List.mem_toFinset, List.mem_filter, decide_eq_true_eq] at hi
    exact Finset.mem_range.2 hi.2.2
  · intro j hj
    have hj := Finset.mem_range.1 hj
    simp only [List.mem_toFinset, List.mem_filter, List.mem_range, decide_eq_true_eq]
    omega
  · intro i hi
    simp only [List.mem_toFinset, List.mem_filter, decide_eq_true_eq] at hi
    omega
  · intro j hj
    have hj := Finset.mem_range.1 hj
    omega
  · intro i hi
    simp only [List.mem_toFinset, List.mem_filter, decide_eq_true_eq] at hi
    rw [show n - (n - i) = i by omega, mul_comm]

/-- A kernel with a linear phase response scales and delays tones. -/
theorem tone_through_kernel {b : List ℝ} {f gain : ℝ} {d : Nat} (h : response b f = delayResponse d f * (gain : ℂ)) (a p : ℝ) {n : Nat}
    (hn : b.length ≤ n + 1) :
    ∑ j ∈ Finset.range b.length, b.getD j 0 * toneSample a f p ((n - j : Nat) : ℝ) = gain * toneSample a f p ((n : ℝ) - d) := by
  have key : ∀ y : ℝ, toneSample a f p y = ((a : ℂ) * Complex.exp (((2 * Real.pi * f * y + p : ℝ) : ℂ) * Complex.I)).re := by
    intro y
    rw [Complex.re_ofReal_mul, Complex.exp_ofReal_mul_I_re]
    rfl
  have e1 : ∀ j ∈ Finset.range b.length, b.getD j 0 * toneSample a f p ((n - j : Nat) : ℝ) =
      (((a : ℂ) * Complex.exp (((2 * Real.pi * f * n + p : ℝ) : ℂ) * Complex.I)) *
        ((b.getD j 0 : ℂ) * Complex.exp (-2 * Real.pi * Complex.I * f * j))).re := by
    intro j hj
    have hj := Finset.mem_range.1 hj
    rw [key, ← Complex.re_ofReal_mul]
    congr 1
    rw [show (a : ℂ) * Complex.exp (((2 * Real.pi * f * n + p : ℝ) : ℂ) * Complex.I) *
        ((b.getD j 0 : ℂ) * Complex.exp (-2 * Real.pi * Complex.I * f * j)) = (b.getD j 0 : ℂ) * ((a : ℂ) *
        (Complex.exp (((2 * Real.pi * f * n + p : ℝ) : ℂ) * Complex.I) * Complex.exp (-2 * Real.pi * Complex.I * f * j))) by ring,
      ← Complex.exp_add]
    congr 3
    push_cast [Nat.cast_sub (show j ≤ n by omega)]
    ring
  rw [Finset.sum_congr rfl e1, ← Complex.re_sum, ← Finset.mul_sum]
  have e2 : ∑ j ∈ Finset.range b.length, ((b.getD j 0 : ℂ) * Complex.exp (-2 * Real.pi * Complex.I * f * j)) = response b f := rfl
  rw [e2, h, delayResponse, key, ← Complex.re_ofReal_mul]
  congr 1
  rw [show (a : ℂ) * Complex.exp (((2 * Real.pi * f * n + p : ℝ) : ℂ) * Complex.I) *
      (Complex.exp (-2 * Real.pi * Complex.I * f * d) * (gain : ℂ)) = (gain : ℂ) * ((a : ℂ) *
      (Complex.exp (((2 * Real.pi * f * n + p : ℝ) : ℂ) * Complex.I) * Complex.exp (-2 * Real.pi * Complex.I * f * d))) by ring,
    ← Complex.exp_add]
  congr 3
  push_cast
  ring

/-- `ir` is the kernel that one of the filters creates: low-pass, high-pass, band-pass or band-reject. `low` is the gain at frequency zero: one for those
that pass low frequencies, zero for the others. -/
inductive SincKernel (junk : ℝ) : List ℝ → ℝ → Prop
  | lowPass {cutoff transition : ℝ} {ir : List ℝ} (h : lpHpIr junk cutoff transition false = .ok ir) : SincKernel junk ir 1
  | highPass {cutoff transition : ℝ} {ir : List ℝ} (h : lpHpIr junk cutoff transition true = .ok ir) : SincKernel junk ir 0
  | bandPass {cl ch tl th : ℝ} {ir : List ℝ} {k : Nat} (h0 : 0 < cl) (h1 : ch < 1 / 2) (h2 : 4 / tl ≤ 1073741824) (h3 : 4 / th ≤ 1073741824)
      (h : bpBrIr junk cl ch tl th false = .ok (ir, k)) : SincKernel junk ir 0
  | bandReject {cl ch tl th : ℝ} {ir : List ℝ} {k : Nat} (h0 : 0 < cl) (h1 : ch < 1 / 2)
      (h : bpBrIr junk cl ch tl th true = .ok (ir, k)) : SincKernel junk ir 1

theorem SincKernel.facts {junk low : ℝ} {ir : List ℝ} (h : SincKernel junk ir low) : Odd ir.length ∧ Symmetric ir ∧ ir.sum = low := by
  cases h with
  | lowPass h => have := C08_low_pass h; exact ⟨this.1, this.2.2.1, this.2.2.2⟩
  | highPass h => have := C08_high_pass h; exact ⟨this.1, this.2.2.1, this.2.2.2.1⟩
  | bandPass h0 h1 h2 h3 h => have := C08_band_pass h0 h1 h2 h3 h; exact ⟨this.1, this.2.1, this.2.2⟩
  | bandReject h0 h1 h => have := C08_band_reject h0 h1 h; exact ⟨this.1, this.2.2.2.1, this.2.2.2.2⟩

/-- **C149.** A tone that is filtered block by block, for every division into blocks, with any of the four kinds of windowed sinc kernels: once the
kernel is filled, the output is the same tone, delayed by half of the kernel length, times the gain of the kernel at the frequency of the tone, which is a
real number and does not depend on amplitude, phase or blocks. -/
theorem C149_tone {F : Type} [DecidableEq F] {junk low : ℝ} {ir : List ℝ} (hk : SincKernel junk ir low) (f : ℝ) :
    ∃ gain : ℝ, response ir f = delayResponse ((ir.length - 1) / 2) f * (gain : ℂ) ∧ (f = 0 → gain = low) ∧
      ∀ (irOf : F → List UInt8 → Option (Buf ℝ)) (kind : F) (args : List UInt8), irOf kind args = some ir →
      ∀ (a p junk' : ℝ) (blocks : List (Buf ℝ)), (∀ x ∈ blocks, x.length + ir.length ≤ 4294967296) →
        (∀ n, n < blocks.flatten.length → blocks.flatten.getD n 0 = toneSample a f p n) →
        ∃ rs, filterCalls irOf junk' (blocks.map fun x => (x, kind, args)) none = .ok rs ∧ (∀ r ∈ rs, r.success = true) ∧
          rs.map (fun r => r.out.length) = blocks.map List.length ∧
          ∀ n, ir.length ≤ n + 1 → n < blocks.flatten.length →
            (rs.map fun r => r.out).flatten[n]? = some (gain * toneSample a f p ((n : ℝ) - ((ir.length - 1) / 2 : Nat))) := by
  obtain ⟨hodd, hsym, hsum⟩ := hk.facts
  refine ⟨symmetricGain ir f, linear_phase hodd hsym f, ?_, ?_⟩
  · rintro rfl
    have h := linear_phase hodd hsym 0
    rw [response_zero, hsum] at h
    simp only [delayResponse, Complex.ofReal_zero, mul_zero, zero_mul, Complex.exp_zero, one_mul] at h
    exact_mod_cast h.symm
  · intro irOf kind args hir a p junk' blocks h32 hx
    obtain ⟨rs, r1, r2, r3, r4, _⟩ := C04_filter_seamless irOf junk' kind args ir hir (by obtain ⟨m, hm⟩ := hodd; omega) blocks h32
    refine ⟨rs, r1, r2, r3, fun n h1 h2 => ?_⟩
    rw [r4, List.getElem?_map, List.getElem?_range h2, Option.map_some, orderedConvolution_settled h1 h2]
    rw [← tone_through_kernel (linear_phase hodd hsym f) a p h1]
    congr 1
    refine Finset.sum_congr rfl fun j hj => ?_
    rw [hx (n - j) (by omega)]

/-- **C149, constants.** A constant passes low-pass and band-reject filters unchanged, and high-pass and band-pass filters give silence, once the kernel
is filled, for every division into blocks. -/
theorem C149_constant {F : Type} [DecidableEq F] {junk low : ℝ} {ir : List ℝ} (hk : SincKernel junk ir low)
    {irOf : F → List UInt8 → Option (Buf ℝ)} {kind : F} {args : List UInt8} (hir : irOf kind args = some ir) (a junk' : ℝ) {blocks : List (Buf ℝ)}
    (h32 : ∀ x ∈ blocks, x.length + ir.length ≤ 4294967296) (hx : ∀ x ∈ blocks.flatten, x = a) :
    ∃ rs, filterCalls irOf junk' (blocks.map fun x => (x, kind, args)) none = .ok rs ∧ (∀ r ∈ rs, r.success = true) ∧
      ∀ n, ir.length ≤ n + 1 → n < blocks.flatten.length → (rs.map fun r => r.out).flatten[n]? = some (low * a) := by
  obtain ⟨gain, _, h0, h⟩ := C149_tone (F := F) hk 0
  have ht : ∀ y, toneSample a 0 0 y = a := fun y => by simp [toneSample]
  obtain ⟨rs, r1, r2, _, r4⟩ := h irOf kind args hir a 0 junk' blocks h32 (by
    intro n hn
    rw [ht, List.getD_eq_getElem?_getD, List.getElem?_eq_getElem hn]
    exact hx _ (List.getElem_mem hn))
  refine ⟨rs, r1, r2, fun n h1 h2 => ?_⟩
  rw [r4 n h1 h2, ht, h0 rfl]

/-- Non-vacuity: there is a low-pass kernel of length 9, and 30 samples of a tone in blocks of 10 and 20 samples. -/
example : ∃ ir : List ℝ, ir.length = 9 ∧ SincKernel 7 ir 1 ∧ ∃ gain : ℝ, ∃ rs, filterCalls (fun (_ : Unit) _ => some ir) 5
    ([tab 10 fun n => toneSample 3 (1 / 8) 2 n, tab 20 fun n => toneSample 3 (1 / 8) 2 ((n + 10 : Nat) : ℝ)].map fun x => (x, (), [])) none = .ok rs ∧
      (rs.map fun r => r.out).flatten[12]? = some (gain * toneSample 3 (1 / 8) 2 8) := by
  obtain ⟨ir, h⟩ := C08_defined 7 (cutoff := 0.1) (transition := 0.5) false (by norm_num) (by norm_num) (by norm_num)
    (by rw [abs_of_pos (by norm_num)]; norm_num)
  have hl : ir.length = 9 := by
    have hl := (C135_low_pass h).1
    have h1 := hl.2.2 9 (by decide) (by norm_num)
    have h2 : 8 ≤ ir.length := by
      have := hl.2.1
      norm_num at this
      exact_mod_cast this
    have h3 := Nat.odd_iff.1 hl.1
    omega
  obtain ⟨gain, _, _, hg⟩ := C149_tone (F := Unit) (.lowPass h) (1 / 8)
  obtain ⟨rs, r1, _, _, r4⟩ := hg (fun _ _ => some ir) () [] rfl 3 2 5
    [tab 10 fun n => toneSample 3 (1 / 8) 2 n, tab 20 fun n => toneSample 3 (1 / 8) 2 ((n + 10 : Nat) : ℝ)] (by simp [hl]) (by
      intro n hn
      simp only [List.flatten_cons, List.flatten_nil, List.append_nil, List.length_append, tab_length] at hn ⊢
      rw [List.getD_eq_getElem?_getD, List.getElem?_append]
      simp only [tab_length]
      split
      · rw [tab_getElem?, if_pos (by assumption), Option.getD_some]
      · rw [tab_getElem?, if_pos (by omega), Option.getD_some, show n - 10 + 10 = n by omega])
  refine ⟨ir, hl, .lowPass h, gain, rs, r1, ?_⟩
  rw [r4 12 (by omega) (by simp), hl]
  norm_num

end Sp
