import Verif.Model.SincFilter
import Verif.Props.ConvolutionFilter

/-!
# C104: windowed sinc filters
-/

set_option linter.unusedSectionVars false

namespace Sp
variable {S : Type}

/-- The kind of a call. -/
def SincCall.kind : SincCall S → SincFunction
  | .lpHp .. => .lpHp
  | .bpBr .. => .bpBr

/-- The bytes of the parameters. -/
def SincCall.bytes (e : SampleBytes S) : SincCall S → List UInt8
  | .lpHp c t h => e.enc c ++ e.enc t ++ [h]
  | .bpBr a b c d r => e.enc a ++ e.enc b ++ e.enc c ++ e.enc d ++ [r]

theorem SampleBytes.injective (e : SampleBytes S) : Function.Injective e.enc := fun x y h => by
  rw [← e.dec_enc x, h, e.dec_enc]

theorem SincCall.bytes_length (e : SampleBytes S) (p : SincCall S) :
    (p.bytes e).length = match p.kind with | .lpHp => 17 | .bpBr => 33 := by
  cases p <;> simp [bytes, kind, e.enc_length]

theorem SincCall.bytes_injective (e : SampleBytes S) {p q : SincCall S} (h : p.bytes e = q.bytes e) : p = q := by
  have hl := congrArg List.length h
  rw [bytes_length, bytes_length] at hl
  cases p <;> cases q <;> simp only [kind] at hl
  · simp only [bytes] at h
    obtain ⟨h, h3⟩ := List.append_inj h (by simp [e.enc_length])
    obtain ⟨h1, h2⟩ := List.append_inj h (by simp [e.enc_length])
    cases e.injective h1
    cases e.injective h2
    cases h3
    rfl
  · omega
  · omega
  · simp only [bytes] at h
    obtain ⟨h, h5⟩ := List.append_inj h (by simp [e.enc_length])
    obtain ⟨h, h4⟩ := List.append_inj h (by simp [e.enc_length])
    obtain ⟨h, h3⟩ := List.append_inj h (by simp [e.enc_length])
    obtain ⟨h1, h2⟩ := List.append_inj h (by simp [e.enc_length])
    cases e.injective h1
    cases e.injective h2
    cases e.injective h3
    cases e.injective h4
    cases h5
    rfl

theorem wrSample_eq (e : SampleBytes S) {i : Nat} {u v w : List UInt8} (hu : u.length = 8 * i) (hv : v.length = 8) (x : S) :
    wrSample e (u ++ (v ++ w)) i x = .ok ((u ++ e.enc x) ++ w) := by
  rw [wrSample, memcpy, if_pos (by simp [hu, hv, e.enc_length])]
  congr 1
  rw [← hu, List.take_left' rfl, List.drop_zero, List.take_of_length_le (by simp [e.enc_length]), ← List.append_assoc u v w,
    List.drop_left' (by simp [hv])]

theorem sincArgs_eq (e : SampleBytes S) (stack : UInt8) (p : SincCall S) :
    sincArgs e (List.replicate (match p.kind with | .lpHp => 17 | .bpBr => 33) stack) p = .ok (p.bytes e) := by
  have hw : ∀ {u : List UInt8} {n : Nat} (x y : UInt8), u.length = n → wr (u ++ [x]) n y = .ok (u ++ [y]) := by
    rintro u n x y rfl
    rw [wr, if_pos (by simp)]
    simp
  cases p with
  | lpHp c t h =>
    have e0 : List.replicate 17 stack = [] ++ (List.replicate 8 stack ++ (List.replicate 8 stack ++ [stack])) := by rfl
    simp only [SincCall.kind, sincArgs]
    rw [e0, wrSample_eq e (by rfl) (by simp), ok_bind', wrSample_eq e (by simp [e.enc_length]) (by simp), ok_bind',
      hw _ _ (by simp [e.enc_length])]
    rfl
  | bpBr a b c d r =>
    have e0 : List.replicate 33 stack = [] ++ (List.replicate 8 stack ++ (List.replicate 8 stack ++ (List.replicate 8 stack ++
      (List.replicate 8 stack ++ [stack])))) := by rfl
    simp only [SincCall.kind, sincArgs]
    rw [e0, wrSample_eq e (by rfl) (by simp), ok_bind', wrSample_eq e (by simp [e.enc_length]) (by simp), ok_bind',
      wrSample_eq e (by simp [e.enc_length]) (by simp), ok_bind', wrSample_eq e (by simp [e.enc_length]) (by simp), ok_bind',
      hw _ _ (by simp [e.enc_length])]
    rfl

theorem rdSample_eq (e : SampleBytes S) {i : Nat} {u w : List UInt8} (hu : u.length = 8 * i) (x : S) :
    rdSample e (u ++ (e.enc x ++ w)) i = x := by
  rw [rdSample, ← hu, List.drop_left' rfl, List.take_left' (e.enc_length x), e.dec_enc]

theorem sincIr_eq (e : SampleBytes S) (K : SincCall S → Option (Buf S)) (p : SincCall S) :
    sincIr e K p.kind (p.bytes e) = K p := by
  have hg : ∀ {u : List UInt8} {n : Nat} (x : UInt8), u.length = n → (u ++ [x]).getD n 0 = x := by
    rintro u n x rfl
    simp
  cases p with
  | lpHp c t h =>
    simp only [SincCall.kind, sincIr, SincCall.bytes]
    rw [hg _ (by simp [e.enc_length])]
    have h0 := rdSample_eq e (i := 0) (u := []) (w := e.enc t ++ [h]) rfl c
    have h1 := rdSample_eq e (i := 1) (u := e.enc c) (w := [h]) (by simp [e.enc_length]) t
    simp only [List.append_assoc, List.nil_append] at h0 h1 ⊢
    rw [h0, h1]
  | bpBr a b c d r =>
    simp only [SincCall.kind, sincIr, SincCall.bytes]
    rw [hg _ (by simp [e.enc_length])]
    have h0 := rdSample_eq e (i := 0) (u := []) (w := e.enc b ++ e.enc c ++ e.enc d ++ [r]) rfl a
    have h1 := rdSample_eq e (i := 1) (u := e.enc a) (w := e.enc c ++ e.enc d ++ [r]) (by simp [e.enc_length]) b
    have h2 := rdSample_eq e (i := 2) (u := e.enc a ++ e.enc b) (w := e.enc d ++ [r]) (by simp [e.enc_length]) c
    have h3 := rdSample_eq e (i := 3) (u := e.enc a ++ e.enc b ++ e.enc c) (w := [r]) (by simp [e.enc_length]) d
    simp only [List.append_assoc, List.nil_append] at h0 h1 h2 h3 ⊢
    rw [h0, h1, h2, h3]

variable [Zero S] [Add S] [Mul S]

theorem windowedSinc_eq (e : SampleBytes S) (K : SincCall S → Option (Buf S)) (junk : S) (stack : UInt8) (input : Buf S)
    (p : SincCall S) (old : Option (FilterState SincFunction S)) (out : Buf S) :
    windowedSinc e K junk stack input p old out = convolutionFilter (sincIr e K) junk input p.kind (p.bytes e) old out := by
  have h := sincArgs_eq e stack p
  cases p <;> simp only [SincCall.kind] at h <;> simp only [windowedSinc, h, ok_bind'] <;> rfl

theorem sincCalls_eq (e : SampleBytes S) (K : SincCall S → Option (Buf S)) (junk : S) (stack : UInt8)
    (calls : List (Buf S × SincCall S)) (st : Option (FilterState SincFunction S)) :
    sincCalls e K junk stack calls st =
      filterCalls (sincIr e K) junk (calls.map fun c => (c.1, c.2.kind, c.2.bytes e)) st := by
  induction calls generalizing st with
  | nil => rfl
  | cons c rest ih =>
    obtain ⟨x, p⟩ := c
    simp only [sincCalls, List.map_cons, filterCalls, windowedSinc_eq, ih]

/-- **C104.** A stream that is filtered block by block with one of the two windowed sinc filters and one state, with parameters that
can be others in each call: all calls succeed, and the output is the sum of every input sample times the kernel for the parameters
of its own block, in input order, bit for bit. The kernel is computed anew exactly when the parameters differ from those of the
last call. Conditions: the kernels can be created (`kernel`), and no carryover is lost (as in C06). -/
theorem C104_windowed_sinc_partial (e : SampleBytes S) (K : SincCall S → Option (Buf S)) (kernel : SincCall S → Buf S) (junk : S) (stack : UInt8)
    (kind : SincFunction) (calls : List (Buf S × SincCall S)) (hkind : ∀ c ∈ calls, c.2.kind = kind)
    (hK : ∀ c ∈ calls, K c.2 = some (kernel c.2)) (hpos : ∀ c ∈ calls, 1 ≤ (kernel c.2).length)
    (h32 : ∀ c ∈ calls, c.1.length + (kernel c.2).length ≤ 4294967296)
    (hkeep : KeepsAll 0 (calls.map fun c => (c.1, kernel c.2))) :
    ∃ rs, sincCalls e K junk stack calls none = .ok rs ∧ (∀ r ∈ rs, r.success = true) ∧
      rs.map (fun r => r.out.length) = calls.map (fun c => c.1.length) ∧
      (rs.map (fun r => r.out)).flatten = (List.range (calls.map Prod.fst).flatten.length).map
        (timeVaryingConvolution (calls.map fun c => (c.1, kernel c.2))) ∧
      rs.length = calls.length ∧
      ∀ i c r, calls[i]? = some c → rs[i]? = some r →
        (r.called = false ↔ ∃ c', 1 ≤ i ∧ calls[i - 1]? = some c' ∧ c'.2 = c.2) := by
  classical
  have hmem : ∀ q ∈ calls.map (fun c => (c.1, c.2.bytes e)), ∃ c ∈ calls, q = (c.1, c.2.bytes e) := by
    intro q hq
    obtain ⟨c, hc, rfl⟩ := List.mem_map.1 hq
    exact ⟨c, hc, rfl⟩
  set ir : List UInt8 → Buf S := fun b => (sincIr e K kind b).getD [] with hir
  have hk : ∀ c ∈ calls, sincIr e K kind (c.2.bytes e) = some (kernel c.2) := by
    intro c hc
    rw [← hkind c hc, sincIr_eq, hK c hc]
  have hki : ∀ c ∈ calls, ir (c.2.bytes e) = kernel c.2 := by
    intro c hc
    rw [hir]
    simp only [hk c hc, Option.getD_some]
  have hmap : (calls.map (fun c => (c.1, c.2.bytes e))).map (fun p => (p.1, ir p.2)) = calls.map fun c => (c.1, kernel c.2) := by
    rw [List.map_map]
    refine List.map_congr_left fun c hc => ?_
    simp only [Function.comp, hki c hc]
  obtain ⟨rs, h1, h2, _, h4, h5, h6⟩ := filterCalls_null (sincIr e K) junk kind (match kind with | .lpHp => 17 | .bpBr => 33) ir
    (calls.map fun c => (c.1, c.2.bytes e))
    (by
      intro q hq
      obtain ⟨c, hc, rfl⟩ := hmem q hq
      rw [SincCall.bytes_length, hkind c hc]
      cases kind <;> rfl)
    (by
      intro q hq
      obtain ⟨c, hc, rfl⟩ := hmem q hq
      rw [hki c hc, hk c hc])
    (by
      intro q hq
      obtain ⟨c, hc, rfl⟩ := hmem q hq
      rw [hki c hc]
      exact hpos c hc)
    (by
      intro q hq
      obtain ⟨c, hc, rfl⟩ := hmem q hq
      rw [hki c hc]
      exact h32 c hc)
    (by rw [hmap]; exact hkeep)
  have hlen : rs.length = calls.length := by
    have := congrArg List.length h5
    simpa using this
  refine ⟨rs, ?_, h2, ?_, ?_, hlen, ?_⟩
  · rw [sincCalls_eq, ← h1, List.map_map]
    congr 1
    refine List.map_congr_left fun c hc => ?_
    simp only [Function.comp, hkind c hc]
  · rw [h5, List.map_map]
    rfl
  · rw [h6, hmap]
    unfold tab
    rw [List.map_map]
    congr 1
    funext k
    rw [tv_eq_terms]
    rfl
  · intro i c r hc hr
    have h7 := congrArg (fun l => l[i]?) h4
    simp only [List.getElem?_map, hr, Option.map_some] at h7
    obtain ⟨z, hz, hz2⟩ := Option.map_eq_some_iff.1 h7.symm
    rw [List.getElem?_zip_eq_some] at hz
    obtain ⟨z1, z2⟩ := hz
    rw [List.getElem?_map, hc, Option.map_some, Option.some.injEq] at z1
    rw [← hz2, decide_eq_false_iff_not, not_not, ← z1]
    cases i with
    | zero =>
      simp only [List.getElem?_cons_zero, Option.some.injEq] at z2
      rw [← z2]
      simp
    | succ i =>
      rw [List.getElem?_cons_succ] at z2
      simp only [List.map_map, List.getElem?_map] at z2
      obtain ⟨c', hc', hz3⟩ := Option.map_eq_some_iff.1 z2
      rw [← hz3]
      simp only [Function.comp, Option.some.injEq, Nat.add_sub_cancel, hc']
      constructor
      · intro h
        exact ⟨c', by omega, rfl, SincCall.bytes_injective e h.symm⟩
      · rintro ⟨c'', _, h8, h9⟩
        cases h8
        rw [h9]

/-- Samples of one byte that are stored eight times. -/
def exampleBytes : SampleBytes UInt8 where
  enc x := List.replicate 8 x
  dec b := b.headD 0
  enc_length x := by simp
  dec_enc x := rfl

/-- Kernels that show their parameters. -/
def exampleKernel : SincCall UInt8 → Buf UInt8
  | .lpHp c t h => [c, t, h]
  | .bpBr a b c d r => [a, b, c, d, r]

/-- Non-vacuity: three blocks, the parameters change for the third. -/
example : ∃ rs, sincCalls exampleBytes (fun p => some (exampleKernel p)) 9 77
      [([1, 0], .lpHp 3 4 1), ([1, 0], .lpHp 3 4 1), ([1, 1], .lpHp 5 6 0)] none = .ok rs ∧ (∀ r ∈ rs, r.success = true) := by
  obtain ⟨rs, h1, h2, -⟩ := C104_windowed_sinc_partial exampleBytes (fun p => some (exampleKernel p)) exampleKernel 9 77 .lpHp
    [([1, 0], .lpHp 3 4 1), ([1, 0], .lpHp 3 4 1), ([1, 1], .lpHp 5 6 0)] (by simp [SincCall.kind]) (by simp)
    (by simp [exampleKernel]) (by simp [exampleKernel]) (by simp [exampleKernel, KeepsAll])
  exact ⟨rs, h1, h2⟩

example : (sincCalls exampleBytes (fun p => some (exampleKernel p)) 9 77
      [([1, 0], .lpHp 3 4 1), ([1, 0], .lpHp 3 4 1), ([1, 1], .lpHp 5 6 0)] none).map (fun rs => rs.map fun r => (r.called, r.out)) =
    .ok [(true, [3, 4]), (false, [4, 4]), (true, [6, 11])] := by decide +kernel

/-- **C104 is false if both filters are used with one state**: a low-pass after a band-pass whose first 17 argument bytes are those of
the low-pass, after a low-pass that made the state, applies the kernel of the band-pass. -/
theorem C104_mixed_false :
    (sincCalls exampleBytes (fun p => some (exampleKernel p)) 9 77
      [([1, 0], .lpHp 3 4 1), ([0, 0, 0, 0, 1, 0], .bpBr 5 6 0 7 1), ([0, 0, 0, 0, 1, 0, 0, 0, 0], .lpHp 5 6 0)] none).map
        (fun rs => rs.map fun r => (r.success, r.out)) =
    .ok [(true, [3, 4]), (true, [1, 0, 0, 0, 5, 6]), (true, [0, 7, 1, 0, 5, 6, 0, 7, 1])] ∧
    exampleKernel (.lpHp 5 6 0) = [5, 6, 0] := by decide +kernel

end Sp
