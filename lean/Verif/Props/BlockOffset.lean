import Verif.Props.Block

/-!
# C110: blocks with offset
-/

set_option linter.unusedSectionVars false

namespace Sp
variable {S : Type}

/-- `sp_block_with_offset` adds the offset to the sample pointers, and keeps channel count and size. -/
theorem C110_pointers {b : Block} {p : Nat → Ptr} (hp : b.HasPointers p) (off : Nat) :
    ∃ b', blockWithOffset b off = .ok b' ∧ b'.channelCount = b.channelCount ∧ b'.size = b.size ∧
      b'.HasPointers (fun c => ((p c).1, (p c).2 + off)) := by
  obtain ⟨samples, h1, h2, h3, h4⟩ := forRange_rule
    (fun n (s : Buf (Option Ptr)) => s.length = b.samples.length ∧ (∀ c, c < n → s[c]? = some (some ((p c).1, (p c).2 + off))) ∧
      ∀ c, n ≤ c → s[c]? = b.samples[c]?)
    (lo := 0) (hi := b.channelCount) (Nat.zero_le _)
    (body := fun i samples => do
      let s ← rd samples i
      let p ← derefPtr s
      wr samples i (some (p.1, p.2 + off))) (s := b.samples)
    ⟨rfl, by simp, by simp⟩
    (by
      rintro n s _ hn ⟨s1, s2, s3⟩
      have hn' : s[n]? = some (some (p n)) := by rw [s3 n (Nat.le_refl n)]; exact hp n hn
      have hlt : n < s.length := by
        by_contra h
        rw [List.getElem?_eq_none (by omega)] at hn'
        simp at hn'
      refine ⟨s.set n (some ((p n).1, (p n).2 + off)), ?_, by simpa using s1, fun c hc => ?_, fun c hc => ?_⟩
      · rw [rd_ok_iff.2 hn', ok_bind']
        simp only [derefPtr, ok_bind']
        exact wr_eq_ok _ hlt
      · by_cases hcn : c = n
        · subst hcn
          rw [List.getElem?_set_self hlt]
        · rw [List.getElem?_set_ne (by omega)]
          exact s2 c (by omega)
      · rw [List.getElem?_set_ne (by omega)]
        exact s3 c (by omega))
  refine ⟨{ b with samples := samples }, ?_, rfl, rfl, h3⟩
  unfold blockWithOffset
  rw [h1]
  rfl

/-- **C110, partial.** The first `size - off` samples of each channel of a block with offset `off` can be written and are samples of the original
block, here with `sp_block_zero` for a block of that size. Missing: all `size` samples. -/
theorem C110_accessible_partial [Zero S] {b : Block} {p : Nat → Ptr} (hp : b.HasPointers p) {m : Mem S} {off : Nat} (hoff : off ≤ b.size)
    (hb : ∀ c, c < b.channelCount → ∃ arr, m (p c).1 = some arr ∧ (p c).2 + b.size ≤ arr.length) :
    ∃ b' m', blockWithOffset b off = .ok b' ∧ blockZero { b' with size := b.size - off } m = .ok m' ∧ SameShape m m' ∧
      (∀ c i, c < b.channelCount → off ≤ i → i < b.size → m'.cell (p c).1 ((p c).2 + i) = some 0) := by
  obtain ⟨b', h1, h2, h3, h4⟩ := C110_pointers hp off
  obtain ⟨m', k1, k2, k3, _⟩ := C78_block_zero (b := { b' with size := b.size - off }) (p := fun c => ((p c).1, (p c).2 + off)) h4 (m := m) (by
    intro c hc
    obtain ⟨arr, q1, q2⟩ := hb c (by rw [← h2]; exact hc)
    exact ⟨arr, q1, by simp only; omega⟩)
  refine ⟨b', m', h1, k1, k2, fun c i hc h5 h6 => ?_⟩
  have := k3 c (i - off) (by rw [← h2] at hc; exact hc) (by simp only; omega)
  simp only at this
  rwa [show (p c).2 + off + (i - off) = (p c).2 + i by omega] at this

/-- **C110 is false**: the size of the block with offset is that of the original block, so that for a block as `sp_block_new` makes it,
functions that use the size write outside of the arrays, for every offset but zero: `sp_block_zero`, and `sp_block_copy` from any other
block of the same size. `sp_seq` gives such blocks to events that begin inside of a block. -/
theorem C110_size_out_of_bounds [Zero S] {b : Block} {ad : Nat → Addr} (hp : b.HasPointers (fun c => (ad c, 0))) {m : Mem S} {off : Nat}
    (h0 : 0 < off) (hoff : off ≤ b.size) (hch : 0 < b.channelCount)
    (hb : ∀ c, c < b.channelCount → ∃ arr, m (ad c) = some arr ∧ arr.length = b.size)
    {a : Block} {pa : Nat → Ptr} (ha : a.HasPointers pa) (hac : 0 < a.channelCount) (hasz : a.size = b.size)
    (hma : ∀ c, c < a.channelCount → ∃ arr, m (pa c).1 = some arr ∧ (pa c).2 + a.size ≤ arr.length)
    (hab : ∀ c d, c < a.channelCount → d < b.channelCount → (pa c).1 ≠ ad d) :
    ∃ b', blockWithOffset b off = .ok b' ∧ blockZero b' m = .error .outOfBounds ∧ blockCopy a b' m = .error .outOfBounds := by
  obtain ⟨b', h1, h2, h3, h4⟩ := C110_pointers hp off
  simp only [Nat.zero_add] at h4
  obtain ⟨arr, q1, q2⟩ := hb 0 hch
  refine ⟨b', h1, ?_, ?_⟩
  · unfold blockZero
    rw [forRange_head (by omega), rd_ok_iff.2 (h4 0 (by omega)), ok_bind']
    simp only [derefPtr, ok_bind', Mem.load, q1, memzero]
    rw [if_neg (by omega)]
    rfl
  · obtain ⟨m1, k1, k2, k3, k4⟩ := C78_block_copy (a := { a with channelCount := 1, size := b.size - off }) (b := b') (pa := pa)
      (pb := fun c => (ad c, off)) (m := m) (fun c hc => ha c (by simp only at hc; omega)) h4 (by simp only; omega)
      (by
        intro c hc
        obtain ⟨arr', q3, q4⟩ := hma c (by simp only at hc; omega)
        exact ⟨arr', q3, by simp only; omega⟩)
      (by
        intro c hc
        have hc0 : c = 0 := by simp only at hc; omega
        subst hc0
        exact ⟨arr, q1, by simp only; omega⟩)
      (by intro c d hc hd; exact hab c d (by simp only at hc; omega) (by simp only at hd; omega))
      (by intro c d hc hd _; simp only at hc hd; omega)
    have hloop : forRange 0 (b.size - off) (fun i m => blockCopyStep a b' 0 i m) m = .ok m1 := by
      have : blockCopy { a with channelCount := 1, size := b.size - off } b' m =
          (forRange 0 (b.size - off) (fun i m => blockCopyStep a b' 0 i m) m).bind (fun s => .ok s) := by
        unfold blockCopy
        rw [forRange_head (by simp only; omega)]
        rfl
      rw [this] at k1
      cases hf : forRange 0 (b.size - off) (fun i m => blockCopyStep a b' 0 i m) m with
      | error f => rw [hf] at k1; cases k1
      | ok s => rw [hf] at k1; exact k1
    unfold blockCopy
    rw [forRange_head hac, forRange_split (mid := b.size - off) (Nat.zero_le _) (by omega), hloop]
    show ((forRange (b.size - off) a.size (fun i m => blockCopyStep a b' 0 i m) m1).bind _) = _
    rw [forRange_head (by omega)]
    have hstep : blockCopyStep a b' 0 (b.size - off) m1 = .error .outOfBounds := by
      obtain ⟨src, q3, q4⟩ := hma 0 hac
      have hsrc : m1.cell (pa 0).1 ((pa 0).2 + (b.size - off)) = m.cell (pa 0).1 ((pa 0).2 + (b.size - off)) :=
        k4 _ _ (fun c i hc _ hx => hab 0 c hac (by simp only at hc; omega) hx.1)
      unfold Mem.cell at hsrc
      rw [q3] at hsrc
      simp only [Option.bind_some] at hsrc
      rw [List.getElem?_eq_getElem (by omega)] at hsrc
      have hsh := k2 (ad 0)
      rw [q1] at hsh
      cases hm1 : m1 (ad 0) with
      | none => rw [hm1] at hsh; simp at hsh
      | some dst =>
        rw [hm1] at hsh
        simp only [Option.map_some, Option.some.injEq] at hsh
        cases hs1 : m1 (pa 0).1 with
        | none => rw [hs1] at hsrc; simp at hsrc
        | some src1 =>
          rw [hs1] at hsrc
          simp only [Option.bind_some] at hsrc
          unfold blockCopyStep
          rw [rd_ok_iff.2 (ha 0 hac), rd_ok_iff.2 (h4 0 (by omega))]
          simp only [ok_bind', derefPtr, Mem.load, hs1, rd_ok_iff.2 hsrc, hm1]
          rw [wr, if_neg (by omega)]
          rfl
    rw [hstep]
    rfl

/-- Non-vacuity: one channel with three samples, offset 1. -/
example : ∃ b', blockWithOffset ⟨1, 3, [some (1, 0)]⟩ 1 = .ok b' ∧
    blockZero b' (fun a => if a = 1 then some [(5 : Int), 6, 7] else some [1, 2, 3]) = .error .outOfBounds ∧
    blockCopy ⟨1, 3, [some (2, 0)]⟩ b' (fun a => if a = 1 then some [(5 : Int), 6, 7] else some [1, 2, 3]) = .error .outOfBounds := by
  refine C110_size_out_of_bounds (b := ⟨1, 3, [some (1, 0)]⟩) (ad := fun _ => 1) (pa := fun _ => (2, 0)) ?_ (by omega) (by simp) (by simp) ?_ ?_
    (by simp) rfl ?_ ?_
  · intro c hc
    have : c = 0 := by simp only at hc; omega
    subst this
    rfl
  · intro c hc
    exact ⟨[5, 6, 7], rfl, rfl⟩
  · intro c hc
    have : c = 0 := by simp only at hc; omega
    subst this
    rfl
  · intro c hc
    exact ⟨[1, 2, 3], rfl, by simp⟩
  · intro c d _ _
    decide

end Sp
