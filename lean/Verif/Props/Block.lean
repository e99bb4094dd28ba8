import Verif.Model.Block
import Verif.Model.EventMemory
import Verif.Lemmas.SeqTrace

/-!
# C32, C77, C78: sample blocks, isolated map events, and failed allocations
-/

set_option linter.unusedSectionVars false

namespace Sp
variable {S : Type}

/-- Sample `k` of the array at `a`, if it exists. -/
def Mem.cell (m : Mem S) (a : Addr) (k : Nat) : Option S := (m a).bind (·[k]?)

/-- The same arrays are allocated, with the same lengths. -/
def SameShape (m m' : Mem S) : Prop := ∀ a, (m' a).map List.length = (m a).map List.length

/-- The addresses that allocations return are not in use and different from each other. -/
structure Fresh (m : Mem S) (n : Nat) (ad : Nat → Addr) : Prop where
  unused : ∀ i, i < n → m (ad i) = none
  distinct : ∀ i j, i < n → j < n → ad i = ad j → i = j

/-- The block `b` has these sample pointers in its `channelCount` channels. -/
def Block.HasPointers (b : Block) (p : Nat → Ptr) : Prop :=
  ∀ c, c < b.channelCount → b.samples[c]? = some (some (p c))

/-! ### Lemmas -/

theorem Mem.set_same (m : Mem S) (a : Addr) (b : Option (Buf S)) : m.set a b a = b := by simp [Mem.set]

theorem Mem.set_other (m : Mem S) {a x : Addr} (b : Option (Buf S)) (h : x ≠ a) : m.set a b x = m x := by
  simp [Mem.set, h]

theorem blockNew_eq [Zero S] (ad : Nat → Addr) (nch size : Nat) (out : Block) (m : Mem S)
    (hl : nch ≤ out.samples.length) :
    ∃ b : Block, b.channelCount = nch ∧ b.size = size ∧ b.HasPointers (fun c => (ad c, 0)) ∧
      blockNew (fun i => some (ad i)) nch size out m = .ok (0, b,
        fun a => if ∃ i, i < nch ∧ ad i = a then some (List.replicate size 0) else m a) := by
  let mem : Nat → Mem S := fun k a => if ∃ i, i < k ∧ ad i = a then some (List.replicate size 0) else m a
  let sam : Nat → Buf (Option Ptr) := fun k => tab out.samples.length (fun c =>
    if c < k then some (ad c, 0) else out.samples.getD c none)
  have key := forRange_states
    (St := fun k => ((0, if k = 0 then none else some (ad (k - 1)), sam k, mem k,
      (List.range k).map ad) : Nat × Option Addr × Buf (Option Ptr) × Mem S × List Addr))
    (lo := 0) (hi := nch) (Nat.zero_le _)
    (body := fun i (st, channel, samples, m, reg) =>
      if st ≠ 0 then .ok (st, channel, samples, m, reg)
      else do
        let r : Nat × Option Addr × Mem S := helperCalloc (some (ad i)) size channel m
        if r.1 ≠ 0 then .ok (r.1, r.2.1, samples, r.2.2, reg)
        else do
          let a ← isSet r.2.1
          let samples ← wr samples i (some (a, 0))
          return (0, some a, samples, r.2.2, reg ++ [a]))
    (by
      intro i _ hi
      simp only [ne_eq, not_true_eq_false, if_false, helperCalloc, isSet, ok_bind']
      have hw : wr (sam i) i (some (ad i, 0)) = .ok (sam (i + 1)) := by
        simp only [sam]
        rw [wr_tab _ (by omega)]
        congr 1
        apply tab_congr
        intro c _
        by_cases h1 : c = i
        · subst h1; simp
        · by_cases h2 : c < i
          · simp [h1, h2, show c < i + 1 by omega]
          · simp [h1, h2, show ¬ c < i + 1 by omega]
      rw [hw, ok_bind']
      have hm : (mem i).set (ad i) (some (List.replicate size 0)) = mem (i + 1) := by
        funext a
        simp only [Mem.set, mem]
        by_cases h1 : a = ad i
        · subst h1
          rw [if_pos rfl, if_pos ⟨i, by omega, rfl⟩]
        · rw [if_neg h1]
          by_cases h2 : ∃ j, j < i ∧ ad j = a
          · obtain ⟨j, h2, h3⟩ := h2
            rw [if_pos ⟨j, h2, h3⟩, if_pos ⟨j, by omega, h3⟩]
          · rw [if_neg h2, if_neg]
            rintro ⟨j, h3, h4⟩
            by_cases h5 : j = i
            · subst h5; exact h1 h4.symm
            · exact h2 ⟨j, by omega, h4⟩
      rw [hm, List.range_succ, List.map_append]
      simp)
  refine ⟨⟨nch, size, sam nch⟩, rfl, rfl, ?_, ?_⟩
  · intro c hc
    simp only at hc
    simp only [sam, tab_getElem?]
    rw [if_pos (by omega), if_pos hc]
  · unfold blockNew
    have h0 : ((0, none, out.samples, m, []) : Nat × Option Addr × Buf (Option Ptr) × Mem S × List Addr) =
        (0, if (0 : Nat) = 0 then none else some (ad (0 - 1)), sam 0, mem 0, (List.range 0).map ad) := by
      have e1 : sam 0 = out.samples := by
        simp only [sam]
        conv_rhs => rw [eq_tab out.samples none]
        apply tab_congr
        intro c _
        simp
      have e2 : mem 0 = m := by
        funext a
        simp [mem]
      rw [e1, e2]
      rfl
    rw [h0, key, ok_bind']
    rfl

theorem blockFree_eq {b : Block} (hsize : b.size ≠ 0) {ad : Nat → Addr} (hp : b.HasPointers (fun c => (ad c, 0)))
    (m : Mem S) (halloc : ∀ c, c < b.channelCount → (m (ad c)).isSome)
    (hd : ∀ i j, i < b.channelCount → j < b.channelCount → ad i = ad j → i = j) :
    blockFree b m = .ok (fun a => if ∃ i, i < b.channelCount ∧ ad i = a then none else m a) := by
  unfold blockFree
  rw [if_pos hsize]
  have key := forRange_states
    (St := fun k => (fun a => if ∃ i, i < k ∧ ad i = a then none else m a : Mem S))
    (lo := 0) (hi := b.channelCount) (Nat.zero_le _)
    (body := fun i (m : Mem S) => do
      let s ← rd b.samples i
      let p ← derefPtr s
      m.free p)
    (by
      intro i _ hi
      rw [rd_ok_iff.2 (hp i hi), ok_bind']
      simp only [derefPtr, ok_bind', Mem.free]
      rw [if_pos]
      · congr 1
        funext a
        simp only [Mem.set]
        by_cases h1 : a = ad i
        · subst h1
          rw [if_pos rfl, if_pos ⟨i, by omega, rfl⟩]
        · rw [if_neg h1]
          by_cases h2 : ∃ j, j < i ∧ ad j = a
          · obtain ⟨j, h2, h3⟩ := h2
            rw [if_pos ⟨j, h2, h3⟩, if_pos ⟨j, by omega, h3⟩]
          · rw [if_neg h2, if_neg]
            rintro ⟨j, h3, h4⟩
            by_cases h5 : j = i
            · subst h5; exact h1 h4.symm
            · exact h2 ⟨j, by omega, h4⟩
      · refine ⟨trivial, ?_⟩
        rw [if_neg]
        · exact halloc i hi
        · rintro ⟨j, h3, h4⟩
          have := hd j i (by omega) hi h4
          omega)
  have h0 : ∀ z, z = 0 → (fun a => if ∃ i, i < z ∧ ad i = a then none else m a : Mem S) = m := by
    rintro z rfl
    funext a; simp
  rw [h0 0 rfl] at key
  exact key

/-! ### C78 -/

/-- **C78, new.** When the allocations succeed, `sp_block_new` gives a block of the given channel count
and size whose channels are distinct new arrays of `size` zeros; nothing else changes. -/
theorem C78_block_new [Zero S] (ad : Nat → Addr) (nch size : Nat) (out : Block) (m : Mem S)
    (hl : nch ≤ out.samples.length) (hf : Fresh m nch ad) :
    ∃ b m', blockNew (fun i => some (ad i)) nch size out m = .ok (0, b, m') ∧
      b.channelCount = nch ∧ b.size = size ∧ b.HasPointers (fun c => (ad c, 0)) ∧
      (∀ c, c < nch → m' (ad c) = some (List.replicate size 0)) ∧
      (∀ a, (∀ c, c < nch → a ≠ ad c) → m' a = m a) := by
  obtain ⟨b, h1, h2, h3, h4⟩ := blockNew_eq ad nch size out m hl
  refine ⟨b, _, h4, h1, h2, h3, ?_, ?_⟩
  · intro c hc
    exact if_pos ⟨c, hc, rfl⟩
  · intro a ha
    exact if_neg (fun ⟨c, hc, h⟩ => ha c hc h.symm)

/-- **C78, free.** A block of a nonzero size made by `sp_block_new` (whatever has been written to its
samples since) is completely released by `sp_block_free`: no array is freed twice, all are freed, and
nothing else changes. -/
theorem C78_block_free_partial {b : Block} (hsize : b.size ≠ 0) {ad : Nat → Addr}
    (hp : b.HasPointers (fun c => (ad c, 0))) {m : Mem S}
    (halloc : ∀ c, c < b.channelCount → (m (ad c)).isSome)
    (hd : ∀ i j, i < b.channelCount → j < b.channelCount → ad i = ad j → i = j) :
    ∃ m', blockFree b m = .ok m' ∧ (∀ c, c < b.channelCount → m' (ad c) = none) ∧
      (∀ a, (∀ c, c < b.channelCount → a ≠ ad c) → m' a = m a) :=
  ⟨_, blockFree_eq hsize hp m halloc hd, fun c hc => if_pos ⟨c, hc, rfl⟩,
    fun a ha => if_neg (fun ⟨c, hc, h⟩ => ha c hc h.symm)⟩

/-- **C78 is false for size zero**: `sp_block_new` allocates, `sp_block_free` does not free. -/
theorem C78_zero_size_leaks [Zero S] (ad : Nat → Addr) (nch : Nat) (out : Block) (m : Mem S)
    (hn : 0 < nch) (hl : nch ≤ out.samples.length) (hf : Fresh m nch ad) :
    ∃ b m', blockNew (fun i => some (ad i)) nch 0 out m = .ok (0, b, m') ∧ blockFree b m' = .ok m' ∧
      m (ad 0) = none ∧ m' (ad 0) = some [] := by
  obtain ⟨b, m', h1, h2, h3, h4, h5, h6⟩ := C78_block_new ad nch 0 out m hl hf
  refine ⟨b, m', h1, ?_, hf.unused 0 hn, h5 0 hn⟩
  unfold blockFree
  rw [if_neg (by simp [h3])]

/-- **C78, zero.** `sp_block_zero` sets exactly the `size` samples of each channel to zero. -/
theorem C78_block_zero [Zero S] {b : Block} {p : Nat → Ptr} (hp : b.HasPointers p) {m : Mem S}
    (hb : ∀ c, c < b.channelCount → ∃ arr, m (p c).1 = some arr ∧ (p c).2 + b.size ≤ arr.length) :
    ∃ m', blockZero b m = .ok m' ∧ SameShape m m' ∧
      (∀ c i, c < b.channelCount → i < b.size → m'.cell (p c).1 ((p c).2 + i) = some 0) ∧
      (∀ a k, (∀ c i, c < b.channelCount → i < b.size → ¬ (a = (p c).1 ∧ k = (p c).2 + i)) →
        m'.cell a k = m.cell a k) := by
  obtain ⟨m', h1, h2, h3, h4⟩ := forRange_rule
    (fun n (m' : Mem S) => SameShape m m' ∧
      (∀ c i, c < n → i < b.size → m'.cell (p c).1 ((p c).2 + i) = some 0) ∧
      (∀ a k, (∀ c i, c < n → i < b.size → ¬ (a = (p c).1 ∧ k = (p c).2 + i)) →
        m'.cell a k = m.cell a k))
    (lo := 0) (hi := b.channelCount) (Nat.zero_le _)
    (body := fun i m => do
      let s ← rd b.samples i
      let p ← derefPtr s
      let arr ← m.load p.1
      let arr ← memzero arr p.2 b.size
      return m.set p.1 (some arr)) (s := m)
    ⟨fun _ => rfl, by simp, by simp⟩
    (by
      rintro n m1 _ hn ⟨s1, s2, s3⟩
      obtain ⟨arr0, q1, q2⟩ := hb n hn
      have hsh := s1 (p n).1
      rw [q1] at hsh
      cases hm1 : m1 (p n).1 with
      | none => rw [hm1] at hsh; simp at hsh
      | some arr =>
        rw [hm1] at hsh
        simp only [Option.map_some, Option.some.injEq] at hsh
        have hmz : memzero arr (p n).2 b.size = .ok (tab arr.length (fun i =>
            if (p n).2 ≤ i ∧ i < (p n).2 + b.size then 0 else arr.getD i 0)) := by
          conv_lhs => rw [eq_tab arr 0]
          exact memzero_tab (by omega)
        refine ⟨m1.set (p n).1 (some (tab arr.length (fun i =>
            if (p n).2 ≤ i ∧ i < (p n).2 + b.size then 0 else arr.getD i 0))), ?_, ?_, ?_, ?_⟩
        · rw [rd_ok_iff.2 (hp n hn), ok_bind']
          simp only [derefPtr, ok_bind', Mem.load, hm1, hmz]
          rfl
        · intro a
          by_cases ha : a = (p n).1
          · subst ha
            rw [Mem.set_same, q1]
            simp [hsh]
          · rw [Mem.set_other _ _ ha]
            exact s1 a
        · intro c i hc hi
          by_cases ha : (p c).1 = (p n).1
          · unfold Mem.cell
            rw [ha, Mem.set_same]
            simp only [Option.bind_some, tab_getElem?]
            by_cases hcn : c = n
            · subst hcn
              rw [if_pos (by omega), if_pos (by omega)]
            · have := s2 c i (by omega) hi
              unfold Mem.cell at this
              rw [ha, hm1] at this
              simp only [Option.bind_some] at this
              have hlt : (p c).2 + i < arr.length := by
                by_contra hcon
                rw [List.getElem?_eq_none (by omega)] at this
                simp at this
              rw [if_pos hlt]
              split
              · rfl
              · rw [List.getD_eq_getElem?_getD, this]; rfl
          · have hcn : c ≠ n := fun h => ha (by rw [h])
            unfold Mem.cell
            rw [Mem.set_other _ _ ha]
            exact s2 c i (by omega) hi
        · intro a k hk
          rw [← s3 a k (fun c i hc hi => hk c i (by omega) hi)]
          by_cases ha : a = (p n).1
          · subst ha
            unfold Mem.cell
            rw [Mem.set_same, hm1]
            simp only [Option.bind_some, tab_getElem?]
            by_cases hlt : k < arr.length
            · rw [if_pos hlt, if_neg]
              · simp [hlt]
              · intro hcon
                exact hk n (k - (p n).2) (by omega) (by omega) ⟨rfl, by omega⟩
            · rw [if_neg hlt, List.getElem?_eq_none (by omega)]
          · unfold Mem.cell
            rw [Mem.set_other _ _ ha])
  exact ⟨m', h1, h2, h3, h4⟩

theorem blockCopyStep_ok {a b : Block} {pa pb : Nat → Ptr} (ha : a.HasPointers pa)
    {c i : Nat} (hc : c < a.channelCount) (hb : b.samples[c]? = some (some (pb c))) {m : Mem S}
    {v : S} {dst : Buf S} (hv : m.cell (pa c).1 ((pa c).2 + i) = some v) (hdst : m (pb c).1 = some dst)
    (hlen : (pb c).2 + i < dst.length) :
    blockCopyStep a b c i m = .ok (m.set (pb c).1 (some (dst.set ((pb c).2 + i) v))) := by
  unfold blockCopyStep
  rw [rd_ok_iff.2 (ha c hc), rd_ok_iff.2 hb]
  unfold Mem.cell at hv
  cases hs : m (pa c).1 with
  | none => rw [hs] at hv; simp at hv
  | some src =>
    rw [hs] at hv
    simp only [Option.bind_some] at hv
    simp only [ok_bind', derefPtr, Mem.load, hs, rd_ok_iff.2 hv, hdst, wr_eq_ok _ hlen]
    rfl

/-- **C78, copy.** `sp_block_copy(a, b)` writes the `size` samples of each channel of `a` to the
channels of `b` and changes nothing else, for blocks that share no memory and a target that is large
enough. -/
theorem C78_block_copy {a b : Block} {pa pb : Nat → Ptr} (ha : a.HasPointers pa) (hb : b.HasPointers pb)
    (hch : a.channelCount ≤ b.channelCount) {m : Mem S}
    (hma : ∀ c, c < a.channelCount → ∃ arr, m (pa c).1 = some arr ∧ (pa c).2 + a.size ≤ arr.length)
    (hmb : ∀ c, c < a.channelCount → ∃ arr, m (pb c).1 = some arr ∧ (pb c).2 + a.size ≤ arr.length)
    (hab : ∀ c d, c < a.channelCount → d < a.channelCount → (pa c).1 ≠ (pb d).1)
    (hbb : ∀ c d, c < a.channelCount → d < a.channelCount → (pb c).1 = (pb d).1 → c = d) :
    ∃ m', blockCopy a b m = .ok m' ∧ SameShape m m' ∧
      (∀ c i, c < a.channelCount → i < a.size →
        m'.cell (pb c).1 ((pb c).2 + i) = m.cell (pa c).1 ((pa c).2 + i)) ∧
      (∀ x k, (∀ c i, c < a.channelCount → i < a.size → ¬ (x = (pb c).1 ∧ k = (pb c).2 + i)) →
        m'.cell x k = m.cell x k) := by
  let Done : Nat → Nat → Nat → Nat → Prop := fun n j c i => (c < n ∧ i < a.size) ∨ (c = n ∧ i < j)
  let P : Nat → Nat → Mem S → Prop := fun n j m' => SameShape m m' ∧
      (∀ c i, Done n j c i → m'.cell (pb c).1 ((pb c).2 + i) = m.cell (pa c).1 ((pa c).2 + i)) ∧
      (∀ x k, (∀ c i, Done n j c i → ¬ (x = (pb c).1 ∧ k = (pb c).2 + i)) → m'.cell x k = m.cell x k)
  have step : ∀ n j m1, n < a.channelCount → j < a.size → P n j m1 →
      ∃ m2, blockCopyStep a b n j m1 = .ok m2 ∧ P n (j + 1) m2 := by
    rintro n j m1 hn hj ⟨s1, s2, s3⟩
    obtain ⟨src, q1, q2⟩ := hma n hn
    obtain ⟨dst0, q3, q4⟩ := hmb n hn
    have hsh := s1 (pb n).1
    rw [q3] at hsh
    have hsrc : m.cell (pa n).1 ((pa n).2 + j) = some (src[(pa n).2 + j]'(by omega)) := by
      unfold Mem.cell
      rw [q1]
      simp only [Option.bind_some]
      exact List.getElem?_eq_getElem _
    have hdone : ∀ c i, Done n j c i → c < a.channelCount := by
      rintro c i (⟨h, _⟩ | ⟨h, _⟩) <;> omega
    have hsrc1 : m1.cell (pa n).1 ((pa n).2 + j) = some (src[(pa n).2 + j]'(by omega)) := by
      rw [s3 _ _ (fun c i h hx => hab n c hn (hdone c i h) hx.1), hsrc]
    cases hm1 : m1 (pb n).1 with
    | none => rw [hm1] at hsh; simp at hsh
    | some dst =>
      rw [hm1] at hsh
      simp only [Option.map_some, Option.some.injEq] at hsh
      refine ⟨_, blockCopyStep_ok ha hn (hb n (by omega)) hsrc1 hm1 (by omega), ?_, ?_, ?_⟩
      · intro x
        by_cases hx : x = (pb n).1
        · subst hx
          rw [Mem.set_same, q3]
          simp [hsh]
        · rw [Mem.set_other _ _ hx]; exact s1 x
      · intro c i hci
        by_cases hcn : c = n
        · subst hcn
          have hij : i < j ∨ i = j := by
            rcases hci with ⟨h, _⟩ | ⟨_, h⟩ <;> omega
          unfold Mem.cell
          rw [Mem.set_same]
          simp only [Option.bind_some]
          rcases hij with hij | rfl
          · rw [List.getElem?_set, if_neg (by omega)]
            have := s2 c i (.inr ⟨rfl, hij⟩)
            unfold Mem.cell at this
            rw [hm1] at this
            simpa only [Option.bind_some] using this
          · rw [List.getElem?_set, if_pos rfl, if_pos (by omega)]
            unfold Mem.cell at hsrc
            rw [hsrc]
        · have hd : Done n j c i := by
            rcases hci with ⟨h1, h2⟩ | ⟨h1, _⟩
            · exact .inl ⟨h1, h2⟩
            · exact absurd h1 hcn
          have hne : (pb c).1 ≠ (pb n).1 := fun h => hcn (hbb c n (hdone c i hd) hn h)
          unfold Mem.cell
          rw [Mem.set_other _ _ hne]
          exact s2 c i hd
      · intro x k hx
        rw [← s3 x k (fun c i h => hx c i (by
          rcases h with h | ⟨h1, h2⟩
          · exact .inl h
          · exact .inr ⟨h1, by omega⟩))]
        by_cases hxn : x = (pb n).1
        · subst hxn
          unfold Mem.cell
          rw [Mem.set_same, hm1]
          simp only [Option.bind_some]
          rw [List.getElem?_set, if_neg]
          intro h
          exact hx n j (.inr ⟨rfl, by omega⟩) ⟨rfl, h.symm⟩
        · unfold Mem.cell
          rw [Mem.set_other _ _ hxn]
  obtain ⟨m', h1, h2, h3, h4⟩ := forRange_rule (fun n m' => P n 0 m') (lo := 0) (hi := a.channelCount)
    (Nat.zero_le _) (body := fun ci m => forRange 0 a.size (fun i m => blockCopyStep a b ci i m) m) (s := m)
    ⟨fun _ => rfl, by rintro c i (⟨h, _⟩ | ⟨_, h⟩) <;> omega, fun _ _ _ => rfl⟩
    (by
      intro n m1 _ hn hP
      obtain ⟨m2, g1, g2, g3, g4⟩ := forRange_rule (fun j m' => P n j m') (lo := 0) (hi := a.size)
        (Nat.zero_le _) (body := fun i m => blockCopyStep a b n i m) (s := m1) hP
        (fun j m2 _ hj hP => step n j m2 hn hj hP)
      refine ⟨m2, g1, g2, ?_, ?_⟩
      · intro c i h
        refine g3 c i ?_
        rcases h with ⟨h1, h2⟩ | ⟨_, h⟩
        · by_cases hc : c = n
          · exact .inr ⟨hc, h2⟩
          · exact .inl ⟨by omega, h2⟩
        · omega
      · intro x k h
        refine g4 x k (fun c i hd => h c i ?_)
        rcases hd with ⟨h1, h2⟩ | ⟨h1, h2⟩
        · exact .inl ⟨by omega, h2⟩
        · exact .inl ⟨by omega, h2⟩)
  refine ⟨m', h1, h2, fun c i hc hi => h3 c i (.inl ⟨hc, hi⟩), fun x k h => h4 x k ?_⟩
  rintro c i (⟨hc, hi⟩ | ⟨_, hi⟩)
  · exact h c i hc hi
  · omega

/-- Non-vacuity: new, zero, copy, free with two channels of three samples. -/
example : ∃ b m1, blockNew (S := Int) (fun i => some (10 + i)) 2 3 ⟨0, 0, [none, none]⟩ (fun _ => none)
      = .ok (0, b, m1) ∧ m1 11 = some [0, 0, 0] ∧
    ∃ m2, blockCopy ⟨2, 2, [some (1, 0), some (2, 1)]⟩ b (m1.set 1 (some [5, 6]) |>.set 2 (some [7, 8, 9])) =
      .ok m2 ∧ m2 10 = some [5, 6, 0] ∧ m2 11 = some [8, 9, 0] ∧
    ∃ m3, blockFree b m2 = .ok m3 ∧ m3 10 = none ∧ m3 11 = none ∧ m3 1 = some [5, 6] :=
  ⟨_, _, rfl, rfl, _, rfl, rfl, rfl, _, rfl, rfl, rfl, rfl⟩

example : Fresh (S := Int) (fun _ => none) 2 (fun i => 10 + i) :=
  ⟨fun _ _ => rfl, fun i j _ _ h => Nat.add_left_cancel h⟩

/-! ### C32 -/

/-- An event function that changes and frees only what is in the block it is given: other memory stays
as it is and the arrays of the block stay allocated. -/
def WritesBlock {E : Type} (gen : Nat → Nat → Block → E → Mem S → C (Nat × E × Mem S)) : Prop :=
  ∀ x y (b : Block) p e m st e' m', b.HasPointers p → gen x y b e m = .ok (st, e', m') →
    (∀ a, (∀ c, c < b.channelCount → a ≠ (p c).1) → m' a = m a) ∧ SameShape m m'

/-- A map function that changes only what is in the two blocks it is given. -/
def MapsBlocks {K : Type} (map : Nat → Nat → Block → Block → K → Mem S → C (Nat × K × Mem S)) : Prop :=
  ∀ x y (b1 b2 : Block) p1 p2 k m st k' m', b1.HasPointers p1 → b2.HasPointers p2 →
    map x y b1 b2 k m = .ok (st, k', m') →
    (∀ a, (∀ c, c < b1.channelCount → a ≠ (p1 c).1) → (∀ c, c < b2.channelCount → a ≠ (p2 c).1) →
      m' a = m a) ∧ SameShape m m'

theorem SameShape.isSome {m m' : Mem S} (h : SameShape m m') {a : Addr} (ha : (m a).isSome) : (m' a).isSome := by
  have := h a
  cases hm : m a with
  | none => rw [hm] at ha; simp at ha
  | some b =>
    rw [hm] at this
    cases hm' : m' a with
    | none => rw [hm'] at this; simp at this
    | some b' => rfl

/-- **C32.** For a block of nonzero size and event and map functions that change only the blocks they
are given: the wrapped event is called with a new block of zeros (memory otherwise as before), it
leaves the main output as it is; if it fails all memory is exactly as before; else the map function is
called with what the event has generated and the main output as it was, and the result is what the
map function has written to the main output; in all cases the temporary block is freed and no other
memory is changed. -/
theorem C32_isolated_partial {E K : Type} [Zero S]
    {gen : Nat → Nat → Block → E → Mem S → C (Nat × E × Mem S)}
    {map : Nat → Nat → Block → Block → K → Mem S → C (Nat × K × Mem S)}
    (hgen : WritesBlock gen) (hmap : MapsBlocks map) {ad : Nat → Addr} {x y : Nat} {out : Block} {e e' : E}
    {k k' : K} {m m' : Mem S} {st : Nat} {po : Nat → Ptr} (hsize : out.size ≠ 0)
    (hlim : out.channelCount ≤ out.samples.length) (hpo : out.HasPointers po)
    (hout : ∀ c, c < out.channelCount → (m (po c).1).isSome) (hf : Fresh m out.channelCount ad)
    (h : mapIsolatedGenerate (fun i => some (ad i)) gen map x y out e k m = .ok (st, e', k', m')) :
    ∃ temp m0 st1 m1,
      (temp.channelCount = out.channelCount ∧ temp.size = out.size ∧ temp.HasPointers (fun c => (ad c, 0)) ∧
        (∀ c, c < out.channelCount → m0 (ad c) = some (List.replicate out.size 0)) ∧
        (∀ a, (∀ c, c < out.channelCount → a ≠ ad c) → m0 a = m a)) ∧
      gen x y temp e m0 = .ok (st1, e', m1) ∧
      (∀ a, (∀ c, c < out.channelCount → a ≠ ad c) → m1 a = m a) ∧
      (st1 ≠ 0 → st = st1 ∧ k' = k ∧ m' = m) ∧
      (st1 = 0 → ∃ m2, map x y temp out k m1 = .ok (st, k', m2) ∧
        (∀ c, c < out.channelCount → m' (po c).1 = m2 (po c).1) ∧
        (∀ a, (∀ c, c < out.channelCount → a ≠ (po c).1) → m' a = m a)) := by
  obtain ⟨temp, m0, b1, b2, b3, b4, b5, b6⟩ := C78_block_new ad out.channelCount out.size
    ⟨0, 0, List.replicate out.samples.length none⟩ m (by simpa using hlim) hf
  have hne : ∀ c d, c < out.channelCount → d < out.channelCount → (po c).1 ≠ ad d := by
    intro c d hc hd heq
    have := hout c hc
    rw [heq, hf.unused d hd] at this
    simp at this
  have hdist : ∀ i j, i < temp.channelCount → j < temp.channelCount → ad i = ad j → i = j := by
    rw [b2]; exact hf.distinct
  unfold mapIsolatedGenerate at h
  rw [b1, ok_bind'] at h
  simp only [ne_eq, not_true_eq_false, if_false] at h
  rw [bind_eq_ok] at h
  obtain ⟨⟨st1, e1, m1⟩, hg, h⟩ := h
  obtain ⟨g1, g2⟩ := hgen _ _ _ _ _ _ _ _ _ b4 hg
  rw [b2] at g1
  have hm1 : ∀ a, (∀ c, c < out.channelCount → a ≠ ad c) → m1 a = m a := fun a ha => by
    rw [g1 a ha, b6 a ha]
  have hal : ∀ c, c < out.channelCount → (m1 (ad c)).isSome := fun c hc =>
    g2.isSome (by rw [b5 c hc]; rfl)
  simp only at h
  by_cases hst : st1 = 0
  · subst hst
    simp only [not_true_eq_false, if_false] at h
    rw [bind_eq_ok] at h
    obtain ⟨⟨st2, k2, m2⟩, hm, h⟩ := h
    simp only at h
    rw [bind_eq_ok] at h
    obtain ⟨m3, hfr, h⟩ := h
    simp only [pure_eq_ok, Except.ok.injEq, Prod.mk.injEq] at h
    obtain ⟨rfl, rfl, rfl, rfl⟩ := h
    obtain ⟨k1, k2'⟩ := hmap _ _ _ _ _ _ _ _ _ _ _ b4 hpo hm
    rw [b2] at k1
    rw [blockFree_eq (by rw [b3]; exact hsize) b4 m2 (by
      rw [b2]; exact fun c hc => k2'.isSome (hal c hc)) hdist] at hfr
    simp only [Except.ok.injEq] at hfr
    refine ⟨temp, m0, 0, m1, ⟨b2, b3, b4, b5, b6⟩, hg, hm1, fun h => absurd rfl h, fun _ => ⟨m2, hm, ?_, ?_⟩⟩
    · intro c hc
      rw [← hfr]
      refine if_neg ?_
      rintro ⟨d, hd, hd2⟩
      rw [b2] at hd
      exact hne c d hc hd hd2.symm
    · intro a ha
      rw [← hfr]
      simp only
      by_cases hex : ∃ i, i < temp.channelCount ∧ ad i = a
      · rw [if_pos hex]
        obtain ⟨i, hi, rfl⟩ := hex
        rw [b2] at hi
        exact (hf.unused i hi).symm
      · rw [if_neg hex]
        have hx : ∀ c, c < out.channelCount → a ≠ ad c := fun c hc hac => hex ⟨c, by rw [b2]; exact hc, hac.symm⟩
        rw [k1 a hx ha, hm1 a hx]
  · simp only [hst, not_false_eq_true, if_true] at h
    rw [bind_eq_ok] at h
    obtain ⟨m3, hfr, h⟩ := h
    simp only [pure_eq_ok, Except.ok.injEq, Prod.mk.injEq] at h
    obtain ⟨rfl, rfl, rfl, rfl⟩ := h
    rw [blockFree_eq (by rw [b3]; exact hsize) b4 m1 (by rw [b2]; exact hal) hdist] at hfr
    simp only [Except.ok.injEq] at hfr
    refine ⟨temp, m0, st1, m1, ⟨b2, b3, b4, b5, b6⟩, hg, hm1, fun _ => ⟨rfl, rfl, ?_⟩, fun h => absurd h hst⟩
    rw [← hfr]
    funext a
    by_cases hex : ∃ i, i < temp.channelCount ∧ ad i = a
    · rw [if_pos hex]
      obtain ⟨i, hi, rfl⟩ := hex
      rw [b2] at hi
      exact (hf.unused i hi).symm
    · rw [if_neg hex]
      exact hm1 a (fun c hc hac => hex ⟨c, by rw [b2]; exact hc, hac.symm⟩)

/-- **C32 is false for blocks of size zero**: the temporary block is not freed. -/
theorem C32_zero_size_leaks [Zero S] (m : Mem S) (ad : Nat → Addr) (hf : Fresh m 1 ad) :
    ∃ m', mapIsolatedGenerate (fun i => some (ad i)) (fun _ _ _ (e : Unit) m => .ok (0, e, m))
      (fun _ _ _ _ (k : Unit) m => .ok (0, k, m)) 0 0 ⟨1, 0, [none]⟩ () () m = .ok (0, (), (), m') ∧
      m (ad 0) = none ∧ m' (ad 0) = some [] := by
  obtain ⟨b, m', h1, h2, h3, h4⟩ := C78_zero_size_leaks ad 1 ⟨0, 0, [none]⟩ m (by simp) (by simp) hf
  refine ⟨m', ?_, h3, h4⟩
  unfold mapIsolatedGenerate
  simp only [List.length_singleton, List.replicate_one, h1, ok_bind', h2]
  rfl

/-- Non-vacuity: an event that writes 3 to the first sample and a map function that adds the double of
the first sample of its input to its output. -/
example : ∃ m', mapIsolatedGenerate (S := Int) (fun i => some (10 + i))
      (fun _ _ b (e : Unit) m => match b.samples with
        | some p :: _ => .ok (0, e, m.set p.1 (some [3, 0]))
        | _ => .ok (1, e, m))
      (fun _ _ b1 b2 (k : Unit) m => match b1.samples, b2.samples with
        | some p :: _, some q :: _ => match m p.1, m q.1 with
          | some (v :: _), some (u :: r) => .ok (0, k, m.set q.1 (some ((u + 2 * v) :: r)))
          | _, _ => .ok (1, k, m)
        | _, _ => .ok (1, k, m)) 0 2 ⟨1, 2, [some (1, 0), none]⟩ () ()
      (fun a => if a = 1 then some [4, 5] else none) = .ok (0, (), (), m') ∧
    m' 1 = some [10, 5] ∧ m' 10 = none := ⟨_, rfl, rfl, rfl⟩

example : WritesBlock (S := Int) (fun _ _ _ (e : Unit) m => .ok (0, e, m)) := by
  intro x y b p e m st e' m' _ h
  simp only [Except.ok.injEq, Prod.mk.injEq] at h
  obtain ⟨_, _, rfl⟩ := h
  exact ⟨fun _ _ => rfl, fun _ => rfl⟩

/-! ### C77 -/

/-- **C77 is false**: the allocation helper used for nearly all memory returns the status id of success
when `calloc` fails, because the id for memory errors is zero, and leaves the result unset. -/
theorem C77_allocation_failure_not_reported [Zero S] (n : Nat) (result : Option Addr) (m : Mem S) :
    helperCalloc none n result m = (0, result, m) := rfl

/-- **C77 is false of `sp_block_new`**: when the first allocation fails an unset pointer is used. -/
theorem C77_block_new_uses_unset_pointer [Zero S] (addrs : Nat → Option Addr) (h : addrs 0 = none)
    (nch size : Nat) (out : Block) (m : Mem S) (hn : 0 < nch) :
    blockNew addrs nch size out m = .error .uninitialized := by
  unfold blockNew
  rw [forRange_head hn]
  simp only [ne_eq, not_true_eq_false, if_false, h, helperCalloc, sphHelperStatusIdMemory, isSet,
    error_bind', bind_error]

/-- **C77 is false of `sp_block_new`**: when the second allocation fails, success is returned and both
channels are the same array. -/
theorem C77_block_new_aliases [Zero S] (a : Addr) (size : Nat) (m : Mem S) :
    ∃ b m', blockNew (fun i => if i = 0 then some a else none) 2 size ⟨0, 0, [none, none]⟩ m = .ok (0, b, m') ∧
      b.channelCount = 2 ∧ b.samples = [some (a, 0), some (a, 0)] := ⟨_, _, rfl, rfl, rfl⟩

/-- **C77** holds of the event memory register: an allocation that is needed and fails gives a failure
status and leaves the register as it was. -/
theorem C77_event_memory_partial (r : MemReg) (n : Nat) (e : MemEvent) :
    (e.memory.data = none ∨ e.memory.size ≤ e.memory.used →
      ∃ st, st ≠ 0 ∧ memoryAdd false r e = .ok (st, e)) ∧
    (e.memory.data = none ∨ e.memory.size - e.memory.used < n →
      ∃ st, st ≠ 0 ∧ memoryEnsure false n e = .ok (st, e)) := by
  constructor
  · intro h
    refine ⟨memoryStatus, by simp [memoryStatus], ?_⟩
    unfold memoryAdd
    split
    · next b hb =>
      rw [if_pos (by rcases h with h | h; · rw [hb] at h; simp at h
                     · omega)]
      rfl
    · rfl
  · intro h
    refine ⟨memoryStatus, by simp [memoryStatus], ?_⟩
    unfold memoryEnsure
    split
    · next b hb =>
      rw [if_pos (by rcases h with h | h; · rw [hb] at h; simp at h
                     · omega)]
      rfl
    · rfl

/-- Non-vacuity: a full register. -/
example : ∃ st, st ≠ 0 ∧ memoryAdd false ⟨1, 0⟩ ⟨⟨some [some ⟨5, 0⟩], 1, 1⟩, true⟩ =
    .ok (st, ⟨⟨some [some ⟨5, 0⟩], 1, 1⟩, true⟩) :=
  (C77_event_memory_partial ⟨1, 0⟩ 0 _).1 (.inr (by simp))

end Sp
