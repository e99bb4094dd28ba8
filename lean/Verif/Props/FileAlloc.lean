import Verif.Model.FileAlloc
import Verif.Props.File
import Verif.Props.FilterMemory
import Verif.Props.Render

/-!
# C184: reading and writing sound files when allocations fail
-/

set_option linter.unusedSectionVars false

namespace Sp
variable {S F : Type}

private theorem iter_lift {σ τ : Type} {b1 : Nat → σ → C σ} {b2 : Nat → τ → C τ} (φ : σ → τ)
    (h : ∀ i s, b2 i (φ s) = (b1 i s).map φ) (k lo : Nat) (s : σ) : iter b2 k lo (φ s) = (iter b1 k lo s).map φ := by
  induction k generalizing lo s with
  | zero => rfl
  | succ k ih =>
    simp only [iter, h]
    cases b1 lo s with
    | error e => rfl
    | ok t => exact ih _ _

private theorem fill_eq (fmt : FloatFmt S F) (samples : Buf (Buf S)) (ch n a : Nat) (b : Buf (Option F)) :
    fileWriteFill fmt samples ch n (some (a, b)) = (forRange 0 n (fileWriteFrame fmt samples ch) b).map fun b => some (a, b) := by
  unfold fileWriteFill forRange
  refine iter_lift (fun b => some (a, b)) (fun i b => ?_) _ _ _
  rw [fileWriteFrame, forRange]
  refine iter_lift (fun b => some (a, b)) (fun j b => ?_) _ _ _
  rw [fileWriteStep]
  cases rd2 samples j i with
  | error e => rfl
  | ok v =>
    simp only [ok_bind', fileDataSet]
    cases wr b (u32 (u32 (i * ch) + j)) (some (fmt.narrow v)) with
    | error e => rfl
    | ok b => rfl

/-- Allocating and freeing. -/
private theorem free_malloc {m : Live} (hm : m.Fresh) : ∃ m', m.malloc.2.free (some m.malloc.1) = .ok m' ∧ (∀ a, m'.live a = m.live a) ∧ m'.Fresh := by
  refine ⟨_, if_pos (by simp [Live.malloc]), fun a => ?_, fun a ha => ?_⟩
  · simp only [Live.malloc]
    by_cases h : a = m.next
    · simp [h, hm m.next (le_refl _)]
    · simp [h]
  · simp only [Live.malloc] at ha
    have h : a ≠ m.next := by omega
    simp [Live.malloc, h, hm a (by omega)]

/-- **C184, writing, if the allocation succeeds**: the status and the file are those of C69 and C160, for all arguments for which these are defined, and the memory is
as before. -/
theorem C184_write_partial (fmt : FloatFmt S F) {file file' : SpFile} {samples : Buf (Buf S)} {n st : Nat} {m : Live} (hm : m.Fresh)
    (h : fileWrite fmt file samples n = .ok (st, file')) :
    ∃ m', fileWriteAlloc fmt true file samples n m = .ok (st, file', m') ∧ (∀ a, m'.live a = m.live a) ∧ m'.Fresh := by
  obtain ⟨m', e, e1, e2⟩ := free_malloc hm
  refine ⟨m', ?_, e1, e2⟩
  rw [fileWrite] at h
  rw [fileWriteAlloc]
  obtain ⟨ch, h1, h⟩ := bind_eq_ok.1 h
  obtain ⟨d, h2, h⟩ := bind_eq_ok.1 h
  obtain ⟨fl, h3, h⟩ := bind_eq_ok.1 h
  obtain ⟨f, h4, h⟩ := bind_eq_ok.1 h
  rw [h1]
  simp only [ok_bind', fileDataMalloc, if_true, ne_eq, not_true_eq_false, if_false, fill_eq, h2, Except.map, fileDataBytes, h3, h4, pure_eq_ok, Option.map, e]
  simp only [pure_eq_ok] at h
  by_cases hw : (fwriteOne (fl.flatMap fmt.toBytes) f).1 = 0
  · rw [if_pos hw] at h ⊢
    rw [← (Prod.mk.inj (Except.ok.inj h)).1, ← (Prod.mk.inj (Except.ok.inj h)).2]
  · rw [if_neg hw] at h ⊢
    rw [← (Prod.mk.inj (Except.ok.inj h)).1, ← (Prod.mk.inj (Except.ok.inj h)).2]

/-- **C184 is false for writing**: if the allocation fails and there is something to write, then it is written through a null pointer instead of a failure status being returned. -/
theorem C184_write_false (fmt : FloatFmt S F) {file : SpFile} {ch : Nat} (hc : file.channelCount = some ch) {samples : Buf (Buf S)} {n : Nat} (ha : HasCells samples ch n)
    (hp : 0 < n * ch) (m : Live) :
    fileWriteAlloc fmt false file samples n m = .error .nullDeref := by
  have hn : 0 < n := Nat.pos_of_mul_pos_right hp
  have hch : 0 < ch := Nat.pos_of_mul_pos_left hp
  have hf : fileWriteFill fmt samples ch n none = .error .nullDeref := by
    rw [fileWriteFill, forRange_head hn, forRange_head hch]
    obtain ⟨v, hv⟩ := Option.isSome_iff_exists.1 (ha 0 hch 0 hn)
    rw [rd2_eq hv]
    rfl
  rw [fileWriteAlloc, hc]
  simp only [getChannels, ok_bind', fileDataMalloc, sphHelperStatusIdMemory, Bool.false_eq_true, ne_eq, not_true_eq_false, if_false, hf]
  rfl

/-- **C184, writing nothing**: whether the allocation succeeds or not, the status is that of a failed write and nothing is changed. -/
theorem C184_write_nothing (fmt : FloatFmt S F) (ok : Bool) {file : SpFile} {ch : Nat} {f : Stream} (hc : file.channelCount = some ch) (hf : file.file = some f)
    {samples : Buf (Buf S)} {n : Nat} (hp : n * ch = 0) {m : Live} (hm : m.Fresh) :
    ∃ m', fileWriteAlloc fmt ok file samples n m = .ok (idFileWrite, file, m') ∧ ∀ a, m'.live a = m.live a := by
  have hz : u32 (u32 (ch * n) * 4) = 0 := by rw [Nat.mul_comm ch, hp]; rfl
  have hl : ∀ d, fileWriteFill fmt samples ch n d = .ok d := by
    intro d
    rcases Nat.mul_eq_zero.1 hp with h | h
    · rw [fileWriteFill, h, forRange_self]
    · obtain ⟨s, h1, h2⟩ := forRange_rule (P := fun _ s => s = d) (lo := 0) (hi := n) (s := d) (Nat.zero_le _) rfl
        (body := fun i d => forRange 0 ch (fun j d => do
          let v ← rd2 samples j i
          fileDataSet d (u32 (u32 (i * ch) + j)) (fmt.narrow v)) d) (by
          intro i s _ _ hs
          exact ⟨s, by rw [h, forRange_self], hs⟩)
      rw [fileWriteFill, h1, h2]
  have hfile : ({ file := some f, dataSize := file.dataSize, channelCount := some ch } : SpFile) = file := by rw [← hf, ← hc]
  cases ok with
  | true =>
    obtain ⟨m', e, e1, -⟩ := free_malloc hm
    refine ⟨m', ?_, e1⟩
    rw [fileWriteAlloc, hc]
    simp only [getChannels, ok_bind', hz, fileDataMalloc, if_true, ne_eq, not_true_eq_false, if_false, hl, fileDataBytes, Nat.zero_div, List.replicate_zero, List.mapM_nil,
      pure_eq_ok, List.flatMap_nil, hf, derefFile, fwriteOne, List.length_nil, Option.map, e, hfile]
  | false =>
    refine ⟨m, ?_, fun _ => rfl⟩
    rw [fileWriteAlloc, hc]
    simp only [getChannels, ok_bind', hz, fileDataMalloc, sphHelperStatusIdMemory, Bool.false_eq_true, if_true, ne_eq, not_true_eq_false, if_false, hl, fileDataBytes, hf,
      derefFile, fwriteOne, List.length_nil, Option.map, Live.free, hfile, pure_eq_ok]

/-- **C184, reading, if the allocation succeeds.** -/
theorem C184_read_partial (fmt : FloatFmt S F) {file file' : SpFile} {samples samples' : Buf (Buf S)} {n : Nat} {st : Option Nat} {m : Live} (hm : m.Fresh)
    (h : fileRead fmt file n samples = .ok (st, file', samples')) :
    ∃ m', fileReadAlloc fmt true file n samples m = .ok (st, file', samples', m') ∧ (∀ a, m'.live a = m.live a) ∧ m'.Fresh := by
  obtain ⟨m', e, e1, e2⟩ := free_malloc hm
  refine ⟨m', ?_, e1, e2⟩
  rw [fileRead] at h
  rw [fileReadAlloc]
  obtain ⟨ch, h1, h⟩ := bind_eq_ok.1 h
  obtain ⟨f, h2, h⟩ := bind_eq_ok.1 h
  rw [h1, h2]
  simp only [ok_bind', fileDataMalloc, if_true, ne_eq, not_true_eq_false, if_false, Option.isNone_some, Bool.false_eq_true, false_and, Option.map, e, pure_eq_ok]
  simp only [ne_eq, pure_eq_ok] at h
  split at h
  · exact nomatch h
  · next g1 =>
    rw [if_neg g1]
    split at h
    · next g2 =>
      rw [if_pos g2]
      obtain ⟨q1, q2⟩ := Prod.mk.inj (Except.ok.inj h)
      obtain ⟨q2, q3⟩ := Prod.mk.inj q2
      rw [← q1, ← q2, ← q3]
    · next g2 =>
      rw [if_neg g2]
      split at h
      · exact nomatch h
      · next g3 =>
        rw [if_neg g3]
        obtain ⟨s, h3, h⟩ := bind_eq_ok.1 h
        rw [h3, ok_bind']
        obtain ⟨q1, q2⟩ := Prod.mk.inj (Except.ok.inj h)
        obtain ⟨q2, q3⟩ := Prod.mk.inj q2
        rw [← q1, ← q2, ← q3]

/-- **C184 is false for reading**: if the allocation fails and any samples are requested, then a null pointer is passed to `fread`. -/
theorem C184_read_false (fmt : FloatFmt S F) {file : SpFile} {ch : Nat} {f : Stream} (hc : file.channelCount = some ch) (hf : file.file = some f) (samples : Buf (Buf S))
    {n : Nat} (hp : 0 < n * ch) (hlt : n * ch < 4294967296) (m : Live) :
    fileReadAlloc fmt false file n samples m = .error .nullDeref := by
  have h1 : u32 (ch * n) ≠ 0 := by rw [Nat.mul_comm ch, u32_of_lt hlt]; omega
  rw [fileReadAlloc, hc, hf]
  simp only [getChannels, derefFile, ok_bind', fileDataMalloc, sphHelperStatusIdMemory, Bool.false_eq_true, ne_eq, not_true_eq_false, if_false, Option.isNone_none, true_and,
    if_pos h1]

/-- **C184, several calls**: blocks written one after the other, where each allocation succeeds or fails. All calls return, and with success, exactly if all allocations
succeed; then the file has all samples in the order of the calls and the memory is as before. -/
theorem C184_write_each (fmt : FloatFmt S F) {hdr : List Nat} (hh : hdr.length = 40) {ch : Nat} (hch : 0 < ch) (calls : List (Bool × Buf (Buf S) × Nat))
    (hcalls : ∀ c ∈ calls, HasCells c.2.1 ch c.2.2 ∧ 0 < c.2.2) {data : List Nat} {file : SpFile} (hf : Writing hdr ch data file) {m : Live} (hm : m.Fresh)
    (hlt : data.length + (calls.map fun c => 4 * (c.2.2 * ch)).sum < 4294967296) :
    ((∃ r, fileWriteEach fmt calls file m = .ok r) ↔ ∀ c ∈ calls, c.1 = true) ∧
    ∀ sts file' m', fileWriteEach fmt calls file m = .ok (sts, file', m') →
      (∀ st ∈ sts, st = 0) ∧ Writing hdr ch (data ++ calls.flatMap fun c => (floatsIn fmt c.2.1 ch c.2.2).flatMap fmt.toBytes) file' ∧ ∀ a, m'.live a = m.live a := by
  induction calls generalizing data file m with
  | nil =>
    refine ⟨⟨fun _ => by simp, fun _ => ⟨_, rfl⟩⟩, fun sts file' m' h => ?_⟩
    obtain ⟨q1, q2⟩ := Prod.mk.inj (Except.ok.inj h)
    obtain ⟨q2, q3⟩ := Prod.mk.inj q2
    subst q1 q2 q3
    exact ⟨by simp, by simpa using hf, fun _ => rfl⟩
  | cons c rest ih =>
    obtain ⟨ok, samples, n⟩ := c
    obtain ⟨ha, hn⟩ := hcalls _ (List.mem_cons_self ..)
    simp only [] at ha hn
    have hp : 0 < n * ch := Nat.mul_pos hn hch
    simp only [List.map_cons, List.sum_cons] at hlt
    cases ok with
    | false =>
      have hc : file.channelCount = some ch := by obtain ⟨eof, rfl⟩ := hf; rfl
      have h : fileWriteEach fmt ((false, samples, n) :: rest) file m = .error .nullDeref := by
        rw [fileWriteEach, C184_write_false fmt hc ha hp m]
        rfl
      rw [h]
      exact ⟨⟨fun ⟨r, hr⟩ => (nomatch hr), fun h => absurd (h _ (List.mem_cons_self ..)) (by simp)⟩, fun _ _ _ hr => (nomatch hr)⟩
    | true =>
      obtain ⟨file1, w1, w2⟩ := fileWrite_eq fmt hh hf ha hp (by omega)
      obtain ⟨m1, v1, v2, v3⟩ := C184_write_partial fmt hm w1
      have hlen : (List.flatMap fmt.toBytes (floatsIn fmt samples ch n)).length = 4 * (n * ch) := by
        rw [toBytes_length fmt (floatsIn fmt samples ch n), floatsIn_length fmt ha]
      obtain ⟨i1, i2⟩ := ih (fun c hc => hcalls c (List.mem_cons_of_mem _ hc)) w2 v3 (by rw [List.length_append, hlen]; omega)
      have hstep : fileWriteEach fmt ((true, samples, n) :: rest) file m =
          (fileWriteEach fmt rest file1 m1).bind fun r => .ok (0 :: r.1, r.2.1, r.2.2) := by
        rw [fileWriteEach, v1]
        rfl
      rw [hstep]
      cases hr : fileWriteEach fmt rest file1 m1 with
      | error e =>
        rw [hr] at i1
        refine ⟨⟨fun ⟨r, hr⟩ => (nomatch hr), fun h => ?_⟩, fun _ _ _ hr => (nomatch hr)⟩
        obtain ⟨r, hr⟩ := i1.2 fun c hc => h c (List.mem_cons_of_mem _ hc)
        exact nomatch hr
      | ok r =>
        obtain ⟨sts, file2, m2⟩ := r
        have hall := i1.1 ⟨_, hr⟩
        refine ⟨⟨fun _ c hc => ?_, fun _ => ⟨_, rfl⟩⟩, fun sts' file' m' h => ?_⟩
        · rcases List.mem_cons.1 hc with rfl | hc
          · rfl
          · exact hall c hc
        · obtain ⟨q1, q2⟩ := Prod.mk.inj (Except.ok.inj h)
          obtain ⟨q2, q3⟩ := Prod.mk.inj q2
          simp only [] at q1 q2 q3
          subst q1 q2 q3
          obtain ⟨j1, j2, j3⟩ := i2 _ _ _ hr
          refine ⟨?_, ?_, fun a => (j3 a).trans (v2 a)⟩
          · intro st hst
            rcases List.mem_cons.1 hst with rfl | hst
            · rfl
            · exact j1 st hst
          · rw [List.flatMap_cons, ← List.append_assoc]
            exact j2

/-! ### Cases -/

/-- A file with two channels to which nothing has been written. -/
private def exFile : SpFile := ⟨some ⟨List.replicate 40 7, 44, false⟩, 0, some 2⟩

private theorem exFile_writing : Writing (List.replicate 40 7) 2 [] exFile := ⟨false, rfl⟩

private theorem exCells : HasCells [[1, 2, 3], [4, 5, (6 : Int)]] 2 3 := by
  intro c hc i hi
  have h1 : c = 0 ∨ c = 1 := by omega
  have h2 : i = 0 ∨ i = 1 ∨ i = 2 := by omega
  rcases h1 with rfl | rfl <;> rcases h2 with rfl | rfl | rfl <;> rfl

private theorem exFresh : (⟨5, fun a => decide (a = 3)⟩ : Live).Fresh := by
  intro a ha
  simp only [] at ha
  simp
  omega

/-- Two blocks are in the file if both allocations succeed. -/
example : ∃ sts file' m', fileWriteEach intFmt [(true, [[1, 2, 3], [4, 5, 6]], 3), (true, [[1, 2, 3], [4, 5, 6]], 2)] exFile ⟨5, fun a => decide (a = 3)⟩ =
      .ok (sts, file', m') ∧ (∀ st ∈ sts, st = 0) ∧
    Writing (List.replicate 40 7) 2 [1, 0, 0, 0, 4, 0, 0, 0, 2, 0, 0, 0, 5, 0, 0, 0, 3, 0, 0, 0, 6, 0, 0, 0, 1, 0, 0, 0, 4, 0, 0, 0, 2, 0, 0, 0, 5, 0, 0, 0] file' ∧
    ∀ a, m'.live a = decide (a = 3) := by
  obtain ⟨h1, h2⟩ := C184_write_each intFmt (hdr := List.replicate 40 7) rfl (ch := 2) (by omega)
    [(true, [[1, 2, 3], [4, 5, 6]], 3), (true, [[1, 2, 3], [4, 5, 6]], 2)]
    (by
      intro c hc
      simp only [List.mem_cons, List.not_mem_nil, or_false] at hc
      rcases hc with rfl | rfl
      · exact ⟨exCells, by decide⟩
      · exact ⟨fun c hc i hi => exCells c hc i (Nat.lt_trans hi (by decide)), by decide⟩) exFile_writing exFresh (by decide)
  obtain ⟨⟨sts, file', m'⟩, hr⟩ := h1.2 (by simp)
  obtain ⟨q1, q2, q3⟩ := h2 _ _ _ hr
  exact ⟨sts, file', m', hr, q1, q2, q3⟩

/-- The second allocation fails. -/
example : ¬ ∃ r, fileWriteEach intFmt [(true, [[1, 2, 3], [4, 5, 6]], 3), (false, [[1, 2, 3], [4, 5, 6]], 2)] exFile ⟨5, fun a => decide (a = 3)⟩ = .ok r := by
  intro h
  have := (C184_write_each intFmt (hdr := List.replicate 40 7) rfl (ch := 2) (by omega)
    [(true, [[1, 2, 3], [4, 5, 6]], 3), (false, [[1, 2, 3], [4, 5, 6]], 2)]
    (by
      intro c hc
      simp only [List.mem_cons, List.not_mem_nil, or_false] at hc
      rcases hc with rfl | rfl
      · exact ⟨exCells, by decide⟩
      · exact ⟨fun c hc i hi => exCells c hc i (Nat.lt_trans hi (by decide)), by decide⟩) exFile_writing exFresh (by decide)).1.1 h
  simpa using this _ (List.mem_cons_of_mem _ (List.mem_cons_self ..))

/-- Reading two frames of two channels. -/
example : ∃ file' m', fileReadAlloc intFmt true ⟨some ⟨[1, 0, 0, 0, 4, 0, 0, 0, 2, 0, 0, 0, 5, 0, 0, 0], 0, false⟩, 0, some 2⟩ 2 [[9, 9, 9], [9, 9, 9]]
      ⟨5, fun a => decide (a = 3)⟩ = .ok (none, file', [[1, 2, 9], [4, 5, 9]], m') ∧ ∀ a, m'.live a = decide (a = 3) := by
  obtain ⟨m', h, h1, -⟩ := C184_read_partial intFmt (file := ⟨some ⟨[1, 0, 0, 0, 4, 0, 0, 0, 2, 0, 0, 0, 5, 0, 0, 0], 0, false⟩, 0, some 2⟩)
    (samples := [[9, 9, 9], [9, 9, 9]]) (samples' := [[1, 2, 9], [4, 5, 9]]) (n := 2) exFresh rfl
  exact ⟨_, m', h, h1⟩

example : fileReadAlloc intFmt false ⟨some ⟨[1, 0, 0, 0, 4, 0, 0, 0, 2, 0, 0, 0, 5, 0, 0, 0], 0, false⟩, 0, some 2⟩ 2 [[9, 9, 9], [9, 9, 9]] ⟨5, fun a => decide (a = 3)⟩ =
    .error .nullDeref := C184_read_false intFmt rfl rfl _ (by decide) (by decide) _

end Sp
