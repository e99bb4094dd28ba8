import Verif.Model.FileErrors
import Verif.Props.Render

/-!
# C151: rendering to a file when writes fail
-/

set_option linter.unusedSectionVars false

namespace Sp
variable {S D F : Type}

/-- The state of a file after a write that failed: after the data is a part of what should have been written. -/
def WritingRest (hdr : List Nat) (ch : Nat) (data rest : List Nat) (file : SpFile) : Prop :=
  ∃ pos eof, file = { file := some { content := if data ++ rest = [] then hdr else hdr ++ [0, 0, 0, 0] ++ data ++ rest, pos := pos, eof := eof },
                      dataSize := data.length, channelCount := some ch }

theorem Writing.toRest {hdr data : List Nat} {ch : Nat} {file : SpFile} (h : Writing hdr ch data file) : WritingRest hdr ch data [] file := by
  obtain ⟨eof, rfl⟩ := h
  exact ⟨44 + data.length, eof, by simp⟩

theorem put_writing {hdr data bytes : List Nat} (hh : hdr.length = 40) (hb : bytes ≠ []) (eof : Bool) :
    Stream.put { content := if data = [] then hdr else hdr ++ [0, 0, 0, 0] ++ data, pos := 44 + data.length, eof := eof } bytes =
      { content := hdr ++ [0, 0, 0, 0] ++ data ++ bytes, pos := 44 + data.length + bytes.length, eof := eof } := by
  unfold Stream.put
  split
  · next h =>
    subst h
    rw [List.take_of_length_le (by simp; omega), List.drop_of_length_le (by simp; omega)]
    simp [hh, List.replicate]
  · next h =>
    rw [List.take_of_length_le (by simp; omega), List.drop_of_length_le (by simp; omega)]
    simp [hh]
    omega

theorem ioFileWrite_eq (room : Nat → Nat) (fmt : FloatFmt S F) {hdr data : List Nat} {ch : Nat} {file : SpFile} (hh : hdr.length = 40)
    (hf : Writing hdr ch data file) {a : Buf (Buf S)} {n : Nat} (ha : HasCells a ch n) (hpos : 0 < n * ch)
    (hlt : data.length + 4 * (n * ch) < 4294967296) (k : Nat) :
    (4 * (n * ch) ≤ room k ∧ ∃ file', ioFileWrite room fmt file a n ⟨k, true⟩ = .ok (0, file', ⟨k + 1, true⟩) ∧
      Writing hdr ch (data ++ (floatsIn fmt a ch n).flatMap fmt.toBytes) file') ∨
    (room k < 4 * (n * ch) ∧ ∃ file', ioFileWrite room fmt file a n ⟨k, true⟩ = .ok (idFileWrite, file', ⟨k + 1, true⟩) ∧
      WritingRest hdr ch data (((floatsIn fmt a ch n).flatMap fmt.toBytes).take (room k)) file') := by
  obtain ⟨eof, rfl⟩ := hf
  have hlen := toBytes_length fmt (floatsIn fmt a ch n)
  rw [floatsIn_length fmt ha] at hlen
  have e1 : u32 (u32 (ch * n) * 4) = 4 * (n * ch) := by
    rw [Nat.mul_comm ch n, u32_of_lt (n := n * ch) (by omega), u32_of_lt (by omega), Nat.mul_comm]
  have hne : (floatsIn fmt a ch n).flatMap fmt.toBytes ≠ [] := by
    intro h
    rw [h, List.length_nil] at hlen
    omega
  have hnz : (List.flatMap fmt.toBytes (floatsIn fmt a ch n)).length ≠ 0 := by omega
  set f0 : Stream := { content := if data = [] then hdr else hdr ++ [0, 0, 0, 0] ++ data, pos := 44 + data.length, eof := eof } with hf0
  set bytes := List.flatMap fmt.toBytes (floatsIn fmt a ch n) with hbytes
  have hio : ioFileWrite room fmt ⟨some f0, data.length, some ch⟩ a n ⟨k, true⟩ = (do
      let (written, f, io) ← ioWrite room bytes f0 ⟨k, true⟩
      if written = 0 then pure (idFileWrite, ⟨some f, data.length, some ch⟩, io)
      else pure (0, ⟨some f, u32 (data.length + 4 * (n * ch)), some ch⟩, io)) := by
    unfold ioFileWrite
    simp only [getChannels, ok_bind', e1]
    rw [fileWriteLoop_eq fmt ha (by omega) _ (by simp)]
    simp only [ok_bind', mapM_isSet, derefFile, hbytes]
  rw [hio]
  by_cases hr : 4 * (n * ch) ≤ room k
  · refine .inl ⟨hr, ⟨some (f0.put bytes), u32 (data.length + 4 * (n * ch)), some ch⟩, ?_, eof, ?_⟩
    · simp only [ioWrite, if_neg hnz, not_true_eq_false, if_false, if_pos (hlen.trans_le hr), ok_bind', Nat.one_ne_zero, pure_eq_ok]
    · rw [hf0, put_writing hh hne, u32_of_lt hlt, if_neg (show ¬ (data ++ bytes = []) by simp [hne])]
      simp [hlen, Nat.add_assoc]
  · have hr2 : ¬ bytes.length ≤ room k := by omega
    refine .inr ⟨by omega, ?_⟩
    by_cases h0 : room k = 0
    · refine ⟨⟨some f0, data.length, some ch⟩, ?_, 44 + data.length, eof, by simp [h0, hf0]⟩
      simp only [ioWrite, if_neg hnz, not_true_eq_false, if_false, if_neg hr2, if_pos h0, ok_bind', if_true, pure_eq_ok]
    · have hne2 : bytes.take (room k) ≠ [] := by
        intro h
        have := congrArg List.length h
        simp only [List.length_take, List.length_nil] at this
        omega
      refine ⟨⟨some (f0.put (bytes.take (room k))), data.length, some ch⟩, ?_, 44 + data.length + (bytes.take (room k)).length, eof, ?_⟩
      · simp only [ioWrite, if_neg hnz, not_true_eq_false, if_false, if_neg hr2, if_neg h0, ok_bind', if_true, pure_eq_ok]
      · rw [hf0, put_writing hh hne2, if_neg (show ¬ (data ++ _ = []) by simp only [List.append_eq_nil_iff]; exact fun h => hne2 h.2)]

/-! ### closing -/

theorem put_drop {f : Stream} {bytes : List Nat} (hp : f.pos ≤ f.content.length) (hb : f.pos + bytes.length ≤ 44) :
    (f.put bytes).content.drop 44 = f.content.drop 44 := by
  unfold Stream.put
  simp only
  rw [Nat.sub_eq_zero_of_le hp, List.replicate_zero, List.append_nil]
  rw [List.drop_append, List.drop_of_length_le (by simp; omega), List.nil_append, List.drop_drop]
  congr 1
  simp
  omega

theorem put_length {f : Stream} {bytes : List Nat} (hp : f.pos ≤ f.content.length) : f.content.length ≤ (f.put bytes).content.length := by
  unfold Stream.put
  simp
  omega

/-- A write to the header leaves the data alone. -/
theorem ioWrite_header (room : Nat → Nat) {f : Stream} {bytes : List Nat} (hp : f.pos ≤ f.content.length) (hb : f.pos + bytes.length ≤ 44)
    (k : Nat) : ∃ w f', ioWrite room bytes f ⟨k, true⟩ = .ok (w, f', ⟨k + 1, true⟩) ∧ f'.content.drop 44 = f.content.drop 44 ∧
      f.content.length ≤ f'.content.length ∧ (bytes.length ≠ 0 → bytes.length ≤ room k → f' = f.put bytes) := by
  by_cases h1 : bytes.length = 0
  · exact ⟨0, f, by simp [ioWrite, h1], rfl, Nat.le_refl _, fun h => absurd h1 h⟩
  · by_cases h2 : bytes.length ≤ room k
    · exact ⟨1, f.put bytes, by simp [ioWrite, h1, h2], put_drop hp hb, put_length hp, fun _ _ => rfl⟩
    · by_cases h3 : room k = 0
      · exact ⟨0, f, by simp [ioWrite, h3], rfl, Nat.le_refl _, fun _ h => absurd h h2⟩
      · refine ⟨0, f.put (bytes.take (room k)), by simp [ioWrite, h1, h2, h3], put_drop hp (by simp; omega), put_length hp, fun _ h => absurd h h2⟩

theorem ioCloseWrite_eq (room : Nat → Nat) {A j B data rest : List Nat} {ch : Nat} {file : SpFile} (hA : A.length = 4) (hj : j.length = 4)
    (hB : B.length = 32) (hlt : 36 + data.length < 4294967296) (hf : WritingRest (A ++ (j ++ B)) ch data rest file) (k : Nat) :
    ∃ content, ioCloseWrite room file ⟨k, true⟩ = .ok (content, ⟨k + 2, false⟩) ∧ content.drop 44 = data ++ rest ∧
      (4 ≤ room k → 4 ≤ room (k + 1) → content = A ++ le32 (36 + data.length) ++ B ++ le32 data.length ++ data ++ rest) := by
  obtain ⟨pos, eof, rfl⟩ := hf
  set c0 := if data ++ rest = [] then A ++ (j ++ B) else A ++ (j ++ B) ++ [0, 0, 0, 0] ++ data ++ rest with hc0
  have hlen0 : 40 ≤ c0.length := by rw [hc0]; split <;> simp <;> omega
  have hdrop0 : c0.drop 44 = data ++ rest := by
    rw [hc0]
    split
    · next h => rw [h, List.drop_of_length_le (by simp; omega)]
    · rw [List.append_assoc, List.drop_left' (by simp; omega)]
  obtain ⟨w1, f1, a1, a2, a3, a4⟩ := ioWrite_header room (f := { content := c0, pos := 4, eof := false }) (bytes := le32 (36 + data.length))
    (by show 4 ≤ c0.length; omega) (by simp [le32]) k
  obtain ⟨w2, f2, b1, b2, b3, b4⟩ := ioWrite_header room (f := f1.seekSet 40) (bytes := le32 data.length)
    (by simp only [Stream.seekSet]; simp only at a3; omega) (by simp [le32, Stream.seekSet]) (k + 1)
  refine ⟨f2.content, ?_, ?_, ?_⟩
  · unfold ioCloseWrite
    simp only [derefFile, ok_bind', u32_of_lt hlt, ioSeek, if_true, Stream.seekSet]
    refine bind_of a1 ?_
    simp only [if_true, ok_bind']
    refine bind_of b1 ?_
    simp only [ioClose, if_true, ok_bind', pure_eq_ok]
  · rw [b2, Stream.seekSet, a2]
    exact hdrop0
  · intro h1 h2
    rw [b4 (by simp [le32]) (by simpa [le32] using h2), a4 (by simp [le32]) (by simpa [le32] using h1)]
    by_cases hd : data ++ rest = []
    · have e1 : (Stream.put { content := c0, pos := 4, eof := false } (le32 (36 + data.length))).content = A ++ le32 (36 + data.length) ++ B :=
        put_replace (X := j) (by simp [hc0, hd]) (by simp [hA]) (by simp [hj, le32])
      rw [put_end]
      · simp only [Stream.seekSet]
        rw [e1, List.append_assoc _ data rest, hd]
        simp
      · simp only [Stream.seekSet]
        rw [e1]
        simp [hA, hB, le32]
    · have e1 : (Stream.put { content := c0, pos := 4, eof := false } (le32 (36 + data.length))).content =
          A ++ le32 (36 + data.length) ++ (B ++ [0, 0, 0, 0] ++ data ++ rest) :=
        put_replace (X := j) (by simp only [hc0, if_neg hd]; simp) (by simp [hA]) (by simp [hj, le32])
      rw [put_replace (A := A ++ le32 (36 + data.length) ++ B) (X := [0, 0, 0, 0]) (B := data ++ rest)]
      · simp
      · simp only [Stream.seekSet]
        rw [e1]
        simp
      · simp [Stream.seekSet, hA, hB, le32]
      · simp [le32]

/-! ### The loop over blocks -/

theorem ioRenderLoop_eq {ok : Nat → Prop} [Zero S] (room : Nat → Nat) {cb : Callbacks D (Buf (Buf S))} (fmt : FloatFmt S F) {fuel : Nat}
    {cf : RenderConfig} (hbs : 0 < cf.blockSize) (hch : 0 < cf.channelCount) (hsh : Shorter ok)
    (hok : ok cf.blockSize) {ps : List (Part S)}
    {hdr : List Nat} (hh : hdr.length = 40) (m : Nat) {n i blockEnd calls : Nat} (hn : m < n)
    (hend : blockEnd = i + m * cf.blockSize) (hlt : blockEnd < 4294967296)
    {l : List (Addr × Event D)} {heap : Heap (Event D)} {head : Option Addr} {log : List Call}
    (hwf : WellFormed heap head l) (hf : l.length < fuel) (h : Chain ok cb cf.channelCount i ps l)
    {data : List Nat} {file : SpFile} (hw : Writing hdr cf.channelCount data file)
    (hdata : data.length + 4 * (m * cf.blockSize * cf.channelCount) < 4294967296) :
    ((∀ q < m, 4 * (cf.blockSize * cf.channelCount) ≤ room (calls + q)) ∧
      ∃ heap' head' log' file' l', ioRenderLoop room cb fmt fuel cf blockEnd n i
        ⟨heap, head, blk cf.channelCount cf.blockSize (fun _ _ => 0), log⟩ file ⟨calls, true⟩ =
          .ok (0, blockEnd, ⟨heap', head', blk cf.channelCount cf.blockSize (fun _ _ => 0), log'⟩, file', ⟨calls + m, true⟩) ∧
      WellFormed heap' head' l' ∧ l'.length < fuel ∧ Chain ok cb cf.channelCount blockEnd ps l' ∧
      Writing hdr cf.channelCount (data ++ frameBytes fmt cf.channelCount (m * cf.blockSize)
        (fun c k => mixParts ps c (i + k) 0)) file') ∨
    (∃ q < m, room (calls + q) < 4 * (cf.blockSize * cf.channelCount) ∧ ∃ t s' file', ioRenderLoop room cb fmt fuel cf blockEnd n i
        ⟨heap, head, blk cf.channelCount cf.blockSize (fun _ _ => 0), log⟩ file ⟨calls, true⟩ =
          .ok (idFileWrite, t, s', file', ⟨calls + q + 1, true⟩) ∧
      WritingRest hdr cf.channelCount (data ++ frameBytes fmt cf.channelCount (q * cf.blockSize) (fun c k => mixParts ps c (i + k) 0))
        ((frameBytes fmt cf.channelCount cf.blockSize (fun c k => mixParts ps c (i + q * cf.blockSize + k) 0)).take (room (calls + q))) file') := by
  induction m generalizing n i l heap head log data file calls with
  | zero =>
    obtain ⟨n, rfl⟩ : ∃ k, n = k + 1 := ⟨n - 1, by omega⟩
    have hi : i = blockEnd := by simpa using hend.symm
    subst hi
    refine .inl ⟨fun q hq => absurd hq (Nat.not_lt_zero q), heap, head, log, file, l, ?_, hwf, hf, h, ?_⟩
    · unfold ioRenderLoop
      rw [if_neg (Nat.lt_irrefl _)]
      rfl
    · simpa [frameBytes] using hw
  | succ m ih =>
    obtain ⟨n, rfl⟩ : ∃ k, n = k + 1 := ⟨n - 1, by omega⟩
    have e0 : (m + 1) * cf.blockSize = m * cf.blockSize + cf.blockSize := Nat.succ_mul _ _
    have e1 : (m + 1) * cf.blockSize * cf.channelCount =
        m * cf.blockSize * cf.channelCount + cf.blockSize * cf.channelCount := by rw [e0, Nat.add_mul]
    have hu : u32 (i + cf.blockSize) = i + cf.blockSize := u32_of_lt (by omega)
    obtain ⟨l1, heap1, head1, log1, s1, s2, s3, s4⟩ := seq_mix (off := 0) (n := cf.blockSize) (u := i + cf.blockSize)
      (log0 := log) hwf hf h (by omega) (by omega) hsh (by rw [Nat.add_sub_cancel_left]; exact hok) (by omega) (fun _ _ => (0 : S))
    set g := applyRange (mixParts ps) i 0 (i + cf.blockSize - i) (fun _ _ => (0 : S)) with hg
    have hgb : frameBytes fmt cf.channelCount cf.blockSize g =
        frameBytes fmt cf.channelCount cf.blockSize (fun c k => mixParts ps c (i + k) 0) := by
      apply frameBytes_congr
      intro c _ k hk
      simp only [hg, applyRange]
      rw [if_pos (by omega)]
      simp
    rcases ioFileWrite_eq room fmt hh hw (a := blk cf.channelCount cf.blockSize g) (n := cf.blockSize)
      (hasCells_blk (Nat.le_refl _)) (Nat.mul_pos hbs hch) (by omega) calls with ⟨hr, file1, w1, w2⟩ | ⟨hr, file1, w1, w2⟩
    · rw [floatsIn_blk fmt (Nat.le_refl _), hgb] at w2
      have hstep : ∀ r, ioRenderLoop room cb fmt fuel cf blockEnd n (i + cf.blockSize)
          ⟨heap1, head1, blk cf.channelCount cf.blockSize (fun _ _ => 0), log1⟩ file1 ⟨calls + 1, true⟩ = r →
          ioRenderLoop room cb fmt fuel cf blockEnd (n + 1) i
            ⟨heap, head, blk cf.channelCount cf.blockSize (fun _ _ => 0), log⟩ file ⟨calls, true⟩ = r := by
        intro r hr
        rw [ioRenderLoop]
        rw [if_pos (by omega), hu]
        refine bind_of s1 ?_
        simp only [ne_eq, not_true_eq_false, if_false]
        refine bind_of w1 ?_
        simp only [not_true_eq_false, if_false]
        refine bind_of (zeroSamples_eq _ _ _) ?_
        exact hr
      rcases ih (n := n) (i := i + cf.blockSize) (calls := calls + 1) (by omega)
        (by omega) s3 (by omega) s2 w2 (by rw [List.length_append, frameBytes_length]; omega) (log := log1) with
        ⟨hall, heap', head', log', file', l', r1, r2, r3, r4, r5⟩ | ⟨q, hq, hfail, t, s', file', r1, r2⟩
      · refine .inl ⟨?_, heap', head', log', file', l', ?_, r2, r3, r4, ?_⟩
        · intro q hq
          cases q with
          | zero => exact hr
          | succ q => have := hall q (by omega); rwa [show calls + 1 + q = calls + (q + 1) by omega] at this
        · rw [hstep _ r1, show calls + 1 + m = calls + (m + 1) by omega]
        · rw [List.append_assoc] at r5
          rw [e0, Nat.add_comm (m * _), frameBytes_add]
          simpa only [Nat.add_assoc] using r5
      · refine .inr ⟨q + 1, by omega, ?_, t, s', file', ?_, ?_⟩
        · rwa [show calls + (q + 1) = calls + 1 + q by omega]
        · rw [hstep _ r1, show calls + 1 + q = calls + (q + 1) by omega]
        · rw [List.append_assoc] at r2
          rw [Nat.succ_mul, Nat.add_comm (q * _), frameBytes_add, show calls + (q + 1) = calls + 1 + q by omega]
          simpa only [Nat.add_assoc] using r2
    · rw [floatsIn_blk fmt (Nat.le_refl _), hgb] at w2
      refine .inr ⟨0, by omega, hr, i, ⟨heap1, head1, blk cf.channelCount cf.blockSize g, log1⟩, file1, ?_, ?_⟩
      · rw [ioRenderLoop]
        rw [if_pos (by omega), hu]
        refine bind_of s1 ?_
        simp only [ne_eq, not_true_eq_false, if_false]
        refine bind_of w1 ?_
        rw [if_pos (show idFileWrite ≠ 0 by decide)]
        rfl
      · simpa [frameBytes] using w2

/-! ### The whole function -/

theorem ioOpenWrite_eq (room : Nat → Nat) {header : Buf Nat} (hh : header.length = 40) {ch rate : Nat}
    (hrate : rate * ch * 4 < 4294967296) (hr : 40 ≤ room 0) :
    ∃ j f0, j.length = 4 ∧ ioOpenWrite room header ch rate = .ok (0, f0, ⟨1, true⟩) ∧
      Writing (ascii "RIFF" ++ (j ++ (ascii "WAVE" ++ ascii "fmt " ++ le32 16 ++ le16 3 ++ le16 ch ++ le32 rate ++
        le32 (rate * ch * 4) ++ le16 (ch * 4) ++ le16 32 ++ ascii "data"))) ch [] f0 := by
  obtain ⟨j, hj, hw'⟩ := wavHeader_eq header hh ch rate
  rw [u32_of_lt (n := rate * ch) (by omega), u32_of_lt hrate] at hw'
  set hdr := ascii "RIFF" ++ j ++ ascii "WAVE" ++ ascii "fmt " ++ le32 16 ++ le16 3 ++ le16 ch ++ le32 rate ++
    le32 (rate * ch * 4) ++ le16 (ch * 4) ++ le16 32 ++ ascii "data" with hdr_def
  have hhdr : hdr.length = 40 := by simp [hdr_def, hj, ascii, le32, le16]
  refine ⟨j, ⟨some ((Stream.put { content := [], pos := 0, eof := false } hdr).seekCur 4), 0, some ch⟩, hj, ?_, false, ?_⟩
  · rw [ioOpenWrite, hw', ok_bind']
    simp [ioWrite, hhdr, hr]
  · rw [show ascii "RIFF" ++ (j ++ (ascii "WAVE" ++ ascii "fmt " ++ le32 16 ++ le16 3 ++ le16 ch ++ le32 rate ++
        le32 (rate * ch * 4) ++ le16 (ch * 4) ++ le16 32 ++ ascii "data")) = hdr by simp [hdr_def]]
    simp [Stream.put, Stream.seekCur, hhdr]

/-- **C151**, the part that holds. For every event that plays a sound seamlessly, every range, block size and behaviour of the disk, if the first write,
of the header, succeeds: the status is success if and only if all samples could be written. If not, then it is the status for failed writes, and the
file has the samples up to the block for which writing failed and then a part of the bytes of this block. The file is closed. The samples are in the file
whether or not the sizes in the header could be written at the end; if they could, then the file is the wav file of the `m` frames that were written, followed
by the part. Missing: failures of the header (`C151_header_failure_undefined`) and of the sizes (`C151_sizes_unreported`),
and the events, which are released if the status is success, but not otherwise (`C151_events_left`). -/
theorem C151_failed_writes_partial {ok : Nat → Prop} [Zero S] (room : Nat → Nat) {cb : Callbacks D (Buf (Buf S))} (fmt : FloatFmt S F) {fuel : Nat}
    (hfuel : 1 < fuel) {header : Buf Nat} (hh : header.length = 40) (new : Addr) {e : Event D}
    {G : Nat → Sound S} {cf : RenderConfig} (hsh : Shorter ok)
    (he : Plays ok cb cf.channelCount e G) (hem : ok 0 ∨ e.start < e.stop) (he1 : e.start ≤ e.stop)
    (he2 : e.stop < 4294967296) (hch : 0 < cf.channelCount) (hbs : 0 < cf.blockSize)
    (hok : ok cf.blockSize) (hrate : cf.rate * cf.channelCount * 4 < 4294967296) {stop : Nat}
    (hstop : stop < 4294967296) (hsize : 36 + 4 * (stop * cf.channelCount) < 4294967296) (hroom : 40 ≤ room 0) :
    ∃ st m rest content s io, ioRenderRangeFile room cb fmt fuel header new e 0 stop cf = .ok (st, content, s, io) ∧ io.isOpen = false ∧
      (st = 0 ↔ (∀ q < stop / cf.blockSize, 4 * (cf.blockSize * cf.channelCount) ≤ room (1 + q)) ∧
        4 * (stop % cf.blockSize * cf.channelCount) ≤ room (1 + stop / cf.blockSize)) ∧
      (st = 0 ∧ m = stop ∧ rest = [] ∧ s.head = none ∨
       st = idFileWrite ∧ m < stop ∧ cf.blockSize ∣ m ∧ room (1 + m / cf.blockSize) < 4 * (min cf.blockSize (stop - m) * cf.channelCount) ∧
         rest = (frameBytes fmt cf.channelCount (stop - m) (fun c k => soundAt e G 0 c (m + k))).take (room (1 + m / cf.blockSize))) ∧
      content.drop 44 = frameBytes fmt cf.channelCount m (fun c k => soundAt e G 0 c k) ++ rest ∧
      (4 ≤ room (io.calls - 2) → 4 ≤ room (io.calls - 1) →
        content = wavFile cf.channelCount cf.rate (frameBytes fmt cf.channelCount m (fun c k => soundAt e G 0 c k)) ++ rest) := by
  obtain ⟨heap, a1, a2⟩ := wellFormed_single fuel new e
  obtain ⟨j, f0, hj, o1, o2⟩ := ioOpenWrite_eq room hh hrate hroom
  have hch0 := chain_start (cb := cb) (nch := cf.channelCount) (p := 0) (l := [(new, e)]) (F := fun _ => G)
    (sortedEvents_single he1 he2) (by simpa using hem) (by simpa using he)
  set ps := [(new, e)].map fun (x : Addr × Event D) =>
    (⟨x.2.start, x.2.stop, (fun (_ : Addr) => G) x.1 (min 0 x.2.stop - x.2.start)⟩ : Part S) with hps
  have hsound : ∀ c t, mixParts ps c t 0 = soundAt e G 0 c t := fun c t =>
    mixParts_single new e G 0 (Nat.zero_le t)
  set hdr := ascii "RIFF" ++ (j ++ (ascii "WAVE" ++ ascii "fmt " ++ le32 16 ++ le16 3 ++ le16 cf.channelCount ++
    le32 cf.rate ++ le32 (cf.rate * cf.channelCount * 4) ++ le16 (cf.channelCount * 4) ++ le16 32 ++ ascii "data"))
    with hhdr
  have hhdr40 : hdr.length = 40 := by simp [hhdr, hj, ascii, le32, le16]
  have hsub : sub32 stop 0 = stop := by rw [sub32_of_le (Nat.zero_le stop) hstop, Nat.sub_zero]
  set n := stop with hn
  have hdiv := Nat.div_add_mod n cf.blockSize
  have hmod := Nat.mod_lt n hbs
  have hm : n / cf.blockSize ≤ n / cf.blockSize * cf.blockSize := Nat.le_mul_of_pos_right _ hbs
  have hcm : cf.blockSize * (n / cf.blockSize) = n / cf.blockSize * cf.blockSize := Nat.mul_comm _ _
  have hbytes : n / cf.blockSize * cf.blockSize * cf.channelCount + n % cf.blockSize * cf.channelCount =
      n * cf.channelCount := by rw [← Nat.add_mul, show n / cf.blockSize * cf.blockSize + n % cf.blockSize = n by omega]
  -- closing the file
  have hfinish : ∀ st s file k m rest, m ≤ n →
      ioRenderRange room cb fmt fuel 0 n cf ⟨heap, some new, newSamples cf.channelCount cf.blockSize, []⟩ f0 ⟨1, true⟩ = .ok (st, s, file, ⟨k, true⟩) →
      WritingRest hdr cf.channelCount (frameBytes fmt cf.channelCount m (fun c k => soundAt e G 0 c k)) rest file →
      ∃ content io, ioRenderRangeFile room cb fmt fuel header new e 0 n cf = .ok (st, content, s, io) ∧ io.isOpen = false ∧
        content.drop 44 = frameBytes fmt cf.channelCount m (fun c k => soundAt e G 0 c k) ++ rest ∧
        (4 ≤ room (io.calls - 2) → 4 ≤ room (io.calls - 1) →
          content = wavFile cf.channelCount cf.rate (frameBytes fmt cf.channelCount m (fun c k => soundAt e G 0 c k)) ++ rest) := by
    intro st s file k m rest hmn hrun hwr
    have hle : m * cf.channelCount ≤ n * cf.channelCount := Nat.mul_le_mul_right _ hmn
    have hlt : 36 + (frameBytes fmt cf.channelCount m (fun c k => soundAt e G 0 c k)).length < 4294967296 := by
      rw [frameBytes_length]; omega
    rw [hhdr] at hwr
    obtain ⟨content, c1, c2, c3⟩ := ioCloseWrite_eq room (A := ascii "RIFF") (j := j) (by rfl) hj (by rfl) hlt hwr k
    refine ⟨content, ⟨k + 2, false⟩, ?_, rfl, c2, ?_⟩
    · unfold ioRenderRangeFile
      refine bind_of a1 ?_
      simp only
      refine bind_of o1 ?_
      simp only [ne_eq, not_true_eq_false, if_false]
      refine bind_of hrun ?_
      simp only
      refine bind_of c1 ?_
      simp only [pure_eq_ok]
    · intro h1 h2
      rw [c3 h1 h2]
      simp only [wavFile, bytesLE_four, bytesLE_two, List.append_assoc]
  rcases ioRenderLoop_eq room (cb := cb) (fuel := fuel) fmt hbs hch hsh hok
    hhdr40 (n / cf.blockSize) (n := n / cf.blockSize * cf.blockSize + 1) (i := 0) (calls := 1)
    (blockEnd := n / cf.blockSize * cf.blockSize) (by omega) (by omega) (by omega) a2 (by simpa using hfuel)
    hch0 o2 (by simp; omega) (log := []) with ⟨hall, heap1, head1, log1, file1, l1, r1, r2, r3, r4, r5⟩ | ⟨q, hq, hfail, t, s', file1, r1, r5⟩
  · rw [List.nil_append] at r5
    simp only [Nat.zero_add, hsound] at r5
    by_cases hr : n % cf.blockSize = 0
    · obtain ⟨s', q1, q2⟩ := seqFreeLoop_chain r4 (s := ⟨heap1, head1, _, log1⟩) r2 r3
      have hrun : ioRenderRange room cb fmt fuel 0 n cf ⟨heap, some new, newSamples cf.channelCount cf.blockSize, []⟩ f0 ⟨1, true⟩ =
          .ok (0, { s' with head := none }, file1, ⟨1 + n / cf.blockSize, true⟩) := by
        unfold ioRenderRange
        rw [if_neg (by omega), hsub, newSamples_eq, hcm, u32_of_lt (n := n / cf.blockSize * cf.blockSize) (by omega)]
        refine bind_of r1 ?_
        simp only [ne_eq, not_true_eq_false, if_false, hr]
        refine bind_of rfl ?_
        simp only [ne_eq, not_true_eq_false, if_false]
        refine bind_of q1 ?_
        rfl
      have hn2 : n / cf.blockSize * cf.blockSize = n := by omega
      rw [hn2] at r5
      obtain ⟨content, io, f1, f2, f3, f4⟩ := hfinish _ _ _ _ n [] (Nat.le_refl _) hrun r5.toRest
      exact ⟨0, n, [], content, _, io, f1, f2, ⟨fun _ => ⟨hall, by rw [hr]; simp⟩, fun _ => rfl⟩, .inl ⟨rfl, rfl, rfl, rfl⟩, f3, f4⟩
    · obtain ⟨l2, heap2, head2, log2, s1, s2, s3, s4⟩ := seq_mix (off := 0) (n := cf.blockSize)
        (u := n / cf.blockSize * cf.blockSize + n % cf.blockSize)
        (log0 := log1) r2 r3 r4 (by omega) (by omega) hsh (by
          rw [Nat.add_sub_cancel_left]; exact hsh _ _ hok (by omega) (by omega)) (by omega) (fun _ _ => (0 : S))
      set w := blk cf.channelCount cf.blockSize (applyRange (mixParts ps) (n / cf.blockSize * cf.blockSize) 0
        (n / cf.blockSize * cf.blockSize + n % cf.blockSize - n / cf.blockSize * cf.blockSize) (fun _ _ => (0 : S)))
        with hw
      have hwb : (floatsIn fmt w cf.channelCount (n % cf.blockSize)).flatMap fmt.toBytes =
          frameBytes fmt cf.channelCount (n % cf.blockSize) (fun c k => soundAt e G 0 c (n / cf.blockSize * cf.blockSize + k)) := by
        rw [hw, floatsIn_blk fmt (by omega)]
        apply frameBytes_congr
        intro c _ k hk
        simp only [applyRange]
        rw [if_pos (by omega), hsound]
        simp
      have hpre : ∀ r, (do
            let (st, file, io) ← ioFileWrite room fmt file1 w (n % cf.blockSize) ⟨1 + n / cf.blockSize, true⟩
            if st ≠ 0 then return (st, ⟨heap2, head2, w, log2⟩, file, io)
            else
              let s ← seqFreeLoop cb fuel ⟨heap2, head2, w, log2⟩ head2
              return (0, { s with head := none }, file, io) : C (Nat × SeqState D (Buf (Buf S)) × SpFile × Io)) = r →
          ioRenderRange room cb fmt fuel 0 n cf ⟨heap, some new, newSamples cf.channelCount cf.blockSize, []⟩ f0 ⟨1, true⟩ = r := by
        intro r hr'
        unfold ioRenderRange
        rw [if_neg (by omega), hsub, newSamples_eq, hcm, u32_of_lt (n := n / cf.blockSize * cf.blockSize) (by omega)]
        refine bind_of r1 ?_
        simp only [ne_eq, not_true_eq_false, if_false, hr, not_false_eq_true, if_true]
        rw [u32_of_lt (n := n / cf.blockSize * cf.blockSize + n % cf.blockSize) (by omega), s1, ok_bind']
        simp only [ne_eq, not_true_eq_false, if_false]
        rw [← hr']
        cases ioFileWrite room fmt file1 w (n % cf.blockSize) ⟨1 + n / cf.blockSize, true⟩ <;> rfl
      have hsplit := frameBytes_add fmt cf.channelCount (n / cf.blockSize * cf.blockSize) (n % cf.blockSize)
        (fun c k => soundAt e G 0 c k)
      rw [show n / cf.blockSize * cf.blockSize + n % cf.blockSize = n by omega] at hsplit
      rcases ioFileWrite_eq room fmt hhdr40 r5 (a := w)
        (n := n % cf.blockSize) (hasCells_blk (by omega)) (Nat.mul_pos (by omega) hch) (by
          simp only [frameBytes_length]; omega) (1 + n / cf.blockSize) with ⟨hroom2, file2, w1, w2⟩ | ⟨hroom2, file2, w1, w2⟩
      · rw [hwb, ← hsplit] at w2
        obtain ⟨s', q1, q2⟩ := seqFreeLoop_chain (fuel := fuel) s2 (s := ⟨heap2, head2, w, log2⟩) s3 (by omega)
        have hrun := hpre (.ok (0, { s' with head := none }, file2, ⟨1 + n / cf.blockSize + 1, true⟩)) (by
          refine bind_of w1 ?_
          simp only [ne_eq, not_true_eq_false, if_false]
          refine bind_of q1 ?_
          rfl)
        obtain ⟨content, io, f1, f2, f3, f4⟩ := hfinish _ _ _ _ n [] (Nat.le_refl _) hrun w2.toRest
        exact ⟨0, n, [], content, _, io, f1, f2, ⟨fun _ => ⟨hall, hroom2⟩, fun _ => rfl⟩, .inl ⟨rfl, rfl, rfl, rfl⟩, f3, f4⟩
      · rw [hwb] at w2
        have hrun := hpre (.ok (idFileWrite, ⟨heap2, head2, w, log2⟩, file2, ⟨1 + n / cf.blockSize + 1, true⟩)) (by
          refine bind_of w1 ?_
          simp only
          rw [if_pos (show idFileWrite ≠ 0 by decide)]
          rfl)
        obtain ⟨content, io, f1, f2, f3, f4⟩ := hfinish _ _ _ _ (n / cf.blockSize * cf.blockSize) _ (by omega) hrun w2
        have hd2 : n / cf.blockSize * cf.blockSize / cf.blockSize = n / cf.blockSize := Nat.mul_div_cancel _ hbs
        refine ⟨idFileWrite, n / cf.blockSize * cf.blockSize, _, content, _, io, f1, f2, ⟨fun h => absurd h (by decide), fun h => ?_⟩,
          .inr ⟨rfl, by omega, Nat.dvd_mul_left _ _, ?_, ?_⟩, f3, f4⟩
        · have := h.2
          omega
        · rw [hd2, show min cf.blockSize (n - n / cf.blockSize * cf.blockSize) = n % cf.blockSize by omega]
          exact hroom2
        · rw [hd2, show n - n / cf.blockSize * cf.blockSize = n % cf.blockSize by omega]
  · rw [List.nil_append] at r5
    simp only [Nat.zero_add, hsound] at r5
    have hrun : ioRenderRange room cb fmt fuel 0 n cf ⟨heap, some new, newSamples cf.channelCount cf.blockSize, []⟩ f0 ⟨1, true⟩ =
        .ok (idFileWrite, s', file1, ⟨1 + q + 1, true⟩) := by
      unfold ioRenderRange
      rw [if_neg (by omega), hsub, newSamples_eq, hcm, u32_of_lt (n := n / cf.blockSize * cf.blockSize) (by omega)]
      refine bind_of r1 ?_
      simp only
      rw [if_pos (show idFileWrite ≠ 0 by decide)]
      rfl
    have hq1 : (q + 1) * cf.blockSize ≤ n / cf.blockSize * cf.blockSize := Nat.mul_le_mul_right _ hq
    rw [Nat.succ_mul] at hq1
    obtain ⟨content, io, f1, f2, f3, f4⟩ := hfinish _ _ _ _ (q * cf.blockSize) _ (by omega) hrun r5
    have hd2 : q * cf.blockSize / cf.blockSize = q := Nat.mul_div_cancel _ hbs
    refine ⟨idFileWrite, q * cf.blockSize, _, content, _, io, f1, f2, ⟨fun h => absurd h (by decide), fun h => ?_⟩,
      .inr ⟨rfl, by omega, Nat.dvd_mul_left _ _, ?_, ?_⟩, f3, f4⟩
    · have := h.1 q hq
      omega
    · rw [hd2, show min cf.blockSize (n - q * cf.blockSize) = cf.blockSize by omega]
      exact hfail
    · rw [hd2, show n - q * cf.blockSize = cf.blockSize + (n - q * cf.blockSize - cf.blockSize) by omega, frameBytes_add,
        List.take_append_of_le_length]
      rw [frameBytes_length]
      omega

/-- A wave event of 4 samples is rendered in blocks of 2 to a disk that has no room for the second block: of its 16 bytes, 5 are written. -/
example : ∃ content s io, ioRenderRangeFile (fun k => if k = 2 then 5 else 100) waveCb intFmt 2 (List.replicate 40 7) 1 exampleRenderEvent 0 4
    ⟨2, 48000, 2⟩ = .ok (idFileWrite, content, s, io) ∧ io.isOpen = false ∧
    content = wavFile 2 48000 (frameBytes intFmt 2 2 (fun c k => soundAt exampleRenderEvent (fun p => exampleWave2.mix 0 p) 0 c k)) ++
      (frameBytes intFmt 2 2 (fun c k => soundAt exampleRenderEvent (fun p => exampleWave2.mix 0 p) 0 c (2 + k))).take 5 := by
  obtain ⟨st, m, rest, content, s, io, h1, h2, h3, h4, h5, h6⟩ := C151_failed_writes_partial (fun k => if k = 2 then 5 else 100) (cb := waveCb) intFmt
    (fuel := 2) (by decide) (header := List.replicate 40 7) (by rfl) 1 (cf := ⟨2, 48000, 2⟩) (fun _ _ _ _ _ => trivial)
    exampleRenderEvent_plays (.inl trivial) (by decide) (by decide) (by decide) (by decide) trivial (by decide) (stop := 4) (by decide) (by decide)
    (by decide)
  have hst : st ≠ 0 := by
    intro h
    have := (h3.1 h).1 1 (by decide)
    simp at this
  rcases h4 with ⟨h, _⟩ | ⟨rfl, hm, hdvd, hroom, hrest⟩
  · exact absurd h hst
  · have hm2 : m = 2 := by
      obtain ⟨c, rfl⟩ := hdvd
      simp only at hm hroom
      obtain rfl | rfl : c = 0 ∨ c = 1 := by omega
      · simp at hroom
      · rfl
    subst hm2
    have hio : io.calls = 5 := by
      have h : ((ioRenderRangeFile (fun k => if k = 2 then 5 else 100) waveCb intFmt 2 (List.replicate 40 7) 1 exampleRenderEvent 0 4
        ⟨2, 48000, 2⟩).toOption.map fun r => r.2.2.2.calls) = some 5 := by decide +kernel
      rw [h1] at h
      simpa [Except.toOption] using h
    refine ⟨content, s, io, h1, h2, ?_⟩
    rw [h6 (by rw [hio]; decide) (by rw [hio]; decide), hrest]
    rfl

/-- **C151 fails for the header**: if it can not be written, then `sp_file_open_write` closes the file and `sp_render_range_file` uses and closes it
again. -/
theorem C151_header_failure_undefined [Zero S] (room : Nat → Nat) (hr : room 0 < 40) (cb : Callbacks D (Buf (Buf S))) (fmt : FloatFmt S F) (fuel : Nat)
    {header : Buf Nat} (hh : header.length = 40) (new : Addr) (e : Event D) (start stop : Nat) (cf : RenderConfig) :
    ioRenderRangeFile room cb fmt fuel header new e start stop cf = .error .useAfterFree := by
  obtain ⟨heap, a1, _⟩ := wellFormed_single fuel new e
  obtain ⟨j, hj, hw⟩ := wavHeader_eq header hh cf.channelCount cf.rate
  generalize hdr_def : ascii "RIFF" ++ j ++ ascii "WAVE" ++ ascii "fmt " ++ le32 16 ++ le16 3 ++ le16 cf.channelCount ++ le32 cf.rate ++
    le32 (u32 (u32 (cf.rate * cf.channelCount) * 4)) ++ le16 (cf.channelCount * 4) ++ le16 32 ++ ascii "data" = hdr at hw
  have hhdr : hdr.length = 40 := by rw [← hdr_def]; simp [hj, ascii, le32, le16]
  obtain ⟨f, ho⟩ : ∃ f, ioWrite room hdr { content := [], pos := 0, eof := false } ⟨0, true⟩ = .ok (0, f, ⟨1, true⟩) := by
    by_cases h0 : room 0 = 0
    · exact ⟨⟨[], 0, false⟩, by simp [ioWrite, hhdr, h0]⟩
    · exact ⟨Stream.put ⟨[], 0, false⟩ (hdr.take (room 0)), by simp only [ioWrite, not_true_eq_false, if_false, hhdr]; rw [if_neg (by omega), if_neg (by omega), if_neg h0]⟩
  unfold ioRenderRangeFile
  refine bind_of a1 ?_
  simp only
  rw [ioOpenWrite, hw, ok_bind', ho]
  simp only [ok_bind', if_true, ioClose, pure_eq_ok]
  rw [if_pos (show idFileWrite ≠ 0 by decide)]
  rfl

/-- **C151 fails for the sizes**: if they can not be written at the end, then the status is success, but the file is not the wav file of the samples. -/
theorem C151_sizes_unreported : ∃ content s io,
    ioRenderRangeFile (fun k => if k < 3 then 100 else 0) waveCb intFmt 2 (List.replicate 40 7) 1 exampleRenderEvent 0 4 ⟨2, 48000, 2⟩ =
      .ok (0, content, s, io) ∧
    content ≠ wavFile 2 48000 (frameBytes intFmt 2 4 (fun c k => soundAt exampleRenderEvent (fun p => exampleWave2.mix 0 p) 0 c k)) := by
  have h : ∃ r, ioRenderRangeFile (fun k => if k < 3 then 100 else 0) waveCb intFmt 2 (List.replicate 40 7) 1 exampleRenderEvent 0 4 ⟨2, 48000, 2⟩ =
      .ok r ∧ r.1 = 0 ∧
      r.2.1 ≠ wavFile 2 48000 (frameBytes intFmt 2 4 (fun c k => soundAt exampleRenderEvent (fun p => exampleWave2.mix 0 p) 0 c k)) := by
    have hd : ((ioRenderRangeFile (fun k => if k < 3 then 100 else 0) waveCb intFmt 2 (List.replicate 40 7) 1 exampleRenderEvent 0 4
        ⟨2, 48000, 2⟩).toOption.map fun r => decide (r.1 = 0 ∧
      r.2.1 ≠ wavFile 2 48000 (frameBytes intFmt 2 4 (fun c k => soundAt exampleRenderEvent (fun p => exampleWave2.mix 0 p) 0 c k)))) = some true := by
      decide +kernel
    revert hd
    cases ioRenderRangeFile (fun k => if k < 3 then 100 else 0) waveCb intFmt 2 (List.replicate 40 7) 1 exampleRenderEvent 0 4 ⟨2, 48000, 2⟩ with
    | error _ => intro h; simp [Except.toOption] at h
    | ok r => intro h; exact ⟨r, rfl, by simpa [Except.toOption] using h⟩
  obtain ⟨⟨st, content, s, io⟩, h1, h2, h3⟩ := h
  exact ⟨content, s, io, by rw [h1]; simp only at h2; rw [h2], h3⟩

/-- **C151 fails for the events**: if samples can not be written, then the event, which was prepared, is not freed. -/
theorem C151_events_left : ∃ content s io,
    ioRenderRangeFile (fun k => if k = 1 then 0 else 100) waveCb intFmt 2 (List.replicate 40 7) 1 exampleRenderEvent 0 4 ⟨2, 48000, 2⟩ =
      .ok (idFileWrite, content, s, io) ∧ s.head = some 1 ∧ Call.prepare 1 0 ∈ s.log ∧ Call.free 1 ∉ s.log ∧ Call.release 1 ∉ s.log := by
  have h : ∃ r, ioRenderRangeFile (fun k => if k = 1 then 0 else 100) waveCb intFmt 2 (List.replicate 40 7) 1 exampleRenderEvent 0 4 ⟨2, 48000, 2⟩ =
      .ok r ∧ r.1 = idFileWrite ∧ r.2.2.1.head = some 1 ∧ Call.prepare 1 0 ∈ r.2.2.1.log ∧ Call.free 1 ∉ r.2.2.1.log ∧
        Call.release 1 ∉ r.2.2.1.log := by
    have hd : ((ioRenderRangeFile (fun k => if k = 1 then 0 else 100) waveCb intFmt 2 (List.replicate 40 7) 1 exampleRenderEvent 0 4
        ⟨2, 48000, 2⟩).toOption.map fun r => decide (r.1 = idFileWrite ∧ r.2.2.1.head = some 1 ∧ Call.prepare 1 0 ∈ r.2.2.1.log ∧
          Call.free 1 ∉ r.2.2.1.log ∧ Call.release 1 ∉ r.2.2.1.log)) = some true := by
      decide +kernel
    revert hd
    cases ioRenderRangeFile (fun k => if k = 1 then 0 else 100) waveCb intFmt 2 (List.replicate 40 7) 1 exampleRenderEvent 0 4 ⟨2, 48000, 2⟩ with
    | error _ => intro h; simp [Except.toOption] at h
    | ok r => intro h; exact ⟨r, rfl, by simpa [Except.toOption] using h⟩
  obtain ⟨⟨st, content, s, io⟩, h1, h2, h3⟩ := h
  exact ⟨content, s, io, by rw [h1]; simp only at h2; rw [h2], h3⟩

end Sp
