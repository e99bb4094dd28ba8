import Verif.Props.File

/-! # C160: recordings of four gigabytes and more

What a wav file says about its size has 32 bits, and so has the counter of the library. A stereo recording at 48000
samples per second has that many bytes after about three hours. -/

set_option linter.unusedSectionVars false

namespace Sp
variable {S F : Type}

/-! ### Specification -/

/-- The number of bytes of samples that the header says the file has: the four bytes before the samples.
http://soundfile.sapp.org/doc/WaveFormat -/
def statedDataSize (content : List Nat) : Nat := numberLE ((content.drop 40).take 4)

/-- The number of bytes of samples that the file has. -/
def actualDataSize (content : List Nat) : Nat := content.length - 44

/-! ### Writing -/

/-- Like `Writing`, with the counter of the library, which has 32 bits. -/
def WritingLong (hdr : List Nat) (ch : Nat) (data : List Nat) (file : SpFile) : Prop :=
  ∃ eof, file = { file := some { content := if data = [] then hdr else hdr ++ [0, 0, 0, 0] ++ data, pos := 44 + data.length, eof := eof },
                  dataSize := u32 data.length, channelCount := some ch }

theorem le32_u32 (n : Nat) : le32 (u32 n) = le32 n := by
  simp only [le32, u32]
  have h1 : n % 4294967296 % 256 = n % 256 := by omega
  have h2 : n % 4294967296 / 256 % 256 = n / 256 % 256 := by omega
  have h3 : n % 4294967296 / 65536 % 256 = n / 65536 % 256 := by omega
  have h4 : n % 4294967296 / 16777216 % 256 = n / 16777216 % 256 := by omega
  rw [h1, h2, h3, h4]

theorem u32_add_left (a b : Nat) : u32 (a + u32 b) = u32 (a + b) := by
  unfold u32; omega

theorem u32_add_right (a b : Nat) : u32 (u32 a + b) = u32 (a + b) := by
  unfold u32; omega

theorem fileWrite_long (fmt : FloatFmt S F) {hdr data : List Nat} {ch : Nat} {file : SpFile} (hh : hdr.length = 40)
    (hf : WritingLong hdr ch data file) {a : Buf (Buf S)} {n : Nat} (ha : HasCells a ch n) (hpos : 0 < n * ch)
    (hlt : 4 * (n * ch) < 4294967296) :
    ∃ file', fileWrite fmt file a n = .ok (0, file') ∧
      WritingLong hdr ch (data ++ (floatsIn fmt a ch n).flatMap fmt.toBytes) file' := by
  obtain ⟨eof, rfl⟩ := hf
  have hlen := toBytes_length fmt (floatsIn fmt a ch n)
  rw [floatsIn_length fmt ha] at hlen
  have e1 : u32 (u32 (ch * n) * 4) = 4 * (n * ch) := by
    rw [Nat.mul_comm ch n, u32_of_lt (n := n * ch) (by omega), u32_of_lt (by omega), Nat.mul_comm]
  have hne : (floatsIn fmt a ch n).flatMap fmt.toBytes ≠ [] := by
    intro h
    rw [h, List.length_nil] at hlen
    omega
  refine ⟨{ file := some (Stream.put { content := if data = [] then hdr else hdr ++ [0, 0, 0, 0] ++ data,
                                        pos := 44 + data.length, eof := eof } ((floatsIn fmt a ch n).flatMap fmt.toBytes)),
            dataSize := u32 (u32 data.length + 4 * (n * ch)), channelCount := some ch }, ?_, ?_⟩
  · unfold fileWrite
    simp only [getChannels, ok_bind', e1]
    rw [fileWriteLoop_eq fmt ha (by omega) _ (by simp)]
    have hnz : (List.flatMap fmt.toBytes (floatsIn fmt a ch n)).length ≠ 0 := by omega
    simp only [ok_bind', mapM_isSet, derefFile, fwriteOne, if_neg hnz, Nat.one_ne_zero, if_false, pure_eq_ok]
  · refine ⟨eof, ?_⟩
    rw [u32_add_right]
    simp only [Stream.put, SpFile.mk.injEq, Option.some.injEq, Stream.mk.injEq, and_true, List.length_append, hlen]
    refine ⟨?_, Nat.add_assoc _ _ _⟩
    rw [if_neg (show ¬ (data ++ List.flatMap fmt.toBytes (floatsIn fmt a ch n) = []) by simp [hne])]
    split
    · next h =>
      subst h
      rw [List.take_of_length_le (by omega), List.drop_of_length_le (by simp; omega), hh]
      simp [List.replicate]
    · next h =>
      rw [List.take_of_length_le (by simp; omega), List.drop_of_length_le (by simp; omega)]
      simp [hh]
      omega

theorem writeAll_long (fmt : FloatFmt S F) {hdr : List Nat} {ch : Nat} (hch : 0 < ch) (hh : hdr.length = 40)
    (ws : List (Buf (Buf S) × Nat)) (hw : ValidWrites ch ws) (hlt : ∀ w ∈ ws, 4 * (w.2 * ch) < 4294967296)
    {data : List Nat} {file : SpFile} (hf : WritingLong hdr ch data file) :
    ∃ file', writeAll fmt file ws = .ok (0, file') ∧ WritingLong hdr ch (data ++ dataBytes fmt ch ws) file' := by
  induction ws generalizing data file with
  | nil => exact ⟨file, rfl, by simpa [dataBytes, writtenFrames] using hf⟩
  | cons w ws ih =>
    have hv := hw w (by simp)
    obtain ⟨f1, e1, w1⟩ := fileWrite_long fmt hh hf hv.1 (Nat.mul_pos hv.2 hch) (hlt w (by simp))
    obtain ⟨f2, e2, w2⟩ := ih (fun x hx => hw x (by simp [hx])) (fun x hx => hlt x (by simp [hx])) w1
    refine ⟨f2, ?_, by rw [dataBytes_cons, ← List.append_assoc]; exact w2⟩
    rw [writeAll, e1, ok_bind']
    simpa using e2

theorem fileCloseWrite_long {A j B data : List Nat} {ch : Nat} {file : SpFile} (hA : A.length = 4) (hj : j.length = 4)
    (hB : B.length = 32) (hf : WritingLong (A ++ (j ++ B)) ch data file) :
    fileCloseWrite file = .ok (A ++ le32 (36 + data.length) ++ B ++ le32 data.length ++ data) := by
  obtain ⟨eof, rfl⟩ := hf
  simp only [fileCloseWrite, derefFile, ok_bind', u32_add_left, fwriteOne_le32, le32_u32, pure_eq_ok]
  congr 1
  by_cases hd : data = []
  · subst hd
    have h1 : (Stream.put (Stream.seekSet { content := if ([] : List Nat) = [] then A ++ (j ++ B) else A ++ (j ++ B) ++ [0, 0, 0, 0] ++ [],
                                            pos := 44 + ([] : List Nat).length, eof := eof } 4) (le32 (36 + ([] : List Nat).length))).content
        = A ++ le32 (36 + ([] : List Nat).length) ++ B :=
      put_replace (X := j) (by simp [Stream.seekSet]) (by simp [Stream.seekSet, hA]) (by simp [hj, le32])
    rw [put_end]
    · simp only [Stream.seekSet] at h1 ⊢
      rw [h1]
      simp
    · simp only [Stream.seekSet] at h1 ⊢
      rw [h1]
      simp [hA, hB, le32]
  · have h1 : (Stream.put (Stream.seekSet { content := if data = [] then A ++ (j ++ B) else A ++ (j ++ B) ++ [0, 0, 0, 0] ++ data,
                                            pos := 44 + data.length, eof := eof } 4) (le32 (36 + data.length))).content
        = A ++ le32 (36 + data.length) ++ (B ++ [0, 0, 0, 0] ++ data) :=
      put_replace (X := j) (by simp [Stream.seekSet, hd]) (by simp [Stream.seekSet, hA]) (by simp [hj, le32])
    rw [put_replace (A := A ++ le32 (36 + data.length) ++ B) (X := [0, 0, 0, 0]) (B := data)]
    · simp only [Stream.seekSet] at h1 ⊢
      rw [h1]
      simp
    · simp [Stream.seekSet, hA, hB, le32]
    · simp [le32]

/-- A program that writes any number of blocks below four gigabytes each is told that all was well, and what it has
written is `wavFile` of all samples, where the sizes in the header are cut to four bytes. -/
theorem writeFile_long (fmt : FloatFmt S F) (header : Buf Nat) (hh : header.length = 40) (ch rate : Nat) (hch : 0 < ch)
    (hrate : rate * ch * 4 < 4294967296) (ws : List (Buf (Buf S) × Nat)) (hw : ValidWrites ch ws)
    (hlt : ∀ w ∈ ws, 4 * (w.2 * ch) < 4294967296) :
    writeFile fmt header ch rate ws
      = .ok (0, wavFile ch rate (((writtenFrames ch ws).flatten).flatMap (fun x => fmt.toBytes (fmt.narrow x)))) := by
  obtain ⟨j, hj, hw'⟩ := wavHeader_eq header hh ch rate
  rw [u32_of_lt (n := rate * ch) (by omega), u32_of_lt hrate] at hw'
  set hdr := ascii "RIFF" ++ j ++ ascii "WAVE" ++ ascii "fmt " ++ le32 16 ++ le16 3 ++ le16 ch ++ le32 rate ++
    le32 (rate * ch * 4) ++ le16 (ch * 4) ++ le16 32 ++ ascii "data" with hdr_def
  have hhdr : hdr.length = 40 := by simp [hdr_def, hj, ascii, le32, le16]
  have hopen : ∃ f0, fileOpenWrite header none ch rate = .ok (0, f0) ∧ WritingLong hdr ch [] f0 := by
    refine ⟨{ file := some ((Stream.put { content := [], pos := 0, eof := false } hdr).seekCur 4),
              dataSize := 0, channelCount := some ch }, ?_, ?_⟩
    · rw [fileOpenWrite, hw', ok_bind']
      simp [fwriteOne, hhdr]
    · refine ⟨false, ?_⟩
      simp [Stream.put, Stream.seekCur, hhdr, u32]
  obtain ⟨f0, o1, o2⟩ := hopen
  obtain ⟨f1, w1, w2⟩ := writeAll_long fmt hch hhdr ws hw hlt o2
  have hdata : ((writtenFrames ch ws).flatten).flatMap (fun x => fmt.toBytes (fmt.narrow x)) = dataBytes fmt ch ws := by
    rw [dataBytes, List.flatMap_map]
  rw [hdata, writeFile, o1, ok_bind', w1, ok_bind', List.nil_append] at *
  have hclose := fileCloseWrite_long (A := ascii "RIFF") (j := j) (B := ascii "WAVE" ++ ascii "fmt " ++ le32 16 ++ le16 3 ++
    le16 ch ++ le32 rate ++ le32 (rate * ch * 4) ++ le16 (ch * 4) ++ le16 32 ++ ascii "data") rfl hj rfl
    (file := f1) (ch := ch) (data := dataBytes fmt ch ws) (by
      simpa only [hdr_def, List.append_assoc] using w2)
  rw [hclose, ok_bind']
  simp only [wavFile, bytesLE_four, bytesLE_two, List.append_assoc, pure_eq_ok]

theorem numberLE_le32 (n : Nat) : numberLE (le32 n) = n % 4294967296 := by
  rw [numberLE_eq]
  simp only [le32, ofLe]
  omega

theorem stated_wavFile (ch rate : Nat) (data : List Nat) : statedDataSize (wavFile ch rate data) = data.length % 4294967296 := by
  have h : ((wavFile ch rate data).drop 40).take 4 = le32 data.length := by
    simp only [wavFile, bytesLE_four, bytesLE_two]
    simp [ascii, le32, le16]
  rw [statedDataSize, h, numberLE_le32]

theorem actual_wavFile (ch rate : Nat) (data : List Nat) : actualDataSize (wavFile ch rate data) = data.length := by
  have h : (wavFile ch rate data).length = 44 + data.length := by
    simp [wavFile, ascii, bytesLE]
    omega
  rw [actualDataSize, h]
  omega

/-- C160 is false for the header: for a recording of any length, written in any blocks that are below four gigabytes
each, success is reported by every call, all samples are in the file, but what the header says is the remainder
of the size: wrong exactly if the recording has four gigabytes or more. -/
theorem C160_stated_size_false (fmt : FloatFmt S F) (header : Buf Nat) (hh : header.length = 40) (ch rate : Nat) (hch : 0 < ch)
    (hrate : rate * ch * 4 < 4294967296) (ws : List (Buf (Buf S) × Nat)) (hw : ValidWrites ch ws)
    (hlt : ∀ w ∈ ws, 4 * (w.2 * ch) < 4294967296) :
    ∃ content, writeFile fmt header ch rate ws = .ok (0, content) ∧
      content.drop 44 = ((writtenFrames ch ws).flatten).flatMap (fun x => fmt.toBytes (fmt.narrow x)) ∧
      actualDataSize content = 4 * ch * (ws.map Prod.snd).sum ∧
      statedDataSize content = 4 * ch * (ws.map Prod.snd).sum % 4294967296 ∧
      (statedDataSize content ≠ actualDataSize content ↔ 4294967296 ≤ 4 * ch * (ws.map Prod.snd).sum) := by
  have hlen := dataBytes_length fmt hw
  have hdata : ((writtenFrames ch ws).flatten).flatMap (fun x => fmt.toBytes (fmt.narrow x)) = dataBytes fmt ch ws := by
    rw [dataBytes, List.flatMap_map]
  have h1 := stated_wavFile ch rate (dataBytes fmt ch ws)
  have h2 := actual_wavFile ch rate (dataBytes fmt ch ws)
  rw [hlen] at h1 h2
  refine ⟨_, writeFile_long fmt header hh ch rate hch hrate ws hw hlt, ?_⟩
  rw [hdata]
  refine ⟨rfl, h2, h1, ?_⟩
  rw [h1, h2]
  omega

/-- C160, partial: what is read with this library does not depend on what the header says: the round trip of C69 for
recordings of any length, written and read in any blocks that are below four gigabytes each. -/
theorem C160_round_trip_partial (fmt : FloatFmt S F) (header : Buf Nat) (hh : header.length = 40) (ch rate : Nat)
    (hch : 0 < ch) (hrate : rate * ch * 4 < 4294967296) (ws : List (Buf (Buf S) × Nat)) (hw : ValidWrites ch ws)
    (hlt : ∀ w ∈ ws, 4 * (w.2 * ch) < 4294967296) (rs : List (Buf (Buf S) × Nat))
    (hrs : ∀ r ∈ rs, HasCells r.1 ch r.2 ∧ 4 * (r.2 * ch) < 4294967296)
    (hsum : (rs.map Prod.snd).sum ≤ (ws.map Prod.snd).sum) (file : SpFile)
    (hset : file.channelCount = some ch) {c : Nat} (hc : c < ch) :
    ∃ content file' outs, writeFile fmt header ch rate ws = .ok (0, content) ∧
      fileOpenRead (some content) file = .ok (0, file') ∧ readAll fmt file' rs = .ok outs ∧
      channelOf c outs = ((channelOf c ws).map (fun x => fmt.widen (fmt.narrow x))).take (rs.map Prod.snd).sum := by
  have hwl := writtenFrames_length hw
  have hfl : (writtenFrames ch ws).length = (ws.map Prod.snd).sum := by
    unfold writtenFrames
    rw [List.length_flatMap]
    simp
  obtain ⟨k1, k2⟩ := filterMap_all (writtenFrames ch ws) (fun f => f[c]?) (by
    intro f hf
    rw [List.getElem?_eq_getElem (by rw [hwl f hf]; exact hc)]
    rfl)
  obtain ⟨outs, g1, g2⟩ := readAll_eq fmt (rate := rate) hch hwl hc (channelOf c ws) (by rw [channelOf_eq hw hc, k1])
    (by intro i; rw [channelOf_eq hw hc, k2]) rs hrs (p := 0) (by omega)
    (file := { file with file := some { content := wavFile ch rate ((writtenFrames ch ws).flatten.flatMap (fun x => fmt.toBytes (fmt.narrow x))),
                                        pos := 44, eof := false } })
    ⟨false, file.dataSize, by rw [← hset]; simp⟩
  refine ⟨_, _, outs, writeFile_long fmt header hh ch rate hch hrate ws hw hlt, openRead_wavFile ch rate _ file, g1, ?_⟩
  rw [g2, List.drop_zero, List.map_take]

/-! ### One block of four gigabytes or more -/

/-- A loop in which each step keeps `Inv` or fails with `e`, and one step fails for certain. -/
theorem forRange_fails {σ : Type} (Inv : σ → Prop) (e : Fault) {hi : Nat} {body : Nat → σ → C σ} {k : Nat}
    (hk : k < hi) (hfail : ∀ s, Inv s → body k s = .error e)
    (hstep : ∀ i < k, ∀ s, Inv s → ∃ s', body i s = .ok s' ∧ Inv s') {s : σ} (hs : Inv s) :
    forRange 0 hi body s = .error e := by
  obtain ⟨s1, h1, h2⟩ : ∃ s1, forRange 0 k body s = .ok s1 ∧ Inv s1 :=
    forRange_rule (fun _ t => Inv t) (Nat.zero_le k) hs (fun i t _ hi ht => hstep i hi t ht)
  rw [forRange_split (Nat.zero_le k) hk.le, h1]
  change forRange k hi body s1 = _
  rw [forRange_head hk, hfail s1 h2]
  rfl

/-- C160 is false for a single block: a block with 2^30 values or more is copied beyond the end of the memory
that is allocated for it. -/
theorem C160_block_undefined (fmt : FloatFmt S F) {ch : Nat} {file : SpFile} (hset : file.channelCount = some ch)
    {a : Buf (Buf S)} {n : Nat} (ha : HasCells a ch n) (hbig : 1073741824 ≤ n * ch) :
    fileWrite fmt file a n = .error .outOfBounds := by
  have hch : 0 < ch := by
    rcases Nat.eq_zero_or_pos ch with h | h
    · subst h; omega
    · exact h
  obtain ⟨N, hN, hlt, hle⟩ : ∃ N, u32 (u32 (ch * n) * 4) / 4 = N ∧ N < 1073741824 ∧ N < n * ch := by
    refine ⟨_, rfl, ?_, ?_⟩
    · unfold u32; omega
    · have : u32 (u32 (ch * n) * 4) / 4 < 1073741824 := by unfold u32; omega
      omega
  have hdm : N / ch * ch + N % ch = N := by rw [Nat.mul_comm]; exact Nat.div_add_mod N ch
  have hmod : N % ch < ch := Nat.mod_lt _ hch
  have hin : N / ch < n := (Nat.div_lt_iff_lt_mul hch).2 hle
  have hidx : ∀ i j, i * ch + j ≤ N → u32 (u32 (i * ch) + j) = i * ch + j := by
    intro i j h
    rw [u32_of_lt (n := i * ch) (by omega), u32_of_lt (by omega)]
  have hgood : ∀ i < n, ∀ j < ch, i * ch + j < N → ∀ d : Buf (Option F), d.length = N →
      ∃ d', fileWriteStep fmt a ch i j d = .ok d' ∧ d'.length = N := by
    intro i hi j hj h d hd
    obtain ⟨v, hv⟩ := Option.isSome_iff_exists.1 (ha j hj i hi)
    rw [fileWriteStep, rd2_eq hv, ok_bind', hidx i j h.le, wr, if_pos (by rw [hd]; exact h)]
    exact ⟨_, rfl, by simp [hd]⟩
  have hloop : forRange 0 n (fileWriteFrame fmt a ch) (List.replicate N none) = .error .outOfBounds := by
    refine forRange_fails (fun d => d.length = N) .outOfBounds hin ?_ ?_ (List.length_replicate ..)
    · intro d hd
      refine forRange_fails (fun d => d.length = N) .outOfBounds hmod ?_ ?_ hd
      · intro d hd
        obtain ⟨v, hv⟩ := Option.isSome_iff_exists.1 (ha (N % ch) hmod (N / ch) hin)
        rw [fileWriteStep, rd2_eq hv, ok_bind', hidx _ _ hdm.le, hdm, wr, if_neg (by omega)]
      · intro j hj d hd
        exact hgood _ hin j (by omega) (by omega) d hd
    · intro i hi d hd
      have h1 : (i + 1) * ch ≤ N / ch * ch := Nat.mul_le_mul_right _ hi
      rw [Nat.succ_mul] at h1
      obtain ⟨d', e1, e2⟩ := forRange_rule (fun _ (t : Buf (Option F)) => t.length = N) (Nat.zero_le ch) hd
        (body := fileWriteStep fmt a ch i) (fun j t _ hj ht => hgood i (by omega) j hj (by omega) t ht)
      exact ⟨d', e1, e2⟩
  unfold fileWrite
  rw [hset]
  simp only [getChannels, ok_bind', hN, hloop, error_bind']

/-- C160 is false for reading in a single block: with 2^30 values or more, if the file has them, more is read than the
memory that is allocated for it can hold. -/
theorem C160_read_undefined (fmt : FloatFmt S F) {ch : Nat} {file : SpFile} (hset : file.channelCount = some ch)
    {f : Stream} (hf : file.file = some f) {n : Nat} (hbig : 1073741824 ≤ n * ch) (hlt : n * ch < 4294967296)
    (hhas : f.pos + 4 * (n * ch) ≤ f.content.length) (samples : Buf (Buf S)) :
    fileRead fmt file n samples = .error .outOfBounds := by
  have e1 : u32 (ch * n) = n * ch := by rw [Nat.mul_comm, u32_of_lt hlt]
  have e2 : (f.get (4 * (n * ch))).1.length = 4 * (n * ch) := by
    simp only [Stream.get, List.length_take, List.length_drop]
    omega
  have e3 : u32 (4 * (n * ch)) < 4 * (n * ch) := by unfold u32; omega
  unfold fileRead
  rw [hset, hf]
  simp only [getChannels, derefFile, ok_bind', e1]
  rw [if_pos (by rw [e2]; exact e3)]

/-! ### Cases -/

theorem hasCells_const (x : S) (ch n : Nat) : HasCells (List.replicate ch (List.replicate n x)) ch n := by
  intro c hc i hi
  rw [cellAt, List.getElem?_replicate, if_pos hc, Option.bind_some, List.getElem?_replicate, if_pos hi]
  rfl

theorem blocks_const (x : S) (ch n k : Nat) (hn : 0 < n) : ValidWrites ch (List.replicate k (List.replicate ch (List.replicate n x), n)) := by
  intro w hw
  rw [List.eq_of_mem_replicate hw]
  exact ⟨hasCells_const x ch n, hn⟩

/-- Three and a half hours of stereo in blocks of one second: 48000 samples, 12600 times. -/
example : ∃ ws : List (Buf (Buf ℚ) × Nat), ValidWrites 2 ws ∧ (∀ w ∈ ws, 4 * (w.2 * 2) < 4294967296) ∧
    4294967296 ≤ 4 * 2 * (ws.map Prod.snd).sum ∧ 4 * 2 * (ws.map Prod.snd).sum % 4294967296 = 543432704 := by
  obtain ⟨n, hn⟩ : ∃ n : Nat, n = 48000 := ⟨_, rfl⟩
  obtain ⟨k, hk⟩ : ∃ k : Nat, k = 12600 := ⟨_, rfl⟩
  have hs : ((List.replicate k (List.replicate 2 (List.replicate n (0 : ℚ)), n)).map Prod.snd).sum = k * n := by
    simp
  refine ⟨_, blocks_const 0 2 n k (by omega), ?_, ?_, ?_⟩
  · intro w hw
    rw [List.eq_of_mem_replicate hw]
    simp only
    omega
  · rw [hs, hn, hk]; decide
  · rw [hs, hn, hk]

/-- A file with 2^30 mono samples, read at once. -/
example (fmt : FloatFmt ℚ F) (n : Nat) (hn : n = 2 ^ 30) (samples : Buf (Buf ℚ)) :
    fileRead fmt { file := some { content := List.replicate (44 + 4 * n) 0, pos := 44, eof := false }, dataSize := 0,
                   channelCount := some 1 } n samples = .error .outOfBounds :=
  C160_read_undefined fmt rfl rfl (by omega) (by omega) (by
    change 44 + 4 * (n * 1) ≤ _
    rw [List.length_replicate]; omega) samples

/-- A mono block of 2^30 samples. -/
example (fmt : FloatFmt ℚ F) (f : Stream) (n : Nat) (hn : n = 2 ^ 30) :
    fileWrite fmt { file := some f, dataSize := 0, channelCount := some 1 } [List.replicate n (0 : ℚ)] n = .error .outOfBounds :=
  C160_block_undefined fmt rfl (hasCells_const 0 1 n) (by omega)

end Sp
