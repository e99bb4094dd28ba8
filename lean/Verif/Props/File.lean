import Verif.Props.Interleave
import Verif.Spec.File
import Mathlib.Algebra.Order.BigOperators.Group.List

/-! # C68, C69, C87: wav files -/

set_option linter.unusedSectionVars false

namespace Sp
variable {S F : Type}

/-! ### Specification -/

/-- Frame `i` of the channels. -/
def frame (a : Buf (Buf S)) (ch i : Nat) : List S := (List.range ch).filterMap (fun c => cellAt a c i)

/-- The frames given to a sequence of write calls, each with its channels and number of samples. -/
def writtenFrames (ch : Nat) (ws : List (Buf (Buf S) × Nat)) : List (List S) :=
  ws.flatMap (fun w => (List.range w.2).map (frame w.1 ch))

/-- The samples of channel `c` given to a sequence of calls. -/
def channelOf (c : Nat) (ws : List (Buf (Buf S) × Nat)) : List S :=
  ws.flatMap (fun w => (List.range w.2).filterMap (fun i => cellAt w.1 c i))

/-- A program that opens a file for writing, writes and closes. The status and, on success, the content. -/
def writeAll (fmt : FloatFmt S F) : SpFile → List (Buf (Buf S) × Nat) → C (Nat × SpFile)
  | file, [] => .ok (0, file)
  | file, w :: ws => do
    let r ← fileWrite fmt file w.1 w.2
    if r.1 ≠ 0 then pure r else writeAll fmt r.2 ws

/-- Open, write, close. -/
def writeFile (fmt : FloatFmt S F) (header : Buf Nat) (ch rate : Nat) (ws : List (Buf (Buf S) × Nat)) :
    C (Nat × List Nat) := do
  let r ← fileOpenWrite header none ch rate
  let q ← writeAll fmt r.2 ws
  let content ← fileCloseWrite q.2
  pure (q.1, content)

/-! ### Writing -/

theorem bytesLE_four (n : Nat) : bytesLE 4 n = le32 n := by simp [bytesLE, le32, List.range_succ]

theorem bytesLE_two (n : Nat) : bytesLE 2 n = le16 n := by simp [bytesLE, le16, List.range_succ]

theorem numberLE_eq (l : List Nat) : numberLE l = ofLe l := by
  unfold numberLE
  induction l with
  | nil => rfl
  | cons x l ih => rw [Nat.ofDigits_cons, ih]; rfl

theorem wavHeader_eq (header : Buf Nat) (hh : header.length = 40) (ch rate : Nat) :
    ∃ j : List Nat, j.length = 4 ∧ wavHeader header ch rate = .ok (ascii "RIFF" ++ j ++ ascii "WAVE" ++
      ascii "fmt " ++ le32 16 ++ le16 3 ++ le16 ch ++ le32 rate ++ le32 (u32 (u32 (rate * ch) * 4)) ++ le16 (ch * 4) ++
      le16 32 ++ ascii "data") := by
  match header, hh with
  | x0 :: x1 :: x2 :: x3 :: x4 :: x5 :: x6 :: x7 :: x8 :: x9 :: x10 :: x11 :: x12 :: x13 :: x14 :: x15 :: x16 :: x17 :: x18 :: x19 :: x20 :: x21 :: x22 :: x23 :: x24 :: x25 :: x26 :: x27 :: x28 :: x29 :: x30 :: x31 :: x32 :: x33 :: x34 :: x35 :: x36 :: x37 :: x38 :: x39 :: [], _ =>
    refine ⟨[x4, x5, x6, x7], rfl, ?_⟩
    have e1 : le32 wavStringRiff = ascii "RIFF" := by decide
    have e2 : le32 wavStringWav = ascii "WAVE" := by decide
    have e3 : le32 wavStringFmt = ascii "fmt " := by decide
    have e4 : le32 wavStringData = ascii "data" := by decide
    have a1 : ascii "RIFF" = [82, 73, 70, 70] := by decide
    have a2 : ascii "WAVE" = [87, 65, 86, 69] := by decide
    have a3 : ascii "fmt " = [102, 109, 116, 32] := by decide
    have a4 : ascii "data" = [100, 97, 116, 97] := by decide
    generalize hv : u32 (u32 (rate * ch) * 4) = v
    rw [wavHeader, hv, e1, e2, e3, e4, a1, a2, a3, a4]
    simp [putBytes, memcpy, le32, le16]

theorem mapM_isSet (l : List F) : (l.map some).mapM isSetFloat = (.ok l : C (List F)) := by
  induction l with
  | nil => rfl
  | cons x l ih =>
    rw [List.map_cons, List.mapM_cons, ih]
    rfl

theorem map_eq_filterMap {α β γ : Type} (l : List α) (g : α → Option β) (h : β → γ) (hs : ∀ x ∈ l, (g x).isSome) :
    l.map (fun x => (g x).map h) = ((l.filterMap g).map h).map some := by
  induction l with
  | nil => rfl
  | cons x l ih =>
    obtain ⟨v, hv⟩ := Option.isSome_iff_exists.1 (hs x (by simp))
    simp [hv, ih (fun y hy => hs y (by simp [hy]))]

theorem frame_length {a : Buf (Buf S)} {ch n i : Nat} (ha : HasCells a ch n) (hi : i < n) : (frame a ch i).length = ch := by
  have := congrArg List.length (map_eq_filterMap (List.range ch) (fun c => cellAt a c i) id (fun c hc => ha c (by simpa using hc) i hi))
  simpa [frame] using this.symm

/-- The floats of a write in the order in which they are in the file. -/
def floatsIn (fmt : FloatFmt S F) (a : Buf (Buf S)) (ch n : Nat) : List F :=
  (((List.range n).map (frame a ch)).flatten).map fmt.narrow

theorem floatsIn_length (fmt : FloatFmt S F) {a : Buf (Buf S)} {ch n : Nat} (ha : HasCells a ch n) :
    (floatsIn fmt a ch n).length = n * ch := by
  unfold floatsIn
  rw [List.length_map, List.length_flatten, List.map_map]
  have : (List.range n).map (List.length ∘ frame a ch) = (List.range n).map (fun _ => ch) := by
    apply List.map_congr_left
    intro i hi
    exact frame_length ha (by simpa using hi)
  rw [this]
  simp

theorem floatsIn_succ (fmt : FloatFmt S F) (a : Buf (Buf S)) (ch i : Nat) :
    floatsIn fmt a ch (i + 1) = floatsIn fmt a ch i ++ (frame a ch i).map fmt.narrow := by
  simp [floatsIn, List.range_succ]

theorem fileWriteFrame_eq (fmt : FloatFmt S F) {a : Buf (Buf S)} {ch n i : Nat} (ha : HasCells a ch n) (hi : i < n)
    (hlt : n * ch < 4294967296) (out : Buf (Option F)) (hout : out.length = n * ch) (A : Buf (Option F))
    (hA : A.length = i * ch) :
    fileWriteFrame fmt a ch i (A ++ out.drop (i * ch))
      = .ok (A ++ ((frame a ch i).map fmt.narrow).map some ++ out.drop ((i + 1) * ch)) := by
  have hk : (i + 1) * ch ≤ n * ch := Nat.mul_le_mul_right _ hi
  rw [Nat.succ_mul] at hk
  have h := forRange_states (lo := 0) (hi := ch) (body := fileWriteStep fmt a ch i)
    (fun j => A ++ (List.range j).map (fun c => (cellAt a c i).map fmt.narrow) ++ out.drop (i * ch + j)) (Nat.zero_le _) (by
      intro j _ hj
      obtain ⟨v, hv⟩ := Option.isSome_iff_exists.1 (ha j hj i hi)
      rw [fileWriteStep, rd2_eq hv, ok_bind', u32_of_lt (n := i * ch) (by omega), u32_of_lt (by omega),
        List.drop_eq_getElem_cons (by omega), wr_append (by simp [hA]), List.range_succ, List.map_append]
      simp [hv, Nat.add_assoc])
  simp only [List.range_zero, List.map_nil, List.append_nil, Nat.add_zero] at h
  rw [map_eq_filterMap (List.range ch) (fun c => cellAt a c i) fmt.narrow (fun c hc => ha c (by simpa using hc) i hi)] at h
  rw [Nat.succ_mul]
  exact h

theorem fileWriteLoop_eq (fmt : FloatFmt S F) {a : Buf (Buf S)} {ch n : Nat} (ha : HasCells a ch n)
    (hlt : n * ch < 4294967296) (out : Buf (Option F)) (hout : out.length = n * ch) :
    forRange 0 n (fileWriteFrame fmt a ch) out = .ok ((floatsIn fmt a ch n).map some) := by
  have h := forRange_states (lo := 0) (hi := n) (body := fileWriteFrame fmt a ch)
    (fun i => (floatsIn fmt a ch i).map some ++ out.drop (i * ch)) (Nat.zero_le _) (by
      intro i _ hi
      rw [fileWriteFrame_eq fmt ha hi hlt out hout _ (by
        rw [List.length_map, floatsIn_length fmt (fun c hc i' hi' => ha c hc i' (by omega))]), floatsIn_succ]
      simp)
  simp only [floatsIn, List.range_zero, List.map_nil, List.flatten_nil, List.nil_append, Nat.zero_mul,
    List.drop_zero] at h
  rw [List.drop_of_length_le (show out.length ≤ n * ch by omega), List.append_nil] at h
  exact h

theorem toBytes_length (fmt : FloatFmt S F) (l : List F) : (l.flatMap fmt.toBytes).length = 4 * l.length := by
  induction l with
  | nil => rfl
  | cons x l ih => simp [fmt.length_toBytes, ih]; omega

/-- The state of a file while writing: header and data. -/
def Writing (hdr : List Nat) (ch : Nat) (data : List Nat) (file : SpFile) : Prop :=
  ∃ eof, file = { file := some { content := if data = [] then hdr else hdr ++ [0, 0, 0, 0] ++ data, pos := 44 + data.length, eof := eof },
                  dataSize := data.length, channelCount := some ch }

theorem fileWrite_eq (fmt : FloatFmt S F) {hdr data : List Nat} {ch : Nat} {file : SpFile} (hh : hdr.length = 40)
    (hf : Writing hdr ch data file) {a : Buf (Buf S)} {n : Nat} (ha : HasCells a ch n) (hpos : 0 < n * ch)
    (hlt : data.length + 4 * (n * ch) < 4294967296) :
    ∃ file', fileWrite fmt file a n = .ok (0, file') ∧
      Writing hdr ch (data ++ (floatsIn fmt a ch n).flatMap fmt.toBytes) file' := by
  obtain ⟨eof, rfl⟩ := hf
  have hlen := toBytes_length fmt (floatsIn fmt a ch n)
  rw [floatsIn_length fmt ha] at hlen
  have e1 : u32 (u32 (ch * n) * 4) = 4 * (n * ch) := by
    rw [Nat.mul_comm ch n, u32_of_lt (n := n * ch) (by omega), u32_of_lt (by omega), Nat.mul_comm]
  have hne : (floatsIn fmt a ch n).flatMap fmt.toBytes ≠ [] := by
    intro h
    rw [h, List.length_nil] at hlen
    omega
  refine ⟨{ file := some (Stream.put { content := if data = [] then hdr else hdr ++ [0, 0, 0, 0] ++ data,
                                        pos := 44 + data.length, eof := eof } ((floatsIn fmt a ch n).flatMap fmt.toBytes)),
            dataSize := u32 (data.length + 4 * (n * ch)), channelCount := some ch }, ?_, ?_⟩
  · unfold fileWrite
    simp only [getChannels, ok_bind', e1]
    rw [fileWriteLoop_eq fmt ha (by omega) _ (by simp)]
    have hnz : (List.flatMap fmt.toBytes (floatsIn fmt a ch n)).length ≠ 0 := by omega
    simp only [ok_bind', mapM_isSet, derefFile, fwriteOne, if_neg hnz, Nat.one_ne_zero, if_false, pure_eq_ok]
  · refine ⟨eof, ?_⟩
    simp only [Stream.put, SpFile.mk.injEq, Option.some.injEq, Stream.mk.injEq, and_true, List.length_append, hlen]
    refine ⟨⟨?_, Nat.add_assoc _ _ _⟩, u32_of_lt hlt⟩
    rw [if_neg (show ¬ (data ++ List.flatMap fmt.toBytes (floatsIn fmt a ch n) = []) by simp [hne])]
    split
    · next h =>
      subst h
      rw [List.take_of_length_le (by omega), List.drop_of_length_le (by simp; omega), hh]
      simp [List.replicate]
    · next h =>
      rw [List.take_of_length_le (by simp; omega), List.drop_of_length_le (by simp; omega)]
      simp [hh]
      omega

/-- The bytes of all samples of a sequence of writes. -/
def dataBytes (fmt : FloatFmt S F) (ch : Nat) (ws : List (Buf (Buf S) × Nat)) : List Nat :=
  ((writtenFrames ch ws).flatten.map fmt.narrow).flatMap fmt.toBytes

theorem dataBytes_cons (fmt : FloatFmt S F) (ch : Nat) (w : Buf (Buf S) × Nat) (ws : List (Buf (Buf S) × Nat)) :
    dataBytes fmt ch (w :: ws) = (floatsIn fmt w.1 ch w.2).flatMap fmt.toBytes ++ dataBytes fmt ch ws := by
  simp [dataBytes, writtenFrames, floatsIn]

/-- A sequence of writes with data. -/
def ValidWrites (ch : Nat) (ws : List (Buf (Buf S) × Nat)) : Prop := ∀ w ∈ ws, HasCells w.1 ch w.2 ∧ 0 < w.2

theorem dataBytes_length (fmt : FloatFmt S F) {ch : Nat} {ws : List (Buf (Buf S) × Nat)} (hw : ValidWrites ch ws) :
    (dataBytes fmt ch ws).length = 4 * ch * (ws.map Prod.snd).sum := by
  induction ws with
  | nil => simp [dataBytes, writtenFrames]
  | cons w ws ih =>
    rw [dataBytes_cons, List.length_append, ih (fun x hx => hw x (by simp [hx])), toBytes_length,
      floatsIn_length fmt (hw w (by simp)).1]
    simp only [List.map_cons, List.sum_cons]
    ring

theorem writeAll_eq (fmt : FloatFmt S F) {hdr : List Nat} {ch : Nat} (hch : 0 < ch) (hh : hdr.length = 40)
    (ws : List (Buf (Buf S) × Nat)) (hw : ValidWrites ch ws) {data : List Nat} {file : SpFile}
    (hf : Writing hdr ch data file) (hlt : data.length + (dataBytes fmt ch ws).length < 4294967296) :
    ∃ file', writeAll fmt file ws = .ok (0, file') ∧ Writing hdr ch (data ++ dataBytes fmt ch ws) file' := by
  induction ws generalizing data file with
  | nil => exact ⟨file, rfl, by simpa [dataBytes, writtenFrames] using hf⟩
  | cons w ws ih =>
    have hv := hw w (by simp)
    have hl := toBytes_length fmt (floatsIn fmt w.1 ch w.2)
    rw [floatsIn_length fmt hv.1] at hl
    rw [dataBytes_cons, List.length_append, hl] at hlt
    obtain ⟨f1, e1, w1⟩ := fileWrite_eq fmt hh hf hv.1 (Nat.mul_pos hv.2 hch) (by omega)
    obtain ⟨f2, e2, w2⟩ := ih (fun x hx => hw x (by simp [hx])) w1 (by rw [List.length_append, hl]; omega)
    refine ⟨f2, ?_, by rw [dataBytes_cons, ← List.append_assoc]; exact w2⟩
    rw [writeAll, e1, ok_bind']
    simpa using e2

theorem put_replace {f : Stream} {A X B bytes : List Nat} (hc : f.content = A ++ X ++ B) (hp : f.pos = A.length)
    (hl : X.length = bytes.length) : (f.put bytes).content = A ++ bytes ++ B := by
  unfold Stream.put
  simp only [hc, hp]
  rw [List.append_assoc A X B, List.take_left, ← hl, ← List.length_append, ← List.append_assoc A X B, List.drop_left]
  simp

theorem put_end {f : Stream} {bytes : List Nat} (hp : f.pos = f.content.length) :
    (f.put bytes).content = f.content ++ bytes := by
  unfold Stream.put
  simp only [hp]
  simp

theorem fwriteOne_le32 (n : Nat) (f : Stream) : (fwriteOne (le32 n) f).2 = f.put (le32 n) := rfl

theorem fileCloseWrite_eq {A j B data : List Nat} {ch : Nat} {file : SpFile} (hA : A.length = 4) (hj : j.length = 4)
    (hB : B.length = 32) (hlt : 36 + data.length < 4294967296) (hf : Writing (A ++ (j ++ B)) ch data file) :
    fileCloseWrite file = .ok (A ++ le32 (36 + data.length) ++ B ++ le32 data.length ++ data) := by
  obtain ⟨eof, rfl⟩ := hf
  simp only [fileCloseWrite, derefFile, ok_bind', u32_of_lt hlt, fwriteOne_le32, pure_eq_ok]
  congr 1
  by_cases hd : data = []
  · subst hd
    have h1 : (Stream.put (Stream.seekSet { content := if ([] : List Nat) = [] then A ++ (j ++ B) else A ++ (j ++ B) ++ [0, 0, 0, 0] ++ [],
                                            pos := 44 + ([] : List Nat).length, eof := eof } 4) (le32 (36 + ([] : List Nat).length))).content
        = A ++ le32 (36 + ([] : List Nat).length) ++ B :=
      put_replace (X := j) (by simp [Stream.seekSet]) (by simp [Stream.seekSet, hA]) (by simp [hj, le32])
    rw [put_end]
    · simp only [Stream.seekSet] at h1 ⊢
      rw [h1]
      simp
    · simp only [Stream.seekSet] at h1 ⊢
      rw [h1]
      simp [hA, hB, le32]
  · have h1 : (Stream.put (Stream.seekSet { content := if data = [] then A ++ (j ++ B) else A ++ (j ++ B) ++ [0, 0, 0, 0] ++ data,
                                            pos := 44 + data.length, eof := eof } 4) (le32 (36 + data.length))).content
        = A ++ le32 (36 + data.length) ++ (B ++ [0, 0, 0, 0] ++ data) :=
      put_replace (X := j) (by simp [Stream.seekSet, hd]) (by simp [Stream.seekSet, hA]) (by simp [hj, le32])
    rw [put_replace (A := A ++ le32 (36 + data.length) ++ B) (X := [0, 0, 0, 0]) (B := data)]
    · simp only [Stream.seekSet] at h1 ⊢
      rw [h1]
      simp
    · simp [Stream.seekSet, hA, hB, le32]
    · simp [le32]

/-- C68: a file that has been opened, written to any number of times and closed is a wav file of the samples in
order. The bytes of the header array that the code leaves unset have no influence. -/
theorem C68_write (fmt : FloatFmt S F) (header : Buf Nat) (hh : header.length = 40) (ch rate : Nat) (hch : 0 < ch)
    (hrate : rate * ch * 4 < 4294967296) (ws : List (Buf (Buf S) × Nat)) (hw : ValidWrites ch ws)
    (hlt : 36 + 4 * ch * (ws.map Prod.snd).sum < 4294967296) :
    writeFile fmt header ch rate ws
      = .ok (0, wavFile ch rate (((writtenFrames ch ws).flatten).flatMap (fun x => fmt.toBytes (fmt.narrow x)))) := by
  obtain ⟨j, hj, hw'⟩ := wavHeader_eq header hh ch rate
  rw [u32_of_lt (n := rate * ch) (by omega), u32_of_lt hrate] at hw'
  have hlen := dataBytes_length fmt hw
  set hdr := ascii "RIFF" ++ j ++ ascii "WAVE" ++ ascii "fmt " ++ le32 16 ++ le16 3 ++ le16 ch ++ le32 rate ++
    le32 (rate * ch * 4) ++ le16 (ch * 4) ++ le16 32 ++ ascii "data" with hdr_def
  have hhdr : hdr.length = 40 := by simp [hdr_def, hj, ascii, le32, le16]
  have hopen : ∃ f0, fileOpenWrite header none ch rate = .ok (0, f0) ∧ Writing hdr ch [] f0 := by
    refine ⟨{ file := some ((Stream.put { content := [], pos := 0, eof := false } hdr).seekCur 4),
              dataSize := 0, channelCount := some ch }, ?_, ?_⟩
    · rw [fileOpenWrite, hw', ok_bind']
      simp [fwriteOne, hhdr]
    · refine ⟨false, ?_⟩
      simp [Stream.put, Stream.seekCur, hhdr]
  obtain ⟨f0, o1, o2⟩ := hopen
  obtain ⟨f1, w1, w2⟩ := writeAll_eq fmt hch hhdr ws hw o2 (by rw [hlen]; simp; omega)
  have hdata : ((writtenFrames ch ws).flatten).flatMap (fun x => fmt.toBytes (fmt.narrow x)) = dataBytes fmt ch ws := by
    rw [dataBytes, List.flatMap_map]
  rw [hdata, writeFile, o1, ok_bind', w1, ok_bind', List.nil_append] at *
  have hclose := fileCloseWrite_eq (A := ascii "RIFF") (j := j) (B := ascii "WAVE" ++ ascii "fmt " ++ le32 16 ++ le16 3 ++
    le16 ch ++ le32 rate ++ le32 (rate * ch * 4) ++ le16 (ch * 4) ++ le16 32 ++ ascii "data") rfl hj rfl
    (file := f1) (ch := ch) (data := dataBytes fmt ch ws) (by rw [hlen]; exact hlt) (by
      simpa only [hdr_def, List.append_assoc] using w2)
  rw [hclose, ok_bind']
  simp only [wavFile, bytesLE_four, bytesLE_two, List.append_assoc, pure_eq_ok]


/-! ### Reading -/

theorem get32_append4 (l r : List Nat) (n : Nat) (h : l.length = n) (x : Nat) (hx : x < 4294967296) :
    get32 (l ++ (le32 x ++ r)) n = x := by
  subst h
  simp only [get32, List.drop_left, le32, List.cons_append, List.nil_append, List.take_succ_cons, List.take_zero, ofLe]
  omega

theorem openRead_wavFile (ch rate : Nat) (data : List Nat) (file : SpFile) :
    fileOpenRead (some (wavFile ch rate data)) file
      = .ok (0, { file with file := some { content := wavFile ch rate data, pos := 44, eof := false } }) := by
  have e1 : wavStringRiff = ofLe (ascii "RIFF") := by decide
  have e2 : wavStringWav = ofLe (ascii "WAVE") := by decide
  have e3 : wavStringFmt = ofLe (ascii "fmt ") := by decide
  have e4 : wavStringData = ofLe (ascii "data") := by decide
  have a1 : ascii "RIFF" = [82, 73, 70, 70] := by decide
  have a2 : ascii "WAVE" = [87, 65, 86, 69] := by decide
  have a3 : ascii "fmt " = [102, 109, 116, 32] := by decide
  have a4 : ascii "data" = [100, 97, 116, 97] := by decide
  generalize hc : wavFile ch rate data = content
  have hg : ∃ h, content.take 44 = h ∧ h.length = 44 ∧ get32 h 0 = wavStringRiff ∧ get32 h 8 = wavStringWav ∧
      get32 h 12 = wavStringFmt ∧ 3 = get16 h 20 ∧ 32 = get16 h 34 ∧ wavStringData = get32 h 36 := by
    refine ⟨_, rfl, ?_⟩
    subst hc
    simp [wavFile, bytesLE_four, bytesLE_two, e1, e2, e3, e4, a1, a2, a3, a4, le32, le16, get32, get16, ofLe]
  obtain ⟨h, h1, h2, h3, h4, h5, h6, h7, h8⟩ := hg
  rw [fileOpenRead]
  simp only [Option.map_some, derefFile, ok_bind', Stream.get, List.drop_zero, h1]
  rw [if_neg (by tauto), if_neg (by tauto), chunkLoop, if_pos h8]
  simp [h2]

theorem drop_flatMap4 (fmt : FloatFmt S F) (l : List F) (k : Nat) :
    (l.flatMap fmt.toBytes).drop (4 * k) = (l.drop k).flatMap fmt.toBytes := by
  induction l generalizing k with
  | nil => simp
  | cons x l ih =>
    cases k with
    | zero => rfl
    | succ k =>
      rw [List.flatMap_cons, List.drop_append, List.drop_of_length_le (by rw [fmt.length_toBytes]; omega),
        List.nil_append, fmt.length_toBytes, show 4 * (k + 1) - 4 = 4 * k by omega, ih, List.drop_succ_cons]

theorem take_flatMap4 (fmt : FloatFmt S F) (l : List F) (k : Nat) :
    (l.flatMap fmt.toBytes).take (4 * k) = (l.take k).flatMap fmt.toBytes := by
  induction l generalizing k with
  | nil => simp
  | cons x l ih =>
    cases k with
    | zero => rfl
    | succ k =>
      rw [List.flatMap_cons, List.take_append, List.take_of_length_le (by rw [fmt.length_toBytes]; omega),
        fmt.length_toBytes, show 4 * (k + 1) - 4 = 4 * k by omega, ih, List.take_succ_cons, List.flatMap_cons]

theorem floatsOf_eq (fmt : FloatFmt S F) (l : List F) : floatsOf fmt l.length (l.flatMap fmt.toBytes) = l := by
  apply List.ext_getElem (by simp [floatsOf])
  intro k h1 h2
  simp only [floatsOf, List.getElem_map, List.getElem_range]
  rw [drop_flatMap4, show (4 : Nat) = 4 * 1 from rfl, take_flatMap4, List.drop_eq_getElem_cons h2,
    List.take_succ_cons, List.take_zero, List.flatMap_cons, List.flatMap_nil, List.append_nil, fmt.ofBytes_toBytes]

/-- The reading loops copy the floats to the channels. -/
theorem fileReadLoop_eq (fmt : FloatFmt S F) (d : Buf F) (ch m : Nat) (samples : Buf (Buf S))
    (hs : HasCells samples ch m) (hd : m * ch ≤ d.length) (hlt : m * ch < 4294967296) :
    ∃ out, forRange 0 m (fileReadFrame fmt d ch) samples = .ok out ∧
      ∀ c i, cellAt out c i = if c < ch ∧ i < m then (d[i * ch + c]?).map fmt.widen else cellAt samples c i := by
  obtain ⟨out, h1, h2⟩ := forRange_rule
    (P := fun k out => ∀ c i, cellAt out c i
      = if c < ch ∧ i < k then (d[i * ch + c]?).map fmt.widen else cellAt samples c i)
    (hle := Nat.zero_le m) (body := fileReadFrame fmt d ch) (s := samples) (h0 := by simp) (hstep := by
      intro i s _ hi hP
      have hk : (i + 1) * ch ≤ m * ch := Nat.mul_le_mul_right _ hi
      rw [Nat.succ_mul] at hk
      obtain ⟨s', g1, g2⟩ := forRange_rule
        (P := fun j out => ∀ c' i', cellAt out c' i'
          = if c' < ch ∧ (i' < i ∨ (i' = i ∧ c' < j)) then (d[i' * ch + c']?).map fmt.widen else cellAt samples c' i')
        (hle := Nat.zero_le ch) (body := fileReadStep fmt d ch i) (s := s)
        (h0 := by
          intro c' i'
          rw [hP]
          simp)
        (hstep := by
          intro j t _ hj hQ
          obtain ⟨t', w1, _, _, w4⟩ := wr2_eq (a := t) (c := j) (i := i) (fmt.widen (d[i * ch + j]'(by omega))) (by
            rw [hQ, if_neg (by omega)]
            exact hs j hj i hi)
          refine ⟨t', ?_, ?_⟩
          · rw [fileReadStep, u32_of_lt (n := i * ch) (by omega), u32_of_lt (by omega), rd_eq_ok (by omega), ok_bind', w1]
          · intro c' i'
            rw [w4, hQ]
            by_cases e : c' = j ∧ i' = i
            · obtain ⟨rfl, rfl⟩ := e
              rw [if_pos ⟨rfl, rfl⟩, if_pos (by omega), List.getElem?_eq_getElem (by omega)]
              rfl
            · rw [if_neg e]
              have : (i' < i ∨ (i' = i ∧ c' < j)) ↔ (i' < i ∨ (i' = i ∧ c' < j + 1)) := by omega
              simp only [this])
      refine ⟨s', g1, fun c' i' => ?_⟩
      rw [g2]
      have : (c' < ch ∧ (i' < i ∨ (i' = i ∧ c' < ch))) ↔ (c' < ch ∧ i' < i + 1) := by omega
      simp only [this])
  exact ⟨out, h1, h2⟩

/-- A file that is read: at frame `p` of `frames`, with the channel count set by the caller. -/
def Reading (fmt : FloatFmt S F) (ch rate : Nat) (frames : List (List S)) (p : Nat) (file : SpFile) : Prop :=
  ∃ eof ds, file = { file := some { content := wavFile ch rate (frames.flatten.flatMap (fun x => fmt.toBytes (fmt.narrow x))),
                                    pos := 44 + 4 * (p * ch), eof := eof },
                     dataSize := ds, channelCount := some ch }

theorem flatten_length {frames : List (List S)} {ch : Nat} (hf : ∀ f ∈ frames, f.length = ch) :
    frames.flatten.length = frames.length * ch := by
  induction frames with
  | nil => simp
  | cons f l ih =>
    rw [List.flatten_cons, List.length_append, ih (fun g hg => hf g (by simp [hg])), hf f (by simp), List.length_cons]
    ring

theorem flatten_getElem? {frames : List (List S)} {ch : Nat} (hf : ∀ f ∈ frames, f.length = ch) {i c : Nat} (hc : c < ch) :
    frames.flatten[i * ch + c]? = (frames[i]?).bind (fun f => f[c]?) := by
  induction frames generalizing i with
  | nil => simp
  | cons f l ih =>
    have hfl := hf f (by simp)
    rw [List.flatten_cons]
    cases i with
    | zero => simp [List.getElem?_append, hfl, hc]
    | succ i =>
      rw [List.getElem?_append_right (by rw [hfl, Nat.succ_mul]; omega), hfl,
        show (i + 1) * ch + c - ch = i * ch + c by rw [Nat.succ_mul]; omega, ih (fun g hg => hf g (by simp [hg]))]
      rfl

/-- C69, partial: `sp_file_read` of `n` samples, at frame `p` of a file with the given frames, writes the frames
`p` to `p + n`, or to the end of the file, to the channels, converted to floats and back, and advances by as many
frames. The missing part: the channel count must have been set by the caller, and no status is returned. -/
theorem C69_read_partial (fmt : FloatFmt S F) {ch rate : Nat} (hch : 0 < ch) {frames : List (List S)}
    (hf : ∀ f ∈ frames, f.length = ch) {p : Nat} (hp : p ≤ frames.length) {file : SpFile}
    (hr : Reading fmt ch rate frames p file) (n : Nat) (hn : 4 * (n * ch) < 4294967296) (samples : Buf (Buf S))
    (hs : HasCells samples ch n) :
    ∃ file' out, fileRead fmt file n samples = .ok (none, file', out) ∧
      Reading fmt ch rate frames (p + min n (frames.length - p)) file' ∧
      ∀ c i, cellAt out c i = if c < ch ∧ i < min n (frames.length - p) then
        ((frames[p + i]?).bind (fun f => f[c]?)).map (fun x => fmt.widen (fmt.narrow x)) else cellAt samples c i := by
  obtain ⟨eof, ds, rfl⟩ := hr
  set m := min n (frames.length - p) with hm
  set fl := frames.flatten.map fmt.narrow with hfl
  have hdata : frames.flatten.flatMap (fun x => fmt.toBytes (fmt.narrow x)) = fl.flatMap fmt.toBytes := by
    rw [hfl, List.flatMap_map]
  have hfll : fl.length = frames.length * ch := by rw [hfl, List.length_map, flatten_length hf]
  have hdrop : ∀ data : List Nat, ∀ k, (wavFile ch rate data).drop (44 + k) = data.drop k := by
    intro data k
    rw [← List.drop_drop]
    rfl
  have e1 : u32 (ch * n) = n * ch := by rw [Nat.mul_comm, u32_of_lt (by omega)]
  have hbytes : ((wavFile ch rate (fl.flatMap fmt.toBytes)).drop (44 + 4 * (p * ch))).take (4 * (n * ch))
      = ((fl.drop (p * ch)).take (n * ch)).flatMap fmt.toBytes := by
    rw [hdrop, drop_flatMap4, take_flatMap4]
  have hlen : ((fl.drop (p * ch)).take (n * ch)).length = m * ch := by
    rw [List.length_take, List.length_drop, hfll, ← Nat.sub_mul, hm, Nat.mul_min_mul_right]
  have hle : m * ch ≤ n * ch := Nat.mul_le_mul_right _ (by omega)
  have hblen := toBytes_length fmt ((fl.drop (p * ch)).take (n * ch))
  rw [hlen] at hblen
  have hread : fileRead fmt { file := some { content := wavFile ch rate (fl.flatMap fmt.toBytes),
                                             pos := 44 + 4 * (p * ch), eof := eof },
                              dataSize := ds, channelCount := some ch } n samples =
      (if m * ch ≠ n * ch ∧ m * ch = 0 then
        pure (none, { file := some { content := wavFile ch rate (fl.flatMap fmt.toBytes),
                                     pos := 44 + 4 * (p * ch) + 4 * (m * ch), eof := eof || decide (4 * (m * ch) < 4 * (n * ch)) },
                      dataSize := ds, channelCount := some ch }, samples)
      else do
        let samples ← forRange 0 m (fileReadFrame fmt ((fl.drop (p * ch)).take (n * ch)) ch) samples
        pure (none, { file := some { content := wavFile ch rate (fl.flatMap fmt.toBytes),
                                     pos := 44 + 4 * (p * ch) + 4 * (m * ch), eof := eof || decide (4 * (m * ch) < 4 * (n * ch)) },
                      dataSize := ds, channelCount := some ch }, samples)) := by
    have hfo := floatsOf_eq fmt ((fl.drop (p * ch)).take (n * ch))
    rw [hlen] at hfo
    unfold fileRead
    simp only [getChannels, derefFile, ok_bind', Stream.get, e1, hbytes, hblen,
      show 4 * (m * ch) / 4 = m * ch by omega, Nat.mul_div_cancel _ hch, hfo, if_neg hch.ne',
      u32_of_lt hn, if_neg (show ¬ 4 * (n * ch) < 4 * (m * ch) by omega)]
  rw [hdata, hread]
  have hReading : ∀ e, Reading fmt ch rate frames (p + m)
      { file := some { content := wavFile ch rate (fl.flatMap fmt.toBytes), pos := 44 + 4 * (p * ch) + 4 * (m * ch), eof := e },
        dataSize := ds, channelCount := some ch } := by
    intro e
    refine ⟨e, ds, ?_⟩
    rw [hdata, Nat.add_mul, Nat.mul_add, Nat.add_assoc]
  by_cases hz : m * ch ≠ n * ch ∧ m * ch = 0
  · rw [if_pos hz]
    refine ⟨_, samples, rfl, hReading _, fun c i => ?_⟩
    have hm0 : m = 0 := by
      rcases Nat.mul_eq_zero.1 hz.2 with h | h
      · exact h
      · omega
    rw [if_neg (by omega)]
  · rw [if_neg hz]
    obtain ⟨out, o1, o2⟩ := fileReadLoop_eq fmt ((fl.drop (p * ch)).take (n * ch)) ch m samples
      (fun c hc i hi => hs c hc i (by omega)) (by rw [hlen]) (by omega)
    rw [o1, ok_bind']
    refine ⟨_, out, rfl, hReading _, fun c i => ?_⟩
    rw [o2]
    by_cases hci : c < ch ∧ i < m
    · rw [if_pos hci, if_pos hci]
      have hk : (i + 1) * ch ≤ m * ch := Nat.mul_le_mul_right _ hci.2
      rw [Nat.succ_mul] at hk
      rw [List.getElem?_take_of_lt (by omega), List.getElem?_drop, hfl, List.getElem?_map,
        show p * ch + (i * ch + c) = (p + i) * ch + c by ring, flatten_getElem? hf hci.1, Option.map_map]
      rfl
    · rw [if_neg hci, if_neg hci]

/-- A program that reads several times: number of samples and arrays to read to for each call. -/
def readAll (fmt : FloatFmt S F) : SpFile → List (Buf (Buf S) × Nat) → C (List (Buf (Buf S) × Nat))
  | _, [] => .ok []
  | file, r :: rs => do
    let q ← fileRead fmt file r.2 r.1
    let l ← readAll fmt q.2.1 rs
    pure ((q.2.2, r.2) :: l)

theorem range_filterMap (l : List S) (p n : Nat) (h : p + n ≤ l.length) :
    (List.range n).filterMap (fun i => l[p + i]?) = (l.drop p).take n := by
  induction n with
  | zero => simp
  | succ n ih =>
    rw [List.range_succ, List.filterMap_append, ih (by omega), List.take_add_one]
    simp [List.getElem?_eq_getElem (show p + n < l.length by omega)]

theorem filterMap_congr' {α β : Type} {l : List α} {f g : α → Option β} (h : ∀ x ∈ l, f x = g x) :
    l.filterMap f = l.filterMap g := List.filterMap_congr h

theorem readAll_eq (fmt : FloatFmt S F) {ch rate : Nat} (hch : 0 < ch) {frames : List (List S)}
    (hf : ∀ f ∈ frames, f.length = ch) {c : Nat} (hc : c < ch) (chan : List S) (hlc : chan.length = frames.length)
    (hchan : ∀ i : Nat, chan[i]? = (frames[i]?).bind (fun f => f[c]?)) (rs : List (Buf (Buf S) × Nat))
    (hrs : ∀ r ∈ rs, HasCells r.1 ch r.2 ∧ 4 * (r.2 * ch) < 4294967296) {p : Nat}
    (hp : p + (rs.map Prod.snd).sum ≤ frames.length) {file : SpFile} (hr : Reading fmt ch rate frames p file) :
    ∃ outs, readAll fmt file rs = .ok outs ∧ channelOf c outs
      = ((chan.drop p).take (rs.map Prod.snd).sum).map (fun x => fmt.widen (fmt.narrow x)) := by
  induction rs generalizing p file with
  | nil => exact ⟨[], rfl, by simp [channelOf]⟩
  | cons r rs ih =>
    rw [List.map_cons, List.sum_cons] at hp
    obtain ⟨f1, out, e1, e2, e3⟩ := C69_read_partial fmt hch hf (show p ≤ frames.length by omega) hr r.2
      (hrs r (by simp)).2 r.1 (hrs r (by simp)).1
    rw [Nat.min_eq_left (by omega)] at e2 e3
    obtain ⟨outs, g1, g2⟩ := ih (fun x hx => hrs x (by simp [hx])) (p := p + r.2) (by omega) e2
    refine ⟨(out, r.2) :: outs, ?_, ?_⟩
    · rw [readAll, e1, ok_bind']
      simp only
      rw [g1]
      rfl
    · rw [channelOf, List.flatMap_cons]
      change _ ++ channelOf c outs = _
      rw [g2, List.map_cons, List.sum_cons, List.take_add, List.map_append, List.drop_drop]
      congr 1
      have : (List.range r.2).filterMap (fun i => cellAt out c i)
          = (List.range r.2).filterMap (fun i => (chan.map (fun x => fmt.widen (fmt.narrow x)))[p + i]?) := by
        apply filterMap_congr'
        intro i hi
        rw [e3, if_pos ⟨hc, by simpa using hi⟩, List.getElem?_map, hchan]
      rw [this, range_filterMap _ _ _ (by rw [List.length_map]; omega), ← List.map_drop, ← List.map_take]

theorem writtenFrames_length {ch : Nat} {ws : List (Buf (Buf S) × Nat)} (hw : ValidWrites ch ws) :
    ∀ f ∈ writtenFrames ch ws, f.length = ch := by
  intro f hf
  simp only [writtenFrames, List.mem_flatMap, List.mem_map, List.mem_range] at hf
  obtain ⟨w, hw1, i, hi, rfl⟩ := hf
  exact frame_length (hw w hw1).1 hi

theorem frame_getElem? {a : Buf (Buf S)} {ch n i c : Nat} (ha : HasCells a ch n) (hi : i < n) (hc : c < ch) :
    (frame a ch i)[c]? = cellAt a c i := by
  have h := map_eq_filterMap (List.range ch) (fun c => cellAt a c i) id (fun c hc => ha c (by simpa using hc) i hi)
  have h2 := congrArg (fun l : List (Option S) => l[c]?) h
  simp only [List.getElem?_map, List.getElem?_range hc, Option.map_some, List.map_id, Option.map_id, id] at h2
  obtain ⟨v, hv⟩ := Option.isSome_iff_exists.1 (ha c hc i hi)
  rw [hv] at h2 ⊢
  unfold frame
  cases h3 : ((List.range ch).filterMap (fun c => cellAt a c i))[c]? with
  | none => rw [h3] at h2; simp at h2
  | some w => rw [h3] at h2; simpa using h2.symm

theorem channelOf_eq {ch : Nat} {ws : List (Buf (Buf S) × Nat)} (hw : ValidWrites ch ws) {c : Nat} (hc : c < ch) :
    channelOf c ws = (writtenFrames ch ws).filterMap (fun f => f[c]?) := by
  unfold channelOf writtenFrames
  rw [List.filterMap_flatMap]
  apply List.flatMap_congr
  intro w hw1
  rw [List.filterMap_map]
  apply filterMap_congr'
  intro i hi
  exact (frame_getElem? (hw w hw1).1 (by simpa using hi) hc).symm

theorem filterMap_all {α β : Type} (l : List α) (g : α → Option β) (hs : ∀ x ∈ l, (g x).isSome) :
    (l.filterMap g).length = l.length ∧ ∀ i : Nat, (l.filterMap g)[i]? = (l[i]?).bind g := by
  induction l with
  | nil => simp
  | cons x l ih =>
    obtain ⟨v, hv⟩ := Option.isSome_iff_exists.1 (hs x (by simp))
    obtain ⟨h1, h2⟩ := ih (fun y hy => hs y (by simp [hy]))
    rw [List.filterMap_cons_some hv]
    refine ⟨by simp [h1], fun i => ?_⟩
    cases i with
    | zero => simp [hv]
    | succ i => simpa using h2 i

/-- C69, partial: a file written by the library can be opened and read: over any division into calls, the samples
read for each channel are the beginning of the samples written to the channel by any number of calls, as 32 bit
floats. The channel count field must have been set by the caller. -/
theorem C69_roundtrip_partial (fmt : FloatFmt S F) (header : Buf Nat) (hh : header.length = 40) (ch rate : Nat)
    (hch : 0 < ch) (hrate : rate * ch * 4 < 4294967296) (ws : List (Buf (Buf S) × Nat)) (hw : ValidWrites ch ws)
    (hlt : 36 + 4 * ch * (ws.map Prod.snd).sum < 4294967296) (rs : List (Buf (Buf S) × Nat))
    (hrs : ∀ r ∈ rs, HasCells r.1 ch r.2) (hsum : (rs.map Prod.snd).sum ≤ (ws.map Prod.snd).sum) (file : SpFile)
    (hset : file.channelCount = some ch) {c : Nat} (hc : c < ch) :
    ∃ content file' outs, writeFile fmt header ch rate ws = .ok (0, content) ∧
      fileOpenRead (some content) file = .ok (0, file') ∧ readAll fmt file' rs = .ok outs ∧
      channelOf c outs = ((channelOf c ws).map (fun x => fmt.widen (fmt.narrow x))).take (rs.map Prod.snd).sum := by
  have hwl := writtenFrames_length hw
  have hfl : (writtenFrames ch ws).length = (ws.map Prod.snd).sum := by
    unfold writtenFrames
    rw [List.length_flatMap]
    simp
  obtain ⟨k1, k2⟩ := filterMap_all (writtenFrames ch ws) (fun f => f[c]?) (by
    intro f hf
    rw [List.getElem?_eq_getElem (by rw [hwl f hf]; exact hc)]
    rfl)
  obtain ⟨outs, g1, g2⟩ := readAll_eq fmt (rate := rate) hch hwl hc (channelOf c ws) (by rw [channelOf_eq hw hc, k1])
    (by intro i; rw [channelOf_eq hw hc, k2]) rs (by
      intro r hr
      refine ⟨hrs r hr, ?_⟩
      have h1 : r.2 ≤ (ws.map Prod.snd).sum := le_trans (List.single_le_sum (by simp) _ (List.mem_map_of_mem hr)) hsum
      have h2 : r.2 * (4 * ch) ≤ (ws.map Prod.snd).sum * (4 * ch) := Nat.mul_le_mul_right _ h1
      have h3 : r.2 * (4 * ch) = 4 * (r.2 * ch) := by ring
      have h4 : (ws.map Prod.snd).sum * (4 * ch) = 4 * ch * (ws.map Prod.snd).sum := by ring
      omega) (p := 0) (by omega)
    (file := { file with file := some { content := wavFile ch rate ((writtenFrames ch ws).flatten.flatMap (fun x => fmt.toBytes (fmt.narrow x))),
                                        pos := 44, eof := false } })
    ⟨false, file.dataSize, by rw [← hset]; simp⟩
  refine ⟨_, _, outs, C68_write fmt header hh ch rate hch hrate ws hw hlt, openRead_wavFile ch rate _ file, g1, ?_⟩
  rw [g2, List.drop_zero, List.map_take]

/-- C69 is false for a file structure as the library leaves it: `sp_file_open_read` does not set the channel count
and `sp_file_read` uses it. -/
theorem C69_channel_count_false (fmt : FloatFmt S F) (ch rate : Nat) (data : List Nat) (file : SpFile)
    (hset : file.channelCount = none) (n : Nat) (samples : Buf (Buf S)) :
    ∃ file', fileOpenRead (some (wavFile ch rate data)) file = .ok (0, file') ∧
      fileRead fmt file' n samples = .error .uninitialized := by
  refine ⟨_, openRead_wavFile ch rate data file, ?_⟩
  simp [fileRead, hset, getChannels]

/-- C69 is false for the status: whatever the outcome, `sp_file_read` does not return one. -/
theorem C69_status_false (fmt : FloatFmt S F) (file : SpFile) (n : Nat) (samples : Buf (Buf S)) {st : Option Nat}
    {file' : SpFile} {out : Buf (Buf S)} (h : fileRead fmt file n samples = .ok (st, file', out)) : st = none := by
  unfold fileRead at h
  simp only [bind_eq_ok] at h
  obtain ⟨c, _, f, _, h⟩ := h
  split at h
  · cases h
  · split at h
    · simp only [pure_eq_ok, Except.ok.injEq, Prod.mk.injEq] at h; exact h.1.symm
    · split at h
      · cases h
      · simp only [bind_eq_ok, pure_eq_ok, Except.ok.injEq, Prod.mk.injEq] at h
        obtain ⟨_, _, h, _⟩ := h
        exact h.symm

/-- Opening a file that does not exist is not reported as an error but uses a null pointer. -/
theorem C69_missing_file_false (file : SpFile) : fileOpenRead none file = .error .nullDeref := rfl

/-- C68: a write of zero samples is reported as a failure, and leaves the file as it is. -/
theorem C68_empty_write (fmt : FloatFmt S F) (f : Stream) (ds ch : Nat) (samples : Buf (Buf S)) :
    fileWrite fmt { file := some f, dataSize := ds, channelCount := some ch } samples 0
      = .ok (2, { file := some f, dataSize := ds, channelCount := some ch }) := by
  simp [fileWrite, getChannels, u32, derefFile, fwriteOne, idFileWrite]

/-! ### C87: opening any file -/

theorem DataAt.unique {content : List Nat} {p q r : Nat} (h1 : DataAt content p q) (h2 : DataAt content p r) : q = r := by
  induction h1 with
  | here a b => cases h2 with
    | here _ _ => rfl
    | next _ c _ => exact absurd b c
  | next a b c ih => cases h2 with
    | here _ d => exact absurd d b
    | next _ _ d => exact ih d

theorem ofLe_inj {a b : List Nat} (hl : a.length = b.length) (ha : ∀ x ∈ a, x < 256) (hb : ∀ x ∈ b, x < 256)
    (h : ofLe a = ofLe b) : a = b := by
  induction a generalizing b with
  | nil => cases b with
    | nil => rfl
    | cons y l => simp at hl
  | cons x k ih => cases b with
    | nil => simp at hl
    | cons y l =>
      have h1 := ha x (by simp)
      have h2 := hb y (by simp)
      simp only [ofLe] at h
      have h3 : ofLe k = ofLe l := by omega
      rw [show x = y by omega, ih (by simpa using hl) (fun z hz => ha z (by simp [hz])) (fun z hz => hb z (by simp [hz])) h3]

/-- Comparing numbers in memory is comparing bytes. -/
theorem ofLe_take_eq {content : List Nat} (hb : ∀ x ∈ content, x < 256) {p n : Nat} (hp : p + n ≤ content.length)
    {t : List Nat} (ht : ∀ x ∈ t, x < 256) (hn : t.length = n) :
    ofLe ((content.drop p).take n) = ofLe t ↔ (content.drop p).take n = t := by
  constructor
  · intro h
    refine ofLe_inj ?_ ?_ ht h
    · rw [List.length_take, List.length_drop]; omega
    · intro x hx
      exact hb x (List.mem_of_mem_drop (List.mem_of_mem_take hx))
  · intro h; rw [h]

theorem wavStringData_eq : wavStringData = ofLe (ascii "data") := by decide

theorem chunkLoop_spec {content : List Nat} (hb : ∀ x ∈ content, x < 256) (fuel p : Nat) (hp : p + 8 ≤ content.length)
    (hfuel : content.length < fuel + p) (f : Stream) (hc : f.content = content) (hpos : f.pos = p + 8) :
    ∃ st f', chunkLoop fuel (get32 content p) (get32 content (p + 4)) f = .ok (st, f') ∧ f'.content = content ∧
      ((st = 0 ∧ DataAt content p f'.pos) ∨ (st = 3 ∧ ¬ ∃ q, DataAt content p q)) := by
  induction fuel generalizing p f with
  | zero => omega
  | succ fuel ih =>
    have hiff : wavStringData = get32 content p ↔ (content.drop p).take 4 = ascii "data" := by
      rw [wavStringData_eq, eq_comm]
      exact ofLe_take_eq hb (by omega) (by decide) rfl
    rw [chunkLoop]
    by_cases hd : wavStringData = get32 content p
    · rw [if_pos hd]
      refine ⟨0, f, rfl, hc, Or.inl ⟨rfl, ?_⟩⟩
      rw [hpos]
      exact DataAt.here hp (hiff.1 hd)
    · rw [if_neg hd]
      have hnd : (content.drop p).take 4 ≠ ascii "data" := fun h => hd (hiff.2 h)
      set p' := p + 8 + get32 content (p + 4) with hp'
      have hno : ¬ p' + 8 ≤ content.length → ¬ ∃ q, DataAt content p q := by
        rintro h ⟨q, hq⟩
        cases hq with
        | here _ h2 => exact hnd h2
        | next _ _ h3 =>
          rw [numberLE_eq] at h3
          cases h3 with
          | here h4 _ => exact h h4
          | next h4 _ _ => exact h h4
      have l1 : ((content.drop p').take 4).length = min 4 (content.length - p') := by
        rw [List.length_take, List.length_drop]
      have l2 : ∀ k, ((content.drop k).take 4).length = min 4 (content.length - k) := by
        intro k; rw [List.length_take, List.length_drop]
      simp only [Stream.seekCur, Stream.get, hc, hpos, ← hp']
      by_cases h4 : ((content.drop p').take 4).length < 4
      · rw [if_pos h4]
        exact ⟨_, _, rfl, rfl, Or.inr ⟨rfl, hno (by omega)⟩⟩
      · rw [if_neg h4]
        have e4 : ((content.drop p').take 4).length = 4 := by omega
        rw [e4]
        by_cases h8 : ((content.drop (p' + 4)).take 4).length < 4
        · rw [if_pos h8]
          rw [l2] at h8
          exact ⟨_, _, rfl, rfl, Or.inr ⟨rfl, hno (by omega)⟩⟩
        · rw [if_neg h8]
          have e8 : ((content.drop (p' + 4)).take 4).length = 4 := by rw [l2] at h8 ⊢; omega
          rw [l2] at h8
          obtain ⟨st, f', g1, g2, g3⟩ := ih p' (by omega) (by omega)
            { content := content, pos := p' + 4 + 4, eof := (false || decide (4 < 4)) || decide (4 < 4) } rfl rfl
          rw [e8]
          refine ⟨st, f', g1, g2, ?_⟩
          rcases g3 with ⟨g3, g4⟩ | ⟨g3, g4⟩
          · exact Or.inl ⟨g3, DataAt.next hp hnd (by rw [numberLE_eq]; exact g4)⟩
          · refine Or.inr ⟨g3, ?_⟩
            rintro ⟨q, hq⟩
            cases hq with
            | here _ h2 => exact hnd h2
            | next _ _ h3 => exact g4 ⟨q, by rw [numberLE_eq] at h3; exact h3⟩

/-- C87: opening a file for reading ends for every content. It fails with file_read (3) if it is no wav file or the chain of chunks does not
arrive at a data chunk, with not_implemented (4) if the samples are no 32 bit floats, and otherwise succeeds, and then the position is the
beginning of the data. -/
theorem C87_open_read (content : List Nat) (hb : ∀ x ∈ content, x < 256) (file : SpFile) :
    ∃ st file' f', fileOpenRead (some content) file = .ok (st, file') ∧ file'.file = some f' ∧ f'.content = content ∧
      (¬ IsWav content → st = 3) ∧ (IsWav content → ¬ IsFloat32 content → st = 4) ∧
      (IsWav content → IsFloat32 content → (¬ ∃ q, DataAt content 36 q) → st = 3) ∧
      (IsWav content → IsFloat32 content → ∀ q, DataAt content 36 q → st = 0 ∧ f'.pos = q) := by
  unfold IsWav IsFloat32
  rw [bytesLE_two, bytesLE_two]
  have hl : (content.take 44).length = min 44 content.length := List.length_take
  have hget : ∀ p n, p + n ≤ 44 → ((content.take 44).drop p).take n = (content.drop p).take n := by
    intro p n h
    rw [List.drop_take, List.take_take, Nat.min_eq_left (by omega)]
  have e1 : wavStringRiff = ofLe (ascii "RIFF") := by decide
  have e2 : wavStringWav = ofLe (ascii "WAVE") := by decide
  have e3 : wavStringFmt = ofLe (ascii "fmt ") := by decide
  have e5 : (3 : Nat) = ofLe (le16 3) := by decide
  have e6 : (32 : Nat) = ofLe (le16 32) := by decide
  have hA : ((content.take 44).length = 44 ∧ get32 (content.take 44) 0 = wavStringRiff ∧
      get32 (content.take 44) 8 = wavStringWav ∧ get32 (content.take 44) 12 = wavStringFmt) ↔
      (44 ≤ content.length ∧ content.take 4 = ascii "RIFF" ∧ (content.drop 8).take 4 = ascii "WAVE" ∧
        (content.drop 12).take 4 = ascii "fmt ") := by
    rw [hl]
    by_cases h44 : 44 ≤ content.length
    · simp only [get32, hget 0 4 (by omega), hget 8 4 (by omega), hget 12 4 (by omega), e1, e2, e3]
      rw [ofLe_take_eq hb (p := 0) (n := 4) (t := ascii "RIFF") (by omega) (by decide) rfl,
        ofLe_take_eq hb (p := 8) (n := 4) (t := ascii "WAVE") (by omega) (by decide) rfl,
        ofLe_take_eq hb (p := 12) (n := 4) (t := ascii "fmt ") (by omega) (by decide) rfl]
      simp [h44]
    · constructor
      · rintro ⟨h, _⟩; omega
      · rintro ⟨h, _⟩; omega
  rw [fileOpenRead]
  simp only [Option.map_some, derefFile, ok_bind', Stream.get, List.drop_zero]
  by_cases h1 : (content.take 44).length = 44 ∧ get32 (content.take 44) 0 = wavStringRiff ∧
      get32 (content.take 44) 8 = wavStringWav ∧ get32 (content.take 44) 12 = wavStringFmt
  · rw [if_neg (not_not.2 h1)]
    obtain ⟨g1, g2, g3, g4⟩ := hA.1 h1
    have hB : (3 = get16 (content.take 44) 20 ∧ 32 = get16 (content.take 44) 34) ↔
        ((content.drop 20).take 2 = le16 3 ∧ (content.drop 34).take 2 = le16 32) := by
      have k1 := ofLe_take_eq hb (p := 20) (n := 2) (t := le16 3) (by omega) (by decide) rfl
      have k2 := ofLe_take_eq hb (p := 34) (n := 2) (t := le16 32) (by omega) (by decide) rfl
      rw [← e5, eq_comm] at k1
      rw [← e6, eq_comm] at k2
      rw [get16, get16, hget 20 2 (by omega), hget 34 2 (by omega), k1, k2]
    by_cases h2 : 3 = get16 (content.take 44) 20 ∧ 32 = get16 (content.take 44) 34
    · rw [if_neg (not_not.2 h2)]
      have hg1 : get32 (content.take 44) 36 = get32 content 36 := by rw [get32, hget 36 4 (by omega)]; rfl
      have hg2 : get32 (content.take 44) 40 = get32 content 40 := by rw [get32, hget 40 4 (by omega)]; rfl
      rw [hg1, hg2]
      obtain ⟨st, f', k1, k2, k3⟩ := chunkLoop_spec hb (content.length + 1) 36 (by omega) (by omega)
        { content := content, pos := 0 + (content.take 44).length, eof := false || decide ((content.take 44).length < 44) }
        rfl (by rw [h1.1])
      rw [k1, ok_bind']
      refine ⟨st, _, f', rfl, rfl, k2, fun h => absurd ⟨g1, g2, g3, g4⟩ h, fun _ h => absurd (hB.1 h2) h, fun _ _ h => ?_, fun _ _ q hq => ?_⟩
      · rcases k3 with ⟨_, k4⟩ | ⟨k3, _⟩
        · exact absurd ⟨_, k4⟩ h
        · exact k3
      · rcases k3 with ⟨k3, k4⟩ | ⟨_, k4⟩
        · exact ⟨k3, k4.unique hq⟩
        · exact absurd ⟨q, hq⟩ k4
    · rw [if_pos h2]
      exact ⟨_, _, _, rfl, rfl, rfl, fun h => absurd ⟨g1, g2, g3, g4⟩ h, fun _ _ => rfl, fun _ h => absurd (hB.2 h) h2, fun _ h => absurd (hB.2 h) h2⟩
  · rw [if_pos h1]
    exact ⟨_, _, _, rfl, rfl, rfl, fun _ => rfl, fun h => absurd (hA.2 h) h1, fun h => absurd (hA.2 h) h1, fun h => absurd (hA.2 h) h1⟩

/-! ### Examples -/

/-- Floats that are their own first byte, for the examples. -/
def byteFmt : FloatFmt Nat Nat where
  narrow x := x % 256
  widen x := x
  toBytes x := [x, 0, 0, 0]
  ofBytes l := l.headD 0
  length_toBytes _ := rfl
  ofBytes_toBytes _ := rfl

/-- Two writes to a file with two channels; one has more samples than are written. -/
def exampleWrites : List (Buf (Buf Nat) × Nat) := [([[1, 2], [3, 4, 5]], 2), ([[6], [7]], 1)]

example : ValidWrites 2 exampleWrites := by unfold ValidWrites HasCells exampleWrites; decide

example : (writtenFrames 2 exampleWrites) = [[1, 3], [2, 4], [6, 7]] := by decide

example : channelOf 1 exampleWrites = [3, 4, 7] := by decide

/-- The hypotheses of C68 and C69 hold. -/
example : ∃ content file' outs, writeFile byteFmt (List.replicate 40 99) 2 48000 exampleWrites = .ok (0, content) ∧
    fileOpenRead (some content) { file := none, dataSize := 0, channelCount := some 2 } = .ok (0, file') ∧
    readAll byteFmt file' [([[0], [0]], 1), ([[0, 0], [0, 0]], 2)] = .ok outs ∧ channelOf 1 outs = [3, 4, 7] :=
  C69_roundtrip_partial byteFmt (List.replicate 40 99) (by simp) 2 48000 (by decide) (by decide) exampleWrites
    (by unfold ValidWrites HasCells exampleWrites; decide) (by decide) [([[0], [0]], 1), ([[0, 0], [0, 0]], 2)]
    (by unfold HasCells; decide) (by decide) _ rfl (c := 1) (by decide)

/-- A file with another chunk before the data. -/
example : DataAt (List.replicate 36 0 ++ ascii "fact" ++ le32 4 ++ [1, 2, 3, 4] ++ ascii "data" ++ le32 0) 36 56 := by
  refine DataAt.next (by decide) (by decide) ?_
  rw [numberLE_eq, ← get32]
  have : 36 + 8 + get32 (List.replicate 36 0 ++ ascii "fact" ++ le32 4 ++ [1, 2, 3, 4] ++ ascii "data" ++ le32 0) (36 + 4) = 48 := by
    decide
  rw [this]
  exact DataAt.here (by decide) (by decide)

end Sp
