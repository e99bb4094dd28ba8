import Verif.C

/-!
# Model of interleaving (main.c) and of wav file writing and reading (file.c)

A stream is the content of a file as a list of bytes, a position and the end of file indicator.
Simplified: input and output errors of the operating system other than a failing `fopen` do not occur,
memory allocation succeeds, and the machine is little-endian.
Samples of type `S` are converted to 32 bit floats of type `F` by `narrow` and back by `widen`; the bytes
of a float in memory are `toBytes`.
-/

namespace Sp
variable {S F σ : Type}

/-! ### interleaving -/

/-- `a[c][i]`: rows are separate arrays. -/
def rd2 (a : Buf (Buf S)) (c i : Nat) : C S := do
  let row ← rd a c
  rd row i

/-- `a[c][i] = v`. -/
def wr2 (a : Buf (Buf S)) (c i : Nat) (v : S) : C (Buf (Buf S)) := do
  let row ← rd a c
  let row ← wr row i v
  wr a c row

/-- The inner loop of `define_sp_interleave`, `body channel b_size`. main.c:49-53 -/
def interleaveChannels (body : Nat → Nat → σ → C σ) : Nat → Nat → σ → C (Nat × σ)
  | 0, b, s => .ok (b, s)
  | c + 1, b, s => do
    let s ← body c (sub32 b 1) s
    interleaveChannels body c (sub32 b 1) s

/-- The outer loop of `define_sp_interleave`, `body a_size channel b_size`. main.c:46-54 -/
def interleaveLoop (body : Nat → Nat → Nat → σ → C σ) (channelCount : Nat) : Nat → Nat → σ → C σ
  | 0, _, s => .ok s
  | n + 1, b, s => do
    let r ← interleaveChannels (body n) channelCount b s
    interleaveLoop body channelCount n r.1 r.2

/-- `sp_interleave`. /repo/source/c-precompiled/sph-sp/main.c:41-55,60 -/
def spInterleave (a : Buf (Buf S)) (b : Buf S) (aSize channelCount : Nat) : C (Buf S) :=
  interleaveLoop (fun i c k b => do let v ← rd2 a c i; wr b k v) channelCount aSize (u32 (aSize * channelCount)) b

/-- `sp_deinterleave`. /repo/source/c-precompiled/sph-sp/main.c:41-55,61 -/
def spDeinterleave (a : Buf (Buf S)) (b : Buf S) (aSize channelCount : Nat) : C (Buf (Buf S)) :=
  interleaveLoop (fun i c k a => do let v ← rd b k; wr2 a c i v) channelCount aSize (u32 (aSize * channelCount)) a

/-! ### streams -/

/-- `FILE`: content, position, end of file indicator. -/
structure Stream where
  content : List Nat
  pos : Nat
  eof : Bool

/-- Writing bytes at the position. A gap between the end and the position is filled with zeros. -/
def Stream.put (f : Stream) (bytes : List Nat) : Stream :=
  { f with
    content := f.content.take f.pos ++ List.replicate (f.pos - f.content.length) 0 ++ bytes ++
      f.content.drop (f.pos + bytes.length),
    pos := f.pos + bytes.length }

/-- `fwrite(bytes, size, 1, f)` with `size = bytes.length`: the number of items written, which is zero for
size zero. -/
def fwriteOne (bytes : List Nat) (f : Stream) : Nat × Stream :=
  if bytes.length = 0 then (0, f) else (1, f.put bytes)

/-- Reading `n` bytes, or less at the end of the file. -/
def Stream.get (f : Stream) (n : Nat) : List Nat × Stream :=
  let bytes := (f.content.drop f.pos).take n
  (bytes, { f with pos := f.pos + bytes.length, eof := f.eof || decide (bytes.length < n) })

/-- `fseek(f, n, SEEK_CUR)` -/
def Stream.seekCur (f : Stream) (n : Nat) : Stream := { f with pos := f.pos + n, eof := false }

/-- `fseek(f, n, SEEK_SET)` -/
def Stream.seekSet (f : Stream) (n : Nat) : Stream := { f with pos := n, eof := false }

/-! ### numbers in memory -/

/-- The bytes of a `uint32_t` in memory. -/
def le32 (n : Nat) : List Nat := [n % 256, n / 256 % 256, n / 65536 % 256, n / 16777216 % 256]

/-- The bytes of a `uint16_t` in memory. -/
def le16 (n : Nat) : List Nat := [n % 256, n / 256 % 256]

/-- The number with the given bytes in memory. -/
def ofLe : List Nat → Nat
  | [] => 0
  | b :: l => b + 256 * ofLe l

/-- `htonl` -/
def htonl (n : Nat) : Nat := ofLe (le32 n).reverse

/-- file.c:4 -/
def wavStringRiff : Nat := htonl 0x52494646
/-- file.c:5 -/
def wavStringFmt : Nat := htonl 0x666d7420
/-- file.c:6 -/
def wavStringWav : Nat := htonl 0x57415645
/-- file.c:7 -/
def wavStringData : Nat := htonl 0x64617461

/-- `*((uint32_t*)(off + b)) = v` or the same for `uint16_t`: stores bytes. -/
def putBytes (b : Buf Nat) (off : Nat) (bytes : List Nat) : C (Buf Nat) := memcpy b off bytes 0 bytes.length

/-- `*((uint32_t*)(off + b))` -/
def get32 (b : Buf Nat) (off : Nat) : Nat := ofLe ((b.drop off).take 4)

/-- `*((uint16_t*)(off + b))` -/
def get16 (b : Buf Nat) (off : Nat) : Nat := ofLe ((b.drop off).take 2)

/-! ### files -/

/-- `sp_s_id_file_write` etc. /repo/source/c-precompiled/sph-sp/main.h:14-17 -/
def idFileWrite : Nat := 2
def idFileRead : Nat := 3
def idFileNotImplemented : Nat := 4
def idFileEof : Nat := 5

/-- `sp_file_t`. `file = none`: null pointer. `channelCount = none`: not set.
/repo/source/c-precompiled/sph-sp/main.h:116-120 -/
structure SpFile where
  file : Option Stream
  dataSize : Nat
  channelCount : Option Nat

/-- The conversions between samples, floats and bytes. -/
structure FloatFmt (S F : Type) where
  narrow : S → F
  widen : F → S
  toBytes : F → List Nat
  ofBytes : List Nat → F
  length_toBytes : ∀ x, (toBytes x).length = 4
  ofBytes_toBytes : ∀ x, ofBytes (toBytes x) = x

/-- A `FILE*` that is used. -/
def derefFile : Option Stream → C Stream
  | some f => .ok f
  | none => .error .nullDeref

/-- The `channel_count` field when it is used. -/
def getChannels : Option Nat → C Nat
  | some c => .ok c
  | none => .error .uninitialized

/-- The header of `sp_file_open_write`; `header` is the uninitialised array. file.c:10-21 -/
def wavHeader (header : Buf Nat) (channelCount sampleRate : Nat) : C (Buf Nat) := do
  let h ← putBytes header 0 (le32 wavStringRiff)
  let h ← putBytes h 8 (le32 wavStringWav)
  let h ← putBytes h 12 (le32 wavStringFmt)
  let h ← putBytes h 16 (le32 16)
  let h ← putBytes h 20 (le16 3)
  let h ← putBytes h 22 (le16 channelCount)
  let h ← putBytes h 24 (le32 sampleRate)
  let h ← putBytes h 28 (le32 (u32 (u32 (sampleRate * channelCount) * 4)))
  let h ← putBytes h 32 (le16 (channelCount * 4))
  let h ← putBytes h 34 (le16 32)
  putBytes h 36 (le32 wavStringData)

/-- `sp_file_open_write`. `fopenErrno`: `none` if the file can be opened, otherwise the error number. Returns
the status id. /repo/source/c-precompiled/sph-sp/file.c:8-35 -/
def fileOpenWrite (header : Buf Nat) (fopenErrno : Option Nat) (channelCount sampleRate : Nat) : C (Nat × SpFile) := do
  let h ← wavHeader header channelCount sampleRate
  match fopenErrno with
  | some e => pure (e, { file := none, dataSize := 0, channelCount := some channelCount })
  | none =>
    let w := fwriteOne h { content := [], pos := 0, eof := false }
    if w.1 = 0 then
      pure (idFileWrite, { file := some w.2, dataSize := 0, channelCount := some channelCount })
    else
      pure (0, { file := some (w.2.seekCur 4), dataSize := 0, channelCount := some channelCount })

/-- `sp_file_close_write`, returns the content of the file. file.c:36-44 -/
def fileCloseWrite (file : SpFile) : C (List Nat) := do
  let f ← derefFile file.file
  let chunkSize := u32 (36 + file.dataSize)
  let f := (fwriteOne (le32 chunkSize) (f.seekSet 4)).2
  let f := (fwriteOne (le32 file.dataSize) (f.seekSet 40)).2
  pure f.content

/-- file.c:56 -/
def fileWriteStep (fmt : FloatFmt S F) (samples : Buf (Buf S)) (channelCount i j : Nat) (d : Buf (Option F)) :
    C (Buf (Option F)) := do
  let v ← rd2 samples j i
  wr d (u32 (u32 (i * channelCount) + j)) (some (fmt.narrow v))

/-- file.c:55-57 -/
def fileWriteFrame (fmt : FloatFmt S F) (samples : Buf (Buf S)) (channelCount i : Nat) (d : Buf (Option F)) :
    C (Buf (Option F)) :=
  forRange 0 channelCount (fileWriteStep fmt samples channelCount i) d

/-- The value of a float that must have been set. -/
def isSetFloat : Option F → C F
  | some x => .ok x
  | none => .error .uninitialized

/-- `sp_file_write`. Returns the status id.
/repo/source/c-precompiled/sph-sp/file.c:45-66 -/
def fileWrite (fmt : FloatFmt S F) (file : SpFile) (samples : Buf (Buf S)) (sampleCount : Nat) : C (Nat × SpFile) := do
  let channelCount ← getChannels file.channelCount
  let interleavedSize := u32 (u32 (channelCount * sampleCount) * 4)
  let d ← forRange 0 sampleCount (fileWriteFrame fmt samples channelCount) (List.replicate (interleavedSize / 4) none)
  let floats ← d.mapM isSetFloat
  let f ← derefFile file.file
  let w := fwriteOne (floats.flatMap fmt.toBytes) f
  if w.1 = 0 then
    pure (idFileWrite, { file with file := some w.2 })
  else
    pure (0, { file with file := some w.2, dataSize := u32 (file.dataSize + interleavedSize) })

/-- The loop over chunks. Returns the status id. file.c:81-89 -/
def chunkLoop : Nat → Nat → Nat → Stream → C (Nat × Stream)
  | 0, _, _, _ => .error .nonTermination
  | fuel + 1, subchunkId, subchunkSize, f =>
    if wavStringData = subchunkId then pure (0, f)
    else
      let r := (f.seekCur subchunkSize).get 4
      if r.1.length < 4 then pure (idFileRead, r.2)
      else
        let r2 := r.2.get 4
        if r2.1.length < 4 then pure (idFileRead, r2.2)
        else chunkLoop fuel (ofLe r.1) (ofLe r2.1) r2.2

/-- `sp_file_open_read`. `content`: the content of the file, `none` if it can not be opened. The fields of
`file` other than the stream are not set. Returns the status id.
/repo/source/c-precompiled/sph-sp/file.c:67-92 -/
def fileOpenRead (content : Option (List Nat)) (file : SpFile) : C (Nat × SpFile) := do
  let f ← derefFile (content.map (fun c => { content := c, pos := 0, eof := false }))
  let r := f.get 44
  if ¬ (r.1.length = 44 ∧ get32 r.1 0 = wavStringRiff ∧ get32 r.1 8 = wavStringWav ∧ get32 r.1 12 = wavStringFmt) then
    pure (idFileRead, { file with file := some r.2 })
  else if ¬ (3 = get16 r.1 20 ∧ 32 = get16 r.1 34) then
    pure (idFileNotImplemented, { file with file := some r.2 })
  else
    let q ← chunkLoop (r.2.content.length + 1) (get32 r.1 36) (get32 r.1 40) r.2
    pure (q.1, { file with file := some q.2 })

/-- The floats in a list of bytes. -/
def floatsOf (fmt : FloatFmt S F) (n : Nat) (bytes : List Nat) : Buf F :=
  (List.range n).map (fun k => fmt.ofBytes ((bytes.drop (4 * k)).take 4))

/-- file.c:113 -/
def fileReadStep (fmt : FloatFmt S F) (d : Buf F) (channelCount i j : Nat) (samples : Buf (Buf S)) : C (Buf (Buf S)) := do
  let v ← rd d (u32 (u32 (i * channelCount) + j))
  wr2 samples j i (fmt.widen v)

/-- file.c:112-114 -/
def fileReadFrame (fmt : FloatFmt S F) (d : Buf F) (channelCount i : Nat) (samples : Buf (Buf S)) : C (Buf (Buf S)) :=
  forRange 0 channelCount (fileReadStep fmt d channelCount i) samples

/-- `sp_file_read`. The function has no return statement: the returned status is `none`, indeterminate. Returns
also the stream and the sample arrays. Reading more bytes than were allocated (when `4 * interleaved_count`
wraps) is an out of bounds access. /repo/source/c-precompiled/sph-sp/file.c:93-118 -/
def fileRead (fmt : FloatFmt S F) (file : SpFile) (sampleCount : Nat) (samples : Buf (Buf S)) :
    C (Option Nat × SpFile × Buf (Buf S)) := do
  let channelCount ← getChannels file.channelCount
  let f ← derefFile file.file
  let interleavedCount := u32 (channelCount * sampleCount)
  let allocated := u32 (4 * interleavedCount)
  let r := f.get (4 * interleavedCount)
  if allocated < r.1.length then .error .outOfBounds
  else
    let read := r.1.length / 4
    if read ≠ interleavedCount ∧ read = 0 then pure (none, { file with file := some r.2 }, samples)
    else if channelCount = 0 then .error .divByZero
    else
      let samples ← forRange 0 (read / channelCount)
        (fileReadFrame fmt (floatsOf fmt read r.1) channelCount) samples
      pure (none, { file with file := some r.2 }, samples)

end Sp
