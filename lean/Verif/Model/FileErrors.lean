import Verif.Model.Render

/-!
# Model of writing files when the system refuses writes (file.c, main.c)

As `Verif.Model.File` and `Verif.Model.Render`, but each call of `fwrite` can write less than asked for, as when the disk is full, and it is recorded if
the file is open. `room k`: how many bytes call number `k` of `fwrite` can write.
Simplified: the call that writes notices, that is, there is no buffering in the C library; `fseek` and `fclose` succeed; memory allocation succeeds.
-/

namespace Sp
variable {D S F : Type}

/-- The number of calls of `fwrite` so far and if the file is open. -/
structure Io where
  calls : Nat
  isOpen : Bool

/-- `fwrite(bytes, size, 1, f)` with `size = bytes.length`: the number of complete items written and the stream, which has the part that could be
written. Using a closed file is undefined. -/
def ioWrite (room : Nat → Nat) (bytes : List Nat) (f : Stream) (io : Io) : C (Nat × Stream × Io) :=
  if ¬ io.isOpen then .error .useAfterFree
  else if bytes.length = 0 then .ok (0, f, { io with calls := io.calls + 1 })
  else if bytes.length ≤ room io.calls then .ok (1, f.put bytes, { io with calls := io.calls + 1 })
  else if room io.calls = 0 then .ok (0, f, { io with calls := io.calls + 1 })
  else .ok (0, f.put (bytes.take (room io.calls)), { io with calls := io.calls + 1 })

/-- `fseek(f, n, SEEK_SET)`. -/
def ioSeek (n : Nat) (f : Stream) (io : Io) : C Stream := if io.isOpen then .ok (f.seekSet n) else .error .useAfterFree

/-- `fclose`. -/
def ioClose (io : Io) : C Io := if io.isOpen then .ok { io with isOpen := false } else .error .doubleFree

/-- `sp_file_open_write` with an `fopen` that succeeds. /repo/source/c-precompiled/sph-sp/file.c:8-35 -/
def ioOpenWrite (room : Nat → Nat) (header : Buf Nat) (channelCount sampleRate : Nat) : C (Nat × SpFile × Io) := do
  let h ← wavHeader header channelCount sampleRate
  let (written, f, io) ← ioWrite room h { content := [], pos := 0, eof := false } ⟨0, true⟩
  if written = 0 then
    let io ← ioClose io
    pure (idFileWrite, { file := some f, dataSize := 0, channelCount := some channelCount }, io)
  else
    pure (0, { file := some (f.seekCur 4), dataSize := 0, channelCount := some channelCount }, io)

/-- `sp_file_close_write`, returns the content of the file. The results of `fwrite` are not used. file.c:36-44 -/
def ioCloseWrite (room : Nat → Nat) (file : SpFile) (io : Io) : C (List Nat × Io) := do
  let f ← derefFile file.file
  let chunkSize := u32 (36 + file.dataSize)
  let f ← ioSeek 4 f io
  let (_, f, io) ← ioWrite room (le32 chunkSize) f io
  let f ← ioSeek 40 f io
  let (_, f, io) ← ioWrite room (le32 file.dataSize) f io
  let io ← ioClose io
  pure (f.content, io)

/-- `sp_file_write`. Returns the status id. /repo/source/c-precompiled/sph-sp/file.c:45-66 -/
def ioFileWrite (room : Nat → Nat) (fmt : FloatFmt S F) (file : SpFile) (samples : Buf (Buf S)) (sampleCount : Nat) (io : Io) :
    C (Nat × SpFile × Io) := do
  let channelCount ← getChannels file.channelCount
  let interleavedSize := u32 (u32 (channelCount * sampleCount) * 4)
  let d ← forRange 0 sampleCount (fileWriteFrame fmt samples channelCount) (List.replicate (interleavedSize / 4) none)
  let floats ← d.mapM isSetFloat
  let f ← derefFile file.file
  let (written, f, io) ← ioWrite room (floats.flatMap fmt.toBytes) f io
  if written = 0 then
    pure (idFileWrite, { file with file := some f }, io)
  else
    pure (0, { file with file := some f, dataSize := u32 (file.dataSize + interleavedSize) }, io)

/-- The loop of `sp_render_range_file`, see `renderLoop`. /repo/source/c-precompiled/sph-sp/main.c:347-354 -/
def ioRenderLoop [Zero S] (room : Nat → Nat) (cb : Callbacks D (Buf (Buf S))) (fmt : FloatFmt S F) (fuel : Nat)
    (c : RenderConfig) (blockEnd : Nat) : Nat → Nat → SeqState D (Buf (Buf S)) → SpFile → Io →
    C (Nat × Nat × SeqState D (Buf (Buf S)) × SpFile × Io)
  | 0, _, _, _, _ => .error .nonTermination
  | n + 1, i, s, file, io =>
    if i < blockEnd then do
      let (st, s) ← seq cb fuel i (u32 (i + c.blockSize)) 0 s
      if st ≠ 0 then return (st, i, s, file, io)
      else
        let (st, file, io) ← ioFileWrite room fmt file s.world c.blockSize io
        if st ≠ 0 then return (st, i, s, file, io)
        else
          let w ← zeroSamples c.channelCount c.blockSize s.world
          ioRenderLoop room cb fmt fuel c blockEnd n (u32 (i + c.blockSize)) { s with world := w } file io
    else return (0, i, s, file, io)

/-- The part of `sp_render_range_file` after the file has been opened, up to the label `exit`, see `renderRange`.
/repo/source/c-precompiled/sph-sp/main.c:345-359 -/
def ioRenderRange [Zero S] (room : Nat → Nat) (cb : Callbacks D (Buf (Buf S))) (fmt : FloatFmt S F) (fuel start stop : Nat)
    (c : RenderConfig) (s : SeqState D (Buf (Buf S))) (file : SpFile) (io : Io) :
    C (Nat × SeqState D (Buf (Buf S)) × SpFile × Io) :=
  if c.blockSize = 0 then .error .divByZero
  else do
    let remainder := sub32 stop start % c.blockSize
    let blockEnd := u32 (c.blockSize * (sub32 stop start / c.blockSize))
    let (st, i, s, file, io) ← ioRenderLoop room cb fmt fuel c blockEnd (blockEnd + 1) 0 s file io
    if st ≠ 0 then return (st, s, file, io)
    else
      let (st, s, file, io) ← (if remainder ≠ 0 then do
          let (st, s) ← seq cb fuel i (u32 (i + remainder)) 0 s
          if st ≠ 0 then return (st, s, file, io)
          else
            let (st, file, io) ← ioFileWrite room fmt file s.world remainder io
            return (st, s, file, io)
        else return (0, s, file, io) : C (Nat × SeqState D (Buf (Buf S)) × SpFile × Io))
      if st ≠ 0 then return (st, s, file, io)
      else
        let s ← seqFreeLoop cb fuel s s.head
        return (0, { s with head := none }, file, io)

/-- `sp_render_range_file`. `header`: the unset bytes of the file header array, `new`: the address of the new list element. Returns the status, the
content of the file, the state of the sequencer, and what is known of the file. /repo/source/c-precompiled/sph-sp/main.c:334-364 -/
def ioRenderRangeFile [Zero S] (room : Nat → Nat) (cb : Callbacks D (Buf (Buf S))) (fmt : FloatFmt S F) (fuel : Nat)
    (header : Buf Nat) (new : Addr) (e : Event D) (start stop : Nat)
    (c : RenderConfig) : C (Nat × List Nat × SeqState D (Buf (Buf S)) × Io) := do
  let (heap, head) ← eventListAdd Event.start fuel new e (fun _ => none) none
  let s : SeqState D (Buf (Buf S)) := ⟨heap, head, newSamples c.channelCount c.blockSize, []⟩
  let (st, file, io) ← ioOpenWrite room header c.channelCount c.rate
  let (st, s, file, io) ← (if st ≠ 0 then return (st, s, file, io)
    else ioRenderRange room cb fmt fuel start stop c s file io : C (Nat × SeqState D (Buf (Buf S)) × SpFile × Io))
  let (content, io) ← ioCloseWrite room file io
  return (st, content, s, io)

end Sp
