import Verif.Model.FileErrors

/-!
# Model of reading files when the system refuses reads or seeks (file.c)

As `Verif.Model.File`, but bytes from `bad` on can not be read, and `fseek` can fail depending on the position; for pipes and terminals it
always fails. It is recorded if the file is open. Simplified: the file exists, memory allocation succeeds, and after a partial `fread` the position is
after the bytes that were read.
-/

namespace Sp
variable {S F : Type}

/-- A device: from where on bytes are unreadable, and where `fseek` works. -/
structure Device where
  bad : Nat
  canSeek : Nat → Bool

/-- `fread` of `n` bytes, or less at the end of the file or where the device fails. The end of file indicator is set only if the end is the cause. -/
def devGet (dev : Device) (f : Stream) (n : Nat) : List Nat × Stream :=
  let bytes := ((f.content.take dev.bad).drop f.pos).take n
  (bytes, { f with
    pos := f.pos + bytes.length,
    eof := f.eof || (decide (bytes.length < n) && (decide (f.content.length ≤ dev.bad) || decide (f.content.length ≤ f.pos))) })

/-- `fseek(f, n, SEEK_CUR)`. A failing call changes nothing. -/
def devSeek (dev : Device) (f : Stream) (n : Nat) : Stream := if dev.canSeek f.pos then f.seekCur n else f

/-- The loop over chunks, the result of `fseek` is not used. Returns the status id. /repo/source/c-precompiled/sph-sp/file.c:81-89 -/
def devChunkLoop (dev : Device) : Nat → Nat → Nat → Stream → C (Nat × Stream)
  | 0, _, _, _ => .error .nonTermination
  | fuel + 1, subchunkId, subchunkSize, f =>
    if wavStringData = subchunkId then pure (0, f)
    else
      let r := devGet dev (devSeek dev f subchunkSize) 4
      if r.1.length < 4 then pure (idFileRead, r.2)
      else
        let r2 := devGet dev r.2 4
        if r2.1.length < 4 then pure (idFileRead, r2.2)
        else devChunkLoop dev fuel (ofLe r.1) (ofLe r2.1) r2.2

/-- `sp_file_open_read` of a file that exists. Returns the status id, the file and if it is open: it is not closed in any case.
/repo/source/c-precompiled/sph-sp/file.c:67-92 -/
def devOpenRead (dev : Device) (content : List Nat) (file : SpFile) : C (Nat × SpFile × Io) := do
  let io : Io := ⟨0, true⟩
  let r := devGet dev { content := content, pos := 0, eof := false } 44
  if ¬ (r.1.length = 44 ∧ get32 r.1 0 = wavStringRiff ∧ get32 r.1 8 = wavStringWav ∧ get32 r.1 12 = wavStringFmt) then
    pure (idFileRead, { file with file := some r.2 }, io)
  else if ¬ (3 = get16 r.1 20 ∧ 32 = get16 r.1 34) then
    pure (idFileNotImplemented, { file with file := some r.2 }, io)
  else
    let q ← devChunkLoop dev (r.2.content.length + 1) (get32 r.1 36) (get32 r.1 40) r.2
    pure (q.1, { file with file := some q.2 }, io)

/-- `sp_file_read`, see `fileRead`. The value of the variable `status` is lost: the function returns nothing. It is given here as the second
part of the result, for comparison. /repo/source/c-precompiled/sph-sp/file.c:93-118 -/
def devFileRead (dev : Device) (fmt : FloatFmt S F) (file : SpFile) (sampleCount : Nat) (samples : Buf (Buf S)) :
    C (Option Nat × Nat × SpFile × Buf (Buf S)) := do
  let channelCount ← getChannels file.channelCount
  let f ← derefFile file.file
  let interleavedCount := u32 (channelCount * sampleCount)
  let allocated := u32 (4 * interleavedCount)
  let r := devGet dev f (4 * interleavedCount)
  if allocated < r.1.length then .error .outOfBounds
  else
    let read := r.1.length / 4
    if read ≠ interleavedCount ∧ r.2.eof = true ∧ read = 0 then pure (none, idFileEof, { file with file := some r.2 }, samples)
    else if read ≠ interleavedCount ∧ ¬ r.2.eof = true then pure (none, idFileRead, { file with file := some r.2 }, samples)
    else if channelCount = 0 then .error .divByZero
    else
      let samples ← forRange 0 (read / channelCount)
        (fileReadFrame fmt (floatsOf fmt read r.1) channelCount) samples
      pure (none, 0, { file with file := some r.2 }, samples)

/-- `sp_file_close_read`. /repo/source/c-precompiled/sph-sp/file.c:119 -/
def devCloseRead (io : Io) : C Io := ioClose io

end Sp
