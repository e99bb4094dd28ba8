import Verif.Model.File
import Verif.Model.Noise
import Verif.Model.Block

/-!
# Model of reading and writing files with allocations that can fail (file.c)

The pointer `file_data` is `none` when null, otherwise an address and the memory at this address. `ok`: whether the
allocation succeeds.
-/

namespace Sp
variable {S F : Type}

/-- `sph_helper_malloc(size, &file_data)` with `file_data = 0` before. `data`: the new memory.
/repo/source/c/foreign/sph-sc-lib/sph-sp/helper.c:22-33, /repo/source/c-precompiled/sph-sp/file.c:50, 53, 98, 100 -/
def fileDataMalloc (ok : Bool) (data : Buf (Option F)) (m : Live) : Nat × Option (Nat × Buf (Option F)) × Live :=
  if ok then (0, some (m.malloc.1, data), m.malloc.2) else (sphHelperStatusIdMemory, none, m)

/-- `file_data[k] = x` -/
def fileDataSet (d : Option (Nat × Buf (Option F))) (k : Nat) (x : F) : C (Option (Nat × Buf (Option F))) :=
  match d with
  | none => .error .nullDeref
  | some (a, b) => do
    let b ← wr b k (some x)
    return some (a, b)

/-- file.c:54-58 -/
def fileWriteFill (fmt : FloatFmt S F) (samples : Buf (Buf S)) (channelCount sampleCount : Nat) (d : Option (Nat × Buf (Option F))) :
    C (Option (Nat × Buf (Option F))) :=
  forRange 0 sampleCount (fun i d =>
    forRange 0 channelCount (fun j d => do
      let v ← rd2 samples j i
      fileDataSet d (u32 (u32 (i * channelCount) + j)) (fmt.narrow v)) d) d

/-- The bytes that are passed to `fwrite`. A null pointer is only allowed for size zero. file.c:59 -/
def fileDataBytes (fmt : FloatFmt S F) (d : Option (Nat × Buf (Option F))) (size : Nat) : C (List Nat) :=
  match d with
  | none => if size = 0 then .ok [] else .error .nullDeref
  | some (_, b) => do
    let floats ← b.mapM isSetFloat
    return floats.flatMap fmt.toBytes

/-- `sp_file_write`. Returns the status id, the file and memory.
/repo/source/c-precompiled/sph-sp/file.c:45-66 -/
def fileWriteAlloc (fmt : FloatFmt S F) (ok : Bool) (file : SpFile) (samples : Buf (Buf S)) (sampleCount : Nat) (m : Live) :
    C (Nat × SpFile × Live) := do
  let channelCount ← getChannels file.channelCount
  let interleavedSize := u32 (u32 (channelCount * sampleCount) * 4)
  let (st, d, m) := fileDataMalloc ok (List.replicate (interleavedSize / 4) none) m
  if st ≠ 0 then do
    let m ← m.free (d.map Prod.fst)
    return (st, file, m)
  else do
    let d ← fileWriteFill fmt samples channelCount sampleCount d
    let bytes ← fileDataBytes fmt d interleavedSize
    let f ← derefFile file.file
    let w := fwriteOne bytes f
    let m ← m.free (d.map Prod.fst)
    if w.1 = 0 then
      return (idFileWrite, { file with file := some w.2 }, m)
    else
      return (0, { file with file := some w.2, dataSize := u32 (file.dataSize + interleavedSize) }, m)

/-- `sp_file_read`, as `fileRead`. A null pointer passed to `fread` for a number of elements above zero is undefined.
/repo/source/c-precompiled/sph-sp/file.c:93-118 -/
def fileReadAlloc (fmt : FloatFmt S F) (ok : Bool) (file : SpFile) (sampleCount : Nat) (samples : Buf (Buf S)) (m : Live) :
    C (Option Nat × SpFile × Buf (Buf S) × Live) := do
  let channelCount ← getChannels file.channelCount
  let f ← derefFile file.file
  let interleavedCount := u32 (channelCount * sampleCount)
  let allocated := u32 (4 * interleavedCount)
  let (st, d, m) := fileDataMalloc (F := F) ok (List.replicate (allocated / 4) none) m
  if st ≠ 0 then do
    let m ← m.free (d.map Prod.fst)
    return (none, file, samples, m)
  else if d.isNone ∧ interleavedCount ≠ 0 then .error .nullDeref
  else do
    let r := f.get (4 * interleavedCount)
    if allocated < r.1.length then .error .outOfBounds
    else
      let read := r.1.length / 4
      if read ≠ interleavedCount ∧ read = 0 then do
        let m ← m.free (d.map Prod.fst)
        return (none, { file with file := some r.2 }, samples, m)
      else if channelCount = 0 then .error .divByZero
      else do
        let samples ← forRange 0 (read / channelCount) (fileReadFrame fmt (floatsOf fmt read r.1) channelCount) samples
        let m ← m.free (d.map Prod.fst)
        return (none, { file with file := some r.2 }, samples, m)

/-- Blocks that are written one after the other with `sp_file_write`, whose allocation succeeds or fails. -/
def fileWriteEach (fmt : FloatFmt S F) : List (Bool × Buf (Buf S) × Nat) → SpFile → Live → C (List Nat × SpFile × Live)
  | [], file, m => .ok ([], file, m)
  | (ok, samples, n) :: rest, file, m => do
    let (st, file, m) ← fileWriteAlloc fmt ok file samples n m
    let (sts, file, m) ← fileWriteEach fmt rest file m
    return (st :: sts, file, m)

end Sp
