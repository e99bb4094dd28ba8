import Verif.Model.EventAlloc
import Verif.Model.PathN

/-!
# Model of the macros that make paths and envelopes for events (sequencer.h)

`sp_event_path_samples_srq`, `sp_event_path_times_srq`, `sp_event_envelope_zero_srq` and the like calculate a path in new
memory, store the address in a variable and register it with the event. The variables of the function that uses the macros
are a list, as in `Verif.Model.EventAlloc`. The memory that is written is returned as a list of blocks, address and
content; nothing that is modelled here writes to a block later. Simplified: allocating the memory for the path succeeds
(failures are modelled without the contents at the end of the file), and the address is stored in the variable after the path
has been calculated instead of before.
-/

namespace Sp

/-- What a path is an array of. -/
inductive PathData where
  | samples (values : Buf ℚ)
  | times (values : Buf Nat)
  deriving DecidableEq

/-- The memory of `sp_path_samples`: the result is allocated with `sp_samples_new`.
/repo/source/c-precompiled/sph-sp/path.c:27-28 -/
def pathSamplesMemory (m : Live) : C (Nat × Live) := .ok m.malloc

/-- The memory of `sp_path_times`: samples in `temp`, a second array for the times, and then `temp` is freed.
/repo/source/c-precompiled/sph-sp/path.c:34-41, arrays.c:503-513 -/
def pathTimesMemory (m : Live) : C (Nat × Live) := do
  let (temp, m) ← pathSamplesMemory m
  let (out, m) := m.malloc
  let m ← m.free (some temp)
  return (out, m)

/-- The memory of a path function. -/
def pathMemory : PathData → Live → C (Nat × Live)
  | .samples _, m => pathSamplesMemory m
  | .times _, m => pathTimesMemory m

/-- One use of a macro: the number of the variable, what the path function returns, and whether enlarging the register
succeeds if that is necessary. The path function returns its status, `none` is indeterminate, and the path. -/
structure EventPath where
  var : Nat
  path : C (Option Nat × PathData)
  register : Bool

/-- `sp_event_path_samples_srq` and the others. Returns the status, the block, the variables, the event and which memory is
allocated. /repo/source/c-precompiled/sph-sp/sequencer.h:52-135 -/
def eventPath (x : EventPath) (vars : Buf (Option Nat)) (e : MemEvent) (m : Live) :
    C (Nat × (Nat × PathData) × Buf (Option Nat) × MemEvent × Live) := do
  let (status, content) ← x.path
  let (a, m) ← pathMemory content m
  let vars ← wr vars x.var (some a)
  let st ← initialized status
  if st ≠ 0 then return (st, (a, content), vars, e, m)
  else
    let v ← rd vars x.var
    let address ← initialized v
    let (st, e) ← memoryAdd x.register ⟨address, 0⟩ e
    return (st, (a, content), vars, e, m)

/-- A function that uses macros one after the other. Each leaves the function on failure.
/repo/source/c-precompiled/sph-sp/sequencer.h:52-54 -/
def eventPaths : List EventPath → Buf (Option Nat) → MemEvent → Live →
    C (Nat × List (Nat × PathData) × Buf (Option Nat) × MemEvent × Live)
  | [], vars, e, m => .ok (0, [], vars, e, m)
  | x :: rest, vars, e, m => do
    let (st, block, vars, e, m) ← eventPath x vars e m
    if st ≠ 0 then return (st, [block], vars, e, m)
    else
      let (st, blocks, vars, e, m) ← eventPaths rest vars e m
      return (st, block :: blocks, vars, e, m)

/-- A path function that makes samples and returns a status. -/
def samplesResult (f : C (Option Nat × Buf ℚ)) : C (Option Nat × PathData) := do
  let (status, out) ← f
  return (status, .samples out)

/-- A path function that makes times and returns a status. -/
def timesResult (f : C (Option Nat × Buf Nat)) : C (Option Nat × PathData) := do
  let (status, out) ← f
  return (status, .times out)

/-- The call of `sp_path_samples` in `sp_event_path_samples_srq`. sequencer.h:52-54; the status is zero, path.c:30-31 -/
def callPathSamples (fuel length pointCount : Nat) (x y : Buf ℚ) (c : Option (Buf ℚ)) : C (Option Nat × PathData) :=
  samplesResult do
    let out ← pathSamples fuel length pointCount x y c
    return (some 0, out)

/-- The call of `sp_path_times` in `sp_event_path_times_srq`. sequencer.h:73-75, path.c:34-41 -/
def callPathTimes (fuel length pointCount : Nat) (x y : Buf ℚ) (c : Option (Buf ℚ)) : C (Option Nat × PathData) :=
  timesResult do
    let out ← pathTimes fuel length pointCount x y c
    return (some 0, out)

/-- The call of `sp_envelope_zero` in `sp_event_envelope_zero_srq`. sequencer.h:94-96, path.c:135-145 -/
def callEnvelopeZero (fuel length pointCount : Nat) (x y : Buf ℚ) (c : Option (Buf ℚ)) : C (Option Nat × PathData) :=
  samplesResult do
    let out ← envelopeZero fuel length pointCount x y c
    return (some 0, out)

/-- The call of `sp_envelope_scaled` in `sp_event_envelope_scaled_srq`. sequencer.h:115-117, path.c:169-179 -/
def callEnvelopeScaled (fuel length pointCount : Nat) (scalar : ℚ) (x y : Buf ℚ) (c : Option (Buf ℚ)) :
    C (Option Nat × PathData) :=
  timesResult do
    let out ← envelopeScaled fuel length pointCount scalar x y c
    return (some 0, out)

/-- The writes of `n` elements to an array whose address is in a variable. -/
def writeThrough (v : Option Nat) (n : Nat) (m : Live) : C Unit :=
  if n = 0 then .ok ()
  else do
    let a ← initialized v
    if m.live a then .ok () else .error .useAfterFree

/-- The memory of `sp_path_samples` with the result in variable `i`, where `ok` is whether the allocation succeeds.
/repo/source/c-precompiled/sph-sp/path.c:27-31 -/
def pathSamplesAlloc (ok : Bool) (length i : Nat) (vars : Buf (Option Nat)) (m : Live) : C (Nat × Buf (Option Nat) × Live) := do
  let (st, vars, m) ← helperMalloc ok i vars m
  if st ≠ 0 then return (st, vars, m)
  else
    let v ← rd vars i
    writeThrough v length m
    return (st, vars, m)

/-- The memory of `sp_path_times` with the result in variable `i`, where `ok` and `ok2` are whether allocating the samples and the times succeeds. `temp` is
a variable of its own in both functions. /repo/source/c-precompiled/sph-sp/path.c:34-41, arrays.c:503-513 -/
def pathTimesAlloc (ok ok2 : Bool) (length i : Nat) (vars : Buf (Option Nat)) (m : Live) : C (Nat × Buf (Option Nat) × Live) := do
  let (st, local1, m) ← pathSamplesAlloc ok length 0 [none] m
  if st ≠ 0 then return (st, vars, m)
  else
    let (st, local2, m) ← helperMalloc ok2 0 [none] m
    if st ≠ 0 then return (st, vars, m)
    else
      let times ← rd local2 0
      writeThrough times length m
      let v ← rd local1 0
      let temp ← initialized v
      let m ← m.free (some temp)
      let vars ← wr vars i times
      return (st, vars, m)

/-- `sp_event_path_samples_srq`, where `ok` and `register` are whether allocating and enlarging the register succeed. sequencer.h:52-54 -/
def eventPathSamplesAlloc (ok register : Bool) (length i : Nat) (vars : Buf (Option Nat)) (e : MemEvent) (m : Live) :
    C (Nat × Buf (Option Nat) × MemEvent × Live) := do
  let (st, vars, m) ← pathSamplesAlloc ok length i vars m
  if st ≠ 0 then return (st, vars, e, m)
  else
    let v ← rd vars i
    let a ← initialized v
    let (st, e) ← memoryAdd register ⟨a, 0⟩ e
    return (st, vars, e, m)

/-- `sp_event_path_times_srq`. sequencer.h:73-75 -/
def eventPathTimesAlloc (ok ok2 register : Bool) (length i : Nat) (vars : Buf (Option Nat)) (e : MemEvent) (m : Live) :
    C (Nat × Buf (Option Nat) × MemEvent × Live) := do
  let (st, vars, m) ← pathTimesAlloc ok ok2 length i vars m
  if st ≠ 0 then return (st, vars, e, m)
  else
    let v ← rd vars i
    let a ← initialized v
    let (st, e) ← memoryAdd register ⟨a, 0⟩ e
    return (st, vars, e, m)

end Sp
