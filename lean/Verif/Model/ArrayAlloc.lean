import Verif.Model.CompositionsAlloc

/-!
# Model of functions with one new array, when its allocation can fail (arrays.c, arrays-template.c, statistics.c)

`ok` says whether the allocation succeeds. The functions with a status return the status id, the new pointer if there is one, and the memory. The
pointer variable `temp` is not set in its declaration, and its value is used in every call that gets behind `status_require`, at the least as an
argument. Line numbers without a file are for /repo/source/c-precompiled/sph-sp/arrays.c.
-/

namespace Sp
variable {S : Type}

/-- `sp_times_duplicate`. /repo/source/c-precompiled/sph-sp/arrays-template.c:133-141 -/
def timesDuplicateAlloc (ok : Bool) (p count : Nat) (h : ArrayHeap S) : C (Nat × Option Nat × ArrayHeap S) := do
  let (st, temp, h) := arrayMalloc ok (.times (List.replicate count 0)) none h
  if st ≠ 0 then pure (st, none, h)
  else do
    let q ← hasBeenSet temp
    let a ← h.times p
    let old ← h.times q
    let content ← memcpy old 0 a 0 count
    let h ← h.setTimes q content
    pure (0, some q, h)

/-- `sp_times_constant`. 269-277 -/
def timesConstantAlloc (ok : Bool) (count value : Nat) (h : ArrayHeap S) : C (Nat × Option Nat × ArrayHeap S) := do
  let (st, temp, h) := arrayMalloc ok (.times (List.replicate count 0)) none h
  if st ≠ 0 then pure (st, none, h)
  else do
    let q ← hasBeenSet temp
    let b ← h.times q
    let b ← timesSet b count value
    let h ← h.setTimes q b
    pure (0, some q, h)

/-- `sp_times_random_binary`: the status id, the memory and the state of the random source. 233-244 -/
def timesRandomBinaryAlloc {σ : Type} (ok : Bool) (next : σ → Nat × σ) (size fuel pout : Nat) (s : σ) (h : ArrayHeap S) : C (Nat × ArrayHeap S × σ) := do
  let (st, temp, h) := arrayMalloc ok (.times (List.replicate (randomBinarySize size) 0)) none h
  if st ≠ 0 then pure (st, h, s)
  else do
    let q ← hasBeenSet temp
    let b ← h.times q
    let (b, s) ← timesRandom next (randomBinarySize size) b s
    let h ← h.setTimes q b
    let b ← h.times q
    let out ← h.times pout
    let out ← timesBitsToTimes (some b) size fuel out
    let h ← h.setTimes pout out
    let h ← h.free q
    pure (0, h, s)

/-- `sp_times_scale`: the status id and the memory. 282-296 -/
def timesScaleAlloc (ok : Bool) (pin count factor pout : Nat) (h : ArrayHeap S) : C (Nat × ArrayHeap S) := do
  let (st, temp, h) := arrayMalloc ok (.times (List.replicate count 0)) none h
  if st ≠ 0 then pure (st, h)
  else do
    let q ← hasBeenSet temp
    let inp ← h.times pin
    let b ← h.times q
    let b ← arrayCopy (some inp) count b
    let b ← timesMultiply b count factor
    let h ← h.setTimes q b
    let b ← h.times q
    let out ← h.times pout
    let out ← forRange 1 count (fun i out => forRange 0 factor (scaleInner b factor i) out) out
    let h ← h.setTimes pout out
    let h ← h.free q
    pure (0, h)

/-- `sp_times_to_samples_replace`. 471-481 -/
def timesToSamplesReplaceAlloc (ok : Bool) (pin count : Nat) (h : ArrayHeap ℚ) : C (Nat × Option Nat × ArrayHeap ℚ) := do
  let (st, temp, h) := arrayMalloc ok (.samples (List.replicate count 0)) none h
  if st ≠ 0 then pure (st, none, h)
  else do
    let q ← hasBeenSet temp
    let inp ← h.times pin
    let b ← h.samples q
    let b ← timesToSamples inp count b
    let h ← h.setSamples q b
    let h ← h.free pin
    pure (0, some q, h)

/-- `sp_samples_to_times_replace`. 503-513 -/
def samplesToTimesReplaceAlloc (ok : Bool) (pin count : Nat) (h : ArrayHeap ℚ) : C (Nat × Option Nat × ArrayHeap ℚ) := do
  let (st, temp, h) := arrayMalloc ok (.times (List.replicate count 0)) none h
  if st ≠ 0 then pure (st, none, h)
  else do
    let q ← hasBeenSet temp
    let inp ← h.samples pin
    let b ← h.times q
    let b ← samplesToTimes inp count b
    let h ← h.setTimes q b
    let h ← h.free pin
    pure (0, some q, h)

/-- `sp_stat_times_median`, which calls `malloc` itself: the value returned, the one written to `*out` if there is one, and the memory.
/repo/source/c-precompiled/sph-sp/statistics.c:80-91 -/
noncomputable def statTimesMedianAlloc (ok : Bool) (n depth pin size : Nat) (h : ArrayHeap S) : C (Nat × Option ℝ × ArrayHeap S) := do
  let (temp, h) := if ok then (some (h.alloc (.times (List.replicate size 0))).1, (h.alloc (.times (List.replicate size 0))).2) else (none, h)
  match temp with
  | none => pure (1, none, h)
  | some q => do
    let inp ← h.times pin
    let b ← h.times q
    let b ← memcpy b 0 inp 0 size
    let b ← quicksort (fun x y : Nat => decide (x < y)) n depth b 0 (sub32 size 1)
    let h ← h.setTimes q b
    if size &&& 1 ≠ 0 then do
      let x ← rd b (sub32 (size / 2) 1)
      pure (0, some (x : ℝ), h)
    else do
      let x ← rd b (size / 2)
      let y ← rd b (sub32 (size / 2) 1)
      pure (0, some (((u32 (x + y) : Nat) : ℝ) / 2), h)

end Sp
