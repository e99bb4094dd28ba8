import Verif.Model.Combinatorics
import Verif.Model.Extra
import Verif.Model.Statistics

/-!
# Model of functions that allocate and free arrays, with addresses

Arrays are at addresses, reads and writes of an array that is not allocated are faults, as are wrong calls of `free`. Allocations succeed. Line
numbers without a file are for /repo/source/c-precompiled/sph-sp/arrays.c.
-/

namespace Sp

/-- An allocated array, by the type of the elements: `sp_time_t`, `sp_sample_t`, or pointers, null if `none`. -/
inductive ArrayCell (S : Type) where
  | times (b : Buf Nat)
  | samples (b : Buf S)
  | pointers (b : Buf (Option Nat))

/-- The memory: addresses from `next` on were never used. -/
structure ArrayHeap (S : Type) where
  next : Nat
  cell : Nat → Option (ArrayCell S)

variable {S : Type}

/-- The memory with another content at one address. -/
def ArrayHeap.put (h : ArrayHeap S) (p : Nat) (c : Option (ArrayCell S)) : ArrayHeap S := ⟨h.next, fun b => if b = p then c else h.cell b⟩

/-- `malloc` or `calloc` of an array, with the content it gets. -/
def ArrayHeap.alloc (h : ArrayHeap S) (c : ArrayCell S) : Nat × ArrayHeap S := (h.next, ⟨h.next + 1, fun b => if b = h.next then some c else h.cell b⟩)

/-- `free` of a pointer that is not null. -/
def ArrayHeap.free (h : ArrayHeap S) (p : Nat) : C (ArrayHeap S) := if (h.cell p).isSome then .ok (h.put p none) else .error .doubleFree

/-- The content of an array of times. -/
def ArrayHeap.times (h : ArrayHeap S) (p : Nat) : C (Buf Nat) :=
  match h.cell p with
  | some (.times b) => .ok b
  | _ => .error .useAfterFree

/-- Writes to an array of times. -/
def ArrayHeap.setTimes (h : ArrayHeap S) (p : Nat) (b : Buf Nat) : C (ArrayHeap S) :=
  match h.cell p with
  | some (.times _) => .ok (h.put p (some (.times b)))
  | _ => .error .useAfterFree

/-- The content of an array of samples. -/
def ArrayHeap.samples (h : ArrayHeap S) (p : Nat) : C (Buf S) :=
  match h.cell p with
  | some (.samples b) => .ok b
  | _ => .error .useAfterFree

/-- Writes to an array of samples. -/
def ArrayHeap.setSamples (h : ArrayHeap S) (p : Nat) (b : Buf S) : C (ArrayHeap S) :=
  match h.cell p with
  | some (.samples _) => .ok (h.put p (some (.samples b)))
  | _ => .error .useAfterFree

/-- The content of an array of pointers. -/
def ArrayHeap.pointers (h : ArrayHeap S) (p : Nat) : C (Buf (Option Nat)) :=
  match h.cell p with
  | some (.pointers b) => .ok b
  | _ => .error .useAfterFree

/-- Writes to an array of pointers. -/
def ArrayHeap.setPointers (h : ArrayHeap S) (p : Nat) (b : Buf (Option Nat)) : C (ArrayHeap S) :=
  match h.cell p with
  | some (.pointers _) => .ok (h.put p (some (.pointers b)))
  | _ => .error .useAfterFree

/-- `free`, which does nothing with a null pointer. -/
def ArrayHeap.freeOption (h : ArrayHeap S) : Option Nat → C (ArrayHeap S)
  | none => .ok h
  | some p => h.free p

/-- The loop body of `sp_##type##_array_free`. /repo/source/c-precompiled/sph-sp/arrays-template.c:119-121 -/
def arrayFreeBody (p : Nat) (i : Nat) (h : ArrayHeap S) : C (ArrayHeap S) := do
  let b ← h.pointers p
  let q ← rd b i
  h.freeOption q

/-- `sp_##type##_array_free`. /repo/source/c-precompiled/sph-sp/arrays-template.c:118-123 -/
def arrayFreeHeap (p count : Nat) (h : ArrayHeap S) : C (ArrayHeap S) := do
  let h ← forRange 0 count (arrayFreeBody p) h
  h.free p

/-- The loop of `sp_times_permutations`; `used` is `temp_out_used_size`. Of the memory from `malloc` the content before it is set is not modelled. 90-107 -/
def permLoopHeap (size pa ps pout : Nat) : Nat → Nat → Nat → ArrayHeap S → C (Nat × ArrayHeap S)
  | 0, _, _, _ => .error .nonTermination
  | fuel + 1, i, used, h =>
    if i < size then do
      let s ← h.times ps
      let c ← rd s i
      if c < i then do
        let a ← h.times pa
        let a ← timesSwap a (if i &&& 1 ≠ 0 then c else 0) i
        let h ← h.setTimes pa a
        let s ← wr s i (u32 (c + 1))
        let h ← h.setTimes ps s
        let (b, h) := h.alloc (.times (List.replicate size 0))
        let a ← h.times pa
        let content ← memcpy (List.replicate size 0) 0 a 0 size
        let h ← h.setTimes b content
        let out ← h.pointers pout
        let out ← wr out used (some b)
        let h ← h.setPointers pout out
        permLoopHeap size pa ps pout fuel 0 (u32 (used + 1)) h
      else do
        let s ← wr s i 0
        let h ← h.setTimes ps s
        permLoopHeap size pa ps pout fuel (u32 (i + 1)) used h
    else .ok (used, h)

/-- `sp_times_permutations`: the pointer written to `out`, the value written to `out_size`, and the memory. 67-126 -/
def timesPermutationsHeap (size fuel pset : Nat) (h : ArrayHeap S) : C (Nat × Nat × ArrayHeap S) := do
  let (pa, h) := h.alloc (.times (List.replicate size 0))
  let (ps, h) := h.alloc (.times (List.replicate size 0))
  let (pout, h) := h.alloc (.pointers (List.replicate (timeFactorial size) none))
  let (pb, h) := h.alloc (.times (List.replicate size 0))
  let out ← h.pointers pout
  let out ← wr out 0 (some pb)
  let h ← h.setPointers pout out
  let a ← h.times pa
  let set ← h.times pset
  let set ← arrayCopy (some a) size set
  let h ← h.setTimes pset set
  let b ← h.times pb
  let a ← h.times pa
  let a ← arrayCopy (some b) size a
  let h ← h.setTimes pa a
  let (used, h) ← permLoopHeap size pa ps pout fuel 0 1 h
  let h ← h.free ps
  let h ← h.free pa
  pure (pout, used, h)

/-- The loop of `sp_times_compositions`: `o_used` and the memory. 165-182 -/
def compLoopHeap (inner pa po psizes : Nat) : Nat → Nat → Nat → ArrayHeap S → C (Nat × ArrayHeap S)
  | 0, _, _, _ => .error .nonTermination
  | fuel + 1, k, used, h =>
    if k = 0 then .ok (used, h)
    else do
      let a ← h.times pa
      let p ← rd a (sub32 k 1)
      let q ← rd a k
      let (a, k, x, y) ← compInner inner a (sub32 k 1) (u32 (p + 1)) (sub32 q 1)
      let a ← wr a k (u32 (x + y))
      let h ← h.setTimes pa a
      let bSize := u32 (k + 1)
      let (b, h) := h.alloc (.times (List.replicate bSize 0))
      let a ← h.times pa
      let content ← memcpy (List.replicate bSize 0) 0 a 0 bSize
      let h ← h.setTimes b content
      let o ← h.pointers po
      let o ← wr o used (some b)
      let h ← h.setPointers po o
      let sizes ← h.times psizes
      let sizes ← wr sizes used bSize
      let h ← h.setTimes psizes sizes
      compLoopHeap inner pa po psizes fuel k (u32 (used + 1)) h

/-- `sp_times_compositions`: the values written to `out`, `out_size` and `out_sizes`, and the memory. 142-200 -/
def timesCompositionsHeap (sum inner fuel : Nat) (h : ArrayHeap S) : C (Nat × Nat × Nat × ArrayHeap S) := do
  let oSize ← timeExpt 2 (sub32 sum 1)
  let (pa, h) := h.alloc (.times (List.replicate (u32 (1 + sum)) 0))
  let (po, h) := h.alloc (.pointers (List.replicate oSize none))
  let (psizes, h) := h.alloc (.times (List.replicate oSize 0))
  let a ← h.times pa
  let a ← wr a 1 sum
  let h ← h.setTimes pa a
  let (used, h) ← compLoopHeap inner pa po psizes fuel 1 0 h
  let h ← h.free pa
  pure (po, used, psizes, h)

/-- `sp_times_duplicate`: the pointer written to `out` and the memory. /repo/source/c-precompiled/sph-sp/arrays-template.c:133-141 -/
def timesDuplicateHeap (p count : Nat) (h : ArrayHeap S) : C (Nat × ArrayHeap S) := do
  let (q, h) := h.alloc (.times (List.replicate count 0))
  let a ← h.times p
  let content ← memcpy (List.replicate count 0) 0 a 0 count
  let h ← h.setTimes q content
  pure (q, h)

/-- `sp_times_constant`. 269-277 -/
def timesConstantHeap (count value : Nat) (h : ArrayHeap S) : C (Nat × ArrayHeap S) := do
  let (q, h) := h.alloc (.times (List.replicate count 0))
  let b ← h.times q
  let b ← timesSet b count value
  let h ← h.setTimes q b
  pure (q, h)

/-- `sp_times_random_binary`: the memory and the state of the random source. The new array is another one than that at `pout`. 233-244 -/
def timesRandomBinaryHeap {σ : Type} (next : σ → Nat × σ) (size fuel pout : Nat) (s : σ) (h : ArrayHeap S) : C (ArrayHeap S × σ) := do
  let (temp, h) := h.alloc (.times (List.replicate (randomBinarySize size) 0))
  let b ← h.times temp
  let (b, s) ← timesRandom next (randomBinarySize size) b s
  let h ← h.setTimes temp b
  let b ← h.times temp
  let out ← h.times pout
  let out ← timesBitsToTimes (some b) size fuel out
  let h ← h.setTimes pout out
  let h ← h.free temp
  pure (h, s)

/-- `sp_times_scale`; `pin` and `pout` are different addresses or the same. 282-296 -/
def timesScaleHeap (pin count factor pout : Nat) (h : ArrayHeap S) : C (ArrayHeap S) := do
  let (temp, h) := h.alloc (.times (List.replicate count 0))
  let inp ← h.times pin
  let b ← h.times temp
  let b ← arrayCopy (some inp) count b
  let b ← timesMultiply b count factor
  let h ← h.setTimes temp b
  let b ← h.times temp
  let out ← h.times pout
  let out ← forRange 1 count (fun i out => forRange 0 factor (scaleInner b factor i) out) out
  let h ← h.setTimes pout out
  h.free temp

/-- `sp_times_to_samples_replace`: the pointer written to `out`, and the memory. 471-481 -/
def timesToSamplesReplaceHeap (pin count : Nat) (h : ArrayHeap ℚ) : C (Nat × ArrayHeap ℚ) := do
  let (temp, h) := h.alloc (.samples (List.replicate count 0))
  let inp ← h.times pin
  let b ← h.samples temp
  let b ← timesToSamples inp count b
  let h ← h.setSamples temp b
  let h ← h.free pin
  pure (temp, h)

/-- `sp_samples_to_times_replace`. 503-513 -/
def samplesToTimesReplaceHeap (pin count : Nat) (h : ArrayHeap ℚ) : C (Nat × ArrayHeap ℚ) := do
  let (temp, h) := h.alloc (.times (List.replicate count 0))
  let inp ← h.samples pin
  let b ← h.times temp
  let b ← samplesToTimes inp count b
  let h ← h.setTimes temp b
  let h ← h.free pin
  pure (temp, h)

/-- `sp_stat_times_median`; the value is in `*out`. The copy is sorted in place. /repo/source/c-precompiled/sph-sp/statistics.c:80-91 -/
noncomputable def statTimesMedianHeap (n depth pin size : Nat) (h : ArrayHeap S) : C (ℝ × ArrayHeap S) := do
  let (temp, h) := h.alloc (.times (List.replicate size 0))
  let inp ← h.times pin
  let b ← memcpy (List.replicate size 0) 0 inp 0 size
  let b ← quicksort (fun x y : Nat => decide (x < y)) n depth b 0 (sub32 size 1)
  let h ← h.setTimes temp b
  if size &&& 1 ≠ 0 then do
    let x ← rd b (sub32 (size / 2) 1)
    pure ((x : ℝ), h)
  else do
    let x ← rd b (size / 2)
    let y ← rd b (sub32 (size / 2) 1)
    pure (((u32 (x + y) : Nat) : ℝ) / 2, h)

end Sp
