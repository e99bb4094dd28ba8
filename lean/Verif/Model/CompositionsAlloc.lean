import Verif.Model.ArrayHeap
import Verif.Model.Block

/-!
# Model of `sp_times_compositions` with allocations that can fail (arrays.c)

`alloc i` says whether allocation `i` of the call succeeds. The three arrays before the loop are the first. Line numbers without a file are for
/repo/source/c-precompiled/sph-sp/arrays.c.
-/

namespace Sp
variable {S : Type}

/-- `sph_helper_malloc` and `sph_helper_calloc`: the status id, the pointer variable and the memory. The variable is only set on success.
/repo/source/c/foreign/sph-sc-lib/sph-sp/helper.c:22-33, 47-58 -/
def arrayMalloc (ok : Bool) (c : ArrayCell S) (p : Option Nat) (h : ArrayHeap S) : Nat × Option Nat × ArrayHeap S :=
  if ok then (0, some (h.alloc c).1, (h.alloc c).2) else (sphHelperStatusIdMemory, p, h)

/-- A pointer variable that was set to null in its declaration, when it is used. -/
def notNull : Option Nat → C Nat
  | some p => .ok p
  | none => .error .nullDeref

/-- A pointer variable that was not set in its declaration, when it is used. -/
def hasBeenSet : Option Nat → C Nat
  | some p => .ok p
  | none => .error .uninitialized

/-- The loop of `sp_times_compositions`: the status id, `o_used` and the memory. `b` is the variable of this name. 165-182 -/
def compLoopAlloc (alloc : Nat → Bool) (inner pa : Nat) (po psizes : Option Nat) : Nat → Nat → Nat → Option Nat → ArrayHeap S → C (Nat × Nat × ArrayHeap S)
  | 0, _, _, _, _ => .error .nonTermination
  | fuel + 1, k, used, b, h =>
    if k = 0 then .ok (0, used, h)
    else do
      let a ← h.times pa
      let p ← rd a (sub32 k 1)
      let q ← rd a k
      let (a, k, x, y) ← compInner inner a (sub32 k 1) (u32 (p + 1)) (sub32 q 1)
      let a ← wr a k (u32 (x + y))
      let h ← h.setTimes pa a
      let bSize := u32 (k + 1)
      let (st, b, h) := arrayMalloc (alloc (3 + used)) (.times (List.replicate bSize 0)) b h
      if st ≠ 0 then .ok (st, used, h)
      else do
        let pb ← hasBeenSet b
        let a ← h.times pa
        let old ← h.times pb
        let content ← memcpy old 0 a 0 bSize
        let h ← h.setTimes pb content
        let p ← notNull po
        let o ← h.pointers p
        let o ← wr o used (some pb)
        let h ← h.setPointers p o
        let p ← hasBeenSet psizes
        let sizes ← h.times p
        let sizes ← wr sizes used bSize
        let h ← h.setTimes p sizes
        compLoopAlloc alloc inner pa po psizes fuel k (u32 (used + 1)) b h

/-- The end of `sp_times_compositions`. 186-199 -/
def compExit (st used : Nat) (pa po psizes : Option Nat) (h : ArrayHeap S) : C (ArrayHeap S) := do
  let h ← h.freeOption pa
  if st ≠ 0 then
    match po with
    | none => .ok h
    | some p => do
      let h ← arrayFreeHeap p used h
      let q ← hasBeenSet psizes
      h.free q
  else .ok h

/-- `sp_times_compositions`: the status id, the values written to `out`, `out_size` and `out_sizes`, and the memory. On failure nothing is written to the
results, which the caller does not use; they are zero here. 142-200 -/
def timesCompositionsAlloc (alloc : Nat → Bool) (sum inner fuel : Nat) (h : ArrayHeap S) : C (Nat × Option Nat × Nat × Option Nat × ArrayHeap S) := do
  let oSize ← timeExpt 2 (sub32 sum 1)
  let (st, pa, h) := arrayMalloc (alloc 0) (.times (List.replicate (u32 (1 + sum)) 0)) none h
  if st ≠ 0 then do
    let h ← compExit st 0 pa none none h
    return (st, none, 0, none, h)
  else do
    let (st, po, h) := arrayMalloc (alloc 1) (.pointers (List.replicate oSize none)) none h
    if st ≠ 0 then do
      let h ← compExit st 0 pa po none h
      return (st, none, 0, none, h)
    else do
      let (st, psizes, h) := arrayMalloc (alloc 2) (.times (List.replicate oSize 0)) none h
      if st ≠ 0 then do
        let h ← compExit st 0 pa po psizes h
        return (st, none, 0, none, h)
      else do
        let p ← notNull pa
        let a ← h.times p
        let a ← wr a 1 sum
        let h ← h.setTimes p a
        let (st, used, h) ← compLoopAlloc alloc inner p po psizes fuel 1 0 none h
        let h ← compExit st used pa po psizes h
        if st ≠ 0 then return (st, none, 0, none, h)
        else return (0, po, used, psizes, h)

end Sp
