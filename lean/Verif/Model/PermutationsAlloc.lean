import Verif.Model.CompositionsAlloc

/-!
# Model of `sp_times_permutations` with allocations that can fail (arrays.c)

`alloc i` says whether allocation `i` of the call succeeds. The arrays before the loop, with the first result, are the first four. Line numbers are for
/repo/source/c-precompiled/sph-sp/arrays.c.
-/

namespace Sp
variable {S : Type}

/-- The loop of `sp_times_permutations`: the status id, `temp_out_used_size` and the memory. `b` is the variable of this name. 90-107 -/
def permLoopAlloc (alloc : Nat → Bool) (size pa ps pout : Nat) : Nat → Nat → Nat → Option Nat → ArrayHeap S → C (Nat × Nat × ArrayHeap S)
  | 0, _, _, _, _ => .error .nonTermination
  | fuel + 1, i, used, b, h =>
    if i < size then do
      let s ← h.times ps
      let c ← rd s i
      if c < i then do
        let a ← h.times pa
        let a ← timesSwap a (if i &&& 1 ≠ 0 then c else 0) i
        let h ← h.setTimes pa a
        let s ← wr s i (u32 (c + 1))
        let h ← h.setTimes ps s
        let (st, b, h) := arrayMalloc (alloc (3 + used)) (.times (List.replicate size 0)) b h
        if st ≠ 0 then .ok (st, used, h)
        else do
          let pb ← notNull b
          let a ← h.times pa
          let old ← h.times pb
          let content ← memcpy old 0 a 0 size
          let h ← h.setTimes pb content
          let out ← h.pointers pout
          let out ← wr out used (some pb)
          let h ← h.setPointers pout out
          permLoopAlloc alloc size pa ps pout fuel 0 (u32 (used + 1)) b h
      else do
        let s ← wr s i 0
        let h ← h.setTimes ps s
        permLoopAlloc alloc size pa ps pout fuel (u32 (i + 1)) used b h
    else .ok (0, used, h)

/-- The end of `sp_times_permutations`. 110-125 -/
def permExit (st used : Nat) (pa ps pout : Option Nat) (h : ArrayHeap S) : C (ArrayHeap S) := do
  let h ← h.freeOption ps
  let h ← h.freeOption pa
  if st ≠ 0 then
    match pout with
    | none => .ok h
    | some p => arrayFreeHeap p used h
  else .ok h

/-- `sp_times_permutations`: the status id, the values written to `out` and `out_size`, and the memory. Allocations that fail before the loop are undefined when their pointer
is used; it is used in any case for sizes from one, so that the pointers are required to be not null before the loop, where the code first uses `temp_out`, then `a`
and `b`, and then `s` in the loop. If the allocation of the
first result had a failure status, then `temp_out_used_size` would be used without having been set. On failure the results are not written; they are zero here. 67-126 -/
def timesPermutationsAlloc (alloc : Nat → Bool) (size fuel pset : Nat) (h : ArrayHeap S) : C (Nat × Option Nat × Nat × ArrayHeap S) := do
  let (s0, pa, h) := arrayMalloc (alloc 0) (.times (List.replicate size 0)) none h
  if s0 ≠ 0 then do
    let h ← permExit s0 0 pa none none h
    return (s0, none, 0, h)
  else do
    let (s1, ps, h) := arrayMalloc (alloc 1) (.times (List.replicate size 0)) none h
    if s1 ≠ 0 then do
      let h ← permExit s1 0 pa ps none h
      return (s1, none, 0, h)
    else do
      let (s2, pout, h) := arrayMalloc (alloc 2) (.pointers (List.replicate (timeFactorial size) none)) none h
      if s2 ≠ 0 then do
        let h ← permExit s2 0 pa ps pout h
        return (s2, none, 0, h)
      else do
        let (s3, b, h) := arrayMalloc (alloc 3) (.times (List.replicate size 0)) none h
        if s3 ≠ 0 then .error .uninitialized
        else do
          let po ← notNull pout
          let out ← h.pointers po
          let out ← wr out 0 b
          let h ← h.setPointers po out
          let xa ← notNull pa
          let a ← h.times xa
          let set ← h.times pset
          let set ← arrayCopy (some a) size set
          let h ← h.setTimes pset set
          let xb ← notNull b
          let c ← h.times xb
          let a ← h.times xa
          let a ← arrayCopy (some c) size a
          let h ← h.setTimes xa a
          let xs ← notNull ps
          let (st, used, h) ← permLoopAlloc alloc size xa xs po fuel 0 1 b h
          let h ← permExit st used pa ps pout h
          if st ≠ 0 then return (st, none, 0, h) else return (0, pout, used, h)

end Sp
