import Verif.Model.EventList

/-!
# Model of sample blocks (main.c) and map events (sequencer.c)

Memory of samples with allocation: an address is not allocated (`none`) or holds an array.
What an allocation returns is a parameter (`none`: out of memory).
-/

namespace Sp

/-- The memory of samples. -/
abbrev Mem (S : Type) := Addr → Option (Buf S)

/-- A pointer into an array: address of the array and index. -/
abbrev Ptr := Addr × Nat

variable {S : Type}

/-- The array at `a`. -/
def Mem.load (m : Mem S) (a : Addr) : C (Buf S) :=
  match m a with
  | some b => .ok b
  | none => .error .useAfterFree

/-- `m` with the array `b` at `a`. -/
def Mem.set (m : Mem S) (a : Addr) (b : Option (Buf S)) : Mem S := fun x => if x = a then b else m x

/-- `free(p)`: the pointer must be the beginning of an allocated array. -/
def Mem.free (m : Mem S) (p : Ptr) : C (Mem S) :=
  if p.2 = 0 ∧ (m p.1).isSome then .ok (m.set p.1 none) else .error .doubleFree

/-- Dereference of a pointer that can be null or unset. -/
def derefPtr : Option Ptr → C Ptr
  | some p => .ok p
  | none => .error .nullDeref

/-- `sp_block_t`. `samples` has `sp_channel_count_limit` elements.
/repo/source/c-precompiled/sph-sp/main.h:109-113 -/
structure Block where
  channelCount : Nat
  size : Nat
  samples : Buf (Option Ptr)

/-- `sph_helper_status_id_memory`: the first and only element of an enumeration, zero.
/repo/source/c/foreign/sph-sc-lib/sph-sp/helper.h:7 -/
def sphHelperStatusIdMemory : Nat := 0

/-- `sph_helper_primitive_calloc`, for `n` samples. `r` is what `calloc` returns and `result` the
value of the pointer variable that it is to be stored in. Returns status id, value of the variable,
memory. /repo/source/c/foreign/sph-sc-lib/sph-sp/helper.c:45-57 -/
def helperCalloc [Zero S] (r : Option Addr) (n : Nat) (result : Option Addr) (m : Mem S) :
    Nat × Option Addr × Mem S :=
  match r with
  | some a => (0, some a, m.set a (some (List.replicate n 0)))
  | none => (sphHelperStatusIdMemory, result, m)

/-- A variable that must have been set. -/
def isSet : Option Addr → C Addr
  | some a => .ok a
  | none => .error .uninitialized

/-- `sp_block_new`, `out` being the block whose fields are set. `addrs i` is what the allocation of
channel `i` returns. The state of the loop: status id, the variable `channel`, the sample pointers,
memory. After a failure the loop is left; `memreg_free` frees what was registered.
/repo/source/c-precompiled/sph-sp/main.c:130-146 -/
def blockNew [Zero S] (addrs : Nat → Option Addr) (nch size : Nat) (out : Block) (m : Mem S) :
    C (Nat × Block × Mem S) := do
  let (st, _, samples, m, reg) ← forRange 0 nch (fun i (st, channel, samples, m, reg) =>
    if st ≠ 0 then .ok (st, channel, samples, m, reg)
    else do
      let r : Nat × Option Addr × Mem S := helperCalloc (addrs i) size channel m
      if r.1 ≠ 0 then .ok (r.1, r.2.1, samples, r.2.2, reg)
      else do
        let a ← isSet r.2.1
        let samples ← wr samples i (some (a, 0))
        return (0, some a, samples, r.2.2, reg ++ [a]))
    ((0, none, out.samples, m, []) : Nat × Option Addr × Buf (Option Ptr) × Mem S × List Addr)
  if st ≠ 0 then do
    let m ← reg.reverse.foldlM (fun m a => m.free (a, 0)) m
    return (st, { out with samples := samples }, m)
  else return (0, ⟨nch, size, samples⟩, m)

/-- `sp_block_free`. /repo/source/c-precompiled/sph-sp/main.c:147-153 -/
def blockFree (b : Block) (m : Mem S) : C (Mem S) :=
  if b.size ≠ 0 then
    forRange 0 b.channelCount (fun i m => do
      let s ← rd b.samples i
      let p ← derefPtr s
      m.free p) m
  else .ok m

/-- `sp_block_with_offset`. /repo/source/c-precompiled/sph-sp/main.c:156-161 -/
def blockWithOffset (b : Block) (offset : Nat) : C Block := do
  let samples ← forRange 0 b.channelCount (fun i samples => do
    let s ← rd samples i
    let p ← derefPtr s
    wr samples i (some (p.1, p.2 + offset))) b.samples
  return { b with samples := samples }

/-- `sp_block_zero`. /repo/source/c-precompiled/sph-sp/main.c:162-166 -/
def blockZero [Zero S] (b : Block) (m : Mem S) : C (Mem S) :=
  forRange 0 b.channelCount (fun i m => do
    let s ← rd b.samples i
    let p ← derefPtr s
    let arr ← m.load p.1
    let arr ← memzero arr p.2 b.size
    return m.set p.1 (some arr)) m

/-- One assignment `(b.samples)[ci][i] = (a.samples)[ci][i]`.
/repo/source/c-precompiled/sph-sp/main.c:173 -/
def blockCopyStep (a b : Block) (ci i : Nat) (m : Mem S) : C (Mem S) := do
  let sa ← rd a.samples ci
  let sb ← rd b.samples ci
  let pa ← derefPtr sa
  let pb ← derefPtr sb
  let src ← m.load pa.1
  let v ← rd src (pa.2 + i)
  let dst ← m.load pb.1
  let dst ← wr dst (pb.2 + i) v
  return m.set pb.1 (some dst)

/-- `sp_block_copy`. /repo/source/c-precompiled/sph-sp/main.c:170-176 -/
def blockCopy (a b : Block) (m : Mem S) : C (Mem S) :=
  forRange 0 a.channelCount (fun ci m => forRange 0 a.size (fun i m => blockCopyStep a b ci i m) m) m

/-- `sp_map_event_isolated_generate`. The temporary block starts with all fields zero.
/repo/source/c-precompiled/sph-sp/sequencer.c:455-466 -/
def mapIsolatedGenerate {E K : Type} [Zero S] (addrs : Nat → Option Addr)
    (gen : Nat → Nat → Block → E → Mem S → C (Nat × E × Mem S))
    (map : Nat → Nat → Block → Block → K → Mem S → C (Nat × K × Mem S))
    (x y : Nat) (out : Block) (e : E) (k : K) (m : Mem S) : C (Nat × E × K × Mem S) := do
  let (st, temp, m) ← blockNew addrs out.channelCount out.size
    ⟨0, 0, List.replicate out.samples.length none⟩ m
  if st ≠ 0 then do
    let m ← blockFree temp m
    return (st, e, k, m)
  else do
    let (st, e, m) ← gen x y temp e m
    if st ≠ 0 then do
      let m ← blockFree temp m
      return (st, e, k, m)
    else do
      let (st, k, m) ← map x y temp out k m
      let m ← blockFree temp m
      return (st, e, k, m)

end Sp
