import Verif.C

/-!
# Model of event memory (sequencer.c, array3.h)

An event has a growing register of addresses, each with the function that is to be called with it.
Whether an allocation succeeds is a parameter. Simplified: byte sizes do not overflow `size_t`, and
there are fewer than 2^32 registrations (the counter in `sp_event_memory_free` is 32 bit).
-/

namespace Sp

/-- `memreg2_t`: address and handler. Handlers are identified by numbers. -/
structure MemReg where
  address : Nat
  handler : Nat
  deriving DecidableEq

/-- `sp_memory_t`. Cells that have not been written are `none`.
/repo/source/c/foreign/sph-sc-lib/sph-sp/array3.h:21-25 and sequencer.h:148 -/
structure EventMemory where
  data : Option (Buf (Option MemReg))
  size : Nat
  used : Nat

/-- The event's `memory` field and whether the event has a free function. -/
structure MemEvent where
  memory : EventMemory
  hasFree : Bool

/-- `sp_s_id_memory`. /repo/source/c-precompiled/sph-sp/main.h:20 -/
def memoryStatus : Nat := 8

/-- `array3_new`; `none` if malloc fails. /repo/source/c/foreign/sph-sc-lib/sph-sp/array3.h:27-37 -/
def memNew (alloc : Bool) (size : Nat) : Option EventMemory :=
  if alloc then some ⟨some (List.replicate size none), size, 0⟩ else none

/-- `array3_resize`; `none` if realloc fails.
/repo/source/c/foreign/sph-sc-lib/sph-sp/array3.h:40-49 -/
def memResize (alloc : Bool) (b : Buf (Option MemReg)) (used newSize : Nat) : Option EventMemory :=
  if alloc then
    some ⟨some (b.take newSize ++ List.replicate (newSize - b.length) none), newSize, min newSize used⟩
  else none

/-- `array3_add`. /repo/source/c/foreign/sph-sc-lib/sph-sp/array3.h:51-53 -/
def memArrayAdd (m : EventMemory) (r : MemReg) : C EventMemory :=
  match m.data with
  | some b => do
    let b ← wr b m.used (some r)
    return ⟨some b, m.size, m.used + 1⟩
  | none => .error .nullDeref

/-- `sp_event_memory_add_with_handler`.
/repo/source/c-precompiled/sph-sp/sequencer.c:138-159 -/
def memoryAdd (alloc : Bool) (r : MemReg) (e : MemEvent) : C (Nat × MemEvent) :=
  match e.memory.data with
  | some b =>
    if e.memory.size - e.memory.used = 0 then
      match memResize alloc b e.memory.used (2 * e.memory.size) with
      | none => .ok (memoryStatus, e)
      | some m => do
        let m ← memArrayAdd m r
        return (0, { e with memory := m })
    else do
      let m ← memArrayAdd e.memory r
      return (0, { e with memory := m })
  | none =>
    match memNew alloc 4 with
    | none => .ok (memoryStatus, e)
    | some m => do
      let m ← memArrayAdd m r
      return (0, ⟨m, true⟩)

/-- `sp_event_memory_ensure`. /repo/source/c-precompiled/sph-sp/sequencer.c:162-179 -/
def memoryEnsure (alloc : Bool) (n : Nat) (e : MemEvent) : C (Nat × MemEvent) :=
  match e.memory.data with
  | some b =>
    if e.memory.size - e.memory.used < n then
      match memResize alloc b e.memory.used (e.memory.size + (n - (e.memory.size - e.memory.used))) with
      | none => .ok (memoryStatus, e)
      | some m => .ok (0, { e with memory := m })
    else .ok (0, e)
  | none =>
    match memNew alloc n with
    | none => .ok (memoryStatus, e)
    | some m => .ok (0, ⟨m, true⟩)

/-- `sp_event_memory_fixed_add_with_handler`.
/repo/source/c-precompiled/sph-sp/sequencer.c:183-188 -/
def memoryFixedAdd (r : MemReg) (e : MemEvent) : C MemEvent := do
  let m ← memArrayAdd e.memory r
  return { e with memory := m }

/-- The value of an initialised cell. -/
def initialized {α : Type*} : Option α → C α
  | some v => .ok v
  | none => .error .uninitialized

/-- `sp_event_memory_free`. Returns the event and the handler calls in order.
/repo/source/c-precompiled/sph-sp/sequencer.c:191-202 -/
def memoryFree (e : MemEvent) : C (MemEvent × List MemReg) :=
  match e.memory.data with
  | none => .ok (e, [])
  | some b => do
    let calls ← forRange 0 e.memory.used (fun i calls => do
      let c ← rd b i
      let m ← initialized c
      return calls ++ [m]) []
    return ({ e with memory := { e.memory with data := none } }, calls)

/-- The three ways to change the register. -/
inductive MemOp
  | add (alloc : Bool) (r : MemReg)
  | ensure (alloc : Bool) (n : Nat)
  | fixedAdd (r : MemReg)

/-- A call of one of the functions. -/
def MemOp.run : MemOp → MemEvent → C (Nat × MemEvent)
  | .add alloc r, e => memoryAdd alloc r e
  | .ensure alloc n, e => memoryEnsure alloc n e
  | .fixedAdd r, e => do
    let e ← memoryFixedAdd r e
    return (0, e)

/-- A caller that makes these calls one after the other. The result includes the status of each. -/
def memRun : List MemOp → MemEvent → C (List Nat × MemEvent)
  | [], e => .ok ([], e)
  | op :: rest, e => do
    let (st, e) ← op.run e
    let (sts, e) ← memRun rest e
    return (st :: sts, e)

end Sp
