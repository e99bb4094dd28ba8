import Verif.Model.EventMemory
import Verif.Model.Noise
import Verif.Model.Block

/-!
# Model of the macros that allocate memory for events (sequencer.h)

`sp_event_malloc_srq`, `sp_event_samples_srq` and the like allocate, store the address in a variable and register
it with the event. The variables of the function that uses the macros are a list, `none` is a variable that has not been
set. Simplified: the contents of the allocated memory, its size, and the memory of the register itself are left out (for
the register see `Verif.Model.EventMemory`), and the allocated memory is released with `free`, which has the handler
number zero.
-/

namespace Sp

/-- One use of a macro: the number of the variable, and whether allocating the memory and, if that is necessary, enlarging
the register succeed. -/
structure EventAlloc where
  var : Nat
  malloc : Bool
  register : Bool

/-- `sph_helper_primitive_malloc` that stores in variable `i`.
/repo/source/c/foreign/sph-sc-lib/sph-sp/helper.c:22-33 -/
def helperMalloc (ok : Bool) (i : Nat) (vars : Buf (Option Nat)) (m : Live) : C (Nat × Buf (Option Nat) × Live) :=
  if ok then do
    let (a, m) := m.malloc
    let vars ← wr vars i (some a)
    return (0, vars, m)
  else .ok (sphHelperStatusIdMemory, vars, m)

/-- `sp_event_malloc_srq`, `sp_event_alloc_srq`.
/repo/source/c-precompiled/sph-sp/sequencer.h:136-147 -/
def eventAlloc (x : EventAlloc) (vars : Buf (Option Nat)) (e : MemEvent) (m : Live) :
    C (Nat × Buf (Option Nat) × MemEvent × Live) := do
  let (st, vars, m) ← helperMalloc x.malloc x.var vars m
  if st ≠ 0 then return (st, vars, e, m)
  else
    let v ← rd vars x.var
    let a ← initialized v
    let (st, e) ← memoryAdd x.register ⟨a, 0⟩ e
    return (st, vars, e, m)

/-- A function that uses macros one after the other. Each leaves the function on failure.
/repo/source/c-precompiled/sph-sp/sequencer.h:136-141 -/
def eventAllocs : List EventAlloc → Buf (Option Nat) → MemEvent → Live → C (Nat × Buf (Option Nat) × MemEvent × Live)
  | [], vars, e, m => .ok (0, vars, e, m)
  | x :: rest, vars, e, m => do
    let (st, vars, e, m) ← eventAlloc x vars e m
    if st ≠ 0 then return (st, vars, e, m)
    else eventAllocs rest vars e m

/-- `sp_event_memory_free` for an event whose handlers are `free`.
/repo/source/c-precompiled/sph-sp/sequencer.c:191-202 -/
def eventRelease (e : MemEvent) (m : Live) : C (MemEvent × Live) := do
  let (e, calls) ← memoryFree e
  let m ← freeEach (calls.map fun r => some r.address) m
  return (e, m)

end Sp
