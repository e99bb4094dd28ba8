import Verif.Model.Noise

/-!
# Model of array3.h and memreg.h

`array3`: an array with its allocated size and the number of used elements. A cell that has not been set is `none`; the `used` field that
`array3_declare_stack` leaves unset is `none`. `size_t` has 64 bit. `memreg`: a list of addresses to be freed together; `Live` are the live
allocations. `memreg_index` is an `unsigned int` of 32 bit.
-/

namespace Sp
variable {S : Type}

/-- `name##_t`. /repo/source/c/foreign/sph-sc-lib/sph-sp/array3.h:20-24 -/
structure Array3 (S : Type) where
  data : Option (Buf (Option S))
  size : Nat
  used : Option Nat

/-- Using the value of `used`. -/
def Array3.usedValue (a : Array3 S) : C Nat :=
  match a.used with
  | some n => .ok n
  | none => .error .uninitialized

/-- `name##_new`: what is returned and the struct, which is left as it is without memory.
/repo/source/c/foreign/sph-sc-lib/sph-sp/array3.h:26-36 -/
def Array3.new (alloc : Bool) (size : Nat) (a : Array3 S) : Nat × Array3 S :=
  if alloc then (0, ⟨some (List.replicate size none), size, some 0⟩) else (1, a)

/-- `name##_resize`. `realloc` keeps the cells up to the smaller size. Resizing to zero elements is undefined in C (the result of `realloc`
with size zero); here a fault. /repo/source/c/foreign/sph-sc-lib/sph-sp/array3.h:39-48 -/
def Array3.resize (alloc : Bool) (newSize : Nat) (a : Array3 S) : C (Nat × Array3 S) :=
  if newSize = 0 then .error .outOfBounds
  else if ¬ alloc then .ok (1, a)
  else do
    let b := a.data.getD []
    let used ← a.usedValue
    pure (0, ⟨some (b.take newSize ++ List.replicate (newSize - b.length) none), newSize, some (if newSize < used then newSize else used)⟩)

/-- `array3_declare`. /repo/source/c/foreign/sph-sc-lib/sph-sp/array3.h:49 -/
def Array3.declare : Array3 S := ⟨none, 0, some 0⟩

/-- `array3_add`. /repo/source/c/foreign/sph-sc-lib/sph-sp/array3.h:50-52 -/
def Array3.add (v : S) (a : Array3 S) : C (Array3 S) := do
  let used ← a.usedValue
  match a.data with
  | none => .error .nullDeref
  | some b => do
    let b ← wr b used (some v)
    pure { a with data := some b, used := some ((used + 1) % 18446744073709551616) }

/-- `array3_get`. /repo/source/c/foreign/sph-sc-lib/sph-sp/array3.h:57 -/
def Array3.get (a : Array3 S) (i : Nat) : C S :=
  match a.data with
  | none => .error .nullDeref
  | some b => do
    match ← rd b i with
    | some v => pure v
    | none => .error .uninitialized

/-- `array3_clear`. /repo/source/c/foreign/sph-sc-lib/sph-sp/array3.h:58 -/
def Array3.clear (a : Array3 S) : Array3 S := { a with used := some 0 }

/-- `array3_remove`. /repo/source/c/foreign/sph-sc-lib/sph-sp/array3.h:59 -/
def Array3.remove (a : Array3 S) : C (Array3 S) := do
  let used ← a.usedValue
  pure { a with used := some ((used + 18446744073709551615) % 18446744073709551616) }

/-- `array3_unused_size`. /repo/source/c/foreign/sph-sc-lib/sph-sp/array3.h:61 -/
def Array3.unusedSize (a : Array3 S) : C Nat := do
  let used ← a.usedValue
  pure ((a.size + 18446744073709551616 - used) % 18446744073709551616)

/-- `array3_full`. /repo/source/c/foreign/sph-sc-lib/sph-sp/array3.h:64 -/
def Array3.full (a : Array3 S) : C Bool := do
  let used ← a.usedValue
  pure (decide (used = a.size))

/-- `array3_not_full`. /repo/source/c/foreign/sph-sc-lib/sph-sp/array3.h:65 -/
def Array3.notFull (a : Array3 S) : C Bool := do
  let used ← a.usedValue
  pure (decide (used < a.size))

/-- `array3_data_last`. /repo/source/c/foreign/sph-sc-lib/sph-sp/array3.h:70 -/
def Array3.dataLast (a : Array3 S) : C S := a.get ((a.size + 18446744073709551615) % 18446744073709551616)

/-- `array3_declare_stack`. /repo/source/c/foreign/sph-sc-lib/sph-sp/array3.h:71-75 -/
def Array3.declareStack (n : Nat) : Array3 S := ⟨some (List.replicate n none), n, none⟩

/-- The calls of a program with an array3. -/
inductive Array3Op (S : Type)
  | add (v : S)
  | remove
  | clear
  | resize (alloc : Bool) (n : Nat)

/-- One call. -/
def Array3Op.run (a : Array3 S) : Array3Op S → C (Array3 S)
  | .add v => a.add v
  | .remove => a.remove
  | .clear => .ok a.clear
  | .resize alloc n => do
    let r ← a.resize alloc n
    pure r.2

/-- A program of calls. -/
def array3Run : List (Array3Op S) → Array3 S → C (Array3 S)
  | [], a => .ok a
  | o :: os, a => do
    let a ← o.run a
    array3Run os a

/-- The variables of `memreg_init`. /repo/source/c/foreign/sph-sc-lib/sph-sp/memreg.h:12-15 -/
structure MemRegister where
  register : Buf (Option (Option Nat))
  index : Nat

/-- `memreg_init`. /repo/source/c/foreign/sph-sc-lib/sph-sp/memreg.h:12-15 -/
def memregInit (size : Nat) : MemRegister := ⟨List.replicate size none, 0⟩

/-- `memreg_add`. The address is null (`none`) or a number. /repo/source/c/foreign/sph-sc-lib/sph-sp/memreg.h:19-21 -/
def memregAdd (address : Option Nat) (r : MemRegister) : C MemRegister := do
  let b ← wr r.register r.index (some address)
  pure ⟨b, u32 (r.index + 1)⟩

/-- Several `memreg_add`. -/
def memregAddAll : List (Option Nat) → MemRegister → C MemRegister
  | [], r => .ok r
  | a :: as, r => do
    let r ← memregAdd a r
    memregAddAll as r

/-- `memreg_free`: the loop with `memreg_index` being the first argument; the last value is the list of the addresses in the order in which
they were given to `free`. /repo/source/c/foreign/sph-sc-lib/sph-sp/memreg.h:22-27 -/
def memregFreeLoop (b : Buf (Option (Option Nat))) : Nat → Live → List (Option Nat) → C (Live × List (Option Nat))
  | 0, m, freed => .ok (m, freed)
  | i + 1, m, freed => do
    match ← rd b i with
    | none => .error .uninitialized
    | some a => do
      let m ← m.free a
      memregFreeLoop b i m (freed ++ [a])

/-- `memreg_free`. -/
def memregFree (r : MemRegister) (m : Live) : C (MemRegister × Live × List (Option Nat)) := do
  let s ← memregFreeLoop r.register r.index m []
  pure ({ r with index := 0 }, s.1, s.2)

end Sp
