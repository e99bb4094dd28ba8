import Verif.Model.Convolve

/-!
# Model of the convolution filter state machine (filter.c)

Impulse response functions are compared by address in C. Here `F` is the type of such addresses,
and `irOf f args` is what the function at `f` computes for the argument bytes: an array, or `none`
for a failure status. Functions are deterministic. Allocation always succeeds in this model.
-/

namespace Sp
variable {F : Type} [DecidableEq F] {S : Type} [Zero S] [Add S] [Mul S]

/-- `sp_convolution_filter_state_t`. `ir = none` means that the pointer is dangling (freed);
`carry = none` means a null pointer; the allocation is the list itself, so `carryover_alloc_len`
is its length and not kept separately.
/repo/source/c-precompiled/sph-sp/filter.h:5-14 -/
structure FilterState (F S : Type) where
  carry : Option (Buf S)
  carryLen : Nat
  ir : Option (Buf S)
  irF : F
  args : List UInt8
  argsLen : Nat
  irLen : Nat

/-- Result of `sp_convolution_filter_state_set`: success, `*out_state`, and whether the impulse
response function has been called. -/
structure SetResult (F S : Type) where
  success : Bool
  state : Option (FilterState F S)
  called : Bool

/-- The carryover part of `sp_convolution_filter_state_set`: extend the array and zero the extended
area. `realloc` keeps the content; the new cells are indeterminate (`junk`) until zeroed.
/repo/source/c-precompiled/sph-sp/filter.c:59-77 -/
def filterCarry (junk : S) (st : FilterState F S) (irLen : Nat) : C (Option (Buf S)) :=
  match st.carry with
  | some carry =>
    if irLen > st.irLen then do
      let carry :=
        if irLen - 1 > carry.length then carry ++ List.replicate (irLen - 1 - carry.length) junk
        else carry
      let carry ← memzero carry (st.irLen - 1) (irLen - st.irLen)
      return some carry
    else .ok (some carry)
  | none =>
    if irLen - 1 ≠ 0 then .ok (some (List.replicate (irLen - 1) 0)) else .ok none

/-- `sp_convolution_filter_state_set`. `args` are the `ir_f_arguments_len` argument bytes.
The changed branch does not update `ir_f` and `ir_f_arguments_len`, as in the code.
/repo/source/c-precompiled/sph-sp/filter.c:17-88 -/
def filterStateSet (irOf : F → List UInt8 → Option (Buf S)) (junk : S) (f : F) (args : List UInt8)
    (old : Option (FilterState F S)) : C (SetResult F S) :=
  match old with
  | some st =>
    -- existing; memcmp of the stored and the given bytes
    if st.irF = f ∧ args.length = st.argsLen ∧ st.args.take args.length = args then
      .ok ⟨true, some st, false⟩
    else
      match st.ir with
      | none => .error .doubleFree
      | some _ => do
        -- realloc if longer than the recorded length, free ir, memcpy the new bytes
        let st := { st with
          args := if args.length > st.argsLen then args else args ++ st.args.drop args.length
          ir := none }
        match irOf f args with
        | none => return ⟨false, some st, true⟩
        | some ir =>
          let carry ← filterCarry junk st ir.length
          return ⟨true, some { st with carry := carry, carryLen := ir.length - 1, ir := some ir,
                                       irLen := ir.length }, true⟩
  | none =>
    match irOf f args with
    | none => .ok ⟨false, none, true⟩
    | some ir => do
      let st : FilterState F S := ⟨none, 0, none, f, args, args.length, 0⟩
      let carry ← filterCarry junk st ir.length
      return ⟨true, some { st with carry := carry, carryLen := ir.length - 1, ir := some ir,
                                   irLen := ir.length }, true⟩

/-- Result of one `sp_convolution_filter` call. -/
structure FilterResult (F S : Type) where
  success : Bool
  state : Option (FilterState F S)
  called : Bool
  out : Buf S

/-- `sp_convolution_filter`. The old `carryover_len` is read before the state is set.
/repo/source/c-precompiled/sph-sp/filter.c:96-105 -/
def convolutionFilter (irOf : F → List UInt8 → Option (Buf S)) (junk : S) (input : Buf S) (f : F)
    (args : List UInt8) (old : Option (FilterState F S)) (out : Buf S) : C (FilterResult F S) := do
  let carryLen := match old with
    | some st => st.carryLen
    | none => 0
  let r ← filterStateSet irOf junk f args old
  match r.success, r.state with
  | true, some st =>
    match st.ir with
    | none => .error .useAfterFree
    | some ir =>
      let (out, carry) ← convolve input input.length ir st.irLen carryLen (st.carry.getD []) out
      return ⟨true, some { st with carry := st.carry.map (fun _ => carry) }, r.called, out⟩
  | _, _ => return ⟨false, r.state, r.called, out⟩

/-- A caller of the filter: for each element of the list one call with a block, a function and
arguments, on one state. Returns for each call the result. -/
def filterCalls (irOf : F → List UInt8 → Option (Buf S)) (junk : S) :
    List (Buf S × F × List UInt8) → Option (FilterState F S) → C (List (FilterResult F S))
  | [], _ => .ok []
  | (input, f, args) :: rest, st => do
    let r ← convolutionFilter irOf junk input f args st (List.replicate input.length junk)
    let rs ← filterCalls irOf junk rest r.state
    return r :: rs

end Sp
