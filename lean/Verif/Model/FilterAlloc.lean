import Verif.Model.EventAlloc

/-!
# Model of convolution filter states with allocations that can fail (filter.c)

Only the sizes of the blocks of a state: `argsSize` bytes for the arguments and `carry` elements for the carryover, both of them sizes of what is
allocated, which the source does not store. Whether each of the allocations succeeds is given by `FilterAllocOk`.
`irOf f args` is the length of the array that the impulse response function `f` makes for the argument bytes `args`, or `none` if it fails; this is
the `ir_f` of the caller and its own allocations are not described here. What is freed is not described here but in `Verif.Model.FilterMemory`. Impulse responses are not empty, which the source assumes
(filter.c:53); the model does not describe length 0.
-/

namespace Sp
variable {F : Type} [DecidableEq F]

/-- The sizes of the blocks of `sp_convolution_filter_state_t` and the fields that decide about allocations.
/repo/source/c-precompiled/sph-sp/filter.h:5-14 -/
structure FilterSizes (F : Type) where
  irF : F
  argsLen : Nat
  argBytes : List UInt8
  argsSize : Nat
  irLen : Nat
  carryLen : Nat
  carryAlloc : Nat
  carry : Option Nat

/-- Whether allocating the state, the argument block and the carryover array succeeds. -/
structure FilterAllocOk where
  state : Bool
  args : Bool
  carry : Bool

/-- The size of a block after `sph_helper_realloc`, with the status. If `realloc` fails then the old block stays.
/repo/source/c/foreign/sph-sc-lib/sph-sp/helper.c:57-68 -/
def reallocSize (ok : Bool) (new old : Nat) : Nat × Nat :=
  if ok then (0, new) else (sphHelperStatusIdMemory, old)

/-- An access to the elements from `start` to `start + n` of a block of `size` elements. -/
def inBlock (start n size : Nat) : C Unit :=
  if n = 0 ∨ start + n ≤ size then .ok () else .error .outOfBounds

/-- The rest of the function after the impulse response of length `n` was made. The variable `carryover` is not set if allocating failed.
/repo/source/c-precompiled/sph-sp/filter.c:55-82 -/
def filterAllocCarry (ok : Bool) (n : Nat) (st : FilterSizes F) : C (Nat × FilterSizes F) := do
  match st.carry with
  | some c =>
    if n > st.irLen then
      if n - 1 > st.carryAlloc then
        let (s, c) := reallocSize ok (n - 1) c
        if s ≠ 0 then return (s, { st with carry := some c })
        else
          inBlock (st.irLen - 1) (n - st.irLen) c
          return (0, { st with carry := some c, carryAlloc := n - 1, carryLen := n - 1, irLen := n })
      else
        inBlock (st.irLen - 1) (n - st.irLen) c
        return (0, { st with carryLen := n - 1, irLen := n })
    else return (0, { st with carryLen := n - 1, irLen := n })
  | none =>
    if n - 1 ≠ 0 then
      let s := if ok then 0 else sphHelperStatusIdMemory
      if s ≠ 0 then return (s, st)
      else
        let c ← initialized (if ok then some (n - 1) else none)
        return (0, { st with carry := some c, carryAlloc := n - 1, carryLen := n - 1, irLen := n })
    else return (0, { st with carryAlloc := n - 1, carryLen := n - 1, irLen := n })

/-- `sp_convolution_filter_state_set`: the status and `*out_state`. The status of a failing impulse response function is 1 here.
With a new state the variable `state` and then its field for the arguments are not set if allocating failed, and both are read by `memreg_add`.
/repo/source/c-precompiled/sph-sp/filter.c:17-88 -/
def filterAllocSet (irOf : F → List UInt8 → Option Nat) (ok : FilterAllocOk) (f : F) (args : List UInt8) (old : Option (FilterSizes F)) :
    C (Nat × Option (FilterSizes F)) := do
  match old with
  | some st =>
    let same ← (if st.irF = f ∧ args.length = st.argsLen then do
        inBlock 0 args.length st.argsSize
        pure (decide (st.argBytes.take args.length = args))
      else pure false)
    if same then return (0, some st)
    else
      let (s, size) := if args.length > st.argsLen then reallocSize ok.args args.length st.argsSize else (0, st.argsSize)
      if s ≠ 0 then return (s, some st)
      else
        inBlock 0 args.length size
        let st := { st with argsSize := size, argBytes := args ++ st.argBytes.drop args.length }
        match irOf f args with
        | none => return (1, some st)
        | some n =>
          let (s, st) ← filterAllocCarry ok.carry n st
          return (s, some st)
  | none =>
    let s := if ok.state then 0 else sphHelperStatusIdMemory
    if s ≠ 0 then return (s, none)
    else
      let _ ← initialized (if ok.state then some () else none)
      let s := if ok.args then 0 else sphHelperStatusIdMemory
      if s ≠ 0 then return (s, none)
      else
        let size ← initialized (if ok.args then some args.length else none)
        inBlock 0 args.length size
        match irOf f args with
        | none => return (1, none)
        | some n =>
          let (s, st) ← filterAllocCarry ok.carry n ⟨f, args.length, args, size, 0, 0, 0, none⟩
          return (s, if s = 0 then some st else none)

/-- A caller that makes a list of calls with one state, going on after failures. Gives the statuses and the state. -/
def filterAllocCalls (irOf : F → List UInt8 → Option Nat) :
    List (FilterAllocOk × F × List UInt8) → Option (FilterSizes F) → C (List Nat × Option (FilterSizes F))
  | [], st => .ok ([], st)
  | (ok, f, args) :: rest, st => do
    let (s, st) ← filterAllocSet irOf ok f args st
    let (ss, st) ← filterAllocCalls irOf rest st
    return (s :: ss, st)

end Sp
