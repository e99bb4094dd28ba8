import Verif.Model.Noise

/-!
# Model of the memory of convolution filter states (filter.c)

Only what is allocated and freed, see `Verif.Model.ConvolutionFilter` for the samples. `irOf f args` is the length of the
array that the impulse response function `f` allocates for the argument bytes `args`, or `none` if it fails; then it has
allocated nothing. Simplified: memory allocation succeeds, `realloc` returns a new
address, and impulse responses are not empty, which the source assumes (filter.c:53); the model does not describe length 0.
-/

namespace Sp
variable {F : Type} [DecidableEq F]

/-- `sp_convolution_filter_state_t` and its address `addr`. `argBytes` is what `args` points to.
/repo/source/c-precompiled/sph-sp/filter.h:5-14 -/
structure FilterMem (F : Type) where
  addr : Nat
  ir : Nat
  carry : Option Nat
  carryAlloc : Nat
  args : Nat
  argBytes : List UInt8
  irF : F
  argsLen : Nat
  irLen : Nat

/-- `realloc` of the allocation at `a`. -/
def Live.realloc (m : Live) (a : Nat) : C (Nat × Live) := do
  let m ← m.free (some a)
  return m.malloc

/-- The end of `sp_convolution_filter_state_set`: the carryover array for an impulse response of length `n` at `ir`.
/repo/source/c-precompiled/sph-sp/filter.c:59-82 -/
def filterMemCarry (n ir : Nat) (st : FilterMem F) (m : Live) : C (FilterMem F × Live) := do
  match st.carry with
  | some c =>
    if n > st.irLen ∧ n - 1 > st.carryAlloc then
      let (c, m) ← m.realloc c
      return ({ st with carry := some c, carryAlloc := n - 1, ir := ir, irLen := n }, m)
    else return ({ st with ir := ir, irLen := n }, m)
  | none =>
    if n - 1 ≠ 0 then
      let (c, m) := m.malloc
      return ({ st with carry := some c, carryAlloc := n - 1, ir := ir, irLen := n }, m)
    else return ({ st with carryAlloc := n - 1, ir := ir, irLen := n }, m)

/-- The argument block of an existing state made large enough. /repo/source/c-precompiled/sph-sp/filter.c:34-36 -/
def filterMemArgs (args : List UInt8) (st : FilterMem F) (m : Live) : C (Nat × Live) :=
  if args.length > st.argsLen then m.realloc st.args else .ok (st.args, m)

/-- `sp_convolution_filter_state_set`: success, `*out_state` and the memory. After a failure the registered memory is freed,
which is the state and the arguments if they were new. /repo/source/c-precompiled/sph-sp/filter.c:17-88 -/
def filterMemSet (irOf : F → List UInt8 → Option Nat) (f : F) (args : List UInt8) (old : Option (FilterMem F)) (m : Live) :
    C (Bool × Option (FilterMem F) × Live) := do
  match old with
  | some st =>
    if st.irF = f ∧ args.length = st.argsLen ∧ st.argBytes.take args.length = args then return (true, some st, m)
    else
      let (a, m) ← filterMemArgs args st m
      let m ← m.free (some st.ir)
      let st := { st with args := a, argBytes := args ++ st.argBytes.drop args.length }
      match irOf f args with
      | none => return (false, some st, m)
      | some n =>
        let (ir, m) := m.malloc
        let (st, m) ← filterMemCarry n ir st m
        return (true, some st, m)
  | none =>
    let (s, m) := m.malloc
    let (a, m) := m.malloc
    match irOf f args with
    | none =>
      let m ← m.free (some s)
      let m ← m.free (some a)
      return (false, none, m)
    | some n =>
      let (ir, m) := m.malloc
      let (st, m) ← filterMemCarry n ir ⟨s, ir, none, 0, a, args, f, args.length, 0⟩ m
      return (true, some st, m)

/-- A caller that makes a list of calls with one state, going on after failures. -/
def filterMemCalls (irOf : F → List UInt8 → Option Nat) :
    List (F × List UInt8) → Option (FilterMem F) → Live → C (Option (FilterMem F) × Live)
  | [], st, m => .ok (st, m)
  | (f, args) :: rest, st, m => do
    let (_, st, m) ← filterMemSet irOf f args st m
    filterMemCalls irOf rest st m

/-- `sp_convolution_filter_state_free`. /repo/source/c-precompiled/sph-sp/filter.c:1-9 -/
def filterMemFree (st : Option (FilterMem F)) (m : Live) : C Live := do
  match st with
  | none => return m
  | some st =>
    let m ← m.free (some st.ir)
    let m ← m.free st.carry
    let m ← m.free (some st.args)
    m.free (some st.addr)

end Sp
