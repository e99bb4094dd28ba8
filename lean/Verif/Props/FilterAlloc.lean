import Verif.Model.FilterAlloc
import Verif.Model.FilterMemory
import Verif.Lemmas.SeqTrace

/-! # C176: failing allocations in convolution filters -/

set_option linter.unusedSectionVars false

namespace Sp
variable {F : Type} [DecidableEq F]

/-- What the source says about states: the carryover array has `carryover_alloc_len` elements, of which `ir_len - 1` are used, and the
argument block has place for the arguments. -/
structure FilterSizes.Valid (st : FilterSizes F) : Prop where
  args : st.argsLen ≤ st.argsSize
  ir : 1 ≤ st.irLen
  len : st.carryLen = st.irLen - 1
  alloc : st.carryAlloc = st.carry.getD 0
  used : st.carryLen ≤ st.carryAlloc

/-- The call needs no new impulse response: same function, same arguments. -/
def FilterSizes.Unchanged (st : FilterSizes F) (f : F) (args : List UInt8) : Prop :=
  st.irF = f ∧ args.length = st.argsLen ∧ st.argBytes.take args.length = args

/-- The allocations that a call cannot do without succeed. -/
def FilterAllocOk.Enough (ok : FilterAllocOk) (ir : Option Nat) (args : List UInt8) : Option (FilterSizes F) → Prop
  | none => ok.state = true ∧ ok.args = true ∧ ∀ n, ir = some n → n > 1 → ok.carry = true
  | some st => (args.length > st.argsSize → ok.args = true) ∧ ∀ n, ir = some n → n - 1 > st.carry.getD 0 → ok.carry = true

private theorem inBlock_ok {start n size : Nat} (h : start + n ≤ size) : inBlock start n size = .ok () := by
  unfold inBlock
  rw [if_pos (.inr h)]

private theorem inBlock_error {start n size : Nat} (h : n ≠ 0) (h2 : size < start + n) : inBlock start n size = .error .outOfBounds := by
  unfold inBlock
  rw [if_neg (by omega)]

/-- The result of the end of the function if the carryover array is large enough. -/
private def carried (n : Nat) (st : FilterSizes F) : FilterSizes F :=
  { st with carryLen := n - 1, irLen := n, carryAlloc := max st.carryAlloc (n - 1), carry := if n - 1 > st.carry.getD 0 then some (n - 1) else st.carry }

private theorem carry_cases {n : Nat} (hn : 1 ≤ n) {st : FilterSizes F} (halloc : st.carryAlloc = st.carry.getD 0)
    (hused : st.carry ≠ none → 1 ≤ st.irLen ∧ st.irLen - 1 ≤ st.carryAlloc) (ok : Bool) :
    (n - 1 > st.carry.getD 0 ∧ ok = false ∧ ∃ e, filterAllocCarry ok n st = .error e) ∨
    ((n - 1 > st.carry.getD 0 → ok = true) ∧ filterAllocCarry ok n st = .ok (0, carried n st)) := by
  unfold filterAllocCarry carried
  cases hc : st.carry with
  | none =>
    rw [hc] at halloc
    simp only [Option.getD_none] at halloc ⊢
    by_cases h1 : n - 1 = 0
    · right
      rw [if_neg (by omega), halloc, h1]
      refine ⟨by omega, rfl⟩
    · have hpos : n - 1 > 0 := by omega
      rw [if_pos h1, halloc]
      cases ok
      · left
        exact ⟨hpos, rfl, .uninitialized, rfl⟩
      · right
        refine ⟨fun _ => rfl, ?_⟩
        rw [Nat.max_eq_right (by omega), if_pos hpos]
        rfl
  | some c =>
    rw [hc] at halloc hused
    obtain ⟨h1, h2⟩ := hused (by simp)
    simp only [Option.getD_some] at halloc ⊢
    rw [halloc] at h2 ⊢
    by_cases hlt : n > st.irLen
    · rw [if_pos hlt]
      by_cases ha : n - 1 > c
      · rw [if_pos ha, if_pos ha, Nat.max_eq_right (by omega)]
        cases ok
        · left
          refine ⟨ha, rfl, .outOfBounds, ?_⟩
          simp only [reallocSize, Bool.false_eq_true, if_false, sphHelperStatusIdMemory, ne_eq, not_true_eq_false]
          rw [inBlock_error (by omega) (by omega)]
          rfl
        · right
          refine ⟨fun _ => rfl, ?_⟩
          simp only [reallocSize, if_true, ne_eq, not_true_eq_false, if_false]
          rw [inBlock_ok (by omega)]
          rfl
      · right
        rw [if_neg ha, if_neg ha, Nat.max_eq_left (by omega)]
        refine ⟨fun h => absurd h ha, ?_⟩
        rw [inBlock_ok (by omega), ok_bind', ← hc, ← halloc]
        rfl
    · right
      have ha : ¬ n - 1 > c := by omega
      rw [if_neg hlt, if_neg ha, Nat.max_eq_left (by omega), ← hc, ← halloc]
      exact ⟨fun h => absurd h (by omega), rfl⟩

/-- The states after a call with enough memory. `size` is the size of the argument block. -/
private def after (irOf : F → List UInt8 → Option Nat) (f : F) (args : List UInt8) (size : Nat) : Option (FilterSizes F) → Nat × Option (FilterSizes F)
  | none => match irOf f args with
    | none => (1, none)
    | some n => (0, some (carried n ⟨f, args.length, args, args.length, 0, 0, 0, none⟩))
  | some st => match irOf f args with
    | none => (1, some { st with argsSize := size, argBytes := args ++ st.argBytes.drop args.length })
    | some n => (0, some (carried n { st with argsSize := size, argBytes := args ++ st.argBytes.drop args.length }))

private theorem set_new {irOf : F → List UInt8 → Option Nat} {f : F} {args : List UInt8} (hn : ∀ n, irOf f args = some n → 1 ≤ n) (ok : FilterAllocOk) :
    (¬ ok.Enough (irOf f args) args (none : Option (FilterSizes F)) ∧ ∃ e, filterAllocSet irOf ok f args none = .error e) ∨
    (ok.Enough (irOf f args) args (none : Option (FilterSizes F)) ∧ filterAllocSet irOf ok f args none = .ok (after irOf f args 0 none)) := by
  obtain ⟨os, oa, oc⟩ := ok
  unfold filterAllocSet FilterAllocOk.Enough after
  cases os
  · left
    exact ⟨by simp, _, rfl⟩
  cases oa
  · left
    exact ⟨by simp, _, rfl⟩
  simp only [if_true, ne_eq, not_true_eq_false, if_false, initialized, ok_bind', true_and]
  rw [inBlock_ok (by omega), ok_bind']
  cases hi : irOf f args with
  | none =>
    right
    exact ⟨by simp, rfl⟩
  | some n =>
    rcases carry_cases (hn n hi) (st := (⟨f, args.length, args, args.length, 0, 0, 0, none⟩ : FilterSizes F)) rfl (by simp) oc with
      ⟨h1, h2, e, h3⟩ | ⟨h1, h2⟩
    · left
      simp only [Option.getD_none] at h1
      refine ⟨fun h => ?_, e, ?_⟩
      · rw [h n rfl (by omega)] at h2
        exact absurd h2 (by simp)
      · simp only [h3]
        rfl
    · right
      simp only [Option.getD_none] at h1
      refine ⟨fun k hk h => h1 ?_, ?_⟩
      · obtain rfl := Option.some.inj hk
        omega
      · simp only [h2]
        rfl

private theorem set_old {irOf : F → List UInt8 → Option Nat} {f : F} {args : List UInt8} (hn : ∀ n, irOf f args = some n → 1 ≤ n) (ok : FilterAllocOk)
    {st : FilterSizes F} (hv : st.Valid) (hu : ¬ st.Unchanged f args) :
    (¬ ok.Enough (irOf f args) args (some st) ∧ ∃ e, filterAllocSet irOf ok f args (some st) = .error e) ∨
    (ok.Enough (irOf f args) args (some st) ∧ filterAllocSet irOf ok f args (some st) =
      .ok (after irOf f args (if args.length > st.argsLen ∧ ok.args = true then args.length else st.argsSize) (some st))) := by
  unfold filterAllocSet after
  have hsame : (if st.irF = f ∧ args.length = st.argsLen then do
        inBlock 0 args.length st.argsSize
        pure (decide (st.argBytes.take args.length = args))
      else pure false : C Bool) = .ok false := by
    by_cases h : st.irF = f ∧ args.length = st.argsLen
    · have := hv.args
      rw [if_pos h, inBlock_ok (by omega), ok_bind']
      have h2 : ¬ st.argBytes.take args.length = args := fun h2 => hu ⟨h.1, h.2, h2⟩
      rw [decide_eq_false h2]
      rfl
    · rw [if_neg h]
      rfl
  simp only [hsame, ok_bind', Bool.false_eq_true, if_false]
  have hsize : (if args.length > st.argsLen then reallocSize ok.args args.length st.argsSize else (0, st.argsSize)) =
      (0, if args.length > st.argsLen ∧ ok.args = true then args.length else st.argsSize) := by
    by_cases h : args.length > st.argsLen
    · rw [if_pos h]
      cases hb : ok.args <;> simp [reallocSize, h, sphHelperStatusIdMemory]
    · rw [if_neg h, if_neg (fun h2 => h h2.1)]
  rw [hsize]
  simp only [ne_eq, not_true_eq_false, if_false]
  by_cases hfit : args.length > st.argsSize ∧ ok.args = false
  · left
    refine ⟨fun h => ?_, .outOfBounds, ?_⟩
    · rw [h.1 hfit.1] at hfit
      exact absurd hfit.2 (by simp)
    · rw [if_neg (by simp [hfit.2]), inBlock_error (by omega) (by omega)]
      rfl
  · have h1 : args.length ≤ (if args.length > st.argsLen ∧ ok.args = true then args.length else st.argsSize) := by
      split
      · exact Nat.le_refl _
      · rename_i h
        have := hv.args
        cases hb : ok.args <;> simp [hb] at hfit h <;> omega
    have h2 : args.length > st.argsSize → ok.args = true := by
      intro h
      by_contra hc
      exact hfit ⟨h, by simpa using hc⟩
    rw [inBlock_ok (by omega), ok_bind']
    cases hi : irOf f args with
    | none =>
      right
      exact ⟨⟨h2, by simp⟩, rfl⟩
    | some n =>
      have hlen := hv.len
      have hused := hv.used
      rcases carry_cases (hn n hi) (st := { st with argsSize := (if args.length > st.argsLen ∧ ok.args = true then args.length else st.argsSize), argBytes := args ++ st.argBytes.drop args.length }) hv.alloc (fun _ => ⟨hv.ir, by simp only; omega⟩) ok.carry with
        ⟨h3, h4, e, h5⟩ | ⟨h3, h4⟩
      · left
        refine ⟨fun h => ?_, e, ?_⟩
        · rw [h.2 n rfl h3] at h4
          exact absurd h4 (by simp)
        · simp only [h5]
          rfl
      · right
        refine ⟨⟨h2, fun k hk h => h3 ?_⟩, ?_⟩
        · obtain rfl := Option.some.inj hk
          exact h
        · simp only [h4]
          rfl

private theorem set_same {irOf : F → List UInt8 → Option Nat} {f : F} {args : List UInt8} (ok : FilterAllocOk)
    {st : FilterSizes F} (hv : st.Valid) (hu : st.Unchanged f args) : filterAllocSet irOf ok f args (some st) = .ok (0, some st) := by
  obtain ⟨h1, h2, h3⟩ := hu
  have := hv.args
  unfold filterAllocSet
  simp only
  rw [if_pos ⟨h1, h2⟩, inBlock_ok (by omega), h3]
  simp

/-- The states that calls make are valid. -/
private theorem valid_after {irOf : F → List UInt8 → Option Nat} {f : F} {args : List UInt8} (hn : ∀ n, irOf f args = some n → 1 ≤ n) {size : Nat}
    {old : Option (FilterSizes F)} (hv : ∀ st, old = some st → st.Valid) (hs : ∀ st, old = some st → st.argsLen ≤ size) :
    ∀ st, (after irOf f args size old).2 = some st → st.Valid := by
  intro st h
  have key : ∀ n (b : FilterSizes F), 1 ≤ n → b.argsLen ≤ b.argsSize → b.carryAlloc = b.carry.getD 0 → (carried n b).Valid := by
    intro n b h1 h2 h3
    refine ⟨h2, h1, rfl, ?_, Nat.le_max_right _ _⟩
    simp only [carried]
    rw [h3]
    split
    · rw [Option.getD_some]
      omega
    · omega
  unfold after at h
  cases old with
  | none =>
    cases hi : irOf f args with
    | none => simp [hi] at h
    | some n =>
      simp only [hi, Option.some.injEq] at h
      rw [← h]
      exact key _ _ (hn n hi) (Nat.le_refl _) rfl
  | some b =>
    have hb := hv b rfl
    cases hi : irOf f args with
    | none =>
      simp only [hi, Option.some.injEq] at h
      rw [← h]
      exact ⟨hs b rfl, hb.ir, hb.len, hb.alloc, hb.used⟩
    | some n =>
      simp only [hi, Option.some.injEq] at h
      rw [← h]
      exact key _ _ (hn n hi) (hs b rfl) hb.alloc

private theorem set_valid {irOf : F → List UInt8 → Option Nat} (hn : ∀ f args n, irOf f args = some n → 1 ≤ n) (ok : FilterAllocOk) (f : F) (args : List UInt8)
    {old : Option (FilterSizes F)} (hv : ∀ st, old = some st → st.Valid) {s : Nat} {st' : Option (FilterSizes F)}
    (h : filterAllocSet irOf ok f args old = .ok (s, st')) : ∀ st, st' = some st → st.Valid := by
  cases old with
  | none =>
    rcases set_new (hn f args) ok with ⟨-, e, h1⟩ | ⟨-, h1⟩
    · rw [h1] at h
      exact absurd h (by simp)
    · rw [h1] at h
      have h2 := congrArg Prod.snd (Except.ok.inj h)
      simp only at h2
      rw [← h2]
      exact valid_after (hn f args) (fun _ h => absurd h (by simp)) (fun _ h => absurd h (by simp))
  | some b =>
    by_cases hu : b.Unchanged f args
    · rw [set_same ok (hv b rfl) hu] at h
      simp only [Except.ok.injEq, Prod.mk.injEq] at h
      rw [← h.2]
      exact hv
    · rcases set_old (hn f args) ok (hv b rfl) hu with ⟨-, e, h1⟩ | ⟨-, h1⟩
      · rw [h1] at h
        exact absurd h (by simp)
      · rw [h1] at h
        have h2 := congrArg Prod.snd (Except.ok.inj h)
        simp only at h2
        rw [← h2]
        refine valid_after (hn f args) hv ?_
        intro st hst
        obtain rfl := Option.some.inj hst
        have := (hv b rfl).args
        split <;> omega

/-- **C176, partial.** For every sequence of calls with one state, beginning without a state, with any functions, arguments, failures of the impulse response
functions and failures of allocations: if the sequence has a result, then the carryover array has the stored size and place for all that is carried over, and the
argument block has place for the arguments. Missing: that the sequence has a result if allocations fail, see below. -/
theorem C176_sizes_partial {irOf : F → List UInt8 → Option Nat} (hn : ∀ f args n, irOf f args = some n → 1 ≤ n)
    (calls : List (FilterAllocOk × F × List UInt8)) {ss : List Nat} {st : FilterSizes F}
    (h : filterAllocCalls irOf calls none = .ok (ss, some st)) :
    st.argsLen ≤ st.argsSize ∧ st.carryLen = st.irLen - 1 ∧ st.carryLen ≤ st.carry.getD 0 ∧ st.carryAlloc = st.carry.getD 0 := by
  have key : ∀ (calls : List (FilterAllocOk × F × List UInt8)) (old : Option (FilterSizes F)), (∀ st, old = some st → st.Valid) →
      ∀ ss st, filterAllocCalls irOf calls old = .ok (ss, some st) → st.Valid := by
    intro calls
    induction calls with
    | nil =>
      intro old hv ss st h
      simp only [filterAllocCalls, Except.ok.injEq, Prod.mk.injEq] at h
      exact hv st h.2
    | cons c rest ih =>
      obtain ⟨ok, f, args⟩ := c
      intro old hv ss st h
      unfold filterAllocCalls at h
      obtain ⟨⟨s, st1⟩, h1, h⟩ := bind_eq_ok.1 h
      obtain ⟨⟨ss', st2⟩, h2, h⟩ := bind_eq_ok.1 h
      simp only [pure_eq_ok, Except.ok.injEq, Prod.mk.injEq] at h
      rw [h.2] at h2
      exact ih st1 (set_valid hn ok f args hv h1) ss' st h2
  have hv := key calls none (by simp) ss st h
  exact ⟨hv.args, hv.len, hv.alloc ▸ hv.used, hv.alloc⟩

/-- **C176 is false**: for every state, function and arguments, a failing allocation is never reported. Every status other than success is that of the
impulse response function. -/
theorem C176_reported_false {irOf : F → List UInt8 → Option Nat} (hn : ∀ f args n, irOf f args = some n → 1 ≤ n) (ok : FilterAllocOk) (f : F)
    (args : List UInt8) {old : Option (FilterSizes F)} (hv : ∀ st, old = some st → st.Valid) {s : Nat} {st' : Option (FilterSizes F)}
    (h : filterAllocSet irOf ok f args old = .ok (s, st')) : s = 0 ∨ s = 1 ∧ irOf f args = none := by
  have key : ∀ size, (after irOf f args size old).1 = 0 ∨ (after irOf f args size old).1 = 1 ∧ irOf f args = none := by
    intro size
    unfold after
    cases old <;> cases irOf f args <;> simp
  cases old with
  | none =>
    rcases set_new (hn f args) ok with ⟨-, e, h1⟩ | ⟨-, h1⟩
    · rw [h1] at h
      exact absurd h (by simp)
    · rw [h1] at h
      have h2 := congrArg Prod.fst (Except.ok.inj h)
      rw [← show _ = s from h2]
      exact key 0
  | some b =>
    by_cases hu : b.Unchanged f args
    · rw [set_same ok (hv b rfl) hu] at h
      simp only [Except.ok.injEq, Prod.mk.injEq] at h
      exact .inl h.1.symm
    · rcases set_old (hn f args) ok (hv b rfl) hu with ⟨-, e, h1⟩ | ⟨-, h1⟩
      · rw [h1] at h
        exact absurd h (by simp)
      · rw [h1] at h
        have h2 := congrArg Prod.fst (Except.ok.inj h)
        rw [← show _ = s from h2]
        exact key _

/-- **C176, exactly.** A call without a state has a result if and only if allocating the state and the arguments succeeds and, for an impulse response of more
than one sample, allocating the carryover array. Otherwise the behaviour is undefined. -/
theorem C176_new_defined_iff {irOf : F → List UInt8 → Option Nat} {f : F} {args : List UInt8} (hn : ∀ n, irOf f args = some n → 1 ≤ n) (ok : FilterAllocOk) :
    (∃ r, filterAllocSet irOf ok f args none = .ok r) ↔
      ok.state = true ∧ ok.args = true ∧ ∀ n, irOf f args = some n → n > 1 → ok.carry = true := by
  rcases set_new hn ok with ⟨h1, e, h2⟩ | ⟨h1, h2⟩
  · rw [h2]
    exact ⟨fun ⟨r, h⟩ => absurd h (by simp), fun h => absurd h h1⟩
  · exact ⟨fun _ => h1, fun _ => ⟨_, h2⟩⟩

/-- **C176, exactly.** A call that changes the impulse response of a state has a result if and only if allocating succeeds where the argument block or the carryover
array are too small. Otherwise the behaviour is undefined. -/
theorem C176_update_defined_iff {irOf : F → List UInt8 → Option Nat} {f : F} {args : List UInt8} (hn : ∀ n, irOf f args = some n → 1 ≤ n) (ok : FilterAllocOk)
    {st : FilterSizes F} (hv : st.Valid) (hu : ¬ (st.irF = f ∧ args.length = st.argsLen ∧ st.argBytes.take args.length = args)) :
    (∃ r, filterAllocSet irOf ok f args (some st) = .ok r) ↔
      (args.length > st.argsSize → ok.args = true) ∧ ∀ n, irOf f args = some n → n - 1 > st.carry.getD 0 → ok.carry = true := by
  rcases set_old hn ok hv hu with ⟨h1, e, h2⟩ | ⟨h1, h2⟩
  · rw [h2]
    exact ⟨fun ⟨r, h⟩ => absurd h (by simp), fun h => absurd h h1⟩
  · exact ⟨fun _ => h1, fun _ => ⟨_, h2⟩⟩

/-- If all allocations succeed then every sequence of calls has a result: no access outside of the blocks, and one status for each call. -/
theorem C176_succeeds_partial {irOf : F → List UInt8 → Option Nat} (hn : ∀ f args n, irOf f args = some n → 1 ≤ n)
    (calls : List (F × List UInt8)) :
    ∃ ss st, filterAllocCalls irOf (calls.map fun c => (⟨true, true, true⟩, c)) none = .ok (ss, st) ∧ ss.length = calls.length := by
  have key : ∀ (calls : List (F × List UInt8)) (old : Option (FilterSizes F)), (∀ st, old = some st → st.Valid) →
      ∃ ss st, filterAllocCalls irOf (calls.map fun c => (⟨true, true, true⟩, c)) old = .ok (ss, st) ∧ ss.length = calls.length := by
    intro calls
    induction calls with
    | nil => exact fun old _ => ⟨[], old, rfl, rfl⟩
    | cons c rest ih =>
      obtain ⟨f, args⟩ := c
      intro old hv
      have h1 : ∃ s st', filterAllocSet irOf ⟨true, true, true⟩ f args old = .ok (s, st') := by
        cases old with
        | none =>
          obtain ⟨⟨s, st'⟩, h⟩ := (C176_new_defined_iff (hn f args) ⟨true, true, true⟩).2 ⟨rfl, rfl, fun _ _ _ => rfl⟩
          exact ⟨s, st', h⟩
        | some b =>
          by_cases hu : b.Unchanged f args
          · exact ⟨_, _, set_same _ (hv b rfl) hu⟩
          · obtain ⟨⟨s, st'⟩, h⟩ := (C176_update_defined_iff (hn f args) ⟨true, true, true⟩ (hv b rfl) hu).2 ⟨fun _ => rfl, fun _ _ _ => rfl⟩
            exact ⟨s, st', h⟩
      obtain ⟨s, st', h1⟩ := h1
      obtain ⟨ss, st2, h2, h3⟩ := ih st' (set_valid hn _ f args hv h1)
      refine ⟨s :: ss, st2, ?_, by simp [h3]⟩
      simp only [List.map_cons, filterAllocCalls, h1, ok_bind']
      rw [h2]
      rfl
  exact key calls none (by simp)

/-- Equal but for the size of the argument block. -/
def FilterSizes.EqualButArgsSize (a b : FilterSizes F) : Prop :=
  a = { b with argsSize := a.argsSize }

/-- If a call has a result though allocations fail, then its result is the one that it has if all allocations succeed. -/
theorem C176_result {irOf : F → List UInt8 → Option Nat} (hn : ∀ f args n, irOf f args = some n → 1 ≤ n) (ok : FilterAllocOk) (f : F)
    (args : List UInt8) {old : Option (FilterSizes F)} (hv : ∀ st, old = some st → st.Valid) {s : Nat} {st' : Option (FilterSizes F)}
    (h : filterAllocSet irOf ok f args old = .ok (s, st')) :
    ∃ st2, filterAllocSet irOf ⟨true, true, true⟩ f args old = .ok (s, st2) ∧ Option.Rel FilterSizes.EqualButArgsSize st' st2 := by
  cases old with
  | none =>
    rcases set_new (hn f args) ok with ⟨-, e, h1⟩ | ⟨-, h1⟩
    · rw [h1] at h
      exact absurd h (by simp)
    rcases set_new (hn f args) ⟨true, true, true⟩ with ⟨h2, -⟩ | ⟨-, h2⟩
    · exact absurd ⟨rfl, rfl, fun _ _ _ => rfl⟩ h2
    rw [h2, ← h1, h]
    refine ⟨st', rfl, ?_⟩
    cases st' with
    | none => exact .none
    | some a => exact .some rfl
  | some b =>
    by_cases hu : b.Unchanged f args
    · rw [set_same ok (hv b rfl) hu] at h
      simp only [Except.ok.injEq, Prod.mk.injEq] at h
      rw [set_same _ (hv b rfl) hu, ← h.1, ← h.2]
      exact ⟨_, rfl, .some rfl⟩
    · rcases set_old (hn f args) ok (hv b rfl) hu with ⟨-, e, h1⟩ | ⟨-, h1⟩
      · rw [h1] at h
        exact absurd h (by simp)
      rcases set_old (hn f args) ⟨true, true, true⟩ (hv b rfl) hu with ⟨h2, -⟩ | ⟨-, h2⟩
      · exact absurd ⟨fun _ => rfl, fun _ _ _ => rfl⟩ h2
      rw [h1] at h
      have h3 := Except.ok.inj h
      rw [h2]
      unfold after at h3 ⊢
      cases hi : irOf f args with
      | none =>
        simp only [hi, Prod.mk.injEq] at h3
        simp only
        rw [← h3.1, ← h3.2]
        exact ⟨_, rfl, .some rfl⟩
      | some n =>
        simp only [hi, Prod.mk.injEq] at h3
        simp only
        rw [← h3.1, ← h3.2]
        exact ⟨_, rfl, .some rfl⟩

/-- The states of `Verif.Model.FilterMemory` and those here have the same fields. -/
structure FilterSizes.Same (a : FilterSizes F) (b : FilterMem F) : Prop where
  irF : a.irF = b.irF
  argsLen : a.argsLen = b.argsLen
  argBytes : a.argBytes = b.argBytes
  irLen : a.irLen = b.irLen
  carryAlloc : a.carryAlloc = b.carryAlloc
  carry : a.carry = none ↔ b.carry = none

/-- If all allocations succeed then this is what `Verif.Model.FilterMemory` describes: same success and same fields of the state. -/
theorem C176_agrees {irOf : F → List UInt8 → Option Nat} (hn : ∀ f args n, irOf f args = some n → 1 ≤ n) (f : F) (args : List UInt8)
    {old : Option (FilterSizes F)} {old2 : Option (FilterMem F)} (hv : ∀ st, old = some st → st.Valid) (hs : Option.Rel FilterSizes.Same old old2)
    {m m' : Live} {r : Bool} {st2 : Option (FilterMem F)} (h : filterMemSet irOf f args old2 m = .ok (r, st2, m')) :
    ∃ s st, filterAllocSet irOf ⟨true, true, true⟩ f args old = .ok (s, st) ∧ (s = 0 ↔ r = true) ∧ Option.Rel FilterSizes.Same st st2 := by
  have carry : ∀ (n : Nat) (a : FilterSizes F) (b : FilterMem F) (ir : Nat) (m m' : Live) (b' : FilterMem F), a.Same b →
      a.carryAlloc = a.carry.getD 0 → (a.carry ≠ none → a.irLen - 1 ≤ a.carryAlloc) → filterMemCarry n ir b m = .ok (b', m') → (carried n a).Same b' := by
    intro n a b ir m m' b' hab halloc hused hc
    unfold filterMemCarry at hc
    cases hbc : b.carry with
    | none =>
      have hac := hab.carry.2 hbc
      rw [hac, Option.getD_none] at halloc
      simp only [hbc] at hc
      by_cases h1 : n - 1 = 0
      · rw [if_neg (by omega)] at hc
        obtain ⟨rfl, -⟩ := Prod.mk.inj (Except.ok.inj hc)
        refine ⟨hab.irF, hab.argsLen, hab.argBytes, rfl, ?_, ?_⟩
        · simp only [carried]
          omega
        · simp only [carried, hac, Option.getD_none]
          rw [if_neg (by omega)]
          simp [hbc]
      · rw [if_pos h1] at hc
        obtain ⟨rfl, -⟩ := Prod.mk.inj (Except.ok.inj hc)
        refine ⟨hab.irF, hab.argsLen, hab.argBytes, rfl, ?_, ?_⟩
        · simp only [carried]
          omega
        · simp only [carried, hac, Option.getD_none]
          rw [if_pos (by omega)]
          simp
    | some c =>
      have hne : a.carry ≠ none := fun h => by simp [hab.carry.1 h] at hbc
      have hu := hused hne
      obtain ⟨c', hac⟩ := Option.ne_none_iff_exists'.1 hne
      have hir := hab.irLen
      have hal := hab.carryAlloc
      rw [hac, Option.getD_some] at halloc
      simp only [hbc] at hc
      by_cases h1 : n > b.irLen ∧ n - 1 > b.carryAlloc
      · rw [if_pos h1] at hc
        obtain ⟨⟨c2, m2⟩, -, hc⟩ := bind_eq_ok.1 hc
        obtain ⟨rfl, -⟩ := Prod.mk.inj (Except.ok.inj hc)
        refine ⟨hab.irF, hab.argsLen, hab.argBytes, rfl, ?_, ?_⟩
        · simp only [carried]
          omega
        · simp only [carried, hac, Option.getD_some]
          rw [if_pos (by omega)]
          simp
      · rw [if_neg h1] at hc
        obtain ⟨rfl, -⟩ := Prod.mk.inj (Except.ok.inj hc)
        refine ⟨hab.irF, hab.argsLen, hab.argBytes, rfl, ?_, ?_⟩
        · simp only [carried]
          omega
        · simp only [carried, hac, Option.getD_some]
          rw [if_neg (by omega)]
          simp [hbc]
  cases hs with
  | none =>
    rcases set_new (hn f args) ⟨true, true, true⟩ with ⟨h2, -⟩ | ⟨-, h2⟩
    · exact absurd ⟨rfl, rfl, fun _ _ _ => rfl⟩ h2
    refine ⟨_, _, h2, ?_⟩
    unfold filterMemSet at h
    cases hi : irOf f args with
    | none =>
      simp only [hi] at h ⊢
      obtain ⟨m2, -, h⟩ := bind_eq_ok.1 h
      obtain ⟨m3, -, h⟩ := bind_eq_ok.1 h
      obtain ⟨rfl, h9⟩ := Prod.mk.inj (Except.ok.inj h)
      obtain ⟨rfl, -⟩ := Prod.mk.inj h9
      exact ⟨by simp, .none⟩
    | some n =>
      simp only [hi] at h ⊢
      obtain ⟨⟨b', m2⟩, hc, h⟩ := bind_eq_ok.1 h
      obtain ⟨rfl, h9⟩ := Prod.mk.inj (Except.ok.inj h)
      obtain ⟨rfl, -⟩ := Prod.mk.inj h9
      refine ⟨by simp, .some ?_⟩
      exact carry n _ _ _ _ _ _ ⟨rfl, rfl, rfl, rfl, rfl, by simp⟩ rfl (by simp) hc
  | @some a b hab =>
    have hva := hv a rfl
    unfold filterMemSet at h
    simp only at h
    have hiff : (b.irF = f ∧ args.length = b.argsLen ∧ b.argBytes.take args.length = args) ↔ a.Unchanged f args := by
      unfold FilterSizes.Unchanged
      rw [hab.irF, hab.argsLen, hab.argBytes]
    by_cases hu : a.Unchanged f args
    · rw [if_pos (hiff.2 hu)] at h
      obtain ⟨rfl, h9⟩ := Prod.mk.inj (Except.ok.inj h)
      obtain ⟨rfl, -⟩ := Prod.mk.inj h9
      exact ⟨_, _, set_same _ hva hu, by simp, .some hab⟩
    · rw [if_neg (fun h => hu (hiff.1 h))] at h
      rcases set_old (hn f args) ⟨true, true, true⟩ hva hu with ⟨h2, -⟩ | ⟨-, h2⟩
      · exact absurd ⟨fun _ => rfl, fun _ _ _ => rfl⟩ h2
      refine ⟨_, _, h2, ?_⟩
      obtain ⟨⟨a', m2⟩, -, h⟩ := bind_eq_ok.1 h
      obtain ⟨m3, -, h⟩ := bind_eq_ok.1 h
      cases hi : irOf f args with
      | none =>
        simp only [hi] at h ⊢
        obtain ⟨rfl, h9⟩ := Prod.mk.inj (Except.ok.inj h)
        obtain ⟨rfl, -⟩ := Prod.mk.inj h9
        refine ⟨by simp, .some ⟨hab.irF, hab.argsLen, ?_, hab.irLen, hab.carryAlloc, hab.carry⟩⟩
        simp only
        rw [hab.argBytes]
      | some n =>
        simp only [hi] at h ⊢
        obtain ⟨⟨b', m4⟩, hc, h⟩ := bind_eq_ok.1 h
        obtain ⟨rfl, h9⟩ := Prod.mk.inj (Except.ok.inj h)
        obtain ⟨rfl, -⟩ := Prod.mk.inj h9
        refine ⟨by simp, .some ?_⟩
        refine carry n _ { b with args := a', argBytes := args ++ b.argBytes.drop args.length } _ _ _ _
          ⟨hab.irF, hab.argsLen, ?_, hab.irLen, hab.carryAlloc, hab.carry⟩ hva.alloc (fun _ => ?_) hc
        · simp only
          rw [hab.argBytes]
        · have h1 := hva.len
          have h3 := hva.used
          simp only
          omega

/-- An impulse response of as many samples as the first argument byte says, failing without arguments. -/
private def irOfByte (_ : Unit) (a : List UInt8) : Option Nat := if a = [] then none else some (1 + (a.headD 0).toNat)

/-- Non-vacuity: five calls, of which one enlarges the carryover array, one both blocks and one fails because of its arguments. -/
example : (filterAllocCalls irOfByte ([[2], [7], [9, 1, 1], [], [3]].map fun a => (⟨true, true, true⟩, (), a)) none).map
    (fun r => (r.1, r.2.map fun st => (st.argsLen, st.argsSize, st.irLen, st.carryAlloc, st.carry))) =
    .ok ([0, 0, 0, 1, 0], some (1, 3, 4, 9, some 9)) := by rfl

/-- Non-vacuity: the failing allocations, and one that is not needed. -/
example : (filterAllocSet irOfByte ⟨false, true, true⟩ () [2] none).map (·.1) = .error .uninitialized ∧
    (filterAllocSet irOfByte ⟨true, false, true⟩ () [2] none).map (·.1) = .error .uninitialized ∧
    (filterAllocSet irOfByte ⟨true, true, false⟩ () [2] none).map (·.1) = .error .uninitialized ∧
    (filterAllocSet irOfByte ⟨true, true, false⟩ () [0] none).map (·.1) = .ok 0 ∧
    (filterAllocSet irOfByte ⟨true, false, true⟩ () [2, 1] (some ⟨(), 1, [2], 1, 3, 2, 2, some 2⟩)).map (·.1) = .error .outOfBounds ∧
    (filterAllocSet irOfByte ⟨true, true, false⟩ () [3] (some ⟨(), 1, [2], 1, 3, 2, 2, some 2⟩)).map (·.1) = .error .outOfBounds ∧
    (filterAllocSet irOfByte ⟨true, false, false⟩ () [1] (some ⟨(), 1, [2], 1, 3, 2, 2, some 2⟩)).map (·.1) = .ok 0 := by
  refine ⟨?_, ?_, ?_, ?_, ?_, ?_, ?_⟩ <;> rfl

end Sp
