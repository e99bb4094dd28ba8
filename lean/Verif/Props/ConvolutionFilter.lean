import Verif.Lemmas.ConvolutionFilter
import Verif.Lemmas.SeqTrace
import Verif.Props.Convolution

/-!
# C04, C05, C06: the convolution filter over a history of calls
-/

set_option linter.unusedSectionVars false

namespace Sp
variable {F : Type} [DecidableEq F] {S : Type} [Zero S] [Add S] [Mul S]

/-! ## Connection of `tv` to the specifications -/

theorem convAcc_eq_terms (a b : Nat → S) (bLen k : Nat) (init : S) (n : Nat) :
    convAcc a b bLen k init n = (((List.range n).filter (fun i => i ≤ k ∧ k - i < bLen)).map
      (fun i => a i * b (k - i))).foldl (· + ·) init := by
  rw [convAcc_eq_foldl, List.foldl_map]

theorem tv_eq_terms (calls : List (Buf S × Buf S)) (k : Nat) (init : S) :
    tv calls k init = (convolutionTerms calls k).foldl (· + ·) init := by
  induction calls generalizing k init with
  | nil => rfl
  | cons p rest ih =>
    obtain ⟨x, h⟩ := p
    simp only [tv, convolutionTerms]
    rw [List.foldl_append, ← convAcc_eq_terms (fun i => x.getD i 0) (fun i => h.getD i 0)]
    split
    · rw [ih]
    · rfl

theorem tv_const (blocks : List (Buf S)) (h : Buf S) (k : Nat) (init : S) :
    tv (blocks.map (fun x => (x, h))) k init =
      convAcc (fun i => blocks.flatten.getD i 0) (fun i => h.getD i 0) h.length k init
        blocks.flatten.length := by
  induction blocks generalizing k init with
  | nil => rfl
  | cons x rest ih =>
    simp only [List.map_cons, tv, List.flatten_cons, List.length_append]
    have e : ∀ k, convAcc (fun i => (x ++ rest.flatten).getD i 0) (fun i => h.getD i 0) h.length k
        init x.length = convAcc (fun i => x.getD i 0) (fun i => h.getD i 0) h.length k init
        x.length := by
      intro k
      apply convAcc_congr
      intro i hi
      rw [getD_append_left' hi]
    by_cases hk : x.length ≤ k
    · obtain ⟨k', rfl⟩ := Nat.exists_eq_add_of_le hk
      rw [if_pos hk, Nat.add_sub_cancel_left, ih, convAcc_split, e]
      simp only [getD_append_right']
    · rw [if_neg hk, convAcc_stop (m := x.length) (n := x.length + _) (by omega)
        (by intro i h1 h2; omega), e]

/-! ## C04 -/

/-- **C04.** With the same function and arguments in each call the filter is seamless: all calls
succeed, the outputs one after the other are the convolution of the whole stream (bit for bit, no
laws of arithmetic), and the impulse response function is called for the first block only. -/
theorem C04_filter_seamless (irOf : F → List UInt8 → Option (Buf S)) (junk : S) (f : F)
    (args : List UInt8) (ir : Buf S) (hir : irOf f args = some ir) (hpos : 1 ≤ ir.length)
    (blocks : List (Buf S)) (h32 : ∀ x ∈ blocks, x.length + ir.length ≤ 4294967296) :
    ∃ rs, filterCalls irOf junk (blocks.map (fun x => (x, f, args))) none = .ok rs ∧
      (∀ r ∈ rs, r.success = true) ∧
      rs.map (fun r => r.out.length) = blocks.map List.length ∧
      (rs.map (fun r => r.out)).flatten =
        (List.range blocks.flatten.length).map (orderedConvolution blocks.flatten ir) ∧
      rs.map (fun r => r.called) = (List.range blocks.length).map (fun i => decide (i = 0)) := by
  have hmap : (blocks.map (fun x => (x, args))).map (fun p => (p.1, ir)) =
      blocks.map (fun x => (x, ir)) := by simp
  have hkeep : ∀ n, n ≤ ir.length - 1 → ∀ bs : List (Buf S),
      KeepsAll n (bs.map (fun x => (x, ir))) := by
    intro n hn bs
    induction bs generalizing n with
    | nil => trivial
    | cons x rest ih => exact ⟨by omega, ih _ le_rfl⟩
  obtain ⟨rs, h1, h2, _, h4, h5, h6⟩ := filterCalls_null irOf junk f args.length (fun _ => ir)
    (blocks.map (fun x => (x, args))) (by simp) (by simp [hir]) (by simp [hpos])
    (by simpa using h32) (by rw [hmap]; exact hkeep 0 (by omega) blocks)
  refine ⟨rs, by simpa [Function.comp_def] using h1, h2, ?_, ?_, ?_⟩
  · simpa [Function.comp_def] using h5
  · rw [h6]
    simp only [List.map_map, Function.comp_def, List.map_id', hmap]
    unfold tab
    congr 1
    funext k
    rw [tv_const, convAcc_eq_foldl]
    rfl
  · rw [h4]
    cases blocks with
    | nil => rfl
    | cons x rest =>
      simp only [List.map_cons, List.zip_cons_cons, List.length_cons, List.range_succ_eq_map,
        List.map_map]
      congr 1
      apply List.ext_getElem
      · simp
      · intro i h1 h2
        simp only [List.getElem_map, List.getElem_zip]
        have : (some args :: rest.map (fun x => (some args))) =
            List.replicate (rest.length + 1) (some args) := by
          rw [List.replicate_succ]; congr 1
          exact List.map_const' ..
        simp [Function.comp_def, List.getElem_cons]

/-- Concrete case: three blocks, one impulse response of length three. -/
example : ((filterCalls (F := Bool) (fun _ _ => some [1, 10, (100 : Int)]) 9
    [([1, 2], true, [0]), ([], true, [0]), ([3], true, [0])] none).map
      (fun rs => rs.map (fun r => (r.success, r.called, r.out)))) =
    .ok [(true, true, [1, 12]), (true, false, []), (true, false, [123])] := by rfl

/-! ## C05 -/

/-- The claim of C05 for one run: each successful call has applied the impulse response of its own
function and arguments (`state->ir` is what the call convolved with). -/
def AppliesOwnIr (irOf : F → List UInt8 → Option (Buf S)) (calls : List (Buf S × F × List UInt8))
    (rs : List (FilterResult F S)) : Prop :=
  ∀ p ∈ calls.zip rs, p.2.success = true → p.2.state.bind (·.ir) = irOf p.1.2.1 p.1.2.2

/-- **C05 is false.** After f(a), g(b), f(b) the third call applies the response of g: the recorded
function is not updated when the arguments change. All calls report success, without undefined
behaviour, and the third output is wrong. -/
theorem C05_stale_impulse_response :
    let irOf : Bool → List UInt8 → Option (Buf Int) := fun f _ => some (if f then [1] else [2])
    let calls : List (Buf Int × Bool × List UInt8) :=
      [([1], true, [0]), ([1], false, [1]), ([1], true, [1])]
    ∃ rs, filterCalls irOf 9 calls none = .ok rs ∧ rs.map (fun r => r.success) = [true, true, true] ∧
      rs.map (fun r => r.out) = [[1], [2], [2]] ∧ ¬ AppliesOwnIr irOf calls rs := by
  refine ⟨_, rfl, rfl, rfl, ?_⟩
  intro h
  have := h (([1], true, [1]), _) (List.Mem.tail _ (List.Mem.tail _ (List.Mem.head _))) rfl
  revert this
  decide

/-- A second defect of the same function: when the impulse response function fails on an existing
state, the old impulse response is freed but stays referenced, and trying again with the same
arguments uses it after it was freed. -/
theorem C05_use_after_failed_update :
    let irOf : Unit → List UInt8 → Option (Buf Int) := fun _ a => if a = [0] then some [1] else none
    filterCalls irOf 9 [([1], (), [0]), ([1], (), [1]), ([1], (), [1])] none =
      .error .useAfterFree := by rfl

/-- What holds after calls with one function and one argument length: the stored arguments are
those of the last call, and the impulse response belongs to them (or is dangling after a failure). -/
structure OwnIr (irOf : F → List UInt8 → Option (Buf S)) (f : F) (len : Nat)
    (st : FilterState F S) : Prop where
  irF : st.irF = f
  argsLen : st.argsLen = len
  ir : st.ir = none ∨ st.ir = irOf f (st.args.take len)

theorem convolutionFilter_own (irOf : F → List UInt8 → Option (Buf S)) (junk : S) (x : Buf S)
    (f : F) (args : List UInt8) (old : Option (FilterState F S)) (out : Buf S) (r : FilterResult F S)
    (hold : ∀ st, old = some st → OwnIr irOf f args.length st)
    (h : convolutionFilter irOf junk x f args old out = .ok r) :
    (∀ st, r.state = some st → OwnIr irOf f args.length st) ∧
      (r.success = true → r.state.bind (·.ir) = irOf f args) := by
  unfold convolutionFilter filterStateSet at h
  cases old with
  | none =>
    simp only at h
    cases hir : irOf f args with
    | none =>
      simp only [hir, ok_bind', pure_eq_ok, Except.ok.injEq] at h
      subst h
      simp
    | some ir =>
      simp only [hir] at h
      cases hc : filterCarry junk (⟨none, 0, none, f, args, args.length, 0⟩ : FilterState F S)
          ir.length with
      | error e => rw [hc] at h; simp at h
      | ok carry =>
        simp only [hc, ok_bind', pure_eq_ok] at h
        cases hv : convolve x x.length ir ir.length 0 (carry.getD []) out with
        | error e => rw [hv] at h; simp at h
        | ok o =>
          simp only [hv, ok_bind', Except.ok.injEq] at h
          subst h
          simp only [Option.some.injEq, forall_eq', Option.bind_some, implies_true, and_true]
          exact ⟨rfl, rfl, Or.inr (by simp [hir])⟩
  | some st =>
    obtain ⟨o1, o2, o3⟩ := hold st rfl
    simp only at h
    split at h
    · next hs =>
      simp only [ok_bind'] at h
      cases hsir : st.ir with
      | none => simp [hsir] at h
      | some ir =>
        simp only [hsir] at h
        cases hv : convolve x x.length ir st.irLen st.carryLen (st.carry.getD []) out with
        | error e => rw [hv] at h; simp at h
        | ok o =>
          simp only [hv, ok_bind', pure_eq_ok, Except.ok.injEq] at h
          subst h
          simp only [Option.some.injEq, forall_eq', Option.bind_some]
          have : some ir = irOf f args := by
            rcases o3 with o3 | o3
            · rw [o3] at hsir; simp at hsir
            · rw [← hsir, o3, hs.2.2]
          refine ⟨⟨o1, o2, Or.inr ?_⟩, fun _ => this⟩
          simp only [hs.2.2]
          exact this
    · next hs =>
      cases hsir : st.ir with
      | none => simp [hsir] at h
      | some ir0 =>
        simp only [hsir] at h
        have htake : (if args.length > st.argsLen then args
            else args ++ st.args.drop args.length).take args.length = args := by
          split <;> simp
        generalize (if args.length > st.argsLen then args
            else args ++ st.args.drop args.length) = newArgs at h htake
        cases hir : irOf f args with
        | none =>
          simp only [hir, pure_eq_ok, ok_bind', Except.ok.injEq] at h
          subst h
          simp only [Option.some.injEq, forall_eq']
          exact ⟨⟨o1, o2, Or.inl rfl⟩, by simp⟩
        | some ir =>
          simp only [hir] at h
          cases hc : filterCarry junk (⟨st.carry, st.carryLen, none, st.irF, newArgs, st.argsLen,
              st.irLen⟩ : FilterState F S) ir.length with
          | error e => rw [hc] at h; simp at h
          | ok carry =>
            simp only [hc, ok_bind', pure_eq_ok] at h
            cases hv : convolve x x.length ir ir.length st.carryLen (carry.getD []) out with
            | error e => rw [hv] at h; simp at h
            | ok o =>
              simp only [hv, ok_bind', Except.ok.injEq] at h
              subst h
              simp only [Option.some.injEq, forall_eq', Option.bind_some, implies_true, and_true]
              exact ⟨o1, o2, Or.inr (by simp only [htake, hir])⟩

theorem filterCalls_own (irOf : F → List UInt8 → Option (Buf S)) (junk : S) (f : F) (len : Nat)
    (calls : List (Buf S × F × List UInt8)) (hcalls : ∀ c ∈ calls, c.2.1 = f ∧ c.2.2.length = len)
    (old : Option (FilterState F S)) (hold : ∀ st, old = some st → OwnIr irOf f len st)
    (rs : List (FilterResult F S)) (h : filterCalls irOf junk calls old = .ok rs) :
    AppliesOwnIr irOf calls rs := by
  induction calls generalizing old rs with
  | nil =>
    simp only [filterCalls, Except.ok.injEq] at h
    subst h
    intro p hp
    simp at hp
  | cons c rest ih =>
    obtain ⟨x, f', args⟩ := c
    obtain ⟨hf, hl⟩ := hcalls _ (List.mem_cons_self ..)
    simp only at hf hl
    subst hf hl
    simp only [filterCalls] at h
    cases hr : convolutionFilter irOf junk x f' args old (List.replicate x.length junk) with
    | error e => rw [hr] at h; simp at h
    | ok r =>
      rw [hr, ok_bind'] at h
      obtain ⟨o1, o2⟩ := convolutionFilter_own irOf junk x f' args old _ r hold hr
      cases hrs : filterCalls irOf junk rest r.state with
      | error e => rw [hrs] at h; simp at h
      | ok rs' =>
        simp only [hrs, ok_bind', pure_eq_ok, Except.ok.injEq] at h
        subst h
        intro p hp
        rw [List.zip_cons_cons, List.mem_cons] at hp
        rcases hp with rfl | hp
        · exact o2
        · exact ih (fun c hc => hcalls c (by simp [hc])) r.state o1 rs' hrs p hp

/-- **C05, partial.** In every history without undefined behaviour in which all calls use one
function and one argument length, each successful call applies the impulse response of its own
arguments. Missing: histories that mix functions or argument lengths, for which the claim is false
(`C05_stale_impulse_response`), and freedom from undefined behaviour after a failing impulse response
function (`C05_use_after_failed_update`). -/
theorem C05_own_impulse_response_partial (irOf : F → List UInt8 → Option (Buf S)) (junk : S) (f : F)
    (len : Nat) (calls : List (Buf S × F × List UInt8))
    (hcalls : ∀ c ∈ calls, c.2.1 = f ∧ c.2.2.length = len)
    (rs : List (FilterResult F S)) (h : filterCalls irOf junk calls none = .ok rs) :
    AppliesOwnIr irOf calls rs :=
  filterCalls_own irOf junk f len calls hcalls none (by simp) rs h

/-- Concrete case: the arguments change back and forth, responses of different lengths. -/
example : ((filterCalls (F := Unit) (fun _ a => some (a.map (fun b => (b.toNat : Int)))) 9
    [([1], (), [1, 2]), ([1, 1], (), [3, 4]), ([1, 1], (), [1, 2])] none).map
      (fun rs => rs.map (fun r => (r.called, r.out)))) =
    .ok [(true, [1]), (true, [5, 7]), (true, [5, 3])] := by rfl

/-- **C05, failures are reported**: whatever the state, a call fails exactly if the impulse response function was called and failed; it has then
written no samples. -/
theorem C05_failure_reported (irOf : F → List UInt8 → Option (Buf S)) (junk : S) (x : Buf S) (f : F) (args : List UInt8)
    (old : Option (FilterState F S)) (out : Buf S) (r : FilterResult F S) (h : convolutionFilter irOf junk x f args old out = .ok r) :
    (r.success = false ↔ r.called = true ∧ irOf f args = none) ∧ (r.success = false → r.out = out) := by
  unfold convolutionFilter at h
  obtain ⟨q, h1, h⟩ := bind_eq_ok.1 h
  have hq : (q.success = false ↔ q.called = true ∧ irOf f args = none) ∧ (q.success = true → ∃ st, q.state = some st) := by
    unfold filterStateSet at h1
    cases old with
    | none =>
      cases hi : irOf f args with
      | none =>
        simp only [hi, Except.ok.injEq] at h1
        subst h1
        simp
      | some ir =>
        simp only [hi] at h1
        obtain ⟨c, _, h1⟩ := bind_eq_ok.1 h1
        simp only [pure_eq_ok, Except.ok.injEq] at h1
        subst h1
        simp
    | some st =>
      simp only at h1
      split at h1
      · simp only [Except.ok.injEq] at h1
        subst h1
        simp
      · cases hs : st.ir with
        | none => simp [hs] at h1
        | some i0 =>
          cases hi : irOf f args with
          | none =>
            simp only [hs, hi, pure_eq_ok, Except.ok.injEq] at h1
            subst h1
            simp
          | some ir =>
            simp only [hs, hi] at h1
            obtain ⟨c, _, h1⟩ := bind_eq_ok.1 h1
            simp only [pure_eq_ok, Except.ok.injEq] at h1
            subst h1
            simp
  obtain ⟨a, b⟩ := hq
  cases hsucc : q.success with
  | false =>
    simp only [hsucc, pure_eq_ok, Except.ok.injEq] at h
    subst h
    exact ⟨by simpa [hsucc] using a, fun _ => rfl⟩
  | true =>
    obtain ⟨st, hst⟩ := b hsucc
    simp only [hsucc, hst] at h
    cases hir : st.ir with
    | none => simp [hir] at h
    | some ir =>
      simp only [hir] at h
      obtain ⟨c, _, h⟩ := bind_eq_ok.1 h
      simp only [pure_eq_ok, Except.ok.injEq] at h
      subst h
      simpa [hsucc] using a

/-- Concrete case: a function that fails for the argument 0, in a first call and after a call that succeeded. -/
example : ((filterCalls (F := Unit) (fun _ a => if a = [0] then none else some [(1 : Int), 2]) 9
    [([1], (), [1]), ([5], (), [0])] none).map (fun rs => rs.map (fun r => (r.success, r.called, r.out)))) =
    .ok [(true, true, [1]), (false, true, [9])] ∧
  ((convolutionFilter (F := Unit) (fun _ _ => none) 9 [1, 2] () [0] none [7, (7 : Int)]).map (fun r => (r.success, r.called, r.out))) =
    .ok (false, true, [7, 7]) := ⟨rfl, rfl⟩

/-! ## C06 -/

/-- **C06 is false.** The response gets shorter (three samples, then one) while the blocks are
shorter than the carryover: the last sample of the first response never arrives. -/
theorem C06_carryover_lost :
    let irOf : Unit → List UInt8 → Option (Buf Int) :=
      fun _ a => some (if a = [0] then [1, 1, 1] else [1])
    ∃ rs, filterCalls irOf 9 [([1], (), [0]), ([0], (), [1]), ([0], (), [1])] none = .ok rs ∧
      (rs.map (fun r => r.out)).flatten = [1, 1, 0] ∧
      (List.range 3).map (timeVaryingConvolution [([1], [1, 1, 1]), ([0], [1]), ([0], [1])]) =
        [1, 1, (1 : Int)] := by
  exact ⟨_, rfl, rfl, rfl⟩

/-- **C06, partial.** For every history with one function and one argument length, with responses of
arbitrary and varying lengths: the output is, bit for bit, the sum of every input sample times the
response of its own block - provided each carryover fits into the next block together with the next
carryover (`KeepsAll`; this always holds when responses do not get shorter). Missing: the case
excluded by `KeepsAll`, in which samples are lost (`C06_carryover_lost`). -/
theorem C06_changing_response_partial (irOf : F → List UInt8 → Option (Buf S)) (junk : S) (f : F)
    (len : Nat) (ir : List UInt8 → Buf S) (calls : List (Buf S × List UInt8))
    (hlen : ∀ p ∈ calls, p.2.length = len)
    (hir : ∀ p ∈ calls, irOf f p.2 = some (ir p.2)) (hpos : ∀ p ∈ calls, 1 ≤ (ir p.2).length)
    (h32 : ∀ p ∈ calls, p.1.length + (ir p.2).length ≤ 4294967296)
    (hkeep : KeepsAll 0 (calls.map (fun p => (p.1, ir p.2)))) :
    ∃ rs, filterCalls irOf junk (calls.map (fun p => (p.1, f, p.2))) none = .ok rs ∧
      (∀ r ∈ rs, r.success = true) ∧
      rs.map (fun r => r.out.length) = calls.map (fun p => p.1.length) ∧
      (rs.map (fun r => r.out)).flatten = (List.range (calls.map (fun p => p.1)).flatten.length).map
        (timeVaryingConvolution (calls.map (fun p => (p.1, ir p.2)))) := by
  obtain ⟨rs, h1, h2, _, _, h5, h6⟩ := filterCalls_null irOf junk f len ir calls hlen hir hpos h32 hkeep
  refine ⟨rs, h1, h2, h5, ?_⟩
  rw [h6]
  unfold tab
  congr 1
  funext k
  rw [tv_eq_terms]
  rfl

/-- `KeepsAll` holds in particular when the responses never get shorter. -/
theorem C06_keeps_all_of_growing {T : Type _} (n : Nat) (calls : List (List T × List T))
    (h : List.IsChain (fun a b => a ≤ b) (n :: calls.map (fun p => p.2.length - 1))) :
    KeepsAll n calls := by
  induction calls generalizing n with
  | nil => trivial
  | cons p rest ih =>
    obtain ⟨x, hh⟩ := p
    rw [List.map_cons, List.isChain_cons_cons] at h
    exact ⟨by have := h.1; simp only at this; omega, ih _ h.2⟩

/-- Concrete case: response lengths 2, 3, 1 with a long enough third block. -/
example : KeepsAll 0 [([1], [1, 2]), ([3], [1, 2, 3]), ([1, 1], [(4 : Int)])] := by
  simp [KeepsAll]

end Sp
