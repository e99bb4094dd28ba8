import Verif.Model.ConvolutionFilter
import Verif.Lemmas.Convolve
import Verif.Spec.Convolution

set_option linter.unusedSectionVars false

namespace Sp
variable {F : Type} [DecidableEq F] {S : Type} [Zero S] [Add S] [Mul S]

/-- State invariant: the carryover array holds `c` and is at least as long as `carryover_len`,
which is `ir_len - 1`; past it, it is zero. -/
structure FilterInv (st : FilterState F S) (c : Nat → S) : Prop where
  irSome : ∃ ir, st.ir = some ir ∧ ir.length = st.irLen
  irPos : 1 ≤ st.irLen
  carryLen : st.carryLen = st.irLen - 1
  carry : ∃ n, (st.irLen - 1 ≤ n) ∧ st.carry.getD [] = tab n c ∧ (st.carry = none → st.irLen = 1)
  zero : ∀ k, st.carryLen ≤ k → c k = 0

theorem filterCarry_existing (junk : S) (st : FilterState F S) {c : Nat → S}
    (hp : 1 ≤ st.irLen) (hc : ∃ n, (st.irLen - 1 ≤ n) ∧ st.carry.getD [] = tab n c ∧
      (st.carry = none → st.irLen = 1))
    (hz : ∀ k, st.irLen - 1 ≤ k → c k = 0) (irLen : Nat) (hl : 1 ≤ irLen) :
    ∃ carry n, filterCarry junk st irLen = .ok carry ∧ max (irLen - 1) (st.irLen - 1) ≤ n ∧
      carry.getD [] = tab n c ∧ (carry = none → irLen = 1) := by
  obtain ⟨n, hn, ht, hnone⟩ := hc
  unfold filterCarry
  cases hcar : st.carry with
  | none =>
    have h1 := hnone hcar
    have ht' : tab n c = [] := by rw [← ht, hcar]; rfl
    simp only
    by_cases h : irLen - 1 = 0
    · simp only [h, ne_eq, not_true_eq_false, if_false]
      refine ⟨none, n, rfl, by omega, ?_, fun _ => by omega⟩
      rw [ht']; rfl
    · simp only [ne_eq, h, not_false_eq_true, if_true]
      refine ⟨_, irLen - 1, rfl, by omega, ?_, fun h => by simp at h⟩
      simp only [Option.getD_some]
      rw [tab_replicate]
      exact tab_congr fun k _ => (hz k (by omega)).symm
  | some carry =>
    have ht' : carry = tab n c := by rw [← ht, hcar]; rfl
    simp only
    by_cases h : irLen > st.irLen
    · rw [if_pos h]
      by_cases h2 : irLen - 1 > carry.length
      · simp only [h2, if_true]
        subst ht'
        rw [tab_length] at h2 ⊢
        rw [tab_replicate, tab_append, memzero_tab (by omega), ok_bind', pure_eq_ok]
        refine ⟨_, irLen - 1, rfl, ?_, ?_, fun h => by simp at h⟩
        · omega
        · simp only [Option.getD_some]
          rw [show n + (irLen - 1 - n) = irLen - 1 by omega]
          apply tab_congr
          intro k hk
          by_cases h3 : st.irLen - 1 ≤ k
          · rw [if_pos (by omega), hz k h3]
          · rw [if_neg (by omega), if_pos (by omega)]
      · simp only [h2, if_false]
        subst ht'
        rw [tab_length] at h2
        rw [memzero_tab (by omega), ok_bind', pure_eq_ok]
        refine ⟨_, n, rfl, by omega, ?_, fun h => by simp at h⟩
        simp only [Option.getD_some]
        apply tab_congr
        intro k hk
        split
        · exact (hz k (by omega)).symm
        · rfl
    · rw [if_neg h]
      exact ⟨_, n, rfl, by omega, by simpa using ht', fun h => by simp at h⟩

/-- Cells of the output stream after one block: what the new block adds to the content `c`. -/
def blockConv (x h : Buf S) (c : Nat → S) (k : Nat) : S :=
  convAcc (fun i => x.getD i 0) (fun i => h.getD i 0) h.length k (c k) x.length

/-- The convolution of one call, with the state's arrays. -/
theorem convolve_call {x ir : Buf S} {n carryLen : Nat} {c : Nat → S} {o : Buf S} (ho : o.length = x.length)
    (hir : 1 ≤ ir.length) (hn : max (ir.length - 1) carryLen ≤ n)
    (h32 : x.length + ir.length ≤ 4294967296)
    (hz : ∀ k, carryLen ≤ k → c k = 0) :
    convolve x x.length ir ir.length carryLen (tab n c) o =
      .ok (tab x.length (blockConv x ir c), tab n (fun k => blockConv x ir c (x.length + k))) := by
  have hs := convolve_tab (a := fun i => x.getD i 0) (b := fun i => ir.getD i 0) (c := c)
      (o := fun i => o.getD i 0) (na := x.length) (nb := ir.length) (nc := n) (aLen := x.length)
      (bLen := ir.length) (carryLen := carryLen) le_rfl le_rfl hir (by omega) (by omega) h32 hz
  rw [← eq_tab, ← eq_tab, ← ho, ← eq_tab, ho] at hs
  exact hs

/-- One call on an existing state: the impulse response `ir` that is used is either the one in the
state or the newly computed one; nothing is lost if the block and the new carryover together are as
long as the old carryover. -/
theorem convolutionFilter_step (irOf : F → List UInt8 → Option (Buf S)) (junk : S) (x : Buf S) (f : F) {o : Buf S}
    (ho : o.length = x.length) (args : List UInt8) (st : FilterState F S) {c : Nat → S} (inv : FilterInv st c)
    (hir : ∀ ir, irOf f args = some ir → 1 ≤ ir.length) (hsome : ∃ ir, irOf f args = some ir)
    (ir : Buf S)
    (hused : if st.irF = f ∧ args.length = st.argsLen ∧ st.args.take args.length = args then
      st.ir = some ir else irOf f args = some ir)
    (h32 : x.length + ir.length ≤ 4294967296) (hkeep : st.carryLen ≤ x.length + (ir.length - 1)) :
    ∃ st', convolutionFilter irOf junk x f args (some st) o =
        .ok ⟨true, some st', !decide (st.irF = f ∧ args.length = st.argsLen ∧
              st.args.take args.length = args), tab x.length (blockConv x ir c)⟩ ∧
      FilterInv st' (fun k => blockConv x ir c (x.length + k)) ∧ st'.irF = st.irF ∧
      st'.argsLen = st.argsLen ∧ st'.ir = some ir ∧ st'.args.take args.length = args := by
  obtain ⟨⟨ir0, hir0, hir0l⟩, hpos, hcl, hcar, hz⟩ := inv
  have hzero : ∀ k, ir.length - 1 ≤ k → blockConv x ir c (x.length + k) = 0 := by
    intro k hk
    unfold blockConv
    by_cases h1 : ir.length = 0
    · rw [convAcc_stop (m := 0) (Nat.zero_le _) (by intro i _ hi; omega)]
      exact hz _ (by omega)
    · rw [convAcc_stop (m := 0) (Nat.zero_le _) (by intro i _ hi; omega)]
      exact hz _ (by omega)
  unfold convolutionFilter filterStateSet
  by_cases hsame : st.irF = f ∧ args.length = st.argsLen ∧ st.args.take args.length = args
  · rw [if_pos hsame] at hused
    simp only [if_pos hsame, ok_bind', decide_eq_true hsame, Bool.not_true]
    have : ir0 = ir := by rw [hir0] at hused; exact Option.some.inj hused
    subst this
    simp only [hir0]
    obtain ⟨n, hn, ht, hnone⟩ := hcar
    rw [ht, ← hir0l, convolve_call ho (by omega) (by omega) h32 hz]
    simp only [ok_bind', pure_eq_ok]
    refine ⟨_, rfl, ?_, rfl, rfl, rfl, hsame.2.2⟩
    refine ⟨⟨ir0, rfl, rfl⟩, by simp only; omega, by simp only; omega,
      ⟨n, by simp only; omega, ?_, ?_⟩, ?_⟩
    · cases hcc : st.carry with
      | none =>
        have : n = 0 := by
          have := congrArg List.length ht
          rw [hcc] at this; simpa using this.symm
        subst this
        rfl
      | some _ => rfl
    · intro h
      simp only [Option.map_eq_none_iff] at h
      rw [← hnone h]; exact hir0l
    · intro k hk
      apply hzero
      simp only at hk; omega
  · rw [if_neg hsame] at hused
    simp only [if_neg hsame, hir0, hused, decide_eq_false hsame, Bool.not_false]
    have hirp := hir ir hused
    obtain ⟨carry, n, e, hn, ht, hnone⟩ := filterCarry_existing junk
      { st with args := if args.length > st.argsLen then args else args ++ st.args.drop args.length
                ir := none } hpos hcar (by intro k hk; exact hz k (by simp only at hk; omega))
      ir.length hirp
    simp only [e, ok_bind', pure_eq_ok]
    simp only [ht]
    rw [convolve_call ho hirp (by simp only at hn; omega) h32 hz]
    simp only [ok_bind']
    refine ⟨_, rfl, ?_, rfl, rfl, rfl, ?_⟩
    · refine ⟨⟨ir, rfl, rfl⟩, hirp, rfl, ⟨n, by simp only at hn ⊢; omega, ?_, ?_⟩, ?_⟩
      · cases hcc : carry with
        | none =>
          have : n = 0 := by
            have := congrArg List.length ht
            rw [hcc] at this; simpa using this.symm
          subst this
          rfl
        | some _ => rfl
      · intro h
        simp only [Option.map_eq_none_iff] at h
        exact hnone h
      · intro k hk
        exact hzero k hk
    · simp only
      split
      · simp
      · simp

/-- The first call, on a null state. -/
theorem convolutionFilter_first (irOf : F → List UInt8 → Option (Buf S)) (junk : S) (x : Buf S) (f : F) {o : Buf S}
    (ho : o.length = x.length) (args : List UInt8) (ir : Buf S) (hsome : irOf f args = some ir) (hir : 1 ≤ ir.length)
    (h32 : x.length + ir.length ≤ 4294967296) :
    ∃ st', convolutionFilter irOf junk x f args none o =
        .ok ⟨true, some st', true, tab x.length (blockConv x ir (fun _ => 0))⟩ ∧
      FilterInv st' (fun k => blockConv x ir (fun _ => 0) (x.length + k)) ∧ st'.irF = f ∧
      st'.argsLen = args.length ∧ st'.ir = some ir ∧ st'.args = args := by
  unfold convolutionFilter filterStateSet
  simp only [hsome]
  obtain ⟨carry, n, e, hn, ht, hnone⟩ := filterCarry_existing (c := fun _ => 0) junk
      (⟨none, 0, none, f, args, args.length, 1⟩ : FilterState F S) le_rfl
      ⟨0, by simp, rfl, fun _ => rfl⟩ (fun _ _ => rfl) ir.length hir
  have e' : filterCarry junk (⟨none, 0, none, f, args, args.length, 0⟩ : FilterState F S) ir.length =
      .ok carry := by
    rw [← e]; rfl
  simp only [e', ok_bind', pure_eq_ok]
  simp only [ht]
  rw [convolve_call ho hir (by omega) h32 (fun _ _ => rfl)]
  simp only [ok_bind']
  refine ⟨_, rfl, ?_, rfl, rfl, rfl, rfl⟩
  refine ⟨⟨ir, rfl, rfl⟩, hir, rfl, ⟨n, by simp only; omega, ?_, ?_⟩, ?_⟩
  · cases hcc : carry with
    | none =>
      have : n = 0 := by
        have := congrArg List.length ht
        rw [hcc] at this; simpa using this.symm
      subst this
      rfl
    | some _ => rfl
  · intro h
    simp only [Option.map_eq_none_iff] at h
    exact hnone h
  · intro k hk
    unfold blockConv
    rw [convAcc_stop (m := 0) (Nat.zero_le _) (by intro i _ hi; simp only at hk; omega)]
    rfl

/-! ### Histories of calls -/

/-- The content of the output stream at `k` for blocks with their impulse responses, from `init`. -/
def tv : List (Buf S × Buf S) → Nat → S → S
  | [], _, init => init
  | (x, h) :: rest, k, init =>
    let s := convAcc (fun i => x.getD i 0) (fun i => h.getD i 0) h.length k init x.length
    if x.length ≤ k then tv rest (k - x.length) s else s

/-- Histories with one function and one argument length, from an existing state. -/
theorem filterCalls_existing (irOf : F → List UInt8 → Option (Buf S)) (junk : S) (f : F) (len : Nat)
    (ir : List UInt8 → Buf S) (calls : List (Buf S × List UInt8)) (last : List UInt8)
    (hlen : ∀ p ∈ calls, p.2.length = len) (hlast : last.length = len)
    (hir : ∀ p ∈ calls, irOf f p.2 = some (ir p.2)) (hpos : ∀ p ∈ calls, 1 ≤ (ir p.2).length)
    (h32 : ∀ p ∈ calls, p.1.length + (ir p.2).length ≤ 4294967296)
    (st : FilterState F S) (c : Nat → S) (inv : FilterInv st c) (hf : st.irF = f)
    (hl : st.argsLen = len) (ha : st.args.take len = last) (hstir : st.ir = some (ir last))
    (hkeep : KeepsAll st.carryLen (calls.map (fun p => (p.1, ir p.2)))) :
    ∃ rs, filterCalls irOf junk (calls.map (fun p => (p.1, f, p.2))) (some st) = .ok rs ∧
      (∀ r ∈ rs, r.success = true) ∧
      rs.map (fun r => r.state.bind (·.ir)) = calls.map (fun p => some (ir p.2)) ∧
      rs.map (·.called) = (calls.zip (last :: calls.map (·.2))).map (fun p => decide (p.1.2 ≠ p.2)) ∧
      rs.map (·.out.length) = calls.map (·.1.length) ∧
      (rs.map (·.out)).flatten = tab (calls.map (·.1)).flatten.length
        (fun k => tv (calls.map (fun p => (p.1, ir p.2))) k (c k)) := by
  induction calls generalizing last st c with
  | nil => exact ⟨[], rfl, by simp, rfl, rfl, rfl, rfl⟩
  | cons p rest ih =>
    obtain ⟨x, args⟩ := p
    have hargs : args.length = len := hlen _ (List.mem_cons_self ..)
    have hcond : (st.irF = f ∧ args.length = st.argsLen ∧ st.args.take args.length = args) ↔
        args = last := by
      rw [hargs, ha, hl]
      constructor
      · rintro ⟨_, _, h⟩; exact h.symm
      · rintro rfl; exact ⟨hf, rfl, rfl⟩
    simp only [List.map_cons, KeepsAll] at hkeep
    obtain ⟨st', e, inv', hf', hl', hir', ha'⟩ := convolutionFilter_step irOf junk x f (List.length_replicate (a := junk)) args st inv
      (by intro i hi; rw [hir (x, args) (by simp)] at hi; cases hi; exact hpos (x, args) (by simp))
      ⟨_, hir (x, args) (by simp)⟩ (ir args)
      (by
        split
        · next h => rw [hcond.1 h]; exact hstir
        · exact hir (x, args) (by simp))
      (h32 (x, args) (by simp)) hkeep.1
    have hcl' : st'.carryLen = (ir args).length - 1 := by
      obtain ⟨i, h1, h2⟩ := inv'.irSome
      rw [hir'] at h1; cases h1
      rw [inv'.carryLen, h2]
    obtain ⟨rs, e2, hs, his, hcalled, hol, hout⟩ := ih args (fun p hp => hlen p (by simp [hp])) hargs
      (fun p hp => hir p (by simp [hp])) (fun p hp => hpos p (by simp [hp]))
      (fun p hp => h32 p (by simp [hp])) st' _ inv' (hf'.trans hf) (hl'.trans hl)
      (by rw [← hargs]; exact ha') hir' (by rw [hcl']; exact hkeep.2)
    refine ⟨⟨true, some st', !decide (st.irF = f ∧ args.length = st.argsLen ∧
      st.args.take args.length = args), tab x.length (blockConv x (ir args) c)⟩ :: rs,
      ?_, ?_, ?_, ?_, ?_, ?_⟩
    · simp only [List.map_cons, filterCalls]
      rw [e, ok_bind']
      simp only [e2, ok_bind', pure_eq_ok]
    · intro r hr
      rcases List.mem_cons.1 hr with rfl | hr
      · rfl
      · exact hs r hr
    · simp [his, hir']
    · simp only [List.map_cons, List.zip_cons_cons]
      congr 1
      · simp only [hcond, decide_not]
    · simp [hol]
    · simp only [List.map_cons, List.flatten_cons]
      rw [hout, tab_append, List.length_append]
      apply tab_congr
      intro k hk
      by_cases h : k < x.length
      · simp only [h, if_true, tv, show ¬ x.length ≤ k by omega, if_false]
        rfl
      · simp only [h, if_false, tv, show x.length ≤ k by omega, if_true]
        congr 1
        unfold blockConv
        rw [show x.length + (k - x.length) = k by omega]

theorem filterCalls_null (irOf : F → List UInt8 → Option (Buf S)) (junk : S) (f : F) (len : Nat)
    (ir : List UInt8 → Buf S) (calls : List (Buf S × List UInt8))
    (hlen : ∀ p ∈ calls, p.2.length = len)
    (hir : ∀ p ∈ calls, irOf f p.2 = some (ir p.2)) (hpos : ∀ p ∈ calls, 1 ≤ (ir p.2).length)
    (h32 : ∀ p ∈ calls, p.1.length + (ir p.2).length ≤ 4294967296)
    (hkeep : KeepsAll 0 (calls.map (fun p => (p.1, ir p.2)))) :
    ∃ rs, filterCalls irOf junk (calls.map (fun p => (p.1, f, p.2))) none = .ok rs ∧
      (∀ r ∈ rs, r.success = true) ∧
      rs.map (fun r => r.state.bind (·.ir)) = calls.map (fun p => some (ir p.2)) ∧
      rs.map (·.called) = (calls.zip (none :: calls.map (fun p => some p.2))).map
        (fun p => decide (some p.1.2 ≠ p.2)) ∧
      rs.map (·.out.length) = calls.map (·.1.length) ∧
      (rs.map (·.out)).flatten = tab (calls.map (·.1)).flatten.length
        (fun k => tv (calls.map (fun p => (p.1, ir p.2))) k 0) := by
  cases calls with
  | nil => exact ⟨[], rfl, by simp, rfl, rfl, rfl, rfl⟩
  | cons p rest =>
    obtain ⟨x, args⟩ := p
    have hargs : args.length = len := hlen _ (List.mem_cons_self ..)
    simp only [List.map_cons, KeepsAll] at hkeep
    obtain ⟨st', e, inv', hf', hl', hir', ha'⟩ := convolutionFilter_first irOf junk x f (List.length_replicate (a := junk)) args (ir args)
      (hir (x, args) (by simp)) (hpos (x, args) (by simp)) (h32 (x, args) (by simp))
    have hcl' : st'.carryLen = (ir args).length - 1 := by
      obtain ⟨i, h1, h2⟩ := inv'.irSome
      rw [hir'] at h1; cases h1
      rw [inv'.carryLen, h2]
    obtain ⟨rs, e2, hs, his, hcalled, hol, hout⟩ := filterCalls_existing irOf junk f len ir rest args
      (fun p hp => hlen p (by simp [hp])) hargs
      (fun p hp => hir p (by simp [hp])) (fun p hp => hpos p (by simp [hp]))
      (fun p hp => h32 p (by simp [hp])) st' _ inv' hf' (hl'.trans hargs)
      (by rw [ha', ← hargs]; simp) hir' (by rw [hcl']; exact hkeep.2)
    refine ⟨⟨true, some st', true, tab x.length (blockConv x (ir args) (fun _ => 0))⟩ :: rs,
      ?_, ?_, ?_, ?_, ?_, ?_⟩
    · simp only [List.map_cons, filterCalls]
      rw [e, ok_bind']
      simp only [e2, ok_bind', pure_eq_ok]
    · intro r hr
      rcases List.mem_cons.1 hr with rfl | hr
      · rfl
      · exact hs r hr
    · simp [his, hir']
    · simp only [List.map_cons, List.zip_cons_cons]
      congr 1
      rw [hcalled]
      have : (some args :: rest.map (fun p => some p.2)) = (args :: rest.map (·.2)).map some := by simp
      rw [this, List.zip_map_right, List.map_map]
      apply List.map_congr_left
      intro q _
      simp
    · simp [hol]
    · simp only [List.map_cons, List.flatten_cons]
      rw [hout, tab_append, List.length_append]
      apply tab_congr
      intro k hk
      by_cases h : k < x.length
      · simp only [h, if_true, tv, show ¬ x.length ≤ k by omega, if_false]
        rfl
      · simp only [h, if_false, tv, show x.length ≤ k by omega, if_true]
        congr 1
        unfold blockConv
        rw [show x.length + (k - x.length) = k by omega]

end Sp
