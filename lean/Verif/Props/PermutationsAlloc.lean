import Verif.Model.PermutationsAlloc
import Verif.Props.CompositionsAlloc

/-!
# C185: the arrays of all permutations when allocations fail
-/

set_option linter.unusedSectionVars false

namespace Sp
variable {S : Type}

private theorem perm_loop {alloc : Nat → Bool} {size pa ps po : Nat} (fuel i used : Nat) (b : Option Nat) (h : ArrayHeap S) {o : Buf (Option Nat)} {r}
    (hr : permLoopAlloc alloc size pa ps po fuel i used b h = .ok r) (ho : h.cell po = some (.pointers o)) (hpo : po < h.next)
    (hlt : o.length < 4294967296) (hs : Shared alloc used o) (hu0 : 0 < used) (hb : o[used - 1]? = some b) :
    r.1 = 0 ∧ ∃ o', r.2.2.cell po = some (.pointers o') ∧ Shared alloc r.2.1 o' := by
  induction fuel generalizing i used b h o with
  | zero => exact nomatch hr
  | succ fuel ih =>
    rw [permLoopAlloc] at hr
    split at hr
    · obtain ⟨s, -, hr⟩ := bind_eq_ok.1 hr
      obtain ⟨c, -, hr⟩ := bind_eq_ok.1 hr
      split at hr
      · obtain ⟨a, -, hr⟩ := bind_eq_ok.1 hr
        obtain ⟨a1, -, hr⟩ := bind_eq_ok.1 hr
        obtain ⟨h0, e0, hr⟩ := bind_eq_ok.1 hr
        obtain ⟨s1, -, hr⟩ := bind_eq_ok.1 hr
        obtain ⟨h1, e1, hr⟩ := bind_eq_ok.1 hr
        obtain ⟨c0, n0⟩ := setTimes_keeps e0 ho
        obtain ⟨c1, n1⟩ := setTimes_keeps e1 c0
        obtain ⟨m1, m2, m3, m4⟩ := arrayMalloc_keeps (alloc (3 + used)) (.times (List.replicate size 0)) b h1
        dsimp only at hr
        generalize arrayMalloc (alloc (3 + used)) (.times (List.replicate size 0)) b h1 = mm at hr m1 m2 m3 m4
        obtain ⟨st, b1, h2⟩ := mm
        simp only [] at hr m1 m2 m3 m4
        subst m1
        simp only [ne_eq, not_true_eq_false, if_false] at hr
        have c2 : h2.cell po = some (.pointers o) := by rw [m3 po (by omega), c1]
        obtain ⟨pb, eb, hr⟩ := bind_eq_ok.1 hr
        have hb1 : b1 = some pb := by
          cases b1 with
          | none => exact nomatch eb
          | some z => rw [Except.ok.inj eb]
        obtain ⟨a3, -, hr⟩ := bind_eq_ok.1 hr
        obtain ⟨old, -, hr⟩ := bind_eq_ok.1 hr
        obtain ⟨cont, -, hr⟩ := bind_eq_ok.1 hr
        obtain ⟨h3, e3, hr⟩ := bind_eq_ok.1 hr
        obtain ⟨c3, n3⟩ := setTimes_keeps e3 c2
        obtain ⟨o1, eo, hr⟩ := bind_eq_ok.1 hr
        have := pointers_eq eo c3
        subst this
        obtain ⟨o2, ew, hr⟩ := bind_eq_ok.1 hr
        obtain ⟨h4, e4, hfin⟩ := bind_eq_ok.1 hr
        obtain ⟨c4, n4⟩ := setPointers_sets e4
        unfold wr at ew
        split at ew
        · next hu =>
          injection ew with ew
          subst ew
          have hlen : (o1.set used (some pb)).length = o1.length := List.length_set ..
          rw [u32_of_lt (n := used + 1) (by omega)] at hfin
          have hget : ∀ j, j < used → (o1.set used (some pb))[j]? = o1[j]? := fun j hj => List.getElem?_set_ne (by omega)
          have hat : (o1.set used (some pb))[used]? = some (some pb) := by rw [List.getElem?_set_self hu]
          refine ih 0 (used + 1) b1 h4 hfin c4 (by omega) (by omega) ⟨by omega, ?_, ?_, fun _ => hs.first hu0⟩ (by omega) ?_
          · intro j hj
            by_cases hj' : j = used
            · exact ⟨pb, by rw [hj', hat]⟩
            · rw [hget j (by omega)]
              exact hs.isSet j (by omega)
          · intro j hj ha
            by_cases hj' : j + 1 = used
            · rw [hget j (by omega), hj', hat]
              have hbb : b1 = b := m4 (by rw [← hj']; exact ha)
              rw [show used - 1 = j by omega] at hb
              rw [hb, ← hbb, hb1]
            · rw [hget j (by omega), hget (j + 1) (by omega)]
              exact hs.same j (by omega) ha
          · rw [Nat.add_sub_cancel, hat, hb1]
        · exact nomatch ew
      · obtain ⟨s1, -, hr⟩ := bind_eq_ok.1 hr
        obtain ⟨h1, e1, hr⟩ := bind_eq_ok.1 hr
        obtain ⟨c1, n1⟩ := setTimes_keeps e1 ho
        exact ih _ _ _ h1 hr c1 (by omega) hlt hs hu0 hb
    · injection hr with hr
      subst hr
      exact ⟨rfl, o, ho, hs⟩

/-- One allocation: the pointer variable is set exactly if it succeeds. -/
private theorem arrayMalloc_form (ok : Bool) (c : ArrayCell S) (h : ArrayHeap S) :
    ∃ p h', arrayMalloc ok c none h = (0, p, h') ∧ h.next ≤ h'.next ∧ (∀ q, q < h.next → h'.cell q = h.cell q) ∧
      ∀ q, p = some q → ok = true ∧ q = h.next ∧ h'.cell q = some c ∧ q < h'.next := by
  cases ok with
  | false => exact ⟨none, h, rfl, Nat.le_refl _, fun _ _ => rfl, fun _ h => nomatch h⟩
  | true =>
    refine ⟨_, _, rfl, Nat.le_succ _, fun q hq => ?_, fun q hq => ?_⟩
    · have : q ≠ h.next := by omega
      simp [ArrayHeap.alloc, this]
    · have : q = h.next := (Option.some.inj hq).symm
      subst this
      exact ⟨rfl, rfl, by simp [ArrayHeap.alloc], Nat.lt_succ_self _⟩

private theorem notNull_ok {p : Option Nat} {q : Nat} (h : notNull p = .ok q) : p = some q := by
  cases p with
  | none => exact nomatch h
  | some z => rw [Except.ok.inj h]

private theorem free_other {h h' : ArrayHeap S} {p q : Nat} (e : h.freeOption (some p) = .ok h') (hq : q ≠ p) : h'.cell q = h.cell q := by
  rw [ArrayHeap.freeOption, ArrayHeap.free] at e
  split at e
  · injection e with e
    subst e
    simp [ArrayHeap.put, hq]
  · exact nomatch e

/-- **C185 is false for permutations**: a call that returns has the status of success, whichever allocations fail. The arrays before the loop and the first result must have
been allocated: the call is undefined otherwise. If another result could not be allocated, then its pointer is that of the result before, and releasing the result as
documented is undefined. -/
theorem C185_permutations_false {alloc : Nat → Bool} {size fuel pset : Nat} {h : ArrayHeap S} {st : Nat} {po : Option Nat} {used : Nat}
    {h' : ArrayHeap S} (hr : timesPermutationsAlloc alloc size fuel pset h = .ok (st, po, used, h')) :
    st = 0 ∧ (∀ i < 4, alloc i = true) ∧ ∃ p o, po = some p ∧ h'.cell p = some (.pointers o) ∧
      ∀ j, j < used → alloc (3 + j) = false → 0 < j ∧ (∃ q, o[j]? = some (some q) ∧ o[j - 1]? = some (some q)) ∧ ∀ h'', arrayFreeHeap p used h' ≠ .ok h'' := by
  have hsize : timeFactorial size < 4294967296 := by rw [C65_factorial]; exact Nat.mod_lt _ (by decide)
  rw [timesPermutationsAlloc] at hr
  generalize timeFactorial size = count at hr hsize
  obtain ⟨p0, g0, e0, l0, k0, s0⟩ := arrayMalloc_form (alloc 0) (.times (List.replicate size 0)) h
  obtain ⟨p1, g1, e1, l1, k1, s1⟩ := arrayMalloc_form (alloc 1) (.times (List.replicate size 0)) g0
  obtain ⟨p2, g2, e2, l2, k2, s2⟩ := arrayMalloc_form (alloc 2) (.pointers (List.replicate count none)) g1
  obtain ⟨p3, g3, e3, l3, k3, s3⟩ := arrayMalloc_form (alloc 3) (.times (List.replicate size 0)) g2
  simp only [e0, e1, e2, e3, ne_eq, not_true_eq_false, if_false] at hr
  obtain ⟨xo, f1, hr⟩ := bind_eq_ok.1 hr
  have f1 := notNull_ok f1
  subst f1
  obtain ⟨a2, q2, c2, n2⟩ := s2 xo rfl
  obtain ⟨out, f2, hr⟩ := bind_eq_ok.1 hr
  have := pointers_eq f2 ((k3 xo n2).trans c2)
  subst this
  obtain ⟨out1, ew, hr⟩ := bind_eq_ok.1 hr
  obtain ⟨h4, e4, hr⟩ := bind_eq_ok.1 hr
  obtain ⟨c4, n4⟩ := setPointers_sets e4
  obtain ⟨xa, f3, hr⟩ := bind_eq_ok.1 hr
  have f3 := notNull_ok f3
  subst f3
  obtain ⟨a0, q0, -, n0⟩ := s0 xa rfl
  obtain ⟨a, -, hr⟩ := bind_eq_ok.1 hr
  obtain ⟨set, -, hr⟩ := bind_eq_ok.1 hr
  obtain ⟨set1, -, hr⟩ := bind_eq_ok.1 hr
  obtain ⟨h5, e5, hr⟩ := bind_eq_ok.1 hr
  obtain ⟨c5, n5⟩ := setTimes_keeps e5 c4
  obtain ⟨xb, f4, hr⟩ := bind_eq_ok.1 hr
  have f4 := notNull_ok f4
  subst f4
  obtain ⟨a3, -, -, -⟩ := s3 xb rfl
  obtain ⟨c, -, hr⟩ := bind_eq_ok.1 hr
  obtain ⟨a', -, hr⟩ := bind_eq_ok.1 hr
  obtain ⟨a'', -, hr⟩ := bind_eq_ok.1 hr
  obtain ⟨h6, e6, hr⟩ := bind_eq_ok.1 hr
  obtain ⟨c6, n6⟩ := setTimes_keeps e6 c5
  obtain ⟨xs, f5, hr⟩ := bind_eq_ok.1 hr
  have f5 := notNull_ok f5
  subst f5
  obtain ⟨a1, q1, -, n1⟩ := s1 xs rfl
  obtain ⟨⟨st7, u7, h7⟩, w7, hr⟩ := bind_eq_ok.1 hr
  dsimp only at hr
  obtain ⟨h8, w8, hr⟩ := bind_eq_ok.1 hr
  unfold wr at ew
  split at ew
  · next hu =>
    injection ew with ew
    subst ew
    have hlen : ((List.replicate count (none : Option Nat)).set 0 (some xb)).length = count := by simp
    have hat : ((List.replicate count (none : Option Nat)).set 0 (some xb))[0]? = some (some xb) := by rw [List.getElem?_set_self hu]
    have hcount : 0 < count := by simpa using hu
    obtain ⟨t1, o, t2, t3⟩ := perm_loop _ _ _ _ _ w7 c6 (by omega) (by omega)
      ⟨by omega, fun j hj => ⟨xb, by rw [show j = 0 by omega, hat]⟩, by omega, fun _ => a3⟩ Nat.one_pos hat
    dsimp only at t1 t2 t3
    subst t1
    simp only [not_true_eq_false, if_false, pure_eq_ok] at hr
    injection hr with hr
    simp only [Prod.mk.injEq] at hr
    obtain ⟨v1, v2, v3, v4⟩ := hr
    subst v1 v2 v3 v4
    unfold permExit at w8
    obtain ⟨h9, w9, w8⟩ := bind_eq_ok.1 w8
    obtain ⟨h10, w10, w8⟩ := bind_eq_ok.1 w8
    simp only [ne_eq, not_true_eq_false, if_false] at w8
    injection w8 with w8
    subst w8
    have hcell : h10.cell xo = some (.pointers o) := by
      rw [free_other w10 (by omega), free_other w9 (by omega), t2]
    refine ⟨rfl, ?_, xo, o, rfl, hcell, fun j hj ha => ?_⟩
    · intro i hi
      have : i = 0 ∨ i = 1 ∨ i = 2 ∨ i = 3 := by omega
      rcases this with rfl | rfl | rfl | rfl <;> assumption
    · have hj0 : j ≠ 0 := by
        rintro rfl
        rw [show 3 + 0 = 3 from rfl, a3] at ha
        exact nomatch ha
      obtain ⟨i, rfl⟩ := Nat.exists_eq_succ_of_ne_zero hj0
      obtain ⟨q, hq⟩ := t3.isSet i (by omega)
      have hs := t3.same i hj ha
      rw [hq] at hs
      exact ⟨by omega, ⟨q, hs, hq⟩, fun h'' => free_shared hcell hj hq hs⟩
  · exact nomatch ew

/-- **C185, what holds**: if all allocations succeed, then the status is success and the rest is as in C142. -/
theorem C185_permutations_partial {alloc : Nat → Bool} (ha : ∀ i, alloc i = true) (size fuel pset : Nat) (h : ArrayHeap S) :
    timesPermutationsAlloc alloc size fuel pset h = (timesPermutationsHeap size fuel pset h).map fun r => (0, some r.1, r.2.1, r.2.2) := by
  have hloop : ∀ pa ps po fuel i used b (h : ArrayHeap S), permLoopAlloc alloc size pa ps po fuel i used b h =
      (permLoopHeap size pa ps po fuel i used h).map fun r => (0, r.1, r.2) := by
    intro pa ps po fuel
    induction fuel with
    | zero => exact fun _ _ _ _ => rfl
    | succ fuel ih =>
      intro i used b h
      rw [permLoopAlloc, permLoopHeap]
      split
      · refine bind_map fun s => bind_map fun c => ?_
        split
        · refine bind_map fun a => bind_map fun a => bind_map fun h => bind_map fun s => bind_map fun h => ?_
          simp only [ha, arrayMalloc, if_true, ne_eq, not_true_eq_false, if_false, notNull, ok_bind']
          refine bind_map fun a => ?_
          have hnew : ((h.alloc (.times (List.replicate size 0))).2).times (h.alloc (.times (List.replicate size 0))).1 = .ok (List.replicate size 0) := by
            simp [ArrayHeap.times, ArrayHeap.alloc]
          rw [hnew, ok_bind']
          exact bind_map fun c => bind_map fun h => bind_map fun o => bind_map fun o => bind_map fun h => ih _ _ _ _
        · exact bind_map fun s => bind_map fun h => ih _ _ _ _
      · rfl
  rw [timesPermutationsAlloc, timesPermutationsHeap]
  simp only [ha, arrayMalloc, if_true, ne_eq, not_true_eq_false, if_false, notNull, ok_bind']
  refine bind_map fun o => bind_map fun o => bind_map fun h => bind_map fun a => bind_map fun s => bind_map fun s => bind_map fun h => bind_map fun c => bind_map fun a =>
    bind_map fun a => bind_map fun h => ?_
  rw [hloop]
  cases permLoopHeap size _ _ _ fuel 0 1 h with
  | error e => rfl
  | ok r =>
    simp only [Except.map, ok_bind', permExit, ArrayHeap.freeOption, ne_eq, not_true_eq_false, if_false]
    cases r.2.free _ with
    | error e => rfl
    | ok g =>
      simp only [ok_bind']
      cases g.free _ with
      | error e => rfl
      | ok g => rfl

/-! ### A case -/

private def permHeap : ArrayHeap Int := ⟨2, fun a => if a = 0 then some (.times [7, 8, 9]) else none⟩

/-- The permutations of three numbers when the third result can not be allocated. -/
example : ∃ h', timesPermutationsAlloc (fun i => decide (i ≠ 5)) 3 100 0 permHeap = .ok (0, some 4, 6, h') ∧
    ∃ o, h'.cell 4 = some (.pointers o) ∧ (∃ q, o[2]? = some (some q) ∧ o[1]? = some (some q)) ∧ ∀ h'', arrayFreeHeap 4 6 h' ≠ .ok h'' := by
  have e : ∃ h', timesPermutationsAlloc (fun i => decide (i ≠ 5)) 3 100 0 permHeap = .ok (0, some 4, 6, h') := ⟨_, rfl⟩
  obtain ⟨h', e⟩ := e
  obtain ⟨-, -, p, o, f1, f2, f3⟩ := C185_permutations_false e
  injection f1 with f1
  subst f1
  obtain ⟨-, g1, g2⟩ := f3 2 (by omega) (by decide)
  exact ⟨h', e, o, f2, g1, g2⟩

example : ∃ h', timesPermutationsAlloc (fun _ => true) 3 100 0 permHeap = .ok (0, some 4, 6, h') := by
  rw [C185_permutations_partial (fun _ => rfl)]
  exact ⟨_, rfl⟩

end Sp
