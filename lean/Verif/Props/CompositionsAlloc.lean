import Verif.Model.CompositionsAlloc
import Verif.Props.ArrayHeap
import Verif.Props.Numbers

/-!
# C185: the arrays of all compositions when allocations fail
-/

set_option linter.unusedSectionVars false

namespace Sp
variable {S : Type}

theorem setTimes_keeps {h h' : ArrayHeap S} {p q : Nat} {b : Buf Nat} {o : Buf (Option Nat)} (e : h.setTimes p b = .ok h') (hq : h.cell q = some (.pointers o)) :
    h'.cell q = some (.pointers o) ∧ h'.next = h.next := by
  unfold ArrayHeap.setTimes at e
  split at e
  · next hp =>
    injection e with e
    subst e
    refine ⟨?_, rfl⟩
    have : q ≠ p := by
      rintro rfl
      rw [hp] at hq
      exact nomatch hq
    simp [ArrayHeap.put, this, hq]
  · exact nomatch e

theorem setPointers_sets {h h' : ArrayHeap S} {p : Nat} {o : Buf (Option Nat)} (e : h.setPointers p o = .ok h') :
    h'.cell p = some (.pointers o) ∧ h'.next = h.next := by
  unfold ArrayHeap.setPointers at e
  split at e
  · injection e with e
    subst e
    exact ⟨by simp [ArrayHeap.put], rfl⟩
  · exact nomatch e

theorem pointers_eq {h : ArrayHeap S} {p : Nat} {o o' : Buf (Option Nat)} (e : h.pointers p = .ok o') (hq : h.cell p = some (.pointers o)) : o' = o := by
  rw [ArrayHeap.pointers, hq] at e
  exact (Except.ok.inj e).symm

theorem arrayMalloc_keeps (ok : Bool) (c : ArrayCell S) (p : Option Nat) (h : ArrayHeap S) :
    (arrayMalloc ok c p h).1 = 0 ∧ h.next ≤ (arrayMalloc ok c p h).2.2.next ∧ (∀ q, q < h.next → (arrayMalloc ok c p h).2.2.cell q = h.cell q) ∧
      (ok = false → (arrayMalloc ok c p h).2.1 = p) := by
  cases ok with
  | false => exact ⟨rfl, Nat.le_refl _, fun _ _ => rfl, fun _ => rfl⟩
  | true =>
    refine ⟨rfl, Nat.le_succ _, fun q hq => ?_, fun h => nomatch h⟩
    have : q ≠ h.next := by omega
    simp [arrayMalloc, ArrayHeap.alloc, this]

theorem bind_map {α β γ : Type} {x : C α} {f : α → C β} {g : α → C γ} {φ : γ → β} (h : ∀ a, f a = (g a).map φ) : (x >>= f) = (x >>= g).map φ := by
  cases x with
  | error e => rfl
  | ok a => exact h a

/-- What the array of pointers is like after `used` results: where an allocation failed, the pointer is that of the result before. -/
structure Shared (alloc : Nat → Bool) (used : Nat) (o : Buf (Option Nat)) : Prop where
  le : used ≤ o.length
  isSet : ∀ j < used, ∃ q, o[j]? = some (some q)
  same : ∀ j, j + 1 < used → alloc (3 + (j + 1)) = false → o[j + 1]? = o[j]?
  first : 0 < used → alloc 3 = true

private theorem loop_shared {alloc : Nat → Bool} {inner pa po : Nat} {psizes : Option Nat} (fuel k used : Nat) (b : Option Nat) (h : ArrayHeap S) {o : Buf (Option Nat)} {r}
    (hr : compLoopAlloc alloc inner pa (some po) psizes fuel k used b h = .ok r) (ho : h.cell po = some (.pointers o)) (hpo : po < h.next)
    (hlt : o.length < 4294967296) (hs : Shared alloc used o) (hb0 : used = 0 → b = none) (hb : 0 < used → o[used - 1]? = some b) :
    r.1 = 0 ∧ ∃ o', r.2.2.cell po = some (.pointers o') ∧ Shared alloc r.2.1 o' := by
  induction fuel generalizing k used b h o with
  | zero => exact nomatch hr
  | succ fuel ih =>
    rw [compLoopAlloc] at hr
    split at hr
    · injection hr with hr
      subst hr
      exact ⟨rfl, o, ho, hs⟩
    · obtain ⟨a, -, hr⟩ := bind_eq_ok.1 hr
      obtain ⟨p, -, hr⟩ := bind_eq_ok.1 hr
      obtain ⟨q, -, hr⟩ := bind_eq_ok.1 hr
      obtain ⟨⟨a1, k1, x, y⟩, -, hr⟩ := bind_eq_ok.1 hr
      obtain ⟨a2, -, hr⟩ := bind_eq_ok.1 hr
      obtain ⟨h1, e1, hr⟩ := bind_eq_ok.1 hr
      obtain ⟨c1, n1⟩ := setTimes_keeps e1 ho
      obtain ⟨m1, m2, m3, m4⟩ := arrayMalloc_keeps (alloc (3 + used)) (.times (List.replicate (u32 (k1 + 1)) 0)) b h1
      dsimp only at hr
      generalize arrayMalloc (alloc (3 + used)) (.times (List.replicate (u32 (k1 + 1)) 0)) b h1 = mm at hr m1 m2 m3 m4
      obtain ⟨st, b1, h2⟩ := mm
      simp only [] at hr m1 m2 m3 m4
      subst m1
      simp only [ne_eq, not_true_eq_false, if_false] at hr
      have c2 : h2.cell po = some (.pointers o) := by rw [m3 po (by omega), c1]
      obtain ⟨pb, eb, hr⟩ := bind_eq_ok.1 hr
      have hb1 : b1 = some pb := by
        cases b1 with
        | none => exact nomatch eb
        | some z => rw [Except.ok.inj eb]
      obtain ⟨a3, -, hr⟩ := bind_eq_ok.1 hr
      obtain ⟨old, -, hr⟩ := bind_eq_ok.1 hr
      obtain ⟨cont, -, hr⟩ := bind_eq_ok.1 hr
      obtain ⟨h3, e3, hr⟩ := bind_eq_ok.1 hr
      obtain ⟨c3, n3⟩ := setTimes_keeps e3 c2
      obtain ⟨p', ep, hr⟩ := bind_eq_ok.1 hr
      have hp' : p' = po := (Except.ok.inj ep).symm
      subst hp'
      obtain ⟨o1, eo, hr⟩ := bind_eq_ok.1 hr
      have := pointers_eq eo c3
      subst this
      obtain ⟨o2, ew, hr⟩ := bind_eq_ok.1 hr
      obtain ⟨h4, e4, hr⟩ := bind_eq_ok.1 hr
      obtain ⟨c4, n4⟩ := setPointers_sets e4
      obtain ⟨p2, -, hr⟩ := bind_eq_ok.1 hr
      obtain ⟨sizes, -, hr⟩ := bind_eq_ok.1 hr
      obtain ⟨sizes2, -, hr⟩ := bind_eq_ok.1 hr
      obtain ⟨h5, e5, hfin⟩ := bind_eq_ok.1 hr
      obtain ⟨c5, n5⟩ := setTimes_keeps e5 c4
      unfold wr at ew
      split at ew
      · next hu =>
        injection ew with ew
        subst ew
        have hlen : (o1.set used (some pb)).length = o1.length := List.length_set ..
        rw [u32_of_lt (n := used + 1) (by omega)] at hfin
        have hget : ∀ j, j < used → (o1.set used (some pb))[j]? = o1[j]? := fun j hj => List.getElem?_set_ne (by omega)
        have hat : (o1.set used (some pb))[used]? = some (some pb) := by rw [List.getElem?_set_self hu]
        refine ih k1 (used + 1) b1 h5 hfin c5 (by omega) (by omega) ⟨by omega, ?_, ?_, ?_⟩ (by omega) ?_
        · intro j hj
          by_cases hj' : j = used
          · exact ⟨pb, by rw [hj', hat]⟩
          · rw [hget j (by omega)]
            exact hs.isSet j (by omega)
        · intro j hj ha
          by_cases hj' : j + 1 = used
          · rw [hget j (by omega), hj', hat]
            have hbb : b1 = b := m4 (by rw [← hj']; exact ha)
            have := hb (by omega)
            rw [show used - 1 = j by omega] at this
            rw [this, ← hbb, hb1]
          · rw [hget j (by omega), hget (j + 1) (by omega)]
            exact hs.same j (by omega) ha
        · intro _
          by_cases h0 : used = 0
          · by_contra ha
            have hbb : b1 = b := m4 (by rw [h0]; simpa using ha)
            rw [hb0 h0, hb1] at hbb
            exact nomatch hbb
          · exact hs.first (by omega)
        · intro _
          rw [Nat.add_sub_cancel, hat, hb1]
      · exact nomatch ew

theorem free_keeps {h h' : ArrayHeap S} {q : Option Nat} (e : h.freeOption q = .ok h') : (∀ p, h'.cell p = none ∨ h'.cell p = h.cell p) ∧ ∀ a, q = some a → h'.cell a = none := by
  cases q with
  | none =>
    injection e with e
    subst e
    exact ⟨fun _ => .inr rfl, fun _ h => nomatch h⟩
  | some a =>
    rw [ArrayHeap.freeOption, ArrayHeap.free] at e
    split at e
    · injection e with e
      subst e
      refine ⟨fun p => ?_, fun b hb => ?_⟩
      · by_cases hp : p = a
        · left; simp [ArrayHeap.put, hp]
        · right; simp [ArrayHeap.put, hp]
      · injection hb with hb
        simp [ArrayHeap.put, hb]
    · exact nomatch e

/-- Releasing an array of pointers two of which are the same is undefined. -/
theorem free_shared {h h1 : ArrayHeap S} {po used j q : Nat} {o : Buf (Option Nat)} (ho : h.cell po = some (.pointers o)) (hj : j + 1 < used)
    (h1' : o[j]? = some (some q)) (h2' : o[j + 1]? = some (some q)) : arrayFreeHeap po used h ≠ .ok h1 := by
  intro hr
  obtain ⟨g, hg, -⟩ := bind_eq_ok.1 hr
  have step : ∀ lo hi (s t : ArrayHeap S), lo ≤ hi → forRange lo hi (arrayFreeBody po) s = .ok t → ∀ p, t.cell p = none ∨ t.cell p = s.cell p := by
    intro lo hi s t hle
    obtain ⟨d, rfl⟩ := Nat.exists_eq_add_of_le hle
    clear hle
    induction d generalizing t with
    | zero =>
      intro e
      rw [Nat.add_zero, forRange_self] at e
      injection e with e
      subst e
      exact fun _ => .inr rfl
    | succ d ih =>
      intro e
      rw [← Nat.add_assoc, forRange_succ (by omega)] at e
      obtain ⟨s1, e1, e2⟩ := bind_eq_ok.1 e
      obtain ⟨b, -, e2⟩ := bind_eq_ok.1 e2
      obtain ⟨v, -, e2⟩ := bind_eq_ok.1 e2
      intro p
      rcases (free_keeps e2).1 p with e3 | e3
      · exact .inl e3
      · rw [e3]
        exact ih s1 e1 p
  rw [forRange_split (Nat.zero_le j) (by omega : j ≤ used)] at hg
  obtain ⟨s1, e1, hg⟩ := bind_eq_ok.1 hg
  rw [forRange_head (by omega : j < used)] at hg
  obtain ⟨s2, e2, hg⟩ := bind_eq_ok.1 hg
  rw [forRange_head hj] at hg
  obtain ⟨s3, e3, -⟩ := bind_eq_ok.1 hg
  have same : ∀ (s : ArrayHeap S) b, (s.cell po = none ∨ s.cell po = some (.pointers o)) → s.pointers po = .ok b → b = o := by
    intro s b hs e
    rcases hs with hs | hs
    · rw [ArrayHeap.pointers, hs] at e
      exact nomatch e
    · exact pointers_eq e hs
  have k1 : s1.cell po = none ∨ s1.cell po = some (.pointers o) := by
    have := step _ _ _ _ (Nat.zero_le j) e1 po
    rwa [ho] at this
  obtain ⟨b, b1, e2⟩ := bind_eq_ok.1 e2
  have := same s1 b k1 b1
  subst this
  obtain ⟨v, b2, e2⟩ := bind_eq_ok.1 e2
  rw [rd_ok_iff, h1'] at b2
  injection b2 with b2
  subst b2
  obtain ⟨f1, f2⟩ := free_keeps e2
  have k2 : s2.cell po = none ∨ s2.cell po = some (.pointers b) := by
    rcases f1 po with h | h
    · exact .inl h
    · rw [h]; exact k1
  obtain ⟨b', b3, e3⟩ := bind_eq_ok.1 e3
  have := same s2 b' k2 b3
  subst this
  obtain ⟨v, b4, e3⟩ := bind_eq_ok.1 e3
  rw [rd_ok_iff, h2'] at b4
  injection b4 with b4
  subst b4
  rw [ArrayHeap.freeOption, ArrayHeap.free, f2 q rfl] at e3
  exact nomatch e3

/-- The loop needs the arrays and the first result. -/
private theorem loop_needs {alloc : Nat → Bool} {inner pa : Nat} {po psizes : Option Nat} {fuel : Nat} {h : ArrayHeap S} {r}
    (hr : compLoopAlloc alloc inner pa po psizes fuel 1 0 none h = .ok r) : (∃ p, po = some p) ∧ (∃ p, psizes = some p) ∧ alloc 3 = true := by
  cases fuel with
  | zero => exact nomatch hr
  | succ fuel =>
    rw [compLoopAlloc, if_neg Nat.one_ne_zero] at hr
    obtain ⟨a, -, hr⟩ := bind_eq_ok.1 hr
    obtain ⟨p, -, hr⟩ := bind_eq_ok.1 hr
    obtain ⟨q, -, hr⟩ := bind_eq_ok.1 hr
    obtain ⟨⟨a1, k1, x, y⟩, -, hr⟩ := bind_eq_ok.1 hr
    obtain ⟨a2, -, hr⟩ := bind_eq_ok.1 hr
    obtain ⟨h1, -, hr⟩ := bind_eq_ok.1 hr
    obtain ⟨m1, -, -, m4⟩ := arrayMalloc_keeps (alloc (3 + 0)) (.times (List.replicate (u32 (k1 + 1)) 0)) none h1
    dsimp only at hr
    generalize arrayMalloc (alloc (3 + 0)) (.times (List.replicate (u32 (k1 + 1)) 0)) none h1 = mm at hr m1 m4
    obtain ⟨st, b1, h2⟩ := mm
    simp only [] at hr m1 m4
    subst m1
    simp only [ne_eq, not_true_eq_false, if_false] at hr
    obtain ⟨pb, eb, hr⟩ := bind_eq_ok.1 hr
    obtain ⟨a3, -, hr⟩ := bind_eq_ok.1 hr
    obtain ⟨old, -, hr⟩ := bind_eq_ok.1 hr
    obtain ⟨cont, -, hr⟩ := bind_eq_ok.1 hr
    obtain ⟨h3, -, hr⟩ := bind_eq_ok.1 hr
    obtain ⟨p', ep, hr⟩ := bind_eq_ok.1 hr
    obtain ⟨o1, -, hr⟩ := bind_eq_ok.1 hr
    obtain ⟨o2, -, hr⟩ := bind_eq_ok.1 hr
    obtain ⟨h4, -, hr⟩ := bind_eq_ok.1 hr
    obtain ⟨p2, eq, hr⟩ := bind_eq_ok.1 hr
    refine ⟨?_, ?_, ?_⟩
    · cases po with
      | none => exact nomatch ep
      | some p => exact ⟨p, rfl⟩
    · cases psizes with
      | none => exact nomatch eq
      | some p => exact ⟨p, rfl⟩
    · by_contra ha
      have := m4 (by simpa using ha)
      rw [this] at eb
      exact nomatch eb

/-- What a call that returns has done. -/
private theorem call_shared {alloc : Nat → Bool} {sum inner fuel : Nat} (h1 : 1 ≤ sum) (h2 : sum < 4294967296) {h : ArrayHeap S} {st : Nat} {po : Option Nat} {used : Nat}
    {psizes : Option Nat} {h' : ArrayHeap S} (hr : timesCompositionsAlloc alloc sum inner fuel h = .ok (st, po, used, psizes, h')) :
    st = 0 ∧ alloc 0 = true ∧ alloc 1 = true ∧ alloc 2 = true ∧ alloc 3 = true ∧ ∃ p o, po = some p ∧ h'.cell p = some (.pointers o) ∧ Shared alloc used o := by
  rw [timesCompositionsAlloc, sub32_of_le h1 h2, C65_expt _ _ (by omega), ok_bind'] at hr
  have hsize : 2 ^ (sum - 1) % 4294967296 < 4294967296 := Nat.mod_lt _ (by decide)
  generalize 2 ^ (sum - 1) % 4294967296 = size at hr hsize
  cases a0 : alloc 0 with
  | false =>
    have e : arrayMalloc (S := S) false (.times (List.replicate (u32 (1 + sum)) 0)) none h = (0, none, h) := rfl
    rw [a0, e] at hr
    simp only [(arrayMalloc_keeps _ _ _ _).1, ne_eq, not_true_eq_false, if_false] at hr
    obtain ⟨z, hz, -⟩ := bind_eq_ok.1 hr
    exact nomatch hz
  | true =>
    have e : arrayMalloc (S := S) true (.times (List.replicate (u32 (1 + sum)) 0)) none h =
      (0, some h.next, (h.alloc (.times (List.replicate (u32 (1 + sum)) 0))).2) := rfl
    rw [a0, e] at hr
    have hn0 : (h.alloc (.times (List.replicate (u32 (1 + sum)) 0))).2.next = h.next + 1 := rfl
    generalize (h.alloc (.times (List.replicate (u32 (1 + sum)) 0))).2 = g0 at hr hn0
    have e1 : ∃ p1 g1, arrayMalloc (alloc 1) (.pointers (List.replicate size none)) none g0 = (0, p1, g1) ∧
        (∀ p, p1 = some p → p = h.next + 1 ∧ g1.cell p = some (.pointers (List.replicate size none)) ∧ p < g1.next ∧ alloc 1 = true) := by
      cases alloc 1 with
      | false => exact ⟨none, g0, rfl, fun _ h => nomatch h⟩
      | true =>
        refine ⟨_, _, rfl, fun p hp => ?_⟩
        have : p = g0.next := (Option.some.inj hp).symm
        subst this
        exact ⟨hn0, by simp [ArrayHeap.alloc], by simp [ArrayHeap.alloc], rfl⟩
    obtain ⟨p1, g1, e1, q1⟩ := e1
    have e2 : ∃ p2 g2, arrayMalloc (alloc 2) (.times (List.replicate size 0)) none g1 = (0, p2, g2) ∧ (∀ p, p2 = some p → alloc 2 = true) ∧
        (∀ q, q < g1.next → g2.cell q = g1.cell q) ∧ g1.next ≤ g2.next := by
      obtain ⟨r1, r2, r3, r4⟩ := arrayMalloc_keeps (alloc 2) (.times (List.replicate size 0)) none g1
      refine ⟨_, _, Prod.ext r1 rfl, fun p hp => ?_, r3, r2⟩
      by_contra ha
      rw [r4 (by simpa using ha)] at hp
      exact nomatch hp
    obtain ⟨p2, g2, e2, q2, q3, q4⟩ := e2
    dsimp only at hr
    rw [e1] at hr
    dsimp only at hr
    rw [e2] at hr
    simp only [ne_eq, not_true_eq_false, if_false, notNull, ok_bind'] at hr
    obtain ⟨a, -, hr⟩ := bind_eq_ok.1 hr
    obtain ⟨a', -, hr⟩ := bind_eq_ok.1 hr
    obtain ⟨g3, w3, hr⟩ := bind_eq_ok.1 hr
    obtain ⟨⟨s4, u4, g4⟩, w4, hr⟩ := bind_eq_ok.1 hr
    dsimp only at hr
    obtain ⟨⟨p, rfl⟩, ⟨ps, rfl⟩, a3⟩ := loop_needs w4
    obtain ⟨t1, t2, t3, t4⟩ := q1 p rfl
    obtain ⟨c3, n3⟩ := setTimes_keeps w3 ((q3 p t3).trans t2)
    obtain ⟨f1, o, f2, f3⟩ := loop_shared _ _ _ _ _ w4 c3 (by omega) (by simpa using hsize) ⟨by simp, by simp, by simp, by simp⟩ (fun _ => rfl) (by simp)
    dsimp only at f1 f2 f3
    subst f1
    obtain ⟨g5, w5, hr⟩ := bind_eq_ok.1 hr
    simp only [not_true_eq_false, if_false, pure_eq_ok] at hr
    injection hr with hr
    simp only [Prod.mk.injEq] at hr
    obtain ⟨k1, k2, k3, k4, k5⟩ := hr
    subst k1 k2 k3 k4 k5
    refine ⟨rfl, rfl, t4, q2 _ rfl, a3, p, o, rfl, ?_, f3⟩
    unfold compExit at w5
    obtain ⟨g6, w6, w5⟩ := bind_eq_ok.1 w5
    simp only [ne_eq, not_true_eq_false, if_false] at w5
    injection w5 with w5
    subst w5
    rw [ArrayHeap.freeOption, ArrayHeap.free] at w6
    split at w6
    · injection w6 with w6
      subst w6
      have : p ≠ h.next := by omega
      simp [ArrayHeap.put, this, f2]
    · exact nomatch w6

/-- **C185, what holds**: if all allocations succeed, then the status is success and the rest is as in C142. -/
theorem C185_compositions_partial {alloc : Nat → Bool} (ha : ∀ i, alloc i = true) (sum inner fuel : Nat) (h : ArrayHeap S) :
    timesCompositionsAlloc alloc sum inner fuel h = (timesCompositionsHeap sum inner fuel h).map fun r => (0, some r.1, r.2.1, some r.2.2.1, r.2.2.2) := by
  have hloop : ∀ pa po psizes fuel k used b (h : ArrayHeap S), compLoopAlloc alloc inner pa (some po) (some psizes) fuel k used b h =
      (compLoopHeap inner pa po psizes fuel k used h).map fun r => (0, r.1, r.2) := by
    intro pa po psizes fuel
    induction fuel with
    | zero => exact fun _ _ _ _ => rfl
    | succ fuel ih =>
      intro k used b h
      rw [compLoopAlloc, compLoopHeap]
      split
      · rfl
      · refine bind_map fun a => bind_map fun p => bind_map fun q => bind_map fun r => bind_map fun a => bind_map fun h => ?_
        simp only [ha, arrayMalloc, if_true, ne_eq, not_true_eq_false, if_false, hasBeenSet, notNull, ok_bind']
        refine bind_map fun a => ?_
        have hnew : ((h.alloc (.times (List.replicate (u32 (r.2.1 + 1)) 0))).2).times (h.alloc (.times (List.replicate (u32 (r.2.1 + 1)) 0))).1 =
            .ok (List.replicate (u32 (r.2.1 + 1)) 0) := by
          simp [ArrayHeap.times, ArrayHeap.alloc]
        rw [hnew, ok_bind']
        refine bind_map fun c => bind_map fun h => bind_map fun o => bind_map fun o => bind_map fun h => bind_map fun z => bind_map fun z => bind_map fun h => ?_
        exact ih _ _ _ _
  rw [timesCompositionsAlloc, timesCompositionsHeap]
  refine bind_map fun size => ?_
  simp only [ha, arrayMalloc, if_true, ne_eq, not_true_eq_false, if_false, notNull, ok_bind']
  refine bind_map fun a => bind_map fun a => bind_map fun h => ?_
  rw [hloop]
  cases compLoopHeap inner _ _ _ fuel 1 0 h with
  | error e => rfl
  | ok r =>
    simp only [Except.map, ok_bind', compExit, ArrayHeap.freeOption, ne_eq, not_true_eq_false, if_false]
    cases r.2.free _ with
    | error e => rfl
    | ok g => rfl

/-- **C185 is false**: a call that returns has the status of success, whichever allocations fail. The arrays before the loop and the first result must have been allocated:
the call is undefined otherwise. If another result could not be allocated, then its pointer is that of the result before, and releasing the result as documented is undefined. -/
theorem C185_compositions_false {alloc : Nat → Bool} {sum inner fuel : Nat} (h1 : 1 ≤ sum) (h2 : sum < 4294967296) {h : ArrayHeap S} {st : Nat} {po : Option Nat} {used : Nat}
    {psizes : Option Nat} {h' : ArrayHeap S} (hr : timesCompositionsAlloc alloc sum inner fuel h = .ok (st, po, used, psizes, h')) :
    st = 0 ∧ (∀ i < 4, alloc i = true) ∧ ∃ p o, po = some p ∧ h'.cell p = some (.pointers o) ∧
      ∀ j, j < used → alloc (3 + j) = false → 0 < j ∧ (∃ q, o[j]? = some (some q) ∧ o[j - 1]? = some (some q)) ∧ ∀ h'', arrayFreeHeap p used h' ≠ .ok h'' := by
  obtain ⟨e, a0, a1, a2, a3, p, o, e1, e2, e3⟩ := call_shared h1 h2 hr
  refine ⟨e, ?_, p, o, e1, e2, fun j hj ha => ?_⟩
  · intro i hi
    have : i = 0 ∨ i = 1 ∨ i = 2 ∨ i = 3 := by omega
    rcases this with rfl | rfl | rfl | rfl <;> assumption
  · have hj0 : j ≠ 0 := by
      rintro rfl
      rw [show 3 + 0 = 3 from rfl, a3] at ha
      exact nomatch ha
    obtain ⟨i, rfl⟩ := Nat.exists_eq_succ_of_ne_zero hj0
    obtain ⟨q, hq⟩ := e3.isSet i (by omega)
    have hs := e3.same i hj ha
    rw [hq] at hs
    exact ⟨by omega, ⟨q, hs, hq⟩, fun h'' => free_shared e2 hj hq hs⟩

/-! ### A case -/

private def exHeap : ArrayHeap Int := ⟨2, fun a => if a = 0 then some (.samples [5]) else none⟩

private theorem exRun : ∃ h', timesCompositionsAlloc (fun i => decide (i ≠ 5)) 3 10 10 exHeap = .ok (0, some 3, 4, some 4, h') ∧
    (h'.cell 3 = some (.pointers [some 5, some 6, some 6, some 7]) ∧ h'.cell 5 = some (.times [1, 1, 1]) ∧ h'.cell 6 = some (.times [2, 1]) ∧
      h'.cell 7 = some (.times [3])) := ⟨_, rfl, rfl, rfl, rfl, rfl⟩

/-- The compositions of 3 when the third result can not be allocated: success, but 1 2 is missing and 2 1 is there twice, as the same array. -/
example : ∃ h', timesCompositionsAlloc (fun i => decide (i ≠ 5)) 3 10 10 exHeap = .ok (0, some 3, 4, some 4, h') ∧ h'.cell 6 = some (.times [2, 1]) ∧
    ∃ o, h'.cell 3 = some (.pointers o) ∧ (∃ q, o[2]? = some (some q) ∧ o[1]? = some (some q)) ∧ ∀ h'', arrayFreeHeap 3 4 h' ≠ .ok h'' := by
  obtain ⟨h', e, e1, -, e3, -⟩ := exRun
  obtain ⟨-, -, p, o, f1, f2, f3⟩ := C185_compositions_false (by omega) (by omega) e
  injection f1 with f1
  subst f1
  obtain ⟨-, g1, g2⟩ := f3 2 (by omega) (by decide)
  exact ⟨h', e, e3, o, f2, g1, g2⟩

/-- The compositions of 3. -/
example : ∃ h', timesCompositionsAlloc (fun _ => true) 3 10 10 exHeap = .ok (0, some 3, 4, some 4, h') ∧ h'.cell 6 = some (.times [1, 2]) ∧
    h'.cell 7 = some (.times [2, 1]) := by
  rw [C185_compositions_partial (fun _ => rfl)]
  exact ⟨_, rfl, rfl, rfl⟩

end Sp
