import Verif.Model.Quicksort
import Verif.Lemmas.SeqTrace
import Mathlib.Data.List.Perm.Basic
import Mathlib.Tactic.Linarith

/-! # Lemmas about quicksort -/

namespace Sp
variable {α : Type}

/-- The element at a signed index. -/
def getI (b : Buf α) (i : Int) : Option α := if i < 0 then none else b[i.toNat]?

theorem rdI_ok {b : Buf α} {i : Int} {v : α} : rdI b i = .ok v ↔ getI b i = some v := by
  unfold rdI getI
  split
  · simp
  · exact rd_ok_iff

theorem getI_some {b : Buf α} {i : Int} (h0 : 0 ≤ i) (h : i < b.length) : ∃ v, getI b i = some v := by
  unfold getI
  rw [if_neg (by omega), List.getElem?_eq_getElem (by omega)]
  exact ⟨_, rfl⟩

theorem getI_lt {b : Buf α} {i : Int} {v : α} (h : getI b i = some v) : 0 ≤ i ∧ i < b.length := by
  unfold getI at h
  split at h
  · simp at h
  · obtain ⟨h, _⟩ := List.getElem?_eq_some_iff.1 h
    omega

theorem sortLess_ok {lt : α → α → Bool} {b : Buf α} {i j : Int} {t : Bool} :
    sortLess lt b i j = .ok t ↔ ∃ x y, getI b i = some x ∧ getI b j = some y ∧ lt x y = t := by
  unfold sortLess
  rw [bind_eq_ok]
  constructor
  · rintro ⟨x, hx, h⟩
    rw [bind_eq_ok] at h
    obtain ⟨y, hy, h⟩ := h
    exact ⟨x, y, rdI_ok.1 hx, rdI_ok.1 hy, by simpa using h⟩
  · rintro ⟨x, y, hx, hy, h⟩
    refine ⟨x, rdI_ok.2 hx, ?_⟩
    rw [rdI_ok.2 hy, ok_bind', h]
    rfl

theorem set_set_perm (l : List α) {i j : Nat} (hij : i ≤ j) (hj : j < l.length) :
    ((l.set i l[j]).set j (l[i]'(by omega))).Perm l := by
  rcases Nat.eq_or_lt_of_le hij with rfl | hlt
  · simp
  · have e : l = l.take i ++ l[i] :: ((l.drop (i + 1)).take (j - i - 1) ++ l[j] :: l.drop (j + 1)) := by
      have h1 : l.drop (i + 1) = (l.drop (i + 1)).take (j - i - 1) ++ l[j] :: l.drop (j + 1) := by
        conv_lhs => rw [← List.take_append_drop (j - i - 1) (l.drop (i + 1))]
        rw [List.drop_drop, show i + 1 + (j - i - 1) = j by omega, List.drop_eq_getElem_cons hj]
      rw [← h1, List.getElem_cons_drop, List.take_append_drop]
    have e2 : (l.set i l[j]).set j l[i] =
        l.take i ++ l[j] :: ((l.drop (i + 1)).take (j - i - 1) ++ l[i] :: l.drop (j + 1)) := by
      apply List.ext_getElem?
      intro k
      rw [List.getElem?_set, List.getElem?_set]
      have hm : ((l.drop (i + 1)).take (j - i - 1)).length = j - i - 1 := by
        rw [List.length_take, List.length_drop]; omega
      have hi' : (l.take i).length = i := by rw [List.length_take]; omega
      rcases Nat.lt_trichotomy k i with h | h | h
      · rw [if_neg (by omega), if_neg (by omega), List.getElem?_append_left (by omega), List.getElem?_take,
          if_pos h]
      · subst h
        rw [if_neg (by omega), if_pos rfl, if_pos (by omega), List.getElem?_append_right (by omega), hi',
          Nat.sub_self]
        rfl
      · rw [List.getElem?_append_right (by omega), hi']
        obtain ⟨m, rfl⟩ : ∃ m, k = i + (m + 1) := ⟨k - i - 1, by omega⟩
        rw [show i + (m + 1) - i = m + 1 by omega, List.getElem?_cons_succ]
        rcases Nat.lt_trichotomy (i + (m + 1)) j with h2 | h2 | h2
        · rw [if_neg (by omega), if_neg (by omega), List.getElem?_append_left (by omega), List.getElem?_take,
            if_pos (by omega), List.getElem?_drop]
          congr 1; omega
        · rw [if_pos h2.symm, if_pos (by rw [List.length_set]; omega), List.getElem?_append_right (by omega), hm,
            show m - (j - i - 1) = 0 by omega]
          rfl
        · rw [if_neg (by omega), if_neg (by omega), List.getElem?_append_right (by omega), hm]
          obtain ⟨q, hq⟩ : ∃ q, m - (j - i - 1) = q + 1 := ⟨m - (j - i - 1) - 1, by omega⟩
          rw [hq, List.getElem?_cons_succ, List.getElem?_drop]
          congr 1; omega
    rw [e2]
    conv_rhs => rw [e]
    refine List.Perm.append_left _ ?_
    refine (List.Perm.cons _ List.perm_middle).trans (.trans (.swap _ _ _) ?_)
    exact List.Perm.cons _ List.perm_middle.symm

/-- What one exchange does. -/
theorem sortSwap_spec {b : Buf α} {i j : Int} (h0 : 0 ≤ i) (hij : i ≤ j) (hj : j < b.length) :
    ∃ b', sortSwap b i j = .ok b' ∧ b'.Perm b ∧
      ∀ k, getI b' k = if k = j then getI b i else if k = i then getI b j else getI b k := by
  obtain ⟨i, rfl⟩ := Int.eq_ofNat_of_zero_le h0
  obtain ⟨j, rfl⟩ := Int.eq_ofNat_of_zero_le (show 0 ≤ j by omega)
  have hj' : j < b.length := by omega
  have hi' : i < b.length := by omega
  refine ⟨(b.set i b[j]).set j b[i], ?_, set_set_perm b (by omega) hj', ?_⟩
  · unfold sortSwap rdI wrI
    simp only [Int.toNat_natCast, show ¬ ((i : Int) < 0) by omega, show ¬ ((j : Int) < 0) by omega, if_false]
    rw [rd_eq_ok hi', ok_bind', rd_eq_ok hj', ok_bind', wr_eq_ok _ hi', ok_bind',
      wr_eq_ok _ (by simpa using hj')]
  · intro k
    unfold getI
    simp only [Int.toNat_natCast, show ¬ ((i : Int) < 0) by omega, show ¬ ((j : Int) < 0) by omega, if_false]
    by_cases hk : k < 0
    · rw [if_pos hk, if_neg (by omega), if_neg (by omega), if_pos hk]
    · rw [if_neg hk, if_neg hk, List.getElem?_set, List.getElem?_set]
      by_cases h1 : j = k.toNat
      · rw [if_pos h1, if_pos (show k = (j : Int) by omega), if_pos (by rw [List.length_set]; omega),
          List.getElem?_eq_getElem hi']
      · rw [if_neg h1, if_neg (show ¬ k = (j : Int) by omega)]
        by_cases h2 : i = k.toNat
        · rw [if_pos h2, if_pos (by omega), if_pos (show k = (i : Int) by omega), List.getElem?_eq_getElem hj']
        · rw [if_neg h2, if_neg (show ¬ k = (i : Int) by omega)]

/-- `b'` is `b` with the elements at indices `lo` to `hi` rearranged. -/
def Rearranged (lo hi : Int) (b b' : Buf α) : Prop :=
  b'.Perm b ∧ (∀ k, (k < lo ∨ hi < k) → getI b' k = getI b k) ∧
  ∀ k v, lo ≤ k → k ≤ hi → getI b' k = some v → ∃ j, lo ≤ j ∧ j ≤ hi ∧ getI b j = some v

theorem Rearranged.refl (lo hi : Int) (b : Buf α) : Rearranged lo hi b b :=
  ⟨List.Perm.refl _, fun _ _ => rfl, fun k _ h1 h2 h3 => ⟨k, h1, h2, h3⟩⟩

theorem Rearranged.trans {lo hi : Int} {a b c : Buf α} (h1 : Rearranged lo hi a b) (h2 : Rearranged lo hi b c) :
    Rearranged lo hi a c := by
  refine ⟨h2.1.trans h1.1, fun k hk => (h2.2.1 k hk).trans (h1.2.1 k hk), ?_⟩
  intro k v h3 h4 h5
  obtain ⟨j, h6, h7, h8⟩ := h2.2.2 k v h3 h4 h5
  exact h1.2.2 j v h6 h7 h8

theorem Rearranged.mono {lo hi lo' hi' : Int} {b c : Buf α} (h : Rearranged lo hi b c) (hl : lo' ≤ lo)
    (hh : hi ≤ hi') : Rearranged lo' hi' b c := by
  refine ⟨h.1, fun k hk => h.2.1 k (by omega), ?_⟩
  intro k v h1 h2 h3
  by_cases hk : lo ≤ k ∧ k ≤ hi
  · obtain ⟨j, h4, h5, h6⟩ := h.2.2 k v hk.1 hk.2 h3
    exact ⟨j, by omega, by omega, h6⟩
  · rw [h.2.1 k (by omega)] at h3
    exact ⟨k, h1, h2, h3⟩

theorem Rearranged.length {lo hi : Int} {b c : Buf α} (h : Rearranged lo hi b c) : c.length = b.length :=
  h.1.length_eq

/-- What holds for all elements of the part holds after the rearrangement. -/
theorem Rearranged.all {lo hi : Int} {b c : Buf α} (h : Rearranged lo hi b c) {Q : α → Prop}
    (hq : ∀ k v, lo ≤ k → k ≤ hi → getI b k = some v → Q v) :
    ∀ k v, lo ≤ k → k ≤ hi → getI c k = some v → Q v := by
  intro k v h1 h2 h3
  obtain ⟨j, h4, h5, h6⟩ := h.2.2 k v h1 h2 h3
  exact hq j v h4 h5 h6

theorem Rearranged.of_swap {lo hi i j : Int} {b b' : Buf α} (hp : b'.Perm b)
    (hg : ∀ k, getI b' k = if k = j then getI b i else if k = i then getI b j else getI b k)
    (hi1 : lo ≤ i) (hi2 : i ≤ hi) (hj1 : lo ≤ j) (hj2 : j ≤ hi) : Rearranged lo hi b b' := by
  refine ⟨hp, ?_, ?_⟩
  · intro k hk
    rw [hg, if_neg (by omega), if_neg (by omega)]
  · intro k v h1 h2 h3
    rw [hg] at h3
    split at h3
    · exact ⟨i, hi1, hi2, h3⟩
    · split at h3
      · exact ⟨j, hj1, hj2, h3⟩
      · exact ⟨k, h1, h2, h3⟩

/-- The comparison is a strict weak order: irreflexive, and incomparability is kept (`a < b` implies
`a < c` or `c < b`). Asymmetry and transitivity follow. -/
structure StrictWeak (lt : α → α → Bool) : Prop where
  irrefl : ∀ a, lt a a = false
  asymm : ∀ a b, lt a b = true → lt b a = false
  cotrans : ∀ a b c, lt a b = true → lt a c = true ∨ lt c b = true

theorem scanLeft_ok {lt : α → α → Bool} {b : Buf α} {p : Int} {pv : α} (hp : getI b p = some pv) :
    ∀ {n : Nat} {l l' : Int}, scanLeft lt b p n l = .ok l' →
      l ≤ l' ∧ (∀ k v, l ≤ k → k < l' → getI b k = some v → lt v pv = true) ∧
      ∃ v, getI b l' = some v ∧ lt v pv = false := by
  intro n
  induction n with
  | zero => intro l l' h; simp [scanLeft] at h
  | succ n ih =>
    intro l l' h
    unfold scanLeft at h
    rw [bind_eq_ok] at h
    obtain ⟨t, ht, h⟩ := h
    obtain ⟨x, y, hx, hy, hxy⟩ := sortLess_ok.1 ht
    rw [hp] at hy
    obtain rfl : pv = y := by simpa using hy
    cases t with
    | true =>
      obtain ⟨h1, h2, h3⟩ := ih h
      refine ⟨by omega, ?_, h3⟩
      intro k v hk1 hk2 hv
      by_cases e : k = l
      · subst e
        rw [hx] at hv
        obtain rfl : x = v := by simpa using hv
        exact hxy
      · exact h2 k v (by omega) hk2 hv
    | false =>
      simp at h
      subst h
      exact ⟨le_refl _, fun k v h1 h2 => by omega, x, hx, hxy⟩

theorem scanRight_ok {lt : α → α → Bool} {b : Buf α} {p : Int} {pv : α} (hp : getI b p = some pv) :
    ∀ {n : Nat} {r r' : Int}, scanRight lt b p n r = .ok r' →
      r' ≤ r ∧ (∀ k v, r' < k → k ≤ r → getI b k = some v → lt pv v = true) ∧
      ∃ v, getI b r' = some v ∧ lt pv v = false := by
  intro n
  induction n with
  | zero => intro l l' h; simp [scanRight] at h
  | succ n ih =>
    intro r r' h
    unfold scanRight at h
    rw [bind_eq_ok] at h
    obtain ⟨t, ht, h⟩ := h
    obtain ⟨x, y, hx, hy, hxy⟩ := sortLess_ok.1 ht
    rw [hp] at hx
    obtain rfl : pv = x := by simpa using hx
    cases t with
    | true =>
      obtain ⟨h1, h2, h3⟩ := ih h
      refine ⟨by omega, ?_, h3⟩
      intro k v hk1 hk2 hv
      by_cases e : k = r
      · subst e
        rw [hy] at hv
        obtain rfl : y = v := by simpa using hv
        exact hxy
      · exact h2 k v hk1 (by omega) hv
    | false =>
      simp at h
      subst h
      exact ⟨le_refl _, fun k v h1 h2 => by omega, y, hy, hxy⟩

/-- With an element that stops it, the scan returns. -/
theorem scanLeft_returns {lt : α → α → Bool} {b : Buf α} {p : Int} {pv : α} (hp : getI b p = some pv) :
    ∀ {n : Nat} {l s : Int} {v : α}, 0 ≤ l → l ≤ s → getI b s = some v → lt v pv = false → s - l < n →
      ∃ l', scanLeft lt b p n l = .ok l' := by
  intro n
  induction n with
  | zero => intro l s v _ _ _ _ h; omega
  | succ n ih =>
    intro l s v h0 hls hs hv hn
    obtain ⟨x, hx⟩ := getI_some (b := b) (i := l) h0 (by have := getI_lt hs; omega)
    unfold scanLeft
    rw [sortLess_ok.2 ⟨x, pv, hx, hp, rfl⟩, ok_bind']
    cases hlt : lt x pv with
    | true =>
      have hne : l ≠ s := by
        rintro rfl
        rw [hx] at hs
        simp at hs
        subst hs
        rw [hv] at hlt
        simp at hlt
      simp only [if_true]
      exact ih (by omega) (by omega) hs hv (by omega)
    | false => exact ⟨l, rfl⟩

theorem scanRight_returns {lt : α → α → Bool} {b : Buf α} {p : Int} {pv : α} (hp : getI b p = some pv) :
    ∀ {n : Nat} {r s : Int} {v : α}, r < b.length → s ≤ r → getI b s = some v → lt pv v = false → r - s < n →
      ∃ r', scanRight lt b p n r = .ok r' := by
  intro n
  induction n with
  | zero => intro r s v _ _ _ _ h; omega
  | succ n ih =>
    intro r s v h0 hls hs hv hn
    obtain ⟨x, hx⟩ := getI_some (b := b) (i := r) (by have := getI_lt hs; omega) h0
    unfold scanRight
    rw [sortLess_ok.2 ⟨pv, x, hp, hx, rfl⟩, ok_bind']
    cases hlt : lt pv x with
    | true =>
      have hne : r ≠ s := by
        rintro rfl
        rw [hx] at hs
        simp at hs
        subst hs
        rw [hv] at hlt
        simp at hlt
      simp only [if_true]
      exact ih (by omega) (by omega) hs hv (by omega)
    | false => exact ⟨r, rfl⟩

/-- The invariant of the partition loop. -/
structure PartInv (lt : α → α → Bool) (left right : Int) (pv : α) (b : Buf α) (p l r : Int) : Prop where
  left_nonneg : 0 ≤ left
  right_lt : right < b.length
  hl : left ≤ l
  hr : r ≤ right
  hp1 : left ≤ p
  hp2 : p ≤ right
  hpv : getI b p = some pv
  low : ∀ k v, left ≤ k → k < l → getI b k = some v → lt pv v = false
  high : ∀ k v, r < k → k ≤ right → getI b k = some v → lt v pv = false
  stop : ∃ k v, l ≤ k ∧ k ≤ right ∧ getI b k = some v ∧ lt v pv = false
  progress : (l = left ∧ r = right ∧ p < right) ∨ (left < l ∧ r < right)

/-- What the partition loop establishes. -/
structure PartPost (lt : α → α → Bool) (left right : Int) (pv : α) (b b' : Buf α) (l r : Int) : Prop where
  re : Rearranged left right b b'
  hl : left < l
  hl2 : l ≤ right
  hr : r < right
  hlr : r < l
  low : ∀ k v, left ≤ k → k < l → getI b' k = some v → lt pv v = false
  high : ∀ k v, r < k → k ≤ right → getI b' k = some v → lt v pv = false

/-- One pass of the loop: either the end, or the invariant again. -/
theorem partStep {lt : α → α → Bool} (hs : StrictWeak lt) {left right : Int} {pv : α} {b : Buf α} {p l r : Int}
    (I : PartInv lt left right pv b p l r) {scan : Nat} {l' r' : Int}
    (hl' : scanLeft lt b p scan l = .ok l') (hr' : scanRight lt b p scan r = .ok r') :
    (r' < l' ∧ PartPost lt left right pv b b l' r') ∨
    (l' ≤ r' ∧ left ≤ l' ∧ r' ≤ right ∧ ∃ b', sortSwap b l' r' = .ok b' ∧ Rearranged left right b b' ∧
      PartInv lt left right pv b' (nextPivot p l' r') (1 + l') (r' - 1)) := by
  obtain ⟨a1, a2, vl, a3, a4⟩ := scanLeft_ok I.hpv hl'
  obtain ⟨b1, b2, vr, b3, b4⟩ := scanRight_ok I.hpv hr'
  have hlr : l' ≤ right := by
    obtain ⟨k, v, h1, h2, h3, h4⟩ := I.stop
    by_contra hc
    have := a2 k v h1 (by omega) h3
    rw [h4] at this
    simp at this
  have hlow : ∀ k v, left ≤ k → k < l' → getI b k = some v → lt pv v = false := by
    intro k v h1 h2 h3
    rcases lt_or_ge k l with h | h
    · exact I.low k v h1 h h3
    · exact hs.asymm _ _ (a2 k v h h2 h3)
  have hhigh : ∀ k v, r' < k → k ≤ right → getI b k = some v → lt v pv = false := by
    intro k v h1 h2 h3
    rcases lt_or_ge r k with h | h
    · exact I.high k v h h2 h3
    · exact hs.asymm _ _ (b2 k v h1 h h3)
  have hpl : l ≤ p → l' ≤ p := by
    intro h
    by_contra hc
    have := a2 p pv h (by omega) I.hpv
    rw [hs.irrefl] at this
    simp at this
  have hpr : p ≤ r → p ≤ r' := by
    intro h
    by_contra hc
    have := b2 p pv (by omega) h I.hpv
    rw [hs.irrefl] at this
    simp at this
  have hprog := I.progress
  have ihl := I.hl
  have ihr := I.hr
  have ip1 := I.hp1
  have ip2 := I.hp2
  have il0 := I.left_nonneg
  have ir0 := I.right_lt
  by_cases hcmp : r' < l'
  · left
    refine ⟨hcmp, Rearranged.refl _ _ _, ?_, hlr, ?_, hcmp, hlow, hhigh⟩
    · rcases hprog with ⟨h1, h2, h3⟩ | ⟨h1, h2⟩
      · have := hpl (by omega); have := hpr (by omega); omega
      · omega
    · rcases hprog with ⟨h1, h2, h3⟩ | ⟨h1, h2⟩
      · have := hpl (by omega); have := hpr (by omega); omega
      · omega
  · right
    obtain ⟨b', hb', hperm, hget⟩ := sortSwap_spec (b := b) (i := l') (j := r') (by omega) (by omega) (by omega)
    have hR : Rearranged left right b b' :=
      Rearranged.of_swap hperm hget (by omega) (by omega) (by omega) (by omega)
    refine ⟨by omega, by omega, by omega, b', hb', hR, ?_⟩
    have hlen := hR.length
    refine ⟨I.left_nonneg, by omega, by omega, by omega, ?_, ?_, ?_, ?_, ?_, ?_, ?_⟩
    · unfold nextPivot; split
      · omega
      · split <;> omega
    · unfold nextPivot; split
      · omega
      · split <;> omega
    · unfold nextPivot
      rw [hget]
      by_cases h1 : p = l'
      · rw [if_pos h1, if_pos rfl, ← h1, I.hpv]
      · rw [if_neg h1]
        by_cases h2 : p = r'
        · rw [if_pos h2]
          by_cases h3 : l' = r'
          · rw [if_pos h3, h3, ← h2, I.hpv]
          · rw [if_neg h3, if_pos rfl, ← h2, I.hpv]
        · rw [if_neg h2, if_neg h2, if_neg h1, I.hpv]
    · intro k v h1 h2 h3
      rw [hget] at h3
      split at h3
      · next hk =>
        have : l' = r' := by omega
        rw [this, b3] at h3
        simp at h3; subst h3
        exact b4
      · split at h3
        · rw [b3] at h3
          simp at h3; subst h3
          exact b4
        · exact hlow k v h1 (by omega) h3
    · intro k v h1 h2 h3
      rw [hget] at h3
      split at h3
      · rw [a3] at h3
        simp at h3; subst h3
        exact a4
      · split at h3
        · next hk1 hk2 =>
          omega
        · exact hhigh k v (by omega) h2 h3
    · by_cases h : l' = r'
      · have hlt : l' < right := by
          rcases hprog with ⟨h1, h2, h3⟩ | ⟨h1, h2⟩
          · have := hpl (by omega); omega
          · omega
        obtain ⟨v, hv⟩ := getI_some (b := b) (i := 1 + l') (by omega) (by omega)
        refine ⟨1 + l', v, by omega, by omega, ?_, hhigh _ v (by omega) (by omega) hv⟩
        rw [hget, if_neg (by omega), if_neg (by omega), hv]
      · exact ⟨r', vl, by omega, by omega, by rw [hget, if_pos rfl, a3], a4⟩
    · right; omega

theorem PartPost.of_rearranged {lt : α → α → Bool} {left right : Int} {pv : α} {b b' c : Buf α} {l r : Int}
    (h : Rearranged left right b b') (P : PartPost lt left right pv b' c l r) :
    PartPost lt left right pv b c l r :=
  ⟨h.trans P.re, P.hl, P.hl2, P.hr, P.hlr, P.low, P.high⟩

theorem partitionLoop_post {lt : α → α → Bool} (hs : StrictWeak lt) {left right : Int} {pv : α} {scan : Nat} :
    ∀ {n : Nat} {b : Buf α} {p l r : Int}, PartInv lt left right pv b p l r → ∀ {b' : Buf α} {l' r' : Int},
      partitionLoop lt scan n b p l r = .ok (b', l', r') → PartPost lt left right pv b b' l' r' := by
  intro n
  induction n with
  | zero => intro b p l r _ b' l' r' h; simp [partitionLoop] at h
  | succ n ih =>
    intro b p l r I b' l' r' h
    unfold partitionLoop at h
    rw [bind_eq_ok] at h
    obtain ⟨l1, hl1, h⟩ := h
    rw [bind_eq_ok] at h
    obtain ⟨r1, hr1, h⟩ := h
    rcases partStep hs I hl1 hr1 with ⟨hc, P⟩ | ⟨hc, _, _, b1, hb1, hR, I'⟩
    · rw [if_pos hc] at h
      simp at h
      obtain ⟨rfl, rfl, rfl⟩ := h
      exact P
    · rw [if_neg (by omega), hb1, ok_bind'] at h
      exact (ih I' h).of_rearranged hR

theorem partitionLoop_returns {lt : α → α → Bool} (hs : StrictWeak lt) {left right : Int} {pv : α} {scan : Nat}
    {len : Nat} (hscan : len < scan) {s : Int} (hsl : s < left) :
    ∀ {n : Nat} {b : Buf α} {p l r : Int}, PartInv lt left right pv b p l r → b.length = len → s ≤ r →
      (∃ v, getI b s = some v ∧ lt pv v = false) → l ≤ right → right - l < n →
      ∃ x, partitionLoop lt scan n b p l r = .ok x := by
  intro n
  induction n with
  | zero => intro b p l r _ _ _ _ _ h; omega
  | succ n ih =>
    intro b p l r I hlen hsr ⟨sv, hsv, hsv2⟩ hlr hn
    have ihl := I.hl
    have ihr := I.hr
    have il0 := I.left_nonneg
    have ir0 := I.right_lt
    obtain ⟨k, v, h1, h2, h3, h4⟩ := I.stop
    obtain ⟨l1, hl1⟩ := scanLeft_returns (n := scan) I.hpv (l := l) (by omega) h1 h3 h4 (by omega)
    have hs0 := (getI_lt hsv).1
    obtain ⟨r1, hr1⟩ := scanRight_returns (n := scan) I.hpv (r := r) (by omega) hsr hsv hsv2 (by omega)
    unfold partitionLoop
    rw [hl1, ok_bind', hr1, ok_bind']
    rcases partStep hs I hl1 hr1 with ⟨hc, P⟩ | ⟨hc, hc1, hc2, b1, hb1, hR, I'⟩
    · rw [if_pos hc]
      exact ⟨_, rfl⟩
    · rw [if_neg (by omega), hb1, ok_bind']
      have hll := (scanLeft_ok I.hpv hl1).1
      obtain ⟨k', v', g1, g2, _⟩ := I'.stop
      refine ih I' (by rw [hR.length, hlen]) (by omega) ?_ (by omega) (by omega)
      exact ⟨sv, by rw [hR.2.1 s (by omega), hsv], hsv2⟩

/-- The elements at indices `left` to `right` are in order. -/
def SortedPart (lt : α → α → Bool) (left right : Int) (b : Buf α) : Prop :=
  ∀ i j x y, left ≤ i → i ≤ j → j ≤ right → getI b i = some x → getI b j = some y → lt y x = false

theorem PartInv.start {lt : α → α → Bool} (hs : StrictWeak lt) {left right : Int} {b : Buf α} (h0 : 0 ≤ left)
    (hlr : left < right) (hr : right < b.length) :
    ∃ pv, PartInv lt left right pv b (left + (right - left) / 2) left right := by
  have hp1 : left ≤ left + (right - left) / 2 := by omega
  have hp2 : left + (right - left) / 2 < right := by omega
  obtain ⟨pv, hpv⟩ := getI_some (b := b) (i := left + (right - left) / 2) (by omega) (by omega)
  exact ⟨pv, h0, hr, le_refl _, le_refl _, hp1, by omega, hpv, fun k v h1 h2 => by omega,
    fun k v h1 h2 => by omega, ⟨_, pv, hp1, by omega, hpv, hs.irrefl pv⟩, .inl ⟨rfl, rfl, hp2⟩⟩

theorem quicksort_ok {lt : α → α → Bool} (hs : StrictWeak lt) {n : Nat} :
    ∀ {depth : Nat} {b b' : Buf α} {left right : Int}, 0 ≤ left → right < b.length →
      quicksort lt n depth b left right = .ok b' →
      Rearranged left right b b' ∧ SortedPart lt left right b' := by
  intro depth
  induction depth with
  | zero => intro b b' left right _ _ h; simp [quicksort] at h
  | succ depth ih =>
    intro b b' left right h0 hr h
    unfold quicksort at h
    split at h
    · next hle =>
      simp at h
      subst h
      refine ⟨Rearranged.refl _ _ _, ?_⟩
      intro i j x y h1 h2 h3 h4 h5
      obtain rfl : i = j := by omega
      rw [h4] at h5
      simp at h5
      subst h5
      exact hs.irrefl x
    · next hle =>
      obtain ⟨pv, I⟩ := PartInv.start hs h0 (show left < right by omega) hr
      rw [bind_eq_ok] at h
      obtain ⟨⟨b1, l, r⟩, h1, h⟩ := h
      have P := partitionLoop_post hs I h1
      simp only at h
      rw [bind_eq_ok] at h
      obtain ⟨b2, h2, h3⟩ := h
      have hlen1 := P.re.length
      have pl := P.hl
      have pl2 := P.hl2
      have pr := P.hr
      have plr := P.hlr
      obtain ⟨R1, S1⟩ := ih h0 (by omega) h2
      have hlen2 := R1.length
      obtain ⟨R2, S2⟩ := ih (by omega) (by omega) h3
      have low1 : ∀ k v, left ≤ k → k ≤ r → getI b2 k = some v → lt pv v = false :=
        R1.all (fun k v g1 g2 => P.low k v g1 (by omega))
      have high2 : ∀ k v, l ≤ k → k ≤ right → getI b' k = some v → lt v pv = false := by
        refine R2.all ?_
        intro k v g1 g2 g3
        rw [R1.2.1 k (by omega)] at g3
        exact P.high k v (by omega) g2 g3
      have low : ∀ k v, left ≤ k → k < l → getI b' k = some v → lt pv v = false := by
        intro k v g1 g2 g3
        rw [R2.2.1 k (by omega)] at g3
        by_cases hk : k ≤ r
        · exact low1 k v g1 hk g3
        · rw [R1.2.1 k (by omega)] at g3
          exact P.low k v g1 g2 g3
      have high : ∀ k v, r < k → k ≤ right → getI b' k = some v → lt v pv = false := by
        intro k v g1 g2 g3
        by_cases hk : l ≤ k
        · exact high2 k v hk g2 g3
        · rw [R2.2.1 k (by omega), R1.2.1 k (by omega)] at g3
          exact P.high k v g1 g2 g3
      refine ⟨P.re.trans ((R1.mono (le_refl _) (by omega)).trans (R2.mono (by omega) (le_refl _))), ?_⟩
      intro i j x y g1 g2 g3 g4 g5
      by_cases hj : j ≤ r
      · rw [R2.2.1 _ (by omega)] at g4 g5
        exact S1 i j x y g1 g2 hj g4 g5
      · by_cases hi : l ≤ i
        · exact S2 i j x y hi g2 g3 g4 g5
        · have q1 := low i x g1 (by omega) g4
          have q2 := high j y (by omega) g3 g5
          cases hyx : lt y x with
          | false => rfl
          | true =>
            rcases hs.cotrans y x pv hyx with h | h
            · rw [q2] at h; simp at h
            · rw [q1] at h; simp at h

theorem quicksort_returns {lt : α → α → Bool} (hs : StrictWeak lt) {n : Nat} :
    ∀ {depth : Nat} {b : Buf α} {left right s : Int} {sv : α}, 0 ≤ left → right < b.length → b.length < n →
      s < left → getI b s = some sv →
      (∀ k v, left ≤ k → k ≤ right → getI b k = some v → lt v sv = false) → 
      right - left < depth → 0 < depth →
      ∃ b', quicksort lt n depth b left right = .ok b' := by
  intro depth
  induction depth with
  | zero => intro b left right s sv _ _ _ _ _ _ _ h; omega
  | succ depth ih =>
    intro b left right s sv h0 hr hn hs1 hs2 hs3 hd _
    unfold quicksort
    split
    · exact ⟨b, rfl⟩
    · next hle =>
      obtain ⟨pv, I⟩ := PartInv.start hs h0 (show left < right by omega) hr
      have ⟨⟨b1, l, r⟩, h1⟩ := partitionLoop_returns hs (scan := n) hn hs1 (n := n) I rfl (by omega)
        ⟨sv, hs2, hs3 _ pv I.hp1 I.hp2 I.hpv⟩ (by omega) (by omega)
      rw [h1, ok_bind']
      simp only
      have P := partitionLoop_post hs I h1
      have hlen1 := P.re.length
      have pl := P.hl
      have pl2 := P.hl2
      have pr := P.hr
      have plr := P.hlr
      have hs3' : ∀ k v, left ≤ k → k ≤ right → getI b1 k = some v → lt v sv = false := P.re.all hs3
      have hs2' : getI b1 s = some sv := by rw [P.re.2.1 s (by omega), hs2]
      obtain ⟨b2, h2⟩ := ih (b := b1) (left := left) (right := r) h0 (by omega) (by omega) hs1 hs2'
        (fun k v g1 g2 => hs3' k v g1 (by omega)) (by omega) (by omega)
      rw [h2, ok_bind']
      obtain ⟨R1, _⟩ := quicksort_ok hs h0 (by omega) h2
      have hlen2 := R1.length
      refine ih (s := s) (sv := sv) (by omega) (by omega) (by omega) (by omega) (by rw [R1.2.1 s (by omega), hs2'])
        ?_ (by omega) (by omega)
      intro k v g1 g2 g3
      rw [R1.2.1 k (by omega)] at g3
      exact hs3' k v (by omega) g2 g3

end Sp
