import Verif.Lemmas.Quicksort

/-!
# C46: quicksort

False as stated: the scan from the right can go below the first index. Each ascending array of two
elements makes it read the element before the array.
-/

namespace Sp
variable {α : Type}

/-- **C46, whenever it returns, it has sorted**: for every strict weak order and every array, a run
without undefined behaviour over the indices 0 to size - 1 leaves a sorted permutation. -/
theorem C46_sorts_partial {lt : α → α → Bool} (hs : StrictWeak lt) {n depth : Nat} {b b' : Buf α}
    (h : quicksort lt n depth b 0 (b.length - 1) = .ok b') :
    b'.Perm b ∧ ∀ (i j : Nat) (x y : α), i ≤ j → b'[i]? = some x → b'[j]? = some y → lt y x = false := by
  obtain ⟨R, S⟩ := quicksort_ok hs (le_refl _) (by omega) h
  refine ⟨R.1, ?_⟩
  intro i j x y hij hx hy
  have hj : j < b'.length := (List.getElem?_eq_some_iff.1 hy).1
  have hl := R.length
  exact S (i : Int) (j : Int) x y (by omega) (by omega) (by omega)
    (by unfold getI; rw [if_neg (by omega), Int.toNat_natCast, hx])
    (by unfold getI; rw [if_neg (by omega), Int.toNat_natCast, hy])

/-- **C46, the full claim with a guard element**: for a part of an array that has, somewhere before it, an
element that is not greater than any element of the part, quicksort always returns, sorts the part,
and changes nothing outside of it. What is missing: in the code there is no such element before the
first one, see the next theorem. -/
theorem C46_with_guard_partial {lt : α → α → Bool} (hs : StrictWeak lt) (pre part post : Buf α) {g : α}
    (hg : g ∈ pre) (hguard : ∀ v ∈ part, lt v g = false) {n depth : Nat}
    (hn : (pre ++ part ++ post).length < n) (hd : part.length < depth) :
    ∃ part', quicksort lt n depth (pre ++ part ++ post) pre.length (pre.length + part.length - 1) =
        .ok (pre ++ part' ++ post) ∧ part'.Perm part ∧
      ∀ (i j : Nat) (x y : α), i ≤ j → part'[i]? = some x → part'[j]? = some y → lt y x = false := by
  set b := pre ++ part ++ post with hb
  have hblen : b.length = pre.length + part.length + post.length := by simp [hb, Nat.add_assoc]
  obtain ⟨s, hsl, hsg⟩ := List.getElem_of_mem hg
  have hgs : getI b (s : Int) = some g := by
    unfold getI
    rw [if_neg (by omega), Int.toNat_natCast, hb, List.append_assoc, List.getElem?_append_left hsl,
      List.getElem?_eq_getElem hsl, hsg]
  have hpart : ∀ k v, (pre.length : Int) ≤ k → k ≤ pre.length + part.length - 1 → getI b k = some v →
      lt v g = false := by
    intro k v h1 h2 h3
    unfold getI at h3
    rw [if_neg (by omega), hb, List.append_assoc, List.getElem?_append_right (by omega),
      List.getElem?_append_left (by omega)] at h3
    exact hguard v (List.mem_of_getElem? h3)
  obtain ⟨b', h⟩ := quicksort_returns hs (n := n) (depth := depth) (b := b) (left := pre.length)
    (right := pre.length + part.length - 1) (s := s) (sv := g) (by omega) (by omega) hn (by omega) hgs hpart
    (by omega) (by omega)
  obtain ⟨R, S⟩ := quicksort_ok hs (by omega) (by omega) h
  have hlen := R.length
  have hpre : b'.take pre.length = pre := by
    apply List.ext_getElem?
    intro k
    rw [List.getElem?_take]
    split
    · next hk =>
      have := R.2.1 (k : Int) (by omega)
      unfold getI at this
      rw [if_neg (by omega), if_neg (by omega), Int.toNat_natCast] at this
      rw [this, hb, List.append_assoc, List.getElem?_append_left hk]
    · next hk => rw [List.getElem?_eq_none (by omega)]
  have hpost : b'.drop (pre.length + part.length) = post := by
    apply List.ext_getElem?
    intro k
    rw [List.getElem?_drop]
    have := R.2.1 ((pre.length + part.length + k : Nat) : Int) (by omega)
    unfold getI at this
    rw [if_neg (by omega), if_neg (by omega), Int.toNat_natCast] at this
    rw [this, hb, List.getElem?_append_right (by simp)]
    congr 1
    simp
  have hmid : b' = pre ++ (b'.drop pre.length).take part.length ++ post := by
    conv_lhs => rw [← List.take_append_drop pre.length b', hpre]
    rw [List.append_assoc]
    congr 1
    conv_lhs => rw [← List.take_append_drop part.length (b'.drop pre.length)]
    rw [List.drop_drop, hpost]
  refine ⟨(b'.drop pre.length).take part.length, by rw [h, ← hmid], ?_, ?_⟩
  · have hp := R.1
    rw [hmid, hb, List.append_assoc, List.append_assoc] at hp
    exact (List.perm_append_right_iff post).1 ((List.perm_append_left_iff pre).1 hp)
  · intro i j x y hij hx hy
    have hj := (List.getElem?_eq_some_iff.1 hy).1
    rw [List.length_take, List.length_drop] at hj
    rw [List.getElem?_take, if_pos (by omega), List.getElem?_drop] at hx hy
    exact S ((pre.length + i : Nat) : Int) ((pre.length + j : Nat) : Int) x y (by omega) (by omega) (by omega)
      (by unfold getI; rw [if_neg (by omega), Int.toNat_natCast, hx])
      (by unfold getI; rw [if_neg (by omega), Int.toNat_natCast, hy])

/-- **C46 is false**: an array of two elements that are in order makes quicksort read the element
before the array, for every element type and strict order. -/
theorem C46_reads_before_array {lt : α → α → Bool} (hs : StrictWeak lt) {x y : α} (hxy : lt x y = true)
    {n depth : Nat} (hn : 2 ≤ n) (hd : 1 ≤ depth) :
    quicksort lt n depth [x, y] 0 1 = .error .outOfBounds := by
  obtain ⟨n, rfl⟩ : ∃ m, n = m + 2 := ⟨n - 2, by omega⟩
  obtain ⟨depth, rfl⟩ : ∃ m, depth = m + 1 := ⟨depth - 1, by omega⟩
  have hxx := hs.irrefl x
  have hyx := hs.asymm x y hxy
  have h1 : scanLeft lt [x, y] 0 (n + 2) 0 = .ok 0 := by
    unfold scanLeft sortLess rdI rd
    simp [hxx]
  have h2 : scanRight lt [x, y] 0 (n + 2) 1 = .ok 0 := by
    unfold scanRight sortLess rdI rd
    simp only [Int.reduceLT, if_false, Int.toNat_zero, Int.toNat_one, List.getElem?_cons_zero,
      List.getElem?_cons_succ, ok_bind', pure_eq_ok, hxy, if_true]
    unfold scanRight sortLess rdI rd
    simp [hxx]
  have h3 : sortSwap [x, y] 0 0 = .ok [x, y] := by
    unfold sortSwap rdI wrI rd wr
    simp
  have h4 : scanLeft lt [x, y] 0 (n + 2) 1 = .ok 1 := by
    unfold scanLeft sortLess rdI rd
    simp [hyx]
  have h5 : scanRight lt [x, y] 0 (n + 2) (-1) = .error .outOfBounds := by
    unfold scanRight sortLess rdI rd
    simp
  unfold quicksort
  rw [if_neg (by omega)]
  have hp : partitionLoop lt (n + 2) (n + 2) [x, y] (0 + (1 - 0) / 2) 0 1 = .error .outOfBounds := by
    rw [show (0 + (1 - 0) / 2 : Int) = 0 by rfl]
    unfold partitionLoop
    rw [h1, ok_bind', h2, ok_bind', if_neg (by omega), h3, ok_bind']
    unfold partitionLoop nextPivot
    rw [if_pos rfl, show (1 + 0 : Int) = 1 by rfl, show (0 - 1 : Int) = -1 by rfl, h4, ok_bind', h5]
    rfl
  rw [hp]
  rfl

/-- Comparison of numbers is a strict weak order. -/
theorem strictWeak_nat : StrictWeak (fun a b : Nat => decide (a < b)) :=
  ⟨by simp, by simp; omega, by simp; omega⟩

/-- Non-vacuity: arrays that are sorted without undefined behaviour, and one that is not. -/
example : quicksort (fun a b : Nat => decide (a < b)) 9 9 [2, 2, 1, 1, 3] 0 4 = .ok [1, 1, 2, 2, 3] := rfl
example : quicksort (fun a b : Nat => decide (a < b)) 9 9 [0, 2, 1, 3] 1 3 = .ok [0, 1, 2, 3] := rfl
example : quicksort (fun a b : Nat => decide (a < b)) 9 9 [1, 2] 0 1 = .error .outOfBounds := rfl

end Sp
