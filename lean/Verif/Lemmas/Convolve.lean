import Verif.Model.Convolve

set_option linter.unusedSectionVars false

namespace Sp
variable {S : Type _} [Zero S] [Add S] [Mul S]

/-- The accumulation of the terms `a i * b (k - i)` for `i < n`, in increasing order of `i`. -/
def convAcc (a b : Nat → S) (bLen k : Nat) (init : S) : Nat → S
  | 0 => init
  | n + 1 =>
    if n ≤ k ∧ k - n < bLen then convAcc a b bLen k init n + a n * b (k - n)
    else convAcc a b bLen k init n

theorem convolveOne_tab {a b f : Nat → S} {na nb n aLen bLen : Nat} (ha : aLen ≤ na) (hb : bLen ≤ nb)
    (hn : aLen + bLen ≤ n + 1) (h32 : aLen + bLen ≤ 4294967297) :
    convolveOne (tab na a) aLen (tab nb b) bLen (tab n f) =
      .ok (tab n (fun k => convAcc a b bLen k (f k) aLen)) := by
  unfold convolveOne
  have := forRange_states (fun i => tab n (fun k => convAcc a b bLen k (f k) i)) (lo := 0)
    (hi := aLen) (Nat.zero_le _)
    (body := fun i => forRange 0 bLen (fun j => convolveStep (tab na a) (tab nb b) i j)) ?_
  · exact this
  · intro i _ hi
    have h2 := forRange_states (fun j => tab n (fun k => if i ≤ k ∧ k - i < j then
        convAcc a b bLen k (f k) i + a i * b (k - i) else convAcc a b bLen k (f k) i)) (lo := 0)
      (hi := bLen) (Nat.zero_le _)
      (body := fun j => convolveStep (tab na a) (tab nb b) i j) ?_
    · simpa [convAcc] using h2
    · intro j _ hj
      unfold convolveStep
      rw [rd_tab (by omega), ok_bind', rd_tab (by omega), ok_bind', u32_of_lt (by omega),
        addAt_tab _ (by omega)]
      congr 1
      apply tab_congr
      intro k hk
      by_cases h : k = i + j
      · subst h
        simp
      · simp only [h, if_false]
        by_cases h1 : i ≤ k ∧ k - i < j
        · rw [if_pos h1, if_pos (by omega)]
        · rw [if_neg h1, if_neg (by omega)]

/-- Content of `out` followed by `carryover` after the preparation. -/
theorem convolvePrepare_tab {c o : Nat → S} {aLen carryLen nc : Nat}
    (hc : carryLen ≤ nc) (hz : ∀ k, carryLen ≤ k → c k = 0) :
    convolvePrepare aLen carryLen (tab nc c) (tab aLen o) =
      .ok (tab aLen c, tab nc (fun k => c (aLen + k))) := by
  unfold convolvePrepare
  by_cases h0 : carryLen = 0
  · subst h0
    simp only [ne_eq, not_true_eq_false, if_false]
    rw [memzero_tab (by omega), ok_bind', pure_eq_ok]
    congr 2
    · apply tab_congr; intro i hi; rw [if_pos (by omega), hz i (by omega)]
    · apply tab_congr; intro i hi; rw [hz i (by omega), hz (aLen + i) (by omega)]
  · simp only [ne_eq, h0, not_false_eq_true, if_true]
    by_cases h1 : carryLen ≤ aLen
    · rw [if_pos h1, memcpy_tab (by omega) (by omega), ok_bind', memzero_tab (by omega), ok_bind',
        memzero_tab (by omega), ok_bind', pure_eq_ok]
      congr 2
      · apply tab_congr; intro i hi
        by_cases h2 : i < carryLen
        · rw [if_neg (by omega), if_pos (by omega)]; congr 1
        · rw [if_pos (by omega), hz i (by omega)]
      · apply tab_congr; intro i hi
        rw [hz (aLen + i) (by omega)]
        split
        · rfl
        · exact hz i (by omega)
    · rw [if_neg h1, memcpy_tab (by omega) (by omega), ok_bind', memmove_tab (by omega) (by omega),
        ok_bind', memzero_tab (by omega), ok_bind', pure_eq_ok]
      congr 2
      · apply tab_congr; intro i hi
        rw [if_pos (by omega)]; congr 1
      · apply tab_congr; intro i hi
        by_cases h2 : i < carryLen - aLen
        · rw [if_neg (by omega), if_pos (by omega)]; congr 1; omega
        · rw [hz (aLen + i) (by omega)]
          split
          · rfl
          · rw [if_neg (by omega)]; exact hz i (by omega)

theorem convAcc_stop {a b : Nat → S} {bLen k : Nat} {init : S} {m n : Nat} (h : m ≤ n)
    (hk : ∀ i, m ≤ i → i < n → ¬ (i ≤ k ∧ k - i < bLen)) :
    convAcc a b bLen k init n = convAcc a b bLen k init m := by
  obtain ⟨d, rfl⟩ := Nat.exists_eq_add_of_le h
  clear h
  induction d with
  | zero => rfl
  | succ d ih =>
    rw [← Nat.add_assoc, convAcc, if_neg (hk (m + d) (by omega) (by omega))]
    exact ih (fun i h1 h2 => hk i h1 (by omega))

/-- `sp_convolve` after the preparation; `g` is the content of `out` followed by `carryover`. -/
theorem convolve_of_prepare {a b g : Nat → S} {carry out : Buf S} {na nb nc aLen bLen carryLen : Nat}
    (ha : aLen ≤ na) (hb : bLen ≤ nb) (hb1 : 1 ≤ bLen) (hc2 : bLen - 1 ≤ nc)
    (h32 : aLen + bLen ≤ 4294967296)
    (hp : convolvePrepare aLen carryLen carry out = .ok (tab aLen g, tab nc (fun k => g (aLen + k)))) :
    convolve (tab na a) aLen (tab nb b) bLen carryLen carry out =
      .ok (tab aLen (fun k => convAcc a b bLen k (g k) aLen),
        tab nc (fun k => convAcc a b bLen (aLen + k) (g (aLen + k)) aLen)) := by
  unfold convolve
  rw [hp, ok_bind']
  clear hp
  set size := if aLen < bLen then 0 else sub32 aLen (sub32 bLen 1) with hsize
  have hs : size = aLen - (bLen - 1) ∨ (aLen < bLen ∧ size = 0) := by
    rw [hsize]
    by_cases h : aLen < bLen
    · right; simp [h]
    · left
      simp only [h, if_false]
      rw [sub32_of_le hb1 (by omega), sub32_of_le (by omega) (by omega)]
  have hsle : size ≤ aLen := by omega
  have hs2 : size ≠ 0 → size + bLen ≤ aLen + 1 := by omega
  clear_value size
  have e1 : (if size ≠ 0 then convolveOne (tab na a) size (tab nb b) bLen (tab aLen g)
      else .ok (tab aLen g)) = .ok (tab aLen (fun k => convAcc a b bLen k (g k) size)) := by
    by_cases h : size = 0
    · subst h; simp [convAcc]
    · rw [if_pos h, convolveOne_tab (by omega) hb (hs2 h) (by omega)]
  simp only [e1, ok_bind']
  -- the carry part is not changed by the first loop
  have e2 : tab nc (fun k => g (aLen + k)) =
      tab nc (fun k => convAcc a b bLen (aLen + k) (g (aLen + k)) size) := by
    apply tab_congr
    intro k _
    rw [convAcc_stop (m := 0) (Nat.zero_le _)]
    · rfl
    · intro i _ hi
      have := hs2 (by omega)
      omega
  rw [e2]
  have := forRange_states (fun i => (tab aLen (fun k => convAcc a b bLen k (g k) i),
      tab nc (fun k => convAcc a b bLen (aLen + k) (g (aLen + k)) i))) (lo := size)
    (hi := aLen) hsle
    (body := fun i => forRange 0 bLen (fun j => convolveCarryStep (tab na a) aLen (tab nb b) i j)) ?_
  · exact this
  · intro i _ hi
    let G : Nat → Nat → S := fun j k => if i ≤ k ∧ k - i < j then
        convAcc a b bLen k (g k) i + a i * b (k - i) else convAcc a b bLen k (g k) i
    have h2 := forRange_states (fun j => (tab aLen (G j), tab nc (fun k => G j (aLen + k)))) (lo := 0)
      (hi := bLen) (Nat.zero_le _)
      (body := fun j => convolveCarryStep (tab na a) aLen (tab nb b) i j) ?_
    · simpa [convAcc, G] using h2
    · intro j _ hj
      have hG : ∀ k, G (j + 1) k = if k = i + j then G j k + a i * b j else G j k := by
        intro k
        by_cases h : k = i + j
        · subst h; simp [G]
        · simp only [h, if_false, G]
          by_cases h1 : i ≤ k ∧ k - i < j
          · rw [if_pos h1, if_pos (by omega)]
          · rw [if_neg h1, if_neg (by omega)]
      unfold convolveCarryStep
      rw [rd_tab (by omega), ok_bind', rd_tab (by omega), ok_bind', u32_of_lt (by omega)]
      by_cases h : i + j < aLen
      · simp only [h, if_true]
        rw [addAt_tab _ h, ok_bind', pure_eq_ok]
        congr 2
        · exact tab_congr fun k _ => (hG k).symm
        · apply tab_congr; intro k _; rw [hG, if_neg (by omega)]
      · simp only [h, if_false]
        rw [addAt_tab _ (by omega), ok_bind', pure_eq_ok]
        congr 2
        · apply tab_congr; intro k _; rw [hG, if_neg (by omega)]
        · apply tab_congr; intro k _; rw [hG]
          by_cases h3 : k = i + j - aLen
          · rw [if_pos h3, if_pos (by omega)]
          · rw [if_neg h3, if_neg (by omega)]

theorem convolve_tab {a b c o : Nat → S} {na nb nc aLen bLen carryLen : Nat} (ha : aLen ≤ na)
    (hb : bLen ≤ nb) (hb1 : 1 ≤ bLen) (hc : carryLen ≤ nc) (hc2 : bLen - 1 ≤ nc)
    (h32 : aLen + bLen ≤ 4294967296) (hz : ∀ k, carryLen ≤ k → c k = 0) :
    convolve (tab na a) aLen (tab nb b) bLen carryLen (tab nc c) (tab aLen o) =
      .ok (tab aLen (fun k => convAcc a b bLen k (c k) aLen),
        tab nc (fun k => convAcc a b bLen (aLen + k) (c (aLen + k)) aLen)) :=
  convolve_of_prepare ha hb hb1 hc2 h32 (convolvePrepare_tab hc hz)

/-- The preparation is memory safe for arbitrary content. -/
theorem convolvePrepare_ok {c o : Nat → S} {aLen carryLen nc no : Nat} (hc : carryLen ≤ nc)
    (ho : aLen ≤ no) : ∃ c1 c2, convolvePrepare aLen carryLen (tab nc c) (tab no o) =
      .ok (tab no c1, tab nc c2) := by
  unfold convolvePrepare
  by_cases h0 : carryLen = 0
  · subst h0
    simp only [ne_eq, not_true_eq_false, if_false]
    rw [memzero_tab (by omega), ok_bind', pure_eq_ok]
    exact ⟨_, _, rfl⟩
  · simp only [ne_eq, h0, not_false_eq_true, if_true]
    by_cases h1 : carryLen ≤ aLen
    · rw [if_pos h1, memcpy_tab (by omega) (by omega), ok_bind', memzero_tab (by omega), ok_bind',
        memzero_tab (by omega), ok_bind', pure_eq_ok]
      exact ⟨_, _, rfl⟩
    · rw [if_neg h1, memcpy_tab (by omega) (by omega), ok_bind', memmove_tab (by omega) (by omega),
        ok_bind', memzero_tab (by omega), ok_bind', pure_eq_ok]
      exact ⟨_, _, rfl⟩

/-! ### Streams -/

/-- Block after block: the accumulation over the whole stream splits. -/
theorem convAcc_split {a b : Nat → S} {bLen k n m : Nat} {init : S} :
    convAcc a b bLen (n + k) init (n + m) =
      convAcc (fun i => a (n + i)) b bLen k (convAcc a b bLen (n + k) init n) m := by
  induction m with
  | zero => rfl
  | succ m ih =>
    rw [← Nat.add_assoc]
    simp only [convAcc]
    rw [ih]
    by_cases h : m ≤ k ∧ k - m < bLen
    · rw [if_pos h, if_pos (by omega)]
      congr 3; omega
    · rw [if_neg h, if_neg (by omega)]

theorem convAcc_congr {a a' b : Nat → S} {bLen k n : Nat} {init : S} (h : ∀ i, i < n → a i = a' i) :
    convAcc a b bLen k init n = convAcc a' b bLen k init n := by
  induction n with
  | zero => rfl
  | succ n ih =>
    simp only [convAcc]
    rw [ih (fun i hi => h i (by omega)), h n (by omega)]

theorem getD_append_right' {l r : List S} {i : Nat} {d : S} :
    (l ++ r).getD (l.length + i) d = r.getD i d := by
  simp [List.getD_eq_getElem?_getD, List.getElem?_append_right]

theorem getD_append_left' {l r : List S} {i : Nat} {d : S} (h : i < l.length) :
    (l ++ r).getD i d = l.getD i d := by
  simp [List.getD_eq_getElem?_getD, List.getElem?_append_left h]

/-- Content of the outputs followed by the carryover, from a carryover content `c`. -/
theorem convolveBlocks_tab (junk : S) (b : Buf S) (hb1 : 1 ≤ b.length) (blocks : List (Buf S))
    (h32 : ∀ a ∈ blocks, a.length + b.length ≤ 4294967296) (carryLen : Nat)
    (hcl : carryLen ≤ b.length - 1) (c : Nat → S) (hz : ∀ k, carryLen ≤ k → c k = 0) :
    ∃ outs, ∃ carry, convolveBlocks junk b blocks carryLen (tab (b.length - 1) c) =
        .ok (outs, carry) ∧ outs.map List.length = blocks.map List.length ∧
      carry.length = b.length - 1 ∧
      outs.flatten ++ carry = tab (blocks.flatten.length + (b.length - 1))
        (fun k => convAcc (fun i => blocks.flatten.getD i 0) (fun i => b.getD i 0) b.length k (c k)
          blocks.flatten.length) := by
  induction blocks generalizing carryLen c with
  | nil => exact ⟨[], _, rfl, rfl, by simp, by simp [convAcc]⟩
  | cons a rest ih =>
    have hs := convolve_tab (a := fun i => a.getD i 0) (b := fun i => b.getD i 0) (c := c)
      (o := fun _ => junk) (na := a.length) (nb := b.length) (nc := b.length - 1) (aLen := a.length)
      (bLen := b.length) (carryLen := carryLen) le_rfl le_rfl hb1 hcl le_rfl (h32 a (by simp)) hz
    rw [← eq_tab, ← eq_tab, ← tab_replicate] at hs
    obtain ⟨outs, carry, e, hl, hc, hcont⟩ := ih (fun a ha => h32 a (by simp [ha])) (b.length - 1)
      le_rfl (fun k => convAcc (fun i => a.getD i 0) (fun i => b.getD i 0) b.length (a.length + k)
        (c (a.length + k)) a.length) (by
          intro k hk
          rw [convAcc_stop (m := 0) (Nat.zero_le _) (by intro i _ hi; omega)]
          exact hz _ (by omega))
    refine ⟨tab a.length (fun k => convAcc (fun i => a.getD i 0) (fun i => b.getD i 0) b.length k
        (c k) a.length) :: outs, carry, ?_, ?_, hc, ?_⟩
    · unfold convolveBlocks
      rw [hs, ok_bind']
      simp only [e, ok_bind', pure_eq_ok]
    · simp [hl]
    · rw [List.flatten_cons, List.append_assoc, hcont, tab_append]
      rw [List.flatten_cons, List.length_append, Nat.add_assoc]
      apply tab_congr
      intro k hk
      by_cases h : k < a.length
      · rw [if_pos h]
        rw [convAcc_stop (m := a.length) (n := a.length + _) (by omega) (by intro i h1 h2; omega)]
        apply convAcc_congr
        intro i hi
        rw [getD_append_left' hi]
      · rw [if_neg h]
        obtain ⟨k', rfl⟩ := Nat.exists_eq_add_of_le (Nat.le_of_not_lt h)
        rw [convAcc_split, Nat.add_sub_cancel_left]
        simp only [getD_append_right']
        congr 1
        apply convAcc_congr
        intro i hi
        rw [getD_append_left' hi]

end Sp
