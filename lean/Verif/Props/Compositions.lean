import Verif.Model.Combinatorics
import Verif.Props.Numbers
import Verif.Props.ArraysSelect

/-!
# C64: compositions

The order of the results is that of the numbers whose bits mark where parts end: with part `c` followed by
parts of sum `r`, the bit `r` is set. Each step of the outer loop decreases that number by two.
-/

set_option linter.unusedSectionVars false

namespace Sp

/-- The number whose bits mark the ends of the parts. -/
def compCode : List Nat → Nat
  | [] => 0
  | _ :: l => 2 ^ l.sum + compCode l

theorem compCode_append (l m : List Nat) : compCode (l ++ m) = compCode (l ++ [m.sum]) - 1 + compCode m := by
  induction l with
  | nil => simp [compCode]
  | cons x l ih =>
    have h1 : 1 ≤ compCode (l ++ [m.sum]) := by
      clear ih
      induction l with
      | nil => simp [compCode]
      | cons y l ih => simp only [List.cons_append, compCode]; exact le_trans ih (Nat.le_add_left _ _)
    simp only [List.cons_append, compCode, ih, List.sum_append, List.sum_cons, List.sum_nil]
    have : 1 ≤ 2 ^ (l.sum + m.sum) := Nat.one_le_two_pow
    simp only [Nat.add_zero]
    omega

theorem compCode_ones (n : Nat) : compCode (List.replicate n 1) + 1 = 2 ^ n := by
  induction n with
  | zero => rfl
  | succ n ih => rw [List.replicate_succ, compCode, pow_succ]; simp; omega

theorem compCode_lt {l : List Nat} (h : ∀ x ∈ l, 1 ≤ x) : compCode l < 2 ^ l.sum := by
  induction l with
  | nil => simp [compCode]
  | cons x l ih =>
    have h1 := ih (fun y hy => h y (List.mem_cons_of_mem _ hy))
    have hx : 1 ≤ x := h x (List.mem_cons_self ..)
    rw [compCode, List.sum_cons]
    have : 2 ^ (l.sum + 1) ≤ 2 ^ (x + l.sum) := Nat.pow_le_pow_right (by decide) (by omega)
    rw [pow_succ] at this
    omega

/-- The list of the parts after a step that replaces the last two parts `p` and `q`. -/
theorem compCode_step (l : List Nat) (p q : Nat) (hq : 1 ≤ q) :
    compCode (l ++ (p + 1) :: List.replicate (q - 1) 1) + 2 = compCode (l ++ [p, q]) := by
  rw [compCode_append, compCode_append l [p, q]]
  have h1 := compCode_ones (q - 1)
  have h2 : 2 ^ q = 2 ^ (q - 1) * 2 := by rw [← pow_succ]; congr 1; omega
  have hs : ((p + 1) :: List.replicate (q - 1) 1).sum = [p, q].sum := by simp; omega
  rw [hs]
  simp only [compCode, List.sum_replicate, List.sum_cons, List.sum_nil, smul_eq_mul, mul_one, Nat.add_zero,
    pow_zero, h2]
  omega

theorem compCode_inj : ∀ {l m : List Nat}, (∀ x ∈ l, 1 ≤ x) → (∀ x ∈ m, 1 ≤ x) → l.sum = m.sum →
    compCode l = compCode m → l = m
  | [], [], _, _, _, _ => rfl
  | [], y :: m, _, hm, hs, _ => by
    have := hm y (List.mem_cons_self ..); simp at hs; omega
  | x :: l, [], hl, _, hs, _ => by
    have := hl x (List.mem_cons_self ..); simp at hs; omega
  | x :: l, y :: m, hl, hm, hs, hc => by
    have hl' : ∀ z ∈ l, 1 ≤ z := fun z hz => hl z (List.mem_cons_of_mem _ hz)
    have hm' : ∀ z ∈ m, 1 ≤ z := fun z hz => hm z (List.mem_cons_of_mem _ hz)
    have h1 := compCode_lt hl'
    have h2 := compCode_lt hm'
    simp only [compCode] at hc
    have hsum : l.sum = m.sum := by
      rcases Nat.lt_trichotomy l.sum m.sum with h | h | h
      · have : 2 ^ (l.sum + 1) ≤ 2 ^ m.sum := Nat.pow_le_pow_right (by decide) h
        rw [pow_succ] at this; omega
      · exact h
      · have : 2 ^ (m.sum + 1) ≤ 2 ^ l.sum := Nat.pow_le_pow_right (by decide) h
        rw [pow_succ] at this; omega
    rw [hsum] at hc
    simp only [List.sum_cons] at hs
    rw [compCode_inj hl' hm' hsum (by omega), show x = y by omega]

theorem compCode_odd : ∀ {l : List Nat}, (∀ x ∈ l, 1 ≤ x) → l ≠ [] → compCode l % 2 = 1
  | [x], _, _ => rfl
  | x :: y :: l, h, _ => by
    have := compCode_odd (l := y :: l) (fun z hz => h z (List.mem_cons_of_mem _ hz)) (by simp)
    have hy : 1 ≤ y := h y (by simp)
    rw [compCode]
    have : 2 ^ (y :: l).sum = 2 ^ ((y :: l).sum - 1) * 2 := by
      rw [← pow_succ]; congr 1; simp; omega
    omega

theorem length_le_sum {l : List Nat} (h : ∀ x ∈ l, 1 ≤ x) : l.length ≤ l.sum := by
  induction l with
  | nil => simp
  | cons x l ih =>
    have := ih (fun y hy => h y (List.mem_cons_of_mem _ hy))
    have hx : 1 ≤ x := h x (List.mem_cons_self ..)
    simp; omega

theorem compInner_spec (fuel : Nat) : ∀ (pre rest : List Nat) (k x y : Nat), k = pre.length → y < rest.length →
    y < fuel → k + y < 4294967295 → x < 4294967296 →
    ∃ a k' x' y', compInner fuel (pre ++ rest) k x y = .ok (a, k', x', y') ∧ k' = k + y ∧
      wr a k' (u32 (x' + y')) = .ok (pre ++ x :: (List.replicate y 1 ++ rest.drop (y + 1))) := by
  induction fuel with
  | zero => intro pre rest k x y hk hy hf; omega
  | succ fuel ih =>
    intro pre rest k x y hk hy hf h32 hx
    obtain ⟨r, rest, rfl⟩ : ∃ r rest', rest = r :: rest' := by
      cases rest with
      | nil => simp at hy
      | cons r rest => exact ⟨r, rest, rfl⟩
    rw [compInner]
    by_cases h1 : 1 ≤ y
    · rw [if_pos h1, wr_append hk, ok_bind', u32_of_lt (by omega), sub32_of_le h1 (by omega)]
      obtain ⟨a, k', x', y', h2, h3, h4⟩ := ih (pre ++ [x]) rest (k + 1) 1 (y - 1) (by simp [hk])
        (by simp at hy; omega) (by omega) (by omega) (by decide)
      refine ⟨a, k', x', y', by simpa using h2, by omega, ?_⟩
      rw [h4]
      obtain ⟨z, rfl⟩ : ∃ z, y = z + 1 := ⟨y - 1, by omega⟩
      simp [List.replicate_succ]
    · rw [if_neg h1]
      obtain rfl : y = 0 := by omega
      refine ⟨_, _, _, _, rfl, by omega, ?_⟩
      rw [Nat.add_zero, u32_of_lt hx, wr_append hk]
      simp

/-- The body of the outer loop replaces the last two parts. -/
theorem compBody_spec (inner : Nat) (l post : List Nat) (p q : Nat) (st : CompState)
    (ha : st.a = l ++ [p, q] ++ post) (hk : st.k = l.length + 1) (hq : 1 ≤ q)
    (hlen : l.length + q ≤ (l ++ [p, q] ++ post).length) (hsum : l.length + p + q + 1 < 4294967295) (hin : q ≤ inner)
    (hu : st.used < st.out.length) (hs : st.sizes.length = st.out.length)
    (h32 : st.used + 1 < 4294967296) :
    ∃ post', compBody inner st = .ok
      { a := l ++ (p + 1) :: List.replicate (q - 1) 1 ++ post', k := l.length + (q - 1),
        out := st.out.set st.used (some (l ++ (p + 1) :: List.replicate (q - 1) 1)),
        sizes := st.sizes.set st.used (l ++ (p + 1) :: List.replicate (q - 1) 1).length,
        used := st.used + 1 } ∧
      (l ++ (p + 1) :: List.replicate (q - 1) 1 ++ post').length = (l ++ [p, q] ++ post).length := by
  have hks : sub32 st.k 1 = l.length := by rw [sub32_of_le (by omega) (by omega)]; omega
  have hqs : sub32 q 1 = q - 1 := sub32_of_le hq (by omega)
  have ha1 : st.a = l ++ p :: q :: post := by simp [ha]
  have ha2 : st.a = (l ++ [p]) ++ q :: post := by simp [ha]
  have hr1 : rd st.a (sub32 st.k 1) = .ok p := by rw [ha1, hks]; exact rd_append rfl
  have hr2 : rd st.a st.k = .ok q := by rw [ha2]; exact rd_append (by simp [hk])
  obtain ⟨a, k', x', y', h2, h3, h4⟩ := compInner_spec inner l (p :: q :: post) l.length (p + 1) (q - 1) rfl
    (by simp only [List.length_append, List.length_cons, List.length_nil] at hlen ⊢; omega) (by omega) (by omega) (by omega)
  refine ⟨(p :: q :: post).drop (q - 1 + 1), ?_, ?_⟩
  · have hbs : u32 (k' + 1) = (l ++ (p + 1) :: List.replicate (q - 1) 1).length := by
      rw [u32_of_lt (by omega)]; simp; omega
    rw [compBody, hr1, ok_bind', hr2, ok_bind', hks, u32_of_lt (show p + 1 < 4294967296 by omega), hqs, ha1, h2,
      ok_bind']
    simp only []
    rw [h4, ok_bind', hbs]
    have hcp := memcpy_start (out := List.replicate (l ++ (p + 1) :: List.replicate (q - 1) 1).length 0)
      (src := l ++ (p + 1) :: (List.replicate (q - 1) 1 ++ (p :: q :: post).drop (q - 1 + 1))) (s := 0)
      (n := (l ++ (p + 1) :: List.replicate (q - 1) 1).length) (by simp) (by simp)
    rw [hcp, ok_bind', wr_eq_ok _ hu, ok_bind', wr_eq_ok _ (by omega), ok_bind', u32_of_lt h32, h3]
    have hta : List.take (l ++ (p + 1) :: List.replicate (q - 1) 1).length
        (l ++ (p + 1) :: (List.replicate (q - 1) 1 ++ (p :: q :: post).drop (q - 1 + 1)))
        = l ++ (p + 1) :: List.replicate (q - 1) 1 := by
      rw [show l ++ (p + 1) :: (List.replicate (q - 1) 1 ++ (p :: q :: post).drop (q - 1 + 1))
        = (l ++ (p + 1) :: List.replicate (q - 1) 1) ++ (p :: q :: post).drop (q - 1 + 1) by simp]
      exact List.take_left' rfl
    rw [List.drop_zero, hta]
    simp
  · simp only [List.length_append, List.length_cons, List.length_replicate, List.length_drop,
      List.length_nil] at hlen ⊢
    omega

/-- Parts of a composition of `n`. -/
def IsComposition (n : Nat) (l : List Nat) : Prop := l.sum = n ∧ ∀ x ∈ l, 1 ≤ x

/-- The outer loop: `cur` is in the array, its code tells how many steps follow. -/
theorem compLoop_spec (n inner : Nat) (hn : 1 ≤ n) (hn32 : n + 2 < 4294967295) (hin : n ≤ inner) (steps : Nat) :
    ∀ (fuel : Nat) (st : CompState) (cur post : List Nat), steps < fuel → st.a = cur ++ post →
    st.k + 1 = cur.length → cur.length + post.length = n + 1 → cur.sum = n →
    (steps ≠ 0 → 2 ≤ cur.length) → (∀ x ∈ cur.drop 1, 1 ≤ x) → ((∀ x ∈ cur, 1 ≤ x) ∨ cur = [0, n]) →
    compCode cur = 2 * steps + 1 →
    st.used + steps ≤ st.out.length → st.sizes.length = st.out.length → st.out.length < 4294967296 →
    ∃ (st' : CompState) (outs : List (List Nat)), compLoop inner fuel st = .ok st' ∧ outs.length = steps ∧
      (∀ (j : Nat) (l : List Nat), outs[j]? = some l → IsComposition n l ∧ compCode l + 2 * (j + 1) = 2 * steps + 1) ∧
      st'.out = st.out.take st.used ++ outs.map some ++ st.out.drop (st.used + steps) ∧
      st'.sizes = st.sizes.take st.used ++ outs.map List.length ++ st.sizes.drop (st.used + steps) ∧
      st'.used = st.used + steps := by
  induction steps with
  | zero =>
    intro fuel st cur post hf ha hk hl hs h2 hd hp hc hu hz h32
    obtain ⟨fuel, rfl⟩ : ∃ f, fuel = f + 1 := ⟨fuel - 1, by omega⟩
    have hlen : cur.length = 1 := by
      match cur, hk, hc, hd with
      | [x], _, _, _ => rfl
      | x :: y :: l, _, hc, hd =>
        exfalso
        simp only [compCode, List.sum_cons] at hc
        have hy : 1 ≤ y := hd y (by simp)
        have h3 : 2 ≤ 2 ^ (y + l.sum) := by
          calc 2 = 2 ^ 1 := rfl
            _ ≤ 2 ^ (y + l.sum) := Nat.pow_le_pow_right (by decide) (by omega)
        generalize 2 ^ (y + l.sum) = u at *
        generalize 2 ^ l.sum = v at *
        omega
    rw [compLoop, if_pos (by omega)]
    exact ⟨st, [], rfl, rfl, by simp, by simp, by simp, by omega⟩
  | succ steps ih =>
    intro fuel st cur post hf ha hk hl hs h2 hd hp hc hu hz h32
    obtain ⟨fuel, rfl⟩ : ∃ f, fuel = f + 1 := ⟨fuel - 1, by omega⟩
    have hlen := h2 (by omega)
    obtain ⟨l, p, q, rfl⟩ : ∃ l p q, cur = l ++ [p, q] := by
      obtain ⟨c1, q, rfl⟩ := List.eq_nil_or_concat cur |>.resolve_left (by rintro rfl; simp at hlen)
      obtain ⟨l, p, rfl⟩ := List.eq_nil_or_concat c1 |>.resolve_left (by rintro rfl; simp at hlen)
      exact ⟨l, p, q, by simp⟩
    have hq : 1 ≤ q := by
      apply hd
      cases l with
      | nil => simp
      | cons x l => simp
    have hsum : l.sum + p + q = n := by simpa [Nat.add_assoc] using hs
    have hkl : st.k = l.length + 1 := by simp at hk; omega
    have hpl : (∀ x ∈ l, 1 ≤ x) := by
      rcases hp with h | h
      · intro x hx; exact h x (by simp [hx])
      · have : l.length = 0 := by
          have := congrArg List.length h; simp at this; simp [this]
        rw [List.length_eq_zero_iff.1 this]; simp
    have hll := length_le_sum hpl
    rw [compLoop, if_neg (by omega)]
    obtain ⟨post', hb, hb'⟩ := compBody_spec inner l post p q st ha hkl hq
      (by simp only [List.length_append] at hl ⊢; omega) (by omega) (by omega) (by omega) hz (by omega)
    rw [hb, ok_bind']
    set new := l ++ (p + 1) :: List.replicate (q - 1) 1 with hnew
    have hnp : ∀ x ∈ new, 1 ≤ x := by
      intro x hx
      rw [hnew, List.mem_append, List.mem_cons, List.mem_replicate] at hx
      rcases hx with h | h | h
      · exact hpl x h
      · omega
      · omega
    have hns : new.sum = n := by simp [hnew]; omega
    have hcode : compCode new + 2 = 2 * (steps + 1) + 1 := by rw [← hc]; exact compCode_step l p q hq
    obtain ⟨st', outs, g1, g2, g3, g4, g5, g6⟩ := ih fuel
      { a := new ++ post', k := l.length + (q - 1), out := st.out.set st.used (some new),
        sizes := st.sizes.set st.used new.length, used := st.used + 1 } new post' (by omega) rfl
      (by simp [hnew]; omega) (by rw [← List.length_append, hb', List.length_append]; exact hl) hns
      (by
        intro h0
        by_contra hlt
        have : new = [n] := by
          match h : new, hns with
          | [], hh => simp at hh; omega
          | [x], hh => simpa using hh
          | _ :: _ :: _, _ => simp at hlt
        rw [this] at hcode
        simp [compCode] at hcode
        omega)
      (fun x hx => hnp x (List.mem_of_mem_drop hx)) (Or.inl hnp) (by omega) (by simp; omega) (by simp [hz])
      (by simpa using h32)
    refine ⟨st', new :: outs, g1, by simp [g2], ?_, ?_, ?_, by rw [g6]; simp; omega⟩
    · intro j m hj
      cases j with
      | zero =>
        simp at hj
        subst hj
        exact ⟨⟨hns, hnp⟩, by omega⟩
      | succ j =>
        obtain ⟨e1, e2⟩ := g3 j m (by simpa using hj)
        exact ⟨e1, by omega⟩
    · rw [g4]
      simp only [List.map_cons]
      rw [List.take_set, List.take_succ_eq_append_getElem (show st.used < st.out.length by omega),
        List.set_append_right _ _ (by simp), List.drop_set_of_lt (by omega)]
      simp [Nat.min_eq_left (show st.used ≤ st.out.length by omega), Nat.add_assoc, Nat.add_comm 1]
    · rw [g5]
      simp only [List.map_cons]
      rw [List.take_set, List.take_succ_eq_append_getElem (show st.used < st.sizes.length by omega),
        List.set_append_right _ _ (by simp), List.drop_set_of_lt (by omega)]
      simp [Nat.min_eq_left (show st.used ≤ st.sizes.length by omega), Nat.add_assoc, Nat.add_comm 1]

/-- C64: `sp_times_compositions` returns each list of positive integers with the given sum exactly once, and
nothing else, with the length of each in `out_sizes`; no access is outside of an array. The number of results
is to fit in 32 bits. -/
theorem C64_compositions (n inner fuel : Nat) (hn : 1 ≤ n) (hfit : 2 ^ (n - 1) < 4294967296) (hin : n ≤ inner)
    (hfuel : 2 ^ (n - 1) < fuel) :
    ∃ outs : List (List Nat),
      timesCompositions n inner fuel = .ok (outs.map some, outs.length, outs.map List.length) ∧
      outs.length = 2 ^ (n - 1) ∧ outs.Nodup ∧
      ∀ l : List Nat, l ∈ outs ↔ l.sum = n ∧ ∀ x ∈ l, 1 ≤ x := by
  have hn32 : n - 1 < 32 := by
    by_contra h
    have : 2 ^ 32 ≤ 2 ^ (n - 1) := Nat.pow_le_pow_right (by decide) (by omega)
    norm_num at this
    omega
  have h2n : 2 ^ n = 2 * 2 ^ (n - 1) := by rw [← pow_succ']; congr 1; omega
  have hexp : timeExpt 2 (sub32 n 1) = .ok (2 ^ (n - 1)) := by
    rw [sub32_of_le hn (by omega), C65_expt _ _ (by omega), Nat.mod_eq_of_lt hfit]
  have hw : wr (List.replicate (u32 (1 + n)) 0) 1 n = .ok ([0, n] ++ List.replicate (n - 1) 0) := by
    rw [u32_of_lt (by omega), show 1 + n = (n - 1) + 1 + 1 by omega, List.replicate_succ, List.replicate_succ,
      wr_eq_ok _ (by simp)]
    rfl
  obtain ⟨st', outs, g1, g2, g3, g4, g5, g6⟩ := compLoop_spec n inner hn (by omega) hin (2 ^ (n - 1)) fuel
    { a := [0, n] ++ List.replicate (n - 1) 0, k := 1, out := List.replicate (2 ^ (n - 1)) none,
      sizes := List.replicate (2 ^ (n - 1)) 0, used := 0 } [0, n] (List.replicate (n - 1) 0) hfuel rfl rfl
    (by simp; omega) (by simp) (by simp) (by simpa using hn) (Or.inr rfl) (by simp [compCode, h2n]) (by simp)
    (by simp) (by simpa using hfit)
  refine ⟨outs, ?_, g2, ?_, ?_⟩
  · rw [timesCompositions, hexp, ok_bind', hw, ok_bind', g1, ok_bind', g4, g5, g6]
    simp [g2]
  · rw [List.nodup_iff_getElem?_ne_getElem?]
    intro i j hij hj he
    obtain ⟨s, hs⟩ : ∃ s, outs[j]? = some s := ⟨_, List.getElem?_eq_getElem hj⟩
    have hi := (g3 i s (by rw [he, hs])).2
    have hj' := (g3 j s hs).2
    omega
  · intro l
    constructor
    · intro hl
      obtain ⟨j, hj, rfl⟩ := List.mem_iff_getElem.1 hl
      exact (g3 j _ (List.getElem?_eq_getElem hj)).1
    · rintro ⟨hs, hp⟩
      have hlt := compCode_lt hp
      rw [hs, h2n] at hlt
      have hodd := compCode_odd hp (by rintro rfl; simp at hs; omega)
      have hj : 2 ^ (n - 1) - (compCode l + 1) / 2 < outs.length := by omega
      obtain ⟨⟨e1, e2⟩, e3⟩ := g3 _ _ (List.getElem?_eq_getElem hj)
      rw [compCode_inj hp e2 (by rw [hs, e1]) (by omega)]
      exact List.getElem_mem hj

/-- `C64_compositions` on the sum 4. -/
example : timesCompositions 4 4 9 = .ok
    ([some [1, 1, 1, 1], some [1, 1, 2], some [1, 2, 1], some [1, 3], some [2, 1, 1], some [2, 2], some [3, 1],
      some [4]], 8, [4, 3, 3, 2, 3, 2, 2, 1]) := rfl

/-- The sum zero is not supported: the array has one cell and the second is written. -/
theorem C64_sum_zero (inner fuel : Nat) : timesCompositions 0 inner fuel = .error .outOfBounds := by
  have hexp : timeExpt 2 (sub32 0 1) = .ok 0 := by rfl
  rw [timesCompositions, hexp, ok_bind']
  rfl

end Sp
