import Verif.Model.Filter
import Verif.Spec.Filter
import Verif.Lemmas.Filter

/-! # Lemmas about the moving average -/

set_option linter.unusedSectionVars false

namespace Sp
variable {S : Type} [Field S]

/-- The sum over the window. -/
def windowSum (e : Int → S) (r : Nat) (i : Int) : S := ∑ d ∈ Finset.range (2 * r + 1), e (i - r + d)

theorem windowSum_succ (e : Int → S) (r : Nat) (i : Int) :
    windowSum e r (i + 1) = windowSum e r i + e (i + 1 + r) - e (i - r) := by
  rw [windowSum, windowSum, Finset.sum_range_succ, Finset.sum_range_succ']
  have h : ∀ d ∈ Finset.range (2 * r), e (i + 1 - r + d) = e (i - r + ((d + 1 : ℕ) : ℤ)) := by
    intro d _
    congr 1
    push_cast
    ring
  rw [Finset.sum_congr rfl h]
  have h1 : i + 1 - (r : ℤ) + ((2 * r : ℕ) : ℤ) = i + 1 + r := by push_cast; ring
  have h2 : i - (r : ℤ) + ((0 : ℕ) : ℤ) = i - r := by simp
  rw [h1, h2]
  ring

section
variable {inp : List S} {prev next : Option (List S)} {r : Nat}

theorem extended_mid {k : Nat} (hk : k < inp.length) : rd inp k = .ok (extended inp prev next k) := by
  unfold extended
  rw [rd_eq_ok hk, if_neg (by omega), if_pos (by exact_mod_cast hk), Int.toNat_natCast, List.getD,
    List.getElem?_eq_getElem hk]
  rfl

theorem extended_prev {p : List S} {k : Nat} (hp : p.length = inp.length) (hk : k < inp.length) :
    rd p k = .ok (extended inp (some p) next ((k : ℤ) - inp.length)) := by
  unfold extended
  rw [rd_eq_ok (by omega), if_pos (by omega)]
  have : ((inp.length : ℤ) + ((k : ℤ) - inp.length)).toNat = k := by omega
  simp only [this]
  rw [List.getD, List.getElem?_eq_getElem (by omega)]
  rfl

theorem extended_next {q : List S} {k : Nat} (hk : k < q.length) :
    rd q k = .ok (extended inp prev (some q) ((inp.length : ℤ) + k)) := by
  unfold extended
  rw [rd_eq_ok hk, if_neg (by omega), if_neg (by omega)]
  have : ((inp.length : ℤ) + k - inp.length).toNat = k := by omega
  simp only [this]
  rw [List.getD, List.getElem?_eq_getElem hk]
  rfl

theorem extended_neg {k : Nat} (hk0 : 0 < k) : extended inp none next (-(k : ℤ)) = -inp.getD k 0 := by
  unfold extended
  rw [if_pos (by omega)]
  simp

theorem averageInit_eq (hw : 2 * r + 1 ≤ inp.length) (h32 : inp.length < 4294967296)
    (hprev : ∀ p, prev = some p → p.length = inp.length) :
    averageInit inp prev inp.length r = .ok (windowSum (extended inp prev next) r 0) := by
  rw [averageInit, extended_mid (prev := prev) (next := next) (k := 0) (by omega)]
  simp only [ok_bind']
  have hsum : ∀ m, windowSum (extended inp prev next) m 0 =
      extended inp prev next 0 + ∑ d ∈ Finset.range m, (extended inp prev next (-((d : ℤ) + 1)) + extended inp prev next ((d : ℤ) + 1)) := by
    intro m
    induction m with
    | zero => simp [windowSum]
    | succ m ih =>
      rw [Finset.sum_range_succ, ← add_assoc, ← ih, windowSum, windowSum, show 2 * (m + 1) + 1 = 2 * m + 1 + 1 + 1 by ring,
        Finset.sum_range_succ, Finset.sum_range_succ']
      have h : ∀ d ∈ Finset.range (2 * m + 1), extended inp prev next (0 - ((m + 1 : ℕ) : ℤ) + ((d + 1 : ℕ) : ℤ)) =
          extended inp prev next (0 - (m : ℤ) + d) := by
        intro d _
        congr 1
        push_cast
        ring
      rw [Finset.sum_congr rfl h]
      have h1 : (0 : ℤ) - ((m + 1 : ℕ) : ℤ) + ((0 : ℕ) : ℤ) = -((m : ℤ) + 1) := by push_cast; ring
      have h2 : (0 : ℤ) - ((m + 1 : ℕ) : ℤ) + ((2 * m + 1 + 1 : ℕ) : ℤ) = (m : ℤ) + 1 := by push_cast; ring
      rw [h1, h2]
      ring
  cases prev with
  | none =>
    simp only [pure_eq_ok]
    rw [hsum, Finset.sum_eq_zero, add_zero]
    · rfl
    · intro d hd
      have hd' := Finset.mem_range.1 hd
      have e := extended_mid (inp := inp) (prev := none) (next := next) (k := d + 1) (by omega)
      rw [rd_eq_ok (by omega)] at e
      injection e with e
      have e2 := extended_neg (inp := inp) (next := next) (k := d + 1) (by omega)
      push_cast at e e2
      rw [e2, ← e, List.getD, List.getElem?_eq_getElem (by omega)]
      simp
  | some p =>
    have hp := hprev p rfl
    simp only
    have key := forRange_states (fun m => extended inp (some p) next 0 +
      ∑ d ∈ Finset.range m, (extended inp (some p) next (-((d : ℤ) + 1)) + extended inp (some p) next ((d : ℤ) + 1)))
      (Nat.zero_le r) (body := averageInitBody inp p inp.length) (by
      intro i _ hi
      rw [averageInitBody, sub32_of_le (a := inp.length) (by omega) (by omega), sub32_of_le (by omega) (by omega), u32_of_lt (by omega),
        extended_prev (next := next) hp (by omega), extended_mid (prev := some p) (next := next) (k := i + 1) (by omega)]
      simp only [ok_bind', pure_eq_ok]
      rw [Finset.sum_range_succ, add_assoc]
      have e : ((inp.length - i - 1 : ℕ) : ℤ) - inp.length = -((i : ℤ) + 1) := by omega
      rw [e]
      push_cast
      rfl)
    rw [hsum]
    refine Eq.trans ?_ key
    congr 1
    simp

/-- The state of the loops: the sum for the window before `i`, and the results so far. -/
def averageState (e : Int → S) (r N : Nat) (o : Nat → S) (i : Nat) : S × Buf S :=
  (windowSum e r ((i : ℤ) - 1), tab N fun a => if a < i then windowSum e r a / (2 * r + 1 : Nat) else o a)

theorem averageState_step {e : Int → S} {N i : Nat} {o : Nat → S} {x y : S} (hN : i < N) (hx : x = e ((i : ℤ) + r))
    (hy : y = e ((i : ℤ) - r - 1)) :
    (do
      let sum := ((averageState e r N o i).1 + x) - y
      let out ← wr (averageState e r N o i).2 i (sum / (2 * r + 1 : Nat))
      pure (sum, out) : C (S × Buf S)) = .ok (averageState e r N o (i + 1)) := by
  have hs : (averageState e r N o i).1 + x - y = windowSum e r i := by
    have := windowSum_succ e r ((i : ℤ) - 1)
    rw [sub_add_cancel] at this
    rw [averageState, hx, hy, this]
    congr 2
    ring
  simp only [hs]
  rw [averageState]
  simp only
  rw [wr_tab _ hN]
  simp only [ok_bind', pure_eq_ok]
  rw [averageState]
  congr 2
  · push_cast
    ring_nf
  · refine tab_congr fun a _ => ?_
    by_cases h : a = i
    · subst h; rw [if_pos rfl, if_pos (by omega)]
    · rw [if_neg h]; exact if_congr (by omega) rfl rfl

theorem averageFirst_step {N i : Nat} {o : Nat → S} (hw : 2 * r + 1 ≤ inp.length) (h32 : inp.length < 4294967296)
    (hprev : ∀ p, prev = some p → p.length = inp.length) (hN : inp.length ≤ N) (h1 : 1 ≤ i) (hi : i < r + 1) :
    averageFirstBody inp prev inp.length r (2 * r + 1) i (averageState (extended inp prev next) r N o i) =
      .ok (averageState (extended inp prev next) r N o (i + 1)) := by
  rw [averageFirstBody, u32_of_lt (by omega), extended_mid (prev := prev) (next := next) (k := i + r) (by omega)]
  simp only [ok_bind']
  have hl : averageLeft inp prev inp.length r i = .ok (extended inp prev next ((i : ℤ) - r - 1)) := by
    cases prev with
    | none =>
      rw [averageLeft]
      rw [sub32_of_le (by omega) (by omega), u32_of_lt (by omega), rd_eq_ok (by omega)]
      simp only [ok_bind', pure_eq_ok]
      have e2 := extended_neg (inp := inp) (next := next) (k := r - i + 1) (by omega)
      have e3 : -((r - i + 1 : ℕ) : ℤ) = (i : ℤ) - r - 1 := by omega
      rw [e3] at e2
      rw [e2, List.getD, List.getElem?_eq_getElem (by omega)]
      simp
    | some p =>
      have hp := hprev p rfl
      rw [averageLeft]
      rw [sub32_of_le (a := inp.length) (by omega) (by omega), sub32_of_le (by omega) (by omega), u32_of_lt (by omega),
        extended_prev (next := next) hp (by omega)]
      congr 2
      omega
  rw [hl]
  simp only [ok_bind']
  exact averageState_step (by omega) (by push_cast; rfl) rfl

theorem averageMiddle_step {N i : Nat} {o : Nat → S} (h32 : inp.length < 4294967296)
    (hN : inp.length ≤ N) (h1 : r + 1 ≤ i) (hi : i < inp.length - r) :
    averageMiddleBody inp r (2 * r + 1) i (averageState (extended inp prev next) r N o i) =
      .ok (averageState (extended inp prev next) r N o (i + 1)) := by
  rw [averageMiddleBody, u32_of_lt (by omega), extended_mid (prev := prev) (next := next) (k := i + r) (by omega),
    sub32_of_le (a := i) (by omega) (by omega), sub32_of_le (by omega) (by omega),
    extended_mid (prev := prev) (next := next) (k := i - r - 1) (by omega)]
  simp only [ok_bind']
  exact averageState_step (by omega) (by push_cast; rfl) (by congr 1; omega)

theorem averageLast_step {N i : Nat} {o : Nat → S} {q : List S} (hw : 2 * r + 1 ≤ inp.length) (h32 : inp.length < 4294967296)
    (hq : r ≤ q.length) (hN : inp.length ≤ N) (h1 : inp.length - r ≤ i) (hi : i < inp.length) :
    averageLastBody inp (some q) inp.length r (2 * r + 1) i (averageState (extended inp prev (some q)) r N o i) =
      .ok (averageState (extended inp prev (some q)) r N o (i + 1)) := by
  rw [averageLastBody, averageRight]
  simp only
  rw [sub32_of_le (a := inp.length) (by omega) (by omega), sub32_of_le (by omega) (by omega), extended_next (inp := inp) (prev := prev) (by omega)]
  simp only [ok_bind']
  rw [sub32_of_le (a := i) (by omega) (by omega), sub32_of_le (by omega) (by omega),
    extended_mid (prev := prev) (next := some q) (k := i - r - 1) (by omega)]
  simp only [ok_bind']
  exact averageState_step (by omega) (by congr 1; omega) (by congr 1; omega)

theorem averageLast_missing {N : Nat} {f : Nat → S} {s : S} (hw : 2 * r + 1 ≤ inp.length) (h32 : inp.length < 4294967296)
    (hN : inp.length ≤ N) :
    ∃ s' g, forRange (inp.length - r) inp.length (averageLastBody inp none inp.length r (2 * r + 1)) (s, tab N f) = .ok (s', tab N g) ∧
      ∀ a, a < inp.length - r ∨ inp.length ≤ a → g a = f a := by
  obtain ⟨t, e, s', g, rfl, h⟩ := forRange_rule (fun i t => ∃ s' g, t = ((s', tab N g) : S × Buf S) ∧
    ∀ a, a < inp.length - r ∨ inp.length ≤ a → g a = f a) (show inp.length - r ≤ inp.length by omega)
    (body := averageLastBody inp none inp.length r (2 * r + 1)) (s := (s, tab N f)) ⟨s, f, rfl, fun _ _ => rfl⟩ (by
      rintro i _ h1 h2 ⟨s', g, rfl, hg⟩
      rw [averageLastBody, averageRight]
      simp only
      have hwrap : sub32 (u32 (i + r + 1)) inp.length = i + r + 1 - inp.length := by
        unfold sub32 u32
        omega
      rw [hwrap, rd_eq_ok (by omega)]
      simp only [ok_bind', pure_eq_ok]
      rw [sub32_of_le (a := i) (by omega) (by omega), sub32_of_le (by omega) (by omega), rd_eq_ok (by omega)]
      simp only [ok_bind']
      rw [wr_tab _ (by omega)]
      simp only [ok_bind']
      refine ⟨_, rfl, _, _, rfl, ?_⟩
      intro a ha
      rw [if_neg (by omega), hg a ha])
  exact ⟨s', g, e, h⟩

end

end Sp
