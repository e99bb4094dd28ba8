import Verif.Lemmas.MovingAverage
import Verif.Lemmas.FloatLine
import Verif.Lemmas.PathRounded

/-! # The moving average without laws, and with rounding -/

set_option linter.unusedSectionVars false

namespace Sp

section
variable {S : Type} [Add S] [Sub S] [Mul S] [Div S] [Neg S] [One S] [NatCast S] [Zero S]

/-- The first sum as it is computed: the middle, then pairs of values outwards. -/
def averageStart (e : ℤ → S) : Nat → S
  | 0 => e 0
  | m + 1 => averageStart e m + (e (-((m : ℤ) + 1)) + e ((m : ℤ) + 1))

/-- The sums as they are computed. -/
def averageSum (e : ℤ → S) (r : Nat) (s : S) : Nat → S
  | 0 => s
  | i + 1 => averageSum e r s i + e ((i : ℤ) + 1 + r) - e ((i : ℤ) - r)

/-- The first sum: without previous array, it is the first value. -/
def averageFirst (e : ℤ → S) (prev : Option (List S)) (r : Nat) : S :=
  match prev with
  | some _ => averageStart e r
  | none => e 0

def averageStateL (e : ℤ → S) (r : Nat) (s : S) (N : Nat) (o : Nat → S) (i : Nat) : S × Buf S :=
  (averageSum e r s (i - 1), tab N fun a => if a < i then averageSum e r s a / (2 * r + 1 : Nat) else o a)

variable {inp : List S} {prev next : Option (List S)} {r : Nat}

theorem rd_extended_mid {k : Nat} (hk : k < inp.length) : rd inp k = .ok (extended inp prev next k) := by
  unfold extended
  rw [rd_eq_ok hk, if_neg (by omega), if_pos (by exact_mod_cast hk), Int.toNat_natCast, List.getD,
    List.getElem?_eq_getElem hk]
  rfl

theorem rd_extended_prev {p : List S} {k : Nat} (hp : p.length = inp.length) (hk : k < inp.length) :
    rd p k = .ok (extended inp (some p) next ((k : ℤ) - inp.length)) := by
  unfold extended
  rw [rd_eq_ok (by omega), if_pos (by omega)]
  have : ((inp.length : ℤ) + ((k : ℤ) - inp.length)).toNat = k := by omega
  simp only [this]
  rw [List.getD, List.getElem?_eq_getElem (by omega)]
  rfl

theorem rd_extended_next {q : List S} {k : Nat} (hk : k < q.length) :
    rd q k = .ok (extended inp prev (some q) ((inp.length : ℤ) + k)) := by
  unfold extended
  rw [rd_eq_ok hk, if_neg (by omega), if_neg (by omega)]
  have : ((inp.length : ℤ) + k - inp.length).toNat = k := by omega
  simp only [this]
  rw [List.getD, List.getElem?_eq_getElem hk]
  rfl

theorem averageInit_lawfree (hw : 2 * r + 1 ≤ inp.length) (h32 : inp.length < 4294967296)
    (hprev : ∀ p, prev = some p → p.length = inp.length) :
    averageInit inp prev inp.length r = .ok (averageFirst (extended inp prev next) prev r) := by
  rw [averageInit, rd_extended_mid (prev := prev) (next := next) (k := 0) (by omega)]
  simp only [ok_bind', Nat.cast_zero]
  cases prev with
  | none => rfl
  | some p =>
    have hp := hprev p rfl
    exact forRange_states (averageStart (extended inp (some p) next)) (Nat.zero_le r) (body := averageInitBody inp p inp.length) (by
      intro i _ hi
      rw [averageInitBody, sub32_of_le (a := inp.length) (by omega) (by omega), sub32_of_le (by omega) (by omega), u32_of_lt (by omega),
        rd_extended_prev (next := next) hp (by omega), rd_extended_mid (prev := some p) (next := next) (k := i + 1) (by omega)]
      simp only [ok_bind', pure_eq_ok]
      have e : ((inp.length - i - 1 : ℕ) : ℤ) - inp.length = -((i : ℤ) + 1) := by omega
      rw [e, averageStart]
      push_cast
      rfl)

theorem averageStateL_step {e : ℤ → S} {s : S} {N i : Nat} {o : Nat → S} {x y : S} (h1 : 1 ≤ i) (hN : i < N) (hx : x = e ((i : ℤ) + r))
    (hy : y = e ((i : ℤ) - r - 1)) :
    (do
      let sum := ((averageStateL e r s N o i).1 + x) - y
      let out ← wr (averageStateL e r s N o i).2 i (sum / (2 * r + 1 : Nat))
      pure (sum, out) : C (S × Buf S)) = .ok (averageStateL e r s N o (i + 1)) := by
  obtain ⟨j, rfl⟩ : ∃ j, i = j + 1 := ⟨i - 1, by omega⟩
  have hs : (averageStateL e r s N o (j + 1)).1 + x - y = averageSum e r s (j + 1) := by
    rw [averageStateL, hx, hy, averageSum]
    simp only [Nat.add_sub_cancel]
    congr 2
    push_cast
    ring
  simp only [hs]
  rw [averageStateL]
  simp only
  rw [wr_tab _ hN]
  simp only [ok_bind', pure_eq_ok]
  rw [averageStateL]
  refine congrArg Except.ok (congrArg₂ Prod.mk (by simp) ?_)
  refine tab_congr fun a _ => ?_
  by_cases h : a = j + 1
  · subst h; rw [if_pos rfl, if_pos (by omega)]
  · rw [if_neg h]; exact if_congr (by omega) rfl rfl

/-- What the function computes, for values of any type: the order of all operations. -/
theorem movingAverage_lawfree {q : List S} {N : Nat} {o : Nat → S} (hneg : prev = none → ∀ x ∈ inp, x * -1 = -x)
    (hw : 2 * r + 1 ≤ inp.length) (h32 : inp.length < 4294967296) (hout : inp.length ≤ N)
    (hprev : ∀ p, prev = some p → p.length = inp.length) (hq : r ≤ q.length) :
    movingAverage inp inp.length prev (some q) r (tab N o) =
      .ok (tab N fun a => if a < inp.length then
        averageSum (extended inp prev (some q)) r (averageFirst (extended inp prev (some q)) prev r) a / (2 * r + 1 : Nat) else o a) := by
  set e := extended inp prev (some q) with he
  set s := averageFirst e prev r with hs
  have hmid : ∀ {k : Nat}, k < inp.length → rd inp k = .ok (e k) := fun hk => rd_extended_mid hk
  have e0 : ((s, tab N fun k => if k = 0 then s / (2 * r + 1 : Nat) else o k) : S × Buf S) = averageStateL e r s N o 1 := by
    rw [averageStateL]
    refine congrArg₂ Prod.mk rfl (tab_congr fun a _ => ?_)
    by_cases h : a = 0
    · subst h; rw [if_pos rfl, if_pos (by omega)]; rfl
    · rw [if_neg h, if_neg (by omega)]
  have f1 : forRange 1 (r + 1) (averageFirstBody inp prev inp.length r (2 * r + 1)) (averageStateL e r s N o 1) =
      .ok (averageStateL e r s N o (r + 1)) :=
    forRange_states (body := averageFirstBody inp prev inp.length r (2 * r + 1)) (averageStateL e r s N o) (by omega) (by
      intro i h1 h2
      rw [averageFirstBody, u32_of_lt (by omega), hmid (k := i + r) (by omega)]
      simp only [ok_bind']
      have hl : averageLeft inp prev inp.length r i = .ok (e ((i : ℤ) - r - 1)) := by
        rw [he]
        cases prev with
        | none =>
          rw [averageLeft]
          rw [sub32_of_le (by omega) (by omega), u32_of_lt (by omega), rd_eq_ok (by omega)]
          simp only [ok_bind', pure_eq_ok]
          rw [hneg rfl _ (List.getElem_mem _), extended, if_pos (by omega)]
          have e3 : (-((i : ℤ) - r - 1)).toNat = r - i + 1 := by omega
          simp only [e3]
          rw [List.getD, List.getElem?_eq_getElem (by omega)]
          rfl
        | some p =>
          have hp := hprev p rfl
          rw [averageLeft]
          rw [sub32_of_le (a := inp.length) (by omega) (by omega), sub32_of_le (by omega) (by omega), u32_of_lt (by omega),
            rd_extended_prev (next := some q) hp (by omega)]
          congr 2
          omega
      rw [hl]
      simp only [ok_bind']
      exact averageStateL_step h1 (by omega) (by push_cast; rfl) rfl)
  have f2 : forRange (r + 1) (inp.length - r) (averageMiddleBody inp r (2 * r + 1)) (averageStateL e r s N o (r + 1)) =
      .ok (averageStateL e r s N o (inp.length - r)) :=
    forRange_states (body := averageMiddleBody inp r (2 * r + 1)) (averageStateL e r s N o) (by omega) (by
      intro i h1 h2
      rw [averageMiddleBody, u32_of_lt (by omega), hmid (k := i + r) (by omega),
        sub32_of_le (a := i) (by omega) (by omega), sub32_of_le (by omega) (by omega), hmid (k := i - r - 1) (by omega)]
      simp only [ok_bind']
      exact averageStateL_step (by omega) (by omega) (by push_cast; rfl) (by congr 1; omega))
  have f3 : forRange (inp.length - r) inp.length (averageLastBody inp (some q) inp.length r (2 * r + 1)) (averageStateL e r s N o (inp.length - r)) =
      .ok (averageStateL e r s N o inp.length) :=
    forRange_states (body := averageLastBody inp (some q) inp.length r (2 * r + 1)) (averageStateL e r s N o) (by omega) (by
      intro i h1 h2
      rw [averageLastBody, averageRight]
      simp only
      rw [sub32_of_le (a := inp.length) (by omega) (by omega), sub32_of_le (by omega) (by omega),
        rd_extended_next (inp := inp) (prev := prev) (by omega)]
      simp only [ok_bind']
      rw [sub32_of_le (a := i) (by omega) (by omega), sub32_of_le (by omega) (by omega), hmid (k := i - r - 1) (by omega)]
      simp only [ok_bind']
      exact averageStateL_step (by omega) (by omega) (by rw [he]; congr 1; omega) (by congr 1; omega))
  have hu : u32 (r * 2 + 1) = 2 * r + 1 := by rw [u32_of_lt (by omega)]; ring
  rw [movingAverage, hu, averageInit_lawfree (next := some q) hw h32 hprev, ok_bind', wr_tab _ (by omega), ok_bind', e0,
    sub32_of_le (by omega) (by omega), f1, ok_bind', f2, ok_bind', f3]
  rfl

end

/-! ### Rounding -/

variable {rnd : ℚ → ℚ}

theorem average_step (h : RoundsToNearest rnd) {s w x y M E W : ℚ} (hs : IsDouble s) (hx : IsDouble x) (hy : IsDouble y)
    (hxM : |x| ≤ M) (hyM : |y| ≤ M) (hw : |w| ≤ W * M) (hW : 1 ≤ W) (he : |s - w| ≤ E) (hE : E ≤ W * M / 2)
    (hmax : (2 * W + 4) * M ≤ doubleMax) :
    |rnd (rnd (s + x) - y) - (w + x - y)| ≤ E + 4 * (W + 1) * M / 2 ^ 53 ∧ IsDouble (rnd (rnd (s + x) - y)) := by
  have hM : 0 ≤ M := (abs_nonneg x).trans hxM
  have hWM : M ≤ W * M := le_mul_of_one_le_left hM hW
  have a1 : |s + x| ≤ 3 / 2 * (W * M) + M := by
    have e1 := abs_add_le (s - w) w
    have e2 := abs_add_le s x
    rw [sub_add_cancel] at e1
    linarith only [e1, e2, he, hE, hw, hxM]
  have am : |s + x| ≤ doubleMax := by linarith only [a1, hmax, hM, hWM]
  have ae := h.error_add hs hx am
  have ad := h.double _ am
  set a := rnd (s + x) with ha
  have b1 : |a - y| ≤ 3 / 2 * (W * M) + 2 * M + (3 / 2 * (W * M) + M) / 2 ^ 53 := by
    have e1 := abs_add_le (-(s + x - a)) (s + x)
    have e2 := abs_sub a y
    rw [abs_neg, show -(s + x - a) + (s + x) = a by ring] at e1
    linarith only [e1, e2, ae, a1, hyM]
  have bm : |a - y| ≤ doubleMax := by linarith only [b1, hmax, hM, hWM]
  have be := h.error_add ad hy.neg (by rwa [← sub_eq_add_neg])
  rw [← sub_eq_add_neg] at be
  refine ⟨?_, h.double _ bm⟩
  have e : rnd (a - y) - (w + x - y) = -(a - y - rnd (a - y)) + (-(s + x - a) + (s - w)) := by ring
  rw [e]
  have e1 := abs_add_le (-(a - y - rnd (a - y))) (-(s + x - a) + (s - w))
  have e2 := abs_add_le (-(s + x - a)) (s - w)
  rw [abs_neg] at e1 e2
  linarith only [e1, e2, ae, be, a1, b1, he, hM, hWM]

theorem average_start_step (h : RoundsToNearest rnd) {s w x y M E W : ℚ} (hs : IsDouble s) (hx : IsDouble x) (hy : IsDouble y)
    (hxM : |x| ≤ M) (hyM : |y| ≤ M) (hw : |w| ≤ W * M) (hW : 1 ≤ W) (he : |s - w| ≤ E) (hE : E ≤ W * M / 2)
    (hmax : (2 * W + 4) * M ≤ doubleMax) :
    |rnd (s + rnd (x + y)) - (w + (x + y))| ≤ E + 4 * (W + 1) * M / 2 ^ 53 ∧ IsDouble (rnd (s + rnd (x + y))) := by
  have hM : 0 ≤ M := (abs_nonneg x).trans hxM
  have hWM : M ≤ W * M := le_mul_of_one_le_left hM hW
  have a1 : |x + y| ≤ 2 * M := by
    have e2 := abs_add_le x y
    linarith only [e2, hxM, hyM]
  have am : |x + y| ≤ doubleMax := by linarith only [a1, hmax, hM, hWM]
  have ae := h.error_add hx hy am
  have ad := h.double _ am
  set a := rnd (x + y) with ha
  have b1 : |s + a| ≤ 3 / 2 * (W * M) + 2 * M + 2 * M / 2 ^ 53 := by
    have e1 := abs_add_le (-(x + y - a)) (x + y)
    have e2 := abs_add_le s a
    have e3 := abs_add_le (s - w) w
    rw [abs_neg, show -(x + y - a) + (x + y) = a by ring] at e1
    rw [sub_add_cancel] at e3
    linarith only [e1, e2, e3, ae, a1, he, hE, hw]
  have bm : |s + a| ≤ doubleMax := by linarith only [b1, hmax, hM, hWM]
  have be := h.error_add hs ad bm
  refine ⟨?_, h.double _ bm⟩
  have e : rnd (s + a) - (w + (x + y)) = -(s + a - rnd (s + a)) + (-(x + y - a) + (s - w)) := by ring
  rw [e]
  have e1 := abs_add_le (-(s + a - rnd (s + a))) (-(x + y - a) + (s - w))
  have e2 := abs_add_le (-(x + y - a)) (s - w)
  rw [abs_neg] at e1 e2
  linarith only [e1, e2, ae, be, a1, b1, he, hM, hWM]

theorem windowSum_zero_succ (e : ℤ → ℚ) (m : Nat) : windowSum e (m + 1) 0 = windowSum e m 0 + (e (-((m : ℤ) + 1)) + e ((m : ℤ) + 1)) := by
  rw [windowSum, windowSum, show 2 * (m + 1) + 1 = (2 * m + 1) + 1 + 1 by ring, Finset.sum_range_succ, Finset.sum_range_succ']
  have h : ∀ d ∈ Finset.range (2 * m + 1), e (0 - ((m + 1 : ℕ) : ℤ) + ((d + 1 : ℕ) : ℤ)) = e (0 - (m : ℤ) + d) := by
    intro d _
    congr 1
    push_cast
    ring
  rw [Finset.sum_congr rfl h]
  have h1 : 0 - ((m + 1 : ℕ) : ℤ) + ((0 : ℕ) : ℤ) = -((m : ℤ) + 1) := by push_cast; ring
  have h2 : 0 - ((m + 1 : ℕ) : ℤ) + ((2 * m + 1 + 1 : ℕ) : ℤ) = (m : ℤ) + 1 := by push_cast; ring
  rw [h1, h2]
  ring

theorem windowSum_le {e : ℤ → ℚ} {M : ℚ} (he : ∀ j, |e j| ≤ M) (r : Nat) (i : ℤ) : |windowSum e r i| ≤ ((2 * r + 1 : Nat) : ℚ) * M := by
  rw [windowSum]
  refine (Finset.abs_sum_le_sum_abs _ _).trans ?_
  refine (Finset.sum_le_sum (fun d _ => he _)).trans (le_of_eq ?_)
  rw [Finset.sum_const, Finset.card_range, nsmul_eq_mul]

theorem average_bound_half {W M : ℚ} {n : Nat} (hW : 1 ≤ W) (hM : 0 ≤ M) (hn : n ≤ 2 ^ 40) : n * (4 * (W + 1) * M / 2 ^ 53) ≤ W * M / 2 := by
  have hn' : (n : ℚ) ≤ 2 ^ 40 := by exact_mod_cast hn
  have h1 : 0 ≤ 4 * (W + 1) * M / 2 ^ 53 := by positivity
  have h2 := mul_le_mul_of_nonneg_right hn' h1
  have hWM : M ≤ W * M := le_mul_of_one_le_left hM hW
  linarith only [h2, hWM, hM]

section
variable {e : ℤ → Fl rnd} {M : ℚ} {r : Nat}

theorem averageStart_error (h : RoundsToNearest rnd) (hd : ∀ j, IsDouble (e j).val) (he : ∀ j, |(e j).val| ≤ M) (hr : r ≤ 2 ^ 33)
    (hmax : (2 * ((2 * r + 1 : Nat) : ℚ) + 4) * M ≤ doubleMax) :
    ∀ m, m ≤ r → |(averageStart e m).val - windowSum (fun j => (e j).val) m 0| ≤ m * (4 * (((2 * r + 1 : Nat) : ℚ) + 1) * M / 2 ^ 53) ∧
      IsDouble (averageStart e m).val := by
  have hM : 0 ≤ M := (abs_nonneg _).trans (he 0)
  have hW : (1 : ℚ) ≤ ((2 * r + 1 : Nat) : ℚ) := by exact_mod_cast (by omega : 1 ≤ 2 * r + 1)
  intro m
  induction m with
  | zero =>
    intro _
    refine ⟨?_, hd 0⟩
    simp [averageStart, windowSum]
  | succ m ih =>
    intro hm
    obtain ⟨i1, i2⟩ := ih (by omega)
    have hwm : |windowSum (fun j => (e j).val) m 0| ≤ ((2 * r + 1 : Nat) : ℚ) * M := by
      refine (windowSum_le he m 0).trans (mul_le_mul_of_nonneg_right ?_ hM)
      exact_mod_cast (by omega : 2 * m + 1 ≤ 2 * r + 1)
    have := average_start_step h i2 (hd (-((m : ℤ) + 1))) (hd ((m : ℤ) + 1)) (he _) (he _) hwm hW i1 (average_bound_half hW hM (by omega)) hmax
    rw [windowSum_zero_succ, averageStart]
    refine ⟨this.1.trans (le_of_eq ?_), this.2⟩
    push_cast
    ring

theorem averageSum_error (h : RoundsToNearest rnd) (hd : ∀ j, IsDouble (e j).val) (he : ∀ j, |(e j).val| ≤ M)
    (hmax : (2 * ((2 * r + 1 : Nat) : ℚ) + 4) * M ≤ doubleMax) {s : Fl rnd} {n0 : Nat} (hs : IsDouble s.val)
    (hs0 : |s.val - windowSum (fun j => (e j).val) r 0| ≤ n0 * (4 * (((2 * r + 1 : Nat) : ℚ) + 1) * M / 2 ^ 53)) :
    ∀ i, n0 + i ≤ 2 ^ 40 → |(averageSum e r s i).val - windowSum (fun j => (e j).val) r i| ≤
        ((n0 + i : Nat) : ℚ) * (4 * (((2 * r + 1 : Nat) : ℚ) + 1) * M / 2 ^ 53) ∧
      IsDouble (averageSum e r s i).val := by
  have hM : 0 ≤ M := (abs_nonneg _).trans (he 0)
  have hW : (1 : ℚ) ≤ ((2 * r + 1 : Nat) : ℚ) := by exact_mod_cast (by omega : 1 ≤ 2 * r + 1)
  intro i
  induction i with
  | zero => exact fun _ => ⟨by simpa [averageSum] using hs0, hs⟩
  | succ i ih =>
    intro hi
    obtain ⟨i1, i2⟩ := ih (by omega)
    have := average_step h i2 (hd ((i : ℤ) + 1 + r)) (hd ((i : ℤ) - r)) (he _) (he _) (windowSum_le he r i) hW i1
      (average_bound_half hW hM (by omega)) hmax
    have e1 := windowSum_succ (fun j => (e j).val) r i
    push_cast
    rw [e1]
    refine ⟨this.1.trans (le_of_eq ?_), this.2⟩
    push_cast
    ring

end

end Sp
