import Verif.Spec.Single
import Verif.Lemmas.Float
import Mathlib.Data.Fintype.Basic
import Mathlib.Data.Finset.Max
import Mathlib.Data.Fintype.EquivFin
import Mathlib.Data.Set.Finite.Lemmas
import Mathlib.Tactic.Linarith
import Mathlib.Tactic.Ring
import Mathlib.Tactic.NormNum
import Mathlib.Algebra.Order.Round

set_option linter.unusedSectionVars false

namespace Sp

theorem singleValue_isSingle {b : Nat} (hf : SingleFinite b) : IsSingle (singleValue b) := by
  have h1 : b % 2 ^ 23 < 2 ^ 23 := Nat.mod_lt _ (by norm_num)
  have h2 : b / 2 ^ 23 % 256 < 256 := Nat.mod_lt _ (by norm_num)
  unfold SingleFinite at hf
  unfold singleValue
  generalize hF : b % 2 ^ 23 = f at *
  generalize hE : b / 2 ^ 23 % 256 = e at *
  by_cases he : e = 0
  · rw [if_pos he]
    by_cases hs : b / 2 ^ 31 % 2 = 0
    · rw [if_pos hs]
      exact ⟨f, -149, by rw [abs_of_nonneg (by omega)]; omega, le_refl _, by norm_num, by push_cast; ring⟩
    · rw [if_neg hs]
      exact ⟨-f, -149, by rw [abs_neg, abs_of_nonneg (by omega)]; omega, le_refl _, by norm_num, by push_cast; ring⟩
  · rw [if_neg he]
    by_cases hs : b / 2 ^ 31 % 2 = 0
    · rw [if_pos hs]
      exact ⟨(2 ^ 23 + f : Nat), e - 150, by rw [abs_of_nonneg (by omega)]; omega, by omega, by omega, by push_cast; ring⟩
    · rw [if_neg hs]
      exact ⟨-(2 ^ 23 + f : Nat), e - 150, by rw [abs_neg, abs_of_nonneg (by omega)]; omega, by omega, by omega, by
        push_cast; ring⟩

/-- A number not below zero with a normalised mantissa. -/
theorem single_pattern_nonneg (m : Nat) : ∀ e : ℤ, m < 2 ^ 24 → -149 ≤ e → e ≤ 104 →
    ∃ b : Nat, b < 2 ^ 31 ∧ SingleFinite b ∧ singleValue b = m * (2 : ℚ) ^ e := by
  have key : ∀ (k m : Nat) (e : ℤ), (e + 149).toNat = k → m < 2 ^ 24 → -149 ≤ e → e ≤ 104 →
      ∃ b : Nat, b < 2 ^ 31 ∧ SingleFinite b ∧ singleValue b = m * (2 : ℚ) ^ e := by
    intro k
    induction k with
    | zero =>
      intro m e hk hm he1 he2
      have he : e = -149 := by omega
      subst he
      refine ⟨m, by omega, by unfold SingleFinite; omega, ?_⟩
      unfold singleValue
      rw [if_pos (by omega)]
      by_cases h : m < 2 ^ 23
      · rw [if_pos (by omega), Nat.mod_eq_of_lt h]
        ring
      · rw [if_neg (by omega), show m / 2 ^ 23 % 256 = 1 by omega, show 2 ^ 23 + m % 2 ^ 23 = m by omega]
        norm_num
    | succ k ih =>
      intro m e hk hm he1 he2
      by_cases h : m < 2 ^ 23
      · obtain ⟨b, hb, hf, hv⟩ := ih (2 * m) (e - 1) (by omega) (by omega) (by omega) (by omega)
        refine ⟨b, hb, hf, ?_⟩
        rw [hv]
        conv_rhs => rw [show e = 1 + (e - 1) by ring, two_zpow_add, zpow_one]
        push_cast
        ring
      · have hE : 1 ≤ (e + 150).toNat ∧ (e + 150).toNat ≤ 254 ∧ (((e + 150).toNat : Nat) : ℤ) = e + 150 := by omega
        generalize (e + 150).toNat = E at hE
        refine ⟨E * 2 ^ 23 + (m - 2 ^ 23), by omega, by unfold SingleFinite; omega, ?_⟩
        unfold singleValue
        rw [if_pos (by omega), if_neg (by omega), show (E * 2 ^ 23 + (m - 2 ^ 23)) / 2 ^ 23 % 256 = E by omega,
          show 2 ^ 23 + (E * 2 ^ 23 + (m - 2 ^ 23)) % 2 ^ 23 = m by omega, hE.2.2]
        rw [show e + 150 - 150 = e by ring]
        ring
  intro e
  exact key _ m e rfl

/-- Every finite number has a pattern. -/
theorem isSingle_pattern {q : ℚ} (h : IsSingle q) : ∃ b : Fin (2 ^ 32), SingleFinite b ∧ singleValue b = q := by
  obtain ⟨m, e, hm, h1, h2, rfl⟩ := h
  obtain ⟨b, hb, hf, hv⟩ := single_pattern_nonneg m.natAbs e (by rw [← Int.natCast_natAbs] at hm; omega) h1 h2
  rcases le_or_gt 0 m with h0 | h0
  · refine ⟨⟨b, by omega⟩, hf, ?_⟩
    show singleValue b = _
    rw [hv]
    congr 1
    rw [← Int.cast_natCast, Int.natAbs_of_nonneg h0]
  · refine ⟨⟨b + 2 ^ 31, by omega⟩, ?_, ?_⟩
    · show SingleFinite (b + 2 ^ 31)
      unfold SingleFinite at hf ⊢
      omega
    · show singleValue (b + 2 ^ 31) = _
      have e1 : (b + 2 ^ 31) / 2 ^ 23 % 256 = b / 2 ^ 23 % 256 := by omega
      have e2 : (b + 2 ^ 31) % 2 ^ 23 = b % 2 ^ 23 := by omega
      have hv' : singleValue (b + 2 ^ 31) = -singleValue b := by
        unfold singleValue
        rw [e1, e2, if_neg (show ¬(b + 2 ^ 31) / 2 ^ 31 % 2 = 0 by omega), if_pos (show b / 2 ^ 31 % 2 = 0 by omega)]
        ring
      rw [hv', hv]
      have h' : (m.natAbs : ℚ) = -(m : ℚ) := by
        rw [← Int.cast_natCast, show (m.natAbs : ℤ) = -m by omega, Int.cast_neg]
      rw [h']
      ring

theorem IsSingle.isDouble {q : ℚ} (h : IsSingle q) : IsDouble q := by
  obtain ⟨m, e, hm, h1, h2, rfl⟩ := h
  exact ⟨m, e, by omega, by omega, by omega, rfl⟩

theorem IsSingle.le_max {q : ℚ} (h : IsSingle q) : |q| ≤ singleMax := by
  obtain ⟨m, e, hm, h1, h2, rfl⟩ := h
  rw [abs_mul, abs_of_pos (two_zpow_pos e), singleMax]
  have hm' : |(m : ℚ)| ≤ 2 ^ 24 - 1 := by
    have : |m| ≤ 2 ^ 24 - 1 := by omega
    exact_mod_cast this
  exact mul_le_mul hm' (two_zpow_le h2) (two_zpow_pos e).le (by norm_num)

/-- There is a number near to every number of the range. -/
theorem single_near {x : ℚ} (hx : |x| ≤ singleMax) : ∃ y, IsSingle y ∧ |x - y| ≤ |x| / 2 ^ 24 + (2 : ℚ) ^ (-150 : ℤ) := by
  by_cases h0 : x = 0
  · refine ⟨0, ⟨0, 0, by norm_num, by norm_num, by norm_num, by norm_num⟩, ?_⟩
    rw [h0]
    simp
  · obtain ⟨hlo, hhi⟩ := log_bounds h0
    generalize hL : Int.log 2 |x| = L at hlo hhi
    have hL1 : L < 128 := by
      have h1 : (2 : ℚ) ^ L < (2 : ℚ) ^ (128 : ℤ) := by
        refine lt_of_le_of_lt (hlo.trans hx) ?_
        rw [singleMax, show (128 : ℤ) = 24 + 104 by norm_num, two_zpow_add]
        exact mul_lt_mul_of_pos_right (by norm_num) (two_zpow_pos 104)
      exact two_zpow_lt.1 h1
    obtain ⟨e, he⟩ : ∃ e, e = max (L - 23) (-149) := ⟨_, rfl⟩
    have he1 : -149 ≤ e := by omega
    have he2 : e ≤ 104 := by omega
    have hp := two_zpow_pos e
    have hxe : |x| < 2 ^ 24 * (2 : ℚ) ^ e := by
      refine lt_of_lt_of_le hhi ?_
      have : (2 : ℚ) ^ (24 + e) = 2 ^ 24 * (2 : ℚ) ^ e := by rw [two_zpow_add]; norm_num
      rw [← this]
      exact two_zpow_le (by omega)
    obtain ⟨k, hk⟩ : ∃ k : ℤ, k = round (x / (2 : ℚ) ^ e) := ⟨_, rfl⟩
    have hr : |x / (2 : ℚ) ^ e - k| ≤ 1 / 2 := hk ▸ abs_sub_round _
    have hxq : x = x / (2 : ℚ) ^ e * (2 : ℚ) ^ e := by field_simp
    have herr : |x - k * (2 : ℚ) ^ e| ≤ (2 : ℚ) ^ e / 2 := by
      have : x - k * (2 : ℚ) ^ e = (x / (2 : ℚ) ^ e - k) * (2 : ℚ) ^ e := by rw [sub_mul, ← hxq]
      rw [this, abs_mul, abs_of_pos hp]
      calc _ ≤ 1 / 2 * (2 : ℚ) ^ e := mul_le_mul_of_nonneg_right hr hp.le
        _ = _ := by ring
    have hbound : (2 : ℚ) ^ e / 2 ≤ |x| / 2 ^ 24 + (2 : ℚ) ^ (-150 : ℤ) := by
      have hq := two_zpow_pos (-150)
      have hxp : 0 ≤ |x| / 2 ^ 24 := by positivity
      rcases le_or_gt (-149) (L - 23) with h | h
      · have heq : (2 : ℚ) ^ L = 2 ^ 23 * (2 : ℚ) ^ e := by
          rw [show L = 23 + e by omega, two_zpow_add]; norm_num
        rw [heq] at hlo
        have : (2 : ℚ) ^ e / 2 ≤ |x| / 2 ^ 24 := by
          rw [le_div_iff₀ (by norm_num)]
          linarith
        linarith
      · have heq : (2 : ℚ) ^ e = 2 * (2 : ℚ) ^ (-150 : ℤ) := by
          rw [show e = 1 + (-150) by omega, two_zpow_add, zpow_one]
        rw [heq]
        linarith
    have hkle : |k| ≤ 2 ^ 24 := by
      have h1 : |x / (2 : ℚ) ^ e| < 2 ^ 24 := by
        rw [abs_div, abs_of_pos hp, div_lt_iff₀ hp]
        exact hxe
      have h2 : |(k : ℚ)| < 2 ^ 24 + 1 := by
        have := abs_sub_abs_le_abs_sub (k : ℚ) (x / (2 : ℚ) ^ e)
        rw [abs_sub_comm] at this
        linarith
      have h3 : |k| < 2 ^ 24 + 1 := by exact_mod_cast h2
      omega
    rcases hkle.lt_or_eq with hlt | heq
    · exact ⟨_, ⟨k, e, hlt, he1, he2, rfl⟩, herr.trans hbound⟩
    · -- the next power of two
      have he3 : e < 104 := by
        by_contra hc
        have he4 : e = 104 := by omega
        have h1 : |x / (2 : ℚ) ^ e| ≤ 2 ^ 24 - 1 := by
          rw [abs_div, abs_of_pos hp, div_le_iff₀ hp, he4]
          exact hx
        have h2 : |(k : ℚ)| ≤ 2 ^ 24 - 1 + 1 / 2 := by
          have := abs_sub_abs_le_abs_sub (k : ℚ) (x / (2 : ℚ) ^ e)
          rw [abs_sub_comm] at this
          linarith
        have h3 : |(k : ℚ)| = 2 ^ 24 := by exact_mod_cast heq
        rw [h3] at h2
        norm_num at h2
      refine ⟨_, ?_, herr.trans hbound⟩
      rcases (abs_eq (by norm_num)).1 heq with h | h
      · refine ⟨2 ^ 23, e + 1, by norm_num, by omega, by omega, ?_⟩
        rw [h, two_zpow_add]
        push_cast
        ring
      · refine ⟨-2 ^ 23, e + 1, by norm_num, by omega, by omega, ?_⟩
        rw [h, two_zpow_add]
        push_cast
        ring

variable {rnd : ℚ → ℚ} {fmt : FloatFmt (Fl rnd) (Fin (2 ^ 32))}

theorem IsSingleFmt.value (hfmt : IsSingleFmt fmt) {x : Fl rnd} (hx : |x.val| ≤ singleMax) :
    (fmt.widen (fmt.narrow x)).val = singleValue (fmt.narrow x) := hfmt.widen _ (hfmt.finite x hx)

theorem IsSingleFmt.nearestSingle (hfmt : IsSingleFmt fmt) {x : Fl rnd} (hx : |x.val| ≤ singleMax) :
    NearestSingle x.val (fmt.widen (fmt.narrow x)).val := by
  rw [hfmt.value hx]
  refine ⟨singleValue_isSingle (hfmt.finite x hx), fun z hz => ?_⟩
  obtain ⟨b, hb, rfl⟩ := isSingle_pattern hz
  exact hfmt.nearest x b hx hb

theorem NearestSingle.error {x y : ℚ} (h : NearestSingle x y) (hx : |x| ≤ singleMax) :
    |x - y| ≤ |x| / 2 ^ 24 + (2 : ℚ) ^ (-150 : ℤ) := by
  obtain ⟨z, hz, hxz⟩ := single_near hx
  exact (h.2 z hz).trans hxz

theorem NearestSingle.exact {x y : ℚ} (h : NearestSingle x y) (hx : IsSingle x) : y = x := by
  have := h.2 x hx
  rw [sub_self, abs_zero] at this
  have := abs_nonpos_iff.1 this
  linarith

/-- Conversions that are as the specification says exist. -/
theorem exists_singleFmt (rnd : ℚ → ℚ) : ∃ fmt : FloatFmt (Fl rnd) (Fin (2 ^ 32)), IsSingleFmt fmt := by
  have hex : ∀ x : Fl rnd, ∃ b : Fin (2 ^ 32), SingleFinite b ∧ ∀ c : Fin (2 ^ 32), SingleFinite c →
      |x.val - singleValue b| ≤ |x.val - singleValue c| := by
    intro x
    have hfin : Set.Finite {b : Fin (2 ^ 32) | SingleFinite b} := Set.toFinite _
    have hne : Set.Nonempty {b : Fin (2 ^ 32) | SingleFinite b} := ⟨⟨0, by norm_num⟩, by
      show SingleFinite 0
      decide⟩
    obtain ⟨b, hb, hmin⟩ := Set.exists_min_image _ (fun b : Fin (2 ^ 32) => |x.val - singleValue b|) hfin hne
    exact ⟨b, hb, fun c hc => hmin c hc⟩
  choose nar hnar using hex
  refine ⟨{ narrow := nar, widen := fun b => ⟨singleValue b⟩, toBytes := fun b => le32 b,
            ofBytes := fun l => ⟨ofLe l % 2 ^ 32, Nat.mod_lt _ (by norm_num)⟩, length_toBytes := fun _ => rfl,
            ofBytes_toBytes := fun b => ?_ }, ?_⟩
  · apply Fin.ext
    show ofLe (le32 b) % 2 ^ 32 = b
    have := b.2
    simp only [le32, ofLe]
    omega
  · exact ⟨fun x _ => (hnar x).1, fun x b _ hb => (hnar x).2 b hb, fun _ _ => rfl, fun _ => rfl⟩

end Sp
