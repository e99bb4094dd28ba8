import Verif.Props.Random
import Verif.Lemmas.Float

/-!
# C127 Bounded random floats in double precision
-/

set_option linter.unusedSectionVars false

namespace Sp
variable {rnd : ℚ → ℚ}

theorem RoundsToNearest.rounding (h : RoundsToNearest rnd) : Rounding rnd := by
  rintro q ⟨m, e, h1, h2, h3, h4⟩
  exact h.exact ⟨m, e, h1, h2, h3, h4⟩

/-- A number less than a double by at least 2^-53 of it is rounded to a smaller double. -/
theorem RoundsToNearest.lt_of_step (h : RoundsToNearest rnd) {r q : ℚ} (hr : IsDouble r) (hlo : (2 : ℚ) ^ (-1021 : ℤ) ≤ r) (h0 : 0 ≤ q)
    (hq : q ≤ r - r / 2 ^ 53) : rnd q < r := by
  have hp := two_zpow_pos (-1021)
  have hr0 : 0 < r := lt_of_lt_of_le hp hlo
  have hmax : |q| ≤ doubleMax := by
    rw [abs_of_nonneg h0]
    have h1 := hr.le_max
    rw [abs_of_pos hr0] at h1
    have : 0 ≤ r / 2 ^ 53 := by positivity
    linarith
  obtain ⟨hb1, hb2⟩ := log_bounds hr0.ne'
  rw [abs_of_pos hr0] at hb1 hb2
  set L := Int.log 2 r with hL
  have hL0 : -1021 ≤ L := by
    by_contra hlt
    have : (2 : ℚ) ^ (L + 1) ≤ (2 : ℚ) ^ (-1021 : ℤ) := two_zpow_le (by omega)
    linarith
  -- a double `p` below `r` that is nearer
  obtain ⟨p, hpd, hpr, hpq⟩ : ∃ p, IsDouble p ∧ p < r ∧ 2 * q < r + p := by
    have hg := hr.grid_of_le (k := L) (by rwa [abs_of_pos hr0])
    -- `w` is half the distance to the next double above 2^L
    set w : ℚ := (2 : ℚ) ^ (L - 53) with hw
    have hw0 : 0 < w := two_zpow_pos _
    have e0 : (2 : ℚ) ^ L = 2 ^ 53 * w := by
      rw [hw, ← two_zpow_53, show 53 + (L - 53) = L by ring]
    have e1 : (2 : ℚ) ^ (L - 52) = 2 * w := by
      rw [show L - 52 = 1 + (L - 53) by ring, two_zpow_add, ← hw, zpow_one]
    have e2 : (2 : ℚ) ^ (L + 1) = 2 * (2 ^ 53 * w) := by
      rw [show L + 1 = 1 + L by ring, two_zpow_add, e0]
      simp
    rw [e0] at hb1
    rw [e2] at hb2
    have hrm := hr.le_max
    rw [abs_of_pos hr0] at hrm
    rcases hb1.lt_or_eq with hlt | heq
    · refine ⟨r - (2 : ℚ) ^ (L - 52), (hg.sub ⟨1, by simp⟩).isDouble (by omega) ?_ ?_, ?_, ?_⟩
      · rw [e1, abs_of_nonneg (by linarith)]
        linarith
      · rw [e1, abs_of_nonneg (by linarith)]
        linarith
      · rw [e1]
        linarith
      · rw [e1]
        have : w < r / 2 ^ 53 := by
          rw [lt_div_iff₀ (by norm_num)]
          linarith
        linarith
    · refine ⟨r - w, OnGrid.isDouble (e := L - 53) (OnGrid.sub (hg.mono (by omega)) ⟨1, by simp [hw]⟩) (by omega) ?_ ?_, ?_, ?_⟩
      · rw [abs_of_nonneg (by linarith), ← hw]
        linarith
      · rw [abs_of_nonneg (by linarith)]
        linarith
      · linarith
      · have : r / 2 ^ 53 = w := by
          rw [← heq]
          field_simp
        linarith
  by_contra hge
  rw [not_lt] at hge
  have h1 := h.nearest q p hmax hpd
  have h2 : q < r := by
    have : 0 < r / 2 ^ 53 := by positivity
    linarith
  rw [abs_of_nonpos (by linarith)] at h1
  rcases abs_cases (q - p) with ⟨h3, h4⟩ | ⟨h3, h4⟩ <;> linarith

/-- **C127**: for a positive range that is a double from 2^-1021 on, the result is a double, at least zero, less than the range, and differs from the
exact product of the range and a multiple of 2^-53 at most by rounding. The multiple is the upper part of the raw number (C42). -/
theorem C127_bounded_partial (h : RoundsToNearest rnd) {range : ℚ} (hd : IsDouble range) (hr : (2 : ℚ) ^ (-1021 : ℤ) ≤ range) (s : RandomState) :
    IsDouble (randomF64Bounded rnd range s).1 ∧ 0 ≤ (randomF64Bounded rnd range s).1 ∧ (randomF64Bounded rnd range s).1 < range ∧
    ∀ d, IsDouble d → |range * (((randomU64Plus s).1.toNat / 2 ^ 11 : Nat) / 2 ^ 53) - (randomF64Bounded rnd range s).1| ≤
      |range * (((randomU64Plus s).1.toNat / 2 ^ 11 : Nat) / 2 ^ 53) - d| := by
  have hlt := shr11_lt (randomU64Plus s).1
  have hr0 : 0 < range := lt_of_lt_of_le (two_zpow_pos _) hr
  have hk : ((randomU64Plus s).1 >>> 11).toNat = (randomU64Plus s).1.toNat / 2 ^ 11 := by
    rw [BitVec.toNat_ushiftRight, Nat.shiftRight_eq_div_pow]
  have e : (randomF64Bounded rnd range s).1 = rnd (range * (((randomU64Plus s).1.toNat / 2 ^ 11 : Nat) / 2 ^ 53)) := by
    rw [randomF64Bounded, f64FromU64_eq h.rounding, hk]
  rw [hk] at hlt
  rw [e]
  generalize (randomU64Plus s).1.toNat / 2 ^ 11 = k at *
  have hk1 : (k : ℚ) + 1 ≤ 2 ^ 53 := by exact_mod_cast hlt
  have hk0 : (0 : ℚ) ≤ k := Nat.cast_nonneg _
  have hq0 : 0 ≤ range * ((k : ℚ) / 2 ^ 53) := by positivity
  have hq : range * ((k : ℚ) / 2 ^ 53) ≤ range - range / 2 ^ 53 := by
    have h1 : (k : ℚ) / 2 ^ 53 ≤ 1 - 1 / 2 ^ 53 := by
      rw [div_le_iff₀ (by norm_num)]
      norm_num at hk1 ⊢
      linarith
    have := mul_le_mul_of_nonneg_left h1 hr0.le
    linarith
  have hmax : |range * ((k : ℚ) / 2 ^ 53)| ≤ doubleMax := by
    rw [abs_of_nonneg hq0]
    have h1 := hd.le_max
    rw [abs_of_pos hr0] at h1
    have : 0 ≤ range / 2 ^ 53 := by positivity
    linarith
  exact ⟨h.double _ hmax, h.nonneg hmax hq0, h.lt_of_step hd hr hq0 hq, fun d hd' => h.nearest _ d hmax hd'⟩

/-- The hypotheses for the range 1/10, which is rounded itself. -/
example : IsDouble (nearestDouble (1 / 10)) ∧ (2 : ℚ) ^ (-1021 : ℤ) ≤ nearestDouble (1 / 10) := by
  have h := nearestDouble_rounds
  have h4 : |(1 / 10 : ℚ)| ≤ doubleMax := le_trans (by norm_num [abs_of_pos]) (le_doubleMax (e := 0) (by norm_num))
  have h1 := h.double (1 / 10) h4
  refine ⟨h1, ?_⟩
  have h2 : IsDouble (2 ^ (-4 : ℤ)) := ⟨1, -4, by norm_num, by norm_num, by norm_num, by norm_num⟩
  have h3 : (2 : ℚ) ^ (-1021 : ℤ) ≤ (2 : ℚ) ^ (-4 : ℤ) := two_zpow_le (by norm_num)
  exact h3.trans (h.le_rnd h2 h4 (by norm_num))

/-- **C127 is false** for the smallest positive range: the result can be the range itself, with every rounding to nearest. -/
theorem C127_bounded_false (h : RoundsToNearest rnd) :
    IsDouble ((2 : ℚ) ^ (-1074 : ℤ)) ∧
    ∃ s : RandomState, (randomF64Bounded rnd ((2 : ℚ) ^ (-1074 : ℤ)) s).1 = (2 : ℚ) ^ (-1074 : ℤ) := by
  have hp := two_zpow_pos (-1074)
  set t : ℚ := (2 : ℚ) ^ (-1074 : ℤ) with ht
  have hd : IsDouble t := ⟨1, -1074, by norm_num, by norm_num, by norm_num, by rw [ht]; norm_num⟩
  refine ⟨hd, ⟨BitVec.ofNat 64 18446744073709551615, 0, 0, 0⟩, ?_⟩
  have hk : ((randomU64Plus ⟨BitVec.ofNat 64 18446744073709551615, 0, 0, 0⟩).1 >>> 11).toNat = 9007199254740991 := by decide +kernel
  rw [randomF64Bounded, f64FromU64_eq h.rounding, hk]
  dsimp only
  set q : ℚ := t * ((9007199254740991 : ℕ) / 2 ^ 53) with hq
  have hqt : q = t - t / 2 ^ 53 := by
    rw [hq]
    push_cast
    ring
  have hmax : |q| ≤ doubleMax := by
    have h1 := hd.le_max
    rw [abs_of_pos hp] at h1
    rw [hqt, abs_of_nonneg (by linarith)]
    linarith
  obtain ⟨M, hM⟩ := (h.double q hmax).onGrid
  have h1 := h.nearest q t hmax hd
  rw [hM, ← ht] at h1 ⊢
  have h2 : |q - t| = t / 2 ^ 53 := by
    rw [hqt, abs_of_nonpos (by linarith)]
    ring
  rw [h2, hqt] at h1
  have h3 := abs_le.1 h1
  have h4 : (M : ℚ) * t < 2 * t := by linarith
  have h5 : 0 < (M : ℚ) * t := by linarith
  have h6 : M < 2 := by
    have := lt_of_mul_lt_mul_right h4 hp.le
    exact_mod_cast this
  have h7 : 0 < M := by
    have := (mul_pos_iff_of_pos_right hp).1 h5
    exact_mod_cast this
  have h8 : M = 1 := by omega
  rw [h8]
  simp

end Sp
