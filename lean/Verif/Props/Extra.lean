import Verif.Model.Extra
import Verif.Spec.Extra
import Verif.Lemmas.Filter
import Verif.Props.ArraysSelect
import Verif.Props.Statistics
import Verif.Props.RandomArrays
import Mathlib.Tactic.IntervalCases

/-! # C79 to C82, C84, C95 to C99: various small functions -/

set_option linter.unusedSectionVars false

namespace Sp

/-! ### C79 -/

theorem inlineLimit_eq {x lo hi : ℚ} : inlineLimit x lo hi = max lo (min hi x) := by
  unfold inlineLimit
  rw [max_def, min_def]
  split_ifs <;> linarith

theorem panToAmp_even (v : ℚ) (k : Nat) : panToAmp v (2 * k) = panFirst (v - 2 * k) - 4 * k := by
  have h : ¬ (2 * k &&& 1 = 1) := by rw [Nat.and_one_is_mod]; omega
  rw [panToAmp, if_neg h, inlineLimit_eq, panFirst]
  push_cast
  rw [max_def, min_def, max_def, min_def]
  split_ifs <;> linarith

theorem panToAmp_odd (v : ℚ) (k : Nat) : panToAmp v (2 * k + 1) = panSecond (v - 2 * k) + 4 * k := by
  have h : (2 * k + 1) &&& 1 = 1 := by rw [Nat.and_one_is_mod]; omega
  rw [panToAmp, if_pos h, inlineLimit_eq, panSecond]
  push_cast
  rw [max_def, min_def, max_def, min_def]
  split_ifs <;> linarith

/-- C79 for the first pair of channels: the amplitudes follow the documented curves, are between 0 and 1, and at least one is 1.
The channel limit of the library is two by default. Missing: further pairs, for which it is false. -/
theorem C79_pan_partial (v : ℚ) :
    panToAmp v 0 = panFirst v ∧ panToAmp v 1 = panSecond v ∧
    0 ≤ panToAmp v 0 ∧ panToAmp v 0 ≤ 1 ∧ 0 ≤ panToAmp v 1 ∧ panToAmp v 1 ≤ 1 ∧
    (v ≤ 1 / 2 → panToAmp v 0 = 1) ∧ (1 / 2 ≤ v → panToAmp v 1 = 1) := by
  have h0 : panToAmp v 0 = panFirst v := by simpa using panToAmp_even v 0
  have h1 : panToAmp v 1 = panSecond v := by simpa using panToAmp_odd v 0
  rw [h0, h1, panFirst, panSecond]
  refine ⟨rfl, rfl, le_max_left _ _, ?_, le_max_left _ _, ?_, ?_, ?_⟩
  · exact max_le (by norm_num) (min_le_left _ _)
  · exact max_le (by norm_num) (min_le_left _ _)
  · intro h
    rw [min_eq_left (by linarith), max_eq_right (by norm_num)]
  · intro h
    rw [min_eq_left (by linarith), max_eq_right (by norm_num)]

/-- C79, the documented values: 0 mutes the second channel, 0.5 none, 1 the first; 0.75 has the first and 0.25 the second at 50%. -/
theorem C79_documented :
    panToAmp 0 0 = 1 ∧ panToAmp 0 1 = 0 ∧ panToAmp (1 / 2) 0 = 1 ∧ panToAmp (1 / 2) 1 = 1 ∧
    panToAmp 1 0 = 0 ∧ panToAmp 1 1 = 1 ∧ panToAmp (3 / 4) 0 = 1 / 2 ∧ panToAmp (1 / 4) 1 = 1 / 2 := by decide +kernel

/-- C79 is false for every further pair of channels: the amplitude of the first one is never positive, and the amplitude of the second
one is at least 4. -/
theorem C79_further_channels_false (v : ℚ) (k : Nat) (hk : 1 ≤ k) : panToAmp v (2 * k) ≤ -3 ∧ 4 ≤ panToAmp v (2 * k + 1) := by
  have hk' : (1 : ℚ) ≤ k := by exact_mod_cast hk
  rw [panToAmp_even, panToAmp_odd, panFirst, panSecond]
  have h1 : max 0 (min 1 (2 * (1 - (v - 2 * k)))) ≤ 1 := max_le (by norm_num) (min_le_left _ _)
  have h2 : 0 ≤ max 0 (min 1 (2 * (v - 2 * k))) := le_max_left _ _
  constructor <;> linarith

/-- For the third channel. -/
example : panToAmp (5 / 2) 2 = -3 := by decide +kernel

/-! ### C80 -/

theorem littleEndian_take (a : List Nat) : ∀ n, n < a.length →
    littleEndian (a.take (n + 1)) = littleEndian (a.take n) + 256 ^ n * a.getD n 0 := by
  induction a with
  | nil => intro n h; simp at h
  | cons x xs ih =>
    intro n h
    cases n with
    | zero => simp [littleEndian]
    | succ n =>
      have := ih n (by simpa using h)
      rw [List.take_succ_cons, List.take_succ_cons, littleEndian, littleEndian, this, List.getD_cons_succ, pow_succ]
      ring

theorem rd_getD {a : Buf Nat} {i : Nat} (h : i < a.length) : rd a i = .ok (a.getD i 0) := by
  rw [rd_eq_ok h, getD_of_lt h]

theorem load16_eq {a : Buf Nat} {i : Nat} (h : i + 1 < a.length) : load16 a i = .ok (a.getD i 0 + a.getD (i + 1) 0 * 256) := by
  rw [load16, rd_getD (by omega), ok_bind', rd_getD h, ok_bind']; rfl

theorem load32_eq {a : Buf Nat} {i : Nat} (h : i + 3 < a.length) :
    load32 a i = .ok (a.getD i 0 + a.getD (i + 1) 0 * 256 + (a.getD (i + 2) 0 + a.getD (i + 3) 0 * 256) * 65536) := by
  rw [load32, load16_eq (by omega), ok_bind', load16_eq (by omega), ok_bind']; rfl

/-- C80: for one to eight bytes the result is the little-endian number of the first `count` bytes; it fits in 64 bits. -/
theorem C80_u64_from_array {a : List Nat} {count : Nat} (h1 : 1 ≤ count) (h8 : count ≤ 8) (hc : count ≤ a.length)
    (ha : ∀ x ∈ a, x < 256) :
    u64FromArray a count = .ok (littleEndian (a.take count)) ∧ littleEndian (a.take count) < 18446744073709551616 := by
  constructor
  · have h0 : littleEndian (a.take 0) = 0 := rfl
    have t := littleEndian_take a
    interval_cases count
    · rw [u64FromArray, if_pos rfl, rd_getD (by omega), t 0 (by omega), h0]; congr 1; ring
    · rw [u64FromArray, if_neg (by norm_num), if_pos rfl, load16_eq (by omega), t 1 (by omega), t 0 (by omega), h0]; congr 1; ring
    · rw [u64FromArray, if_neg (by norm_num), if_neg (by norm_num), if_pos rfl, load16_eq (by omega), ok_bind', rd_getD (by omega), ok_bind',
        t 2 (by omega), t 1 (by omega), t 0 (by omega), h0, Nat.shiftLeft_eq, pure_eq_ok]; congr 1; ring
    · rw [u64FromArray, if_neg (by norm_num), if_neg (by norm_num), if_neg (by norm_num), if_pos rfl, load32_eq (by omega),
        t 3 (by omega), t 2 (by omega), t 1 (by omega), t 0 (by omega), h0]; congr 1; ring
    · rw [u64FromArray, if_neg (by norm_num), if_neg (by norm_num), if_neg (by norm_num), if_neg (by norm_num), if_pos rfl,
        load32_eq (by omega), ok_bind', rd_getD (by omega), ok_bind', t 4 (by omega),
        t 3 (by omega), t 2 (by omega), t 1 (by omega), t 0 (by omega), h0, Nat.shiftLeft_eq, pure_eq_ok]; congr 1; ring
    · rw [u64FromArray, if_neg (by norm_num), if_neg (by norm_num), if_neg (by norm_num), if_neg (by norm_num), if_neg (by norm_num),
        if_pos rfl, load32_eq (by omega), ok_bind', load16_eq (by omega), ok_bind', t 5 (by omega), t 4 (by omega),
        t 3 (by omega), t 2 (by omega), t 1 (by omega), t 0 (by omega), h0, Nat.shiftLeft_eq, pure_eq_ok]; congr 1; ring
    · rw [u64FromArray, if_neg (by norm_num), if_neg (by norm_num), if_neg (by norm_num), if_neg (by norm_num), if_neg (by norm_num),
        if_neg (by norm_num), if_pos rfl, load32_eq (by omega), ok_bind', load16_eq (by omega), ok_bind', rd_getD (by omega), ok_bind',
        t 6 (by omega), t 5 (by omega), t 4 (by omega),
        t 3 (by omega), t 2 (by omega), t 1 (by omega), t 0 (by omega), h0, Nat.shiftLeft_eq, Nat.shiftLeft_eq, pure_eq_ok]; congr 1; ring
    · rw [u64FromArray, if_neg (by norm_num), if_neg (by norm_num), if_neg (by norm_num), if_neg (by norm_num), if_neg (by norm_num),
        if_neg (by norm_num), if_neg (by norm_num), if_pos rfl, load32_eq (by omega), ok_bind', load32_eq (by omega), ok_bind',
        t 7 (by omega), t 6 (by omega), t 5 (by omega), t 4 (by omega),
        t 3 (by omega), t 2 (by omega), t 1 (by omega), t 0 (by omega), h0, pure_eq_ok]; congr 1; ring
  · have key : ∀ l : List Nat, (∀ x ∈ l, x < 256) → littleEndian l < 256 ^ l.length := by
      intro l
      induction l with
      | nil => intro _; simp [littleEndian]
      | cons x xs ih =>
        intro h
        have h1 := h x (by simp)
        have h2 := ih (fun y hy => h y (List.mem_cons_of_mem _ hy))
        rw [littleEndian, List.length_cons, pow_succ]
        omega
    have h2 := key (a.take count) (fun x hx => ha x (List.mem_of_mem_take hx))
    rw [List.length_take, min_eq_left hc] at h2
    have h3 : 256 ^ count ≤ 256 ^ 8 := Nat.pow_le_pow_right (by norm_num) h8
    have h4 : 256 ^ 8 = 18446744073709551616 := by norm_num
    omega

/-- Seven bytes. -/
example : u64FromArray [1, 2, 3, 4, 5, 6, 7] 7 = .ok 0x07060504030201 := by decide +kernel

/-! ### C81 -/

theorem sinePeriod_eq {size : Nat} (h : 2 ≤ size) {N : Nat} {z : Nat → ℝ} (hN : size ≤ N) :
    sinePeriod size (tab N z) =
      .ok (tab N fun a => if a < size then Real.sin (a * (Real.pi / (size / 2 : Nat))) else z a) := by
  rw [sinePeriod]
  refine tab_loop fun i o hi _ => ?_
  rw [sineBody, if_neg (by omega), wr_tab _ (by omega)]
  rfl

/-- C81 for even sizes: exactly the first `size` values are written, and they are one period of a sine. Missing: odd sizes. -/
theorem C81_even_partial {size : Nat} {out : List ℝ} (h : 2 ≤ size) (heven : size % 2 = 0) (ho : size ≤ out.length) :
    ∃ out', sinePeriod size out = .ok out' ∧ out'.length = out.length ∧
      (∀ i, i < size → out'[i]? = some (Real.sin (2 * Real.pi * i / size))) ∧ ∀ i, size ≤ i → out'[i]? = out[i]? := by
  rw [eq_tab out 0, sinePeriod_eq h (by simpa [tab_length] using ho)]
  refine ⟨_, rfl, by rw [tab_length, tab_length], fun i hi => ?_, fun i hi => ?_⟩
  · rw [tab_getElem?, if_pos (by omega), if_pos hi]
    congr 2
    have h1 : ((size / 2 : Nat) : ℝ) = size / 2 := by
      rw [Nat.cast_div (by omega) (by norm_num)]
      norm_num
    have h2 : (size : ℝ) ≠ 0 := by
      have : size ≠ 0 := by omega
      exact_mod_cast this
    rw [h1]
    field_simp
  · rw [tab_getElem?, tab_getElem?]
    have : ¬ i < size := by omega
    simp only [if_neg this]

/-- The value at a quarter of the sampling rate of the table. -/
example : ∃ out', sinePeriod 8 ([0, 0, 0, 0, 0, 0, 0, 0] : List ℝ) = .ok out' ∧ out'[2]? = some 1 := by
  obtain ⟨o, h1, _, h2, _⟩ := C81_even_partial (size := 8) (out := [0, 0, 0, 0, 0, 0, 0, 0]) (by norm_num) (by norm_num) (by simp)
  refine ⟨o, h1, ?_⟩
  rw [h2 2 (by norm_num), show (2 * Real.pi * (2 : ℕ) / (8 : ℕ) : ℝ) = Real.pi / 2 by push_cast; ring, Real.sin_pi_div_two]

/-- C81 is false for odd sizes: the table of size 3 has only zeros. -/
theorem C81_odd_false : sinePeriod 3 ([7, 7, 7] : List ℝ) = .ok [0, 0, 0] ∧ Real.sin (2 * Real.pi * 1 / 3) ≠ 0 := by
  constructor
  · have e : ([7, 7, 7] : List ℝ) = tab 3 fun _ => 7 := rfl
    rw [e, sinePeriod_eq (by norm_num) (le_refl _)]
    have : ∀ a : ℕ, Real.sin (a * (Real.pi / ((3 / 2 : Nat) : ℝ))) = 0 := by
      intro a
      rw [show (3 / 2 : Nat) = 1 from rfl, Nat.cast_one, div_one]
      exact Real.sin_nat_mul_pi a
    simp only [this]
    rfl
  · have : 0 < Real.sin (2 * Real.pi * 1 / 3) := by
      apply Real.sin_pos_of_pos_of_lt_pi
      · have := Real.pi_pos; linarith
      · have := Real.pi_pos; linarith
    exact this.ne'

/-! ### C82 -/

theorem cheapRound_nat {n : Nat} (h : n < 4294967296) : cheapRound (n : ℚ) = .ok n := by
  have h' : (n : ℚ) + 1 ≤ 4294967296 := by exact_mod_cast h
  have h0 : (0 : ℚ) ≤ n := Nat.cast_nonneg n
  rw [cheapRound, toTime_of (by linarith) (by linarith)]
  congr 1
  rw [Nat.floor_eq_iff (by linarith)]
  constructor <;> linarith

/-- C82: what `sp_time_round_to_multiple` does: it returns its argument (the base for zero). -/
theorem C82_round_returns_argument {a base : Nat} (ha : a < 4294967296) (hb : 0 < base) :
    timeRoundToMultiple a base = .ok (if a = 0 then base else a) := by
  rw [timeRoundToMultiple]
  by_cases h : a = 0
  · rw [if_pos h, if_pos h]
  · rw [if_neg h, if_neg h, if_neg (by omega), div_mul_cancel₀ _ (by exact_mod_cast hb.ne'), cheapRound_nat ha]

/-- C82 is false of `sp_time_round_to_multiple`: 7 is no multiple of 5. -/
theorem C82_round_false : timeRoundToMultiple 7 5 = .ok 7 ∧ ¬ 5 ∣ 7 := by
  constructor
  · decide +kernel
  · decide

theorem harmonizeNearest_eq {a base : Nat} (hb : 0 < base) (h32 : a + base ≤ 4294967296) :
    harmonizeNearest a base = .ok ((a + base - 1) / base * base) := by
  have hle : (a + base - 1) / base * base ≤ a + base - 1 := Nat.div_mul_le_self _ _
  rw [harmonizeNearest]
  have h1 : sub32 (u32 (a + base)) 1 = a + base - 1 := by unfold sub32 u32; omega
  rw [h1, divTime, if_neg (by omega), ok_bind', u32_of_lt (by omega)]
  rfl

/-- The next multiple. -/
theorem next_multiple {a base : Nat} (hb : 0 < base) :
    base ∣ (a + base - 1) / base * base ∧ a ≤ (a + base - 1) / base * base ∧
      ∀ m, base ∣ m → a ≤ m → (a + base - 1) / base * base ≤ m := by
  refine ⟨Dvd.intro_left _ rfl, ?_, ?_⟩
  · have := Nat.div_add_mod (a + base - 1) base
    have := Nat.mod_lt (a + base - 1) hb
    rw [Nat.mul_comm]
    omega
  · rintro m ⟨c, rfl⟩ h
    have : (a + base - 1) / base ≤ c := by
      have h1 : (a + base - 1) / base < c + 1 := by
        rw [Nat.div_lt_iff_lt_mul hb]
        have : (c + 1) * base = base * c + base := by ring
        omega
      omega
    calc _ ≤ c * base := Nat.mul_le_mul_right _ this
      _ = base * c := Nat.mul_comm _ _

theorem toTime_nat {n : Nat} (h : n < 4294967296) : toTime (n : ℚ) = .ok n := by
  have h' : (n : ℚ) < 4294967296 := by exact_mod_cast h
  rw [toTime_of (Nat.cast_nonneg n) h', Nat.floor_natCast]

/-- C82, `sp_time_harmonize`, the part that holds, for values that are not at the end of the range: with the amount 1 the result is the
smallest multiple that is not below the value, with the amount 0 it is the value, and for amounts between it is between those two.
Missing: the nearest multiple. -/
theorem C82_harmonize_partial {a base : Nat} {amount : ℚ} (hb : 0 < base) (h32 : a + base ≤ 4294967296) (h0 : 0 ≤ amount)
    (h1 : amount ≤ 1) :
    ∃ m r, base ∣ m ∧ a ≤ m ∧ (∀ m', base ∣ m' → a ≤ m' → m ≤ m') ∧ timeHarmonize a base amount = .ok r ∧ a ≤ r ∧ r ≤ m ∧
      (amount = 0 → r = a) ∧ (amount = 1 → r = m) := by
  obtain ⟨d1, d2, d3⟩ := next_multiple (a := a) hb
  have hle : (a + base - 1) / base * base ≤ a + base - 1 := Nat.div_mul_le_self _ _
  have e : timeHarmonize a base amount = toTime (a + amount * (((a + base - 1) / base * base : Nat) - a : ℚ)) := by
    rw [timeHarmonize, harmonizeNearest_eq hb h32, ok_bind']
    rw [if_neg (by omega), sub32_of_le (by omega) (by omega), Nat.cast_sub d2]
  generalize hm : (a + base - 1) / base * base = m at *
  have hq : (a : ℚ) ≤ m := by exact_mod_cast d2
  have hx0 : (a : ℚ) ≤ a + amount * ((m : ℚ) - a) := by
    have : 0 ≤ amount * ((m : ℚ) - a) := mul_nonneg h0 (by linarith)
    linarith
  have hx1 : a + amount * ((m : ℚ) - a) ≤ m := by
    have : amount * ((m : ℚ) - a) ≤ 1 * ((m : ℚ) - a) := mul_le_mul_of_nonneg_right h1 (by linarith)
    linarith
  have hm32 : (m : ℚ) < 4294967296 := by
    have : m < 4294967296 := by omega
    exact_mod_cast this
  have ha0 : (0 : ℚ) ≤ a := Nat.cast_nonneg a
  refine ⟨m, ⌊(a : ℚ) + amount * ((m : ℚ) - a)⌋₊, d1, d2, d3, ?_, ?_, ?_, ?_, ?_⟩
  · rw [e, toTime_of (by linarith) (by linarith)]
  · exact Nat.le_floor hx0
  · have := Nat.floor_le_floor hx1
    rwa [Nat.floor_natCast] at this
  · rintro rfl
    rw [zero_mul, add_zero, Nat.floor_natCast]
  · rintro rfl
    rw [one_mul, add_sub_cancel, Nat.floor_natCast]

example : timeHarmonize 7 5 1 = .ok 10 ∧ timeHarmonize 7 5 (1 / 3) = .ok 8 ∧ timeHarmonize 10 5 1 = .ok 10 := by decide +kernel

/-- C82 is false of `sp_time_harmonize`: the multiple of 10 nearest to 11 is 10. -/
theorem C82_harmonize_false : timeHarmonize 11 10 1 = .ok 20 := by decide +kernel

/-- C82 is false of `sp_time_harmonize` at the end of the range: if the value plus the base is more than 2^32, the result
for the amount 1 is a multiple below the base, and the result for the amount 0 is the value. -/
theorem C82_harmonize_overflow_false {a base : Nat} (ha : a < 4294967296) (hb : base < 4294967296)
    (h32 : 4294967296 < a + base) :
    timeHarmonize a base 1 = .ok ((a + base - 1 - 4294967296) / base * base) ∧
      timeHarmonize a base 0 = .ok a ∧ (a + base - 1 - 4294967296) / base * base = 0 := by
  have h0 : (a + base - 1 - 4294967296) / base = 0 := Nat.div_eq_of_lt (by omega)
  have hn : harmonizeNearest a base = .ok 0 := by
    rw [harmonizeNearest]
    have h1 : sub32 (u32 (a + base)) 1 = a + base - 1 - 4294967296 := by unfold sub32 u32; omega
    rw [h1, divTime, if_neg (by omega), ok_bind', h0, Nat.zero_mul]
    rfl
  have hs : sub32 a 0 = a := by rw [sub32_of_le (by omega) (by omega)]; rfl
  have hlt : (a : ℚ) < 4294967296 := by exact_mod_cast ha
  refine ⟨?_, ?_, by rw [h0, Nat.zero_mul]⟩
  · rw [timeHarmonize, hn, ok_bind', if_pos (by omega), hs, h0, Nat.zero_mul, one_mul, sub_self]
    exact toTime_nat (n := 0) (by decide)
  · rw [timeHarmonize, hn, ok_bind', if_pos (by omega), zero_mul, sub_zero]
    exact toTime_nat ha

example : timeHarmonize 4294967290 1000 1 = .ok 0 := (C82_harmonize_overflow_false (by decide) (by decide) (by decide)).1

/-- C82: what `sp_sample_round_to_multiple` does: it rounds its argument to the nearest integer, whatever the base is
(and returns the base for zero). -/
theorem C82_sample_round_ignores_base {a base : ℚ} (h0 : 0 ≤ a) (ha : a < 4294967295) (hb : base ≠ 0) :
    sampleRoundToMultiple a base = .ok (if a = 0 then base else (⌊a + 1 / 2⌋₊ : ℚ)) := by
  rw [sampleRoundToMultiple]
  by_cases h : a = 0
  · rw [if_pos h, if_pos h]
  · rw [if_neg h, if_neg h, if_neg hb, div_mul_cancel₀ _ hb, cheapRound, toTime_of (by linarith) (by linarith), add_comm a]
    rfl

/-- C82 is false of `sp_sample_round_to_multiple`: the nearest multiple of 0.25 to 0.7 is 0.75. -/
theorem C82_sample_round_false : sampleRoundToMultiple (7 / 10) (1 / 4) = .ok 1 := by
  rw [C82_sample_round_ignores_base (by norm_num) (by norm_num) (by norm_num), if_neg (by norm_num)]
  norm_num [Nat.floor_eq_iff]

end Sp
