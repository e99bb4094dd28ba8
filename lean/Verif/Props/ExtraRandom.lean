import Verif.Props.Extra

/-! # C98 and C99: moving values away from multiples, random numbers around the middle of a range -/

set_option linter.unusedSectionVars false

namespace Sp
variable {σ : Type}

/-! ### C98 -/

theorem toTime_near {a : Nat} {y : ℚ} {d : Nat} (h0 : (a : ℚ) - d ≤ y) (h1 : y ≤ a + d) (hd : d ≤ a ∨ (0 : ℚ) ≤ y) (h32 : a + d < 4294967296) :
    toTime y = .ok ⌊y⌋₊ ∧ a ≤ ⌊y⌋₊ + d ∧ ⌊y⌋₊ ≤ a + d := by
  have hy0 : 0 ≤ y := by
    rcases hd with hd | hd
    · have : (d : ℚ) ≤ a := by exact_mod_cast hd
      linarith
    · exact hd
  have h32' : (a : ℚ) + d < 4294967296 := by exact_mod_cast h32
  refine ⟨toTime_of hy0 (by linarith), ?_, ?_⟩
  · by_cases h : d ≤ a
    · have : a - d ≤ ⌊y⌋₊ := by
        apply Nat.le_floor
        rw [Nat.cast_sub h]
        exact h0
      omega
    · omega
  · have := Nat.floor_le_floor h1
    have e : ((a : ℚ) + d) = ((a + d : Nat) : ℚ) := by push_cast; ring
    rw [e, Nat.floor_natCast] at this
    exact this

/-- C98: for amounts from 0 to 1 and a source that returns numbers in range, `sp_time_deharmonize` returns a value at most half a base
away, without undefined behaviour, if the value is not at the end of the range. With `m` the next multiple of the base, the distance is the
amount times a random number from 1 to half the base, times the part of the base that `m` is not away. The value is moved away from `m`, or at a
multiple in a direction that the lowest bit of another random number gives, but never below 0. -/
theorem C98_deharmonize {rand : Rand σ} {next : σ → Nat × σ} (hr : rand.InRange) (ht : rand.Total) {a base : Nat} {amount : ℚ} {s : σ}
    (hb : 2 ≤ base) (hb32 : base < 4294967296) (h32 : a + base ≤ 4294967296) (h0 : 0 ≤ amount) (h1 : amount ≤ 1) :
    ∃ x s', timeDeharmonize rand next a base amount s = .ok (x, s') ∧ a ≤ x + base / 2 ∧ x ≤ a + base / 2 ∧
      ∃ m r s1, base ∣ m ∧ a ≤ m ∧ m < a + base ∧ rand (base / 2) s = .ok (r, s1) ∧
        ∃ d : ℚ, d = amount * (r + 1) * (1 - ((m : ℚ) - a) / base) ∧
          x = (if (a : ℚ) < d ∨ (a = m ∧ (next s1).1 % 2 = 0) then ⌊(a : ℚ) + d⌋₊ else ⌊(a : ℚ) - d⌋₊) ∧
          s' = if d ≤ (a : ℚ) ∧ a = m then (next s1).2 else s1 := by
  obtain ⟨d1, d2, d3⟩ := next_multiple (a := a) (show 0 < base by omega)
  have hdvd : base ∣ (a + base - 1) / base * base := Nat.dvd_mul_left _ _
  have hle : (a + base - 1) / base * base ≤ a + base - 1 := Nat.div_mul_le_self _ _
  have e := harmonizeNearest_eq (a := a) (base := base) (by omega) h32
  generalize (a + base - 1) / base * base = m at *
  obtain ⟨r, s1, hrs⟩ := ht (base / 2) s (by omega)
  have hr2 := hr _ _ _ _ (by omega) hrs
  have hdiff : absoluteDifference a m = m - a := by
    rw [absoluteDifference, if_neg (by omega), sub32_of_le d2 (by omega)]
  rw [timeDeharmonize, e, ok_bind', hrs, ok_bind']
  simp only
  rw [hdiff, sub32_of_le (a := base) (by omega) (by omega), u32_of_lt (by omega)]
  have hbq : (0 : ℚ) < base := by
    have : 0 < base := by omega
    exact_mod_cast this
  have hyd : amount * (((base - (m - a) : Nat) : ℚ) / base) * ((1 + r : Nat) : ℚ) = amount * (r + 1) * (1 - ((m : ℚ) - a) / base) := by
    rw [Nat.cast_sub (by omega), Nat.cast_sub d2]
    push_cast
    field_simp
    ring
  set y : ℚ := amount * (((base - (m - a) : Nat) : ℚ) / base) * ((1 + r : Nat) : ℚ) with hy
  have hratio0 : (0 : ℚ) ≤ ((base - (m - a) : Nat) : ℚ) / base := by positivity
  have hratio1 : ((base - (m - a) : Nat) : ℚ) / base ≤ 1 := by
    rw [div_le_one hbq]
    exact_mod_cast Nat.sub_le _ _
  have hy0 : 0 ≤ y := by positivity
  have hy1 : y ≤ ((base / 2 : Nat) : ℚ) := by
    have a1 : amount * (((base - (m - a) : Nat) : ℚ) / base) ≤ 1 := by
      calc _ ≤ 1 * 1 := mul_le_mul h1 hratio1 hratio0 (by norm_num)
        _ = 1 := by norm_num
    have a2 : ((1 + r : Nat) : ℚ) ≤ ((base / 2 : Nat) : ℚ) := by
      have : 1 + r ≤ base / 2 := by omega
      exact_mod_cast this
    calc y ≤ 1 * ((1 + r : Nat) : ℚ) := mul_le_mul_of_nonneg_right a1 (Nat.cast_nonneg _)
      _ ≤ _ := by rw [one_mul]; exact a2
  have ha0 : (0 : ℚ) ≤ a := Nat.cast_nonneg a
  have hplus : toTime (a + y) = .ok ⌊(a : ℚ) + y⌋₊ ∧ a ≤ ⌊(a : ℚ) + y⌋₊ + base / 2 ∧ ⌊(a : ℚ) + y⌋₊ ≤ a + base / 2 :=
    toTime_near (by linarith) (by linarith) (Or.inr (by linarith)) (by omega)
  have hminus : ¬ (a : ℚ) < y → toTime (a - y) = .ok ⌊(a : ℚ) - y⌋₊ ∧ a ≤ ⌊(a : ℚ) - y⌋₊ + base / 2 ∧ ⌊(a : ℚ) - y⌋₊ ≤ a + base / 2 :=
    fun h => toTime_near (by linarith) (by linarith) (Or.inr (by linarith)) (by omega)
  have hbit : 1 &&& (next s1).1 = (next s1).1 % 2 := by rw [Nat.and_comm, Nat.and_one_is_mod]
  have tail : ∀ x s', (x = if (a : ℚ) < y ∨ (a = m ∧ (next s1).1 % 2 = 0) then ⌊(a : ℚ) + y⌋₊ else ⌊(a : ℚ) - y⌋₊) →
      (s' = if y ≤ (a : ℚ) ∧ a = m then (next s1).2 else s1) →
      ∃ m r s1', base ∣ m ∧ a ≤ m ∧ m < a + base ∧ (Except.ok (r, s1') : C (Nat × σ)) = .ok (r, s1') ∧
        rand (base / 2) s = .ok (r, s1') ∧
        ∃ d : ℚ, d = amount * (r + 1) * (1 - ((m : ℚ) - a) / base) ∧
          x = (if (a : ℚ) < d ∨ (a = m ∧ (next s1').1 % 2 = 0) then ⌊(a : ℚ) + d⌋₊ else ⌊(a : ℚ) - d⌋₊) ∧
          s' = if d ≤ (a : ℚ) ∧ a = m then (next s1').2 else s1' :=
    fun x s' hx hs => ⟨m, r, s1, hdvd, d2, by omega, rfl, hrs, y, hyd, hx, hs⟩
  have fin : ∀ x s', (x = if (a : ℚ) < y ∨ (a = m ∧ (next s1).1 % 2 = 0) then ⌊(a : ℚ) + y⌋₊ else ⌊(a : ℚ) - y⌋₊) →
      (s' = if y ≤ (a : ℚ) ∧ a = m then (next s1).2 else s1) →
      ∃ m r s1', base ∣ m ∧ a ≤ m ∧ m < a + base ∧ rand (base / 2) s = .ok (r, s1') ∧
        ∃ d : ℚ, d = amount * (r + 1) * (1 - ((m : ℚ) - a) / base) ∧
          x = (if (a : ℚ) < d ∨ (a = m ∧ (next s1').1 % 2 = 0) then ⌊(a : ℚ) + d⌋₊ else ⌊(a : ℚ) - d⌋₊) ∧
          s' = if d ≤ (a : ℚ) ∧ a = m then (next s1').2 else s1' := by
    intro x s' hx hs
    obtain ⟨m, r, s1', q1, q2, q3, _, q4⟩ := tail x s' hx hs
    exact ⟨m, r, s1', q1, q2, q3, q4⟩
  rw [hrs] at fin
  by_cases c1 : a > m ∨ (a : ℚ) < y
  · have c1' : (a : ℚ) < y := by
      rcases c1 with c | c
      · omega
      · exact c
    rw [if_pos c1, hplus.1]
    exact ⟨_, s1, rfl, hplus.2.1, hplus.2.2, fin _ _ (by rw [if_pos (Or.inl c1')]) (by rw [if_neg (fun h => absurd h.1 (not_le.2 c1'))])⟩
  · rw [if_neg c1]
    have c1' : ¬ (a : ℚ) < y := fun h => c1 (Or.inr h)
    obtain ⟨q1, q2, q3⟩ := hminus c1'
    by_cases c2 : a < m
    · rw [if_pos c2, q1]
      exact ⟨_, s1, rfl, q2, q3, fin _ _ (by rw [if_neg (by rintro (h | h); exact c1' h; omega)]) (by rw [if_neg (by omega)])⟩
    · rw [if_neg c2]
      have c2' : a = m := by omega
      by_cases c3 : 1 &&& (next s1).1 = 1
      · rw [if_pos c3, q1]
        rw [hbit] at c3
        exact ⟨_, _, rfl, q2, q3, fin _ _ (by rw [if_neg (by rintro (h | h); exact c1' h; omega)])
          (by rw [if_pos ⟨not_lt.1 c1', c2'⟩])⟩
      · rw [if_neg c3, hplus.1]
        rw [hbit] at c3
        exact ⟨_, _, rfl, hplus.2.1, hplus.2.2, fin _ _ (by rw [if_pos (Or.inr ⟨c2', by omega⟩)])
          (by rw [if_pos ⟨not_lt.1 c1', c2'⟩])⟩

/-- A source that returns half of the range. -/
def halfRand : Rand Unit := fun n _ => if n = 0 then .error .divByZero else .ok (n / 2, ())

theorem halfRand_ok : halfRand.InRange ∧ halfRand.Total := by
  constructor
  · intro n s r s' hn h
    rw [halfRand, if_neg (by omega)] at h
    injection h with h
    injection h with h _
    omega
  · intro n s hn
    exact ⟨n / 2, (), by rw [halfRand, if_neg (by omega)]⟩

example : timeDeharmonize halfRand (fun _ => (1, ())) 100 10 1 () = .ok (97, ()) ∧
    timeDeharmonize halfRand (fun _ => (0, ())) 100 10 1 () = .ok (103, ()) ∧
    timeDeharmonize halfRand (fun _ => (0, ())) 95 10 1 () = .ok (93, ()) := by decide +kernel

/-! ### C99 -/

/-- **C99, `sp_times_random_bounded`**: the elements are the next random numbers, in order. -/
theorem C99_times_random_bounded {rand : Rand σ} (hr : rand.InRange) (ht : rand.Total) {range size : Nat} (h : 0 < range) (out : Buf Nat)
    (ho : out.length = size) (s : σ) :
    ∃ out' s', timesRandomBounded rand range size out s = .ok (out', s') ∧ out'.length = size ∧ (∀ x ∈ out', x < range) ∧
      Draws rand range s out' s' := by
  obtain ⟨⟨o, s'⟩, e, l, r, rfl, h1, h2, h3, h4⟩ := forRange_rule (σ := Buf Nat × σ) (lo := 0) (hi := size) (s := (out, s))
    (body := fun i (os : Buf Nat × σ) => do
      let (r, s) ← rand range os.2
      let out ← wr os.1 i r
      pure (out, s))
    (fun i os => ∃ l r, os.1 = l ++ r ∧ l.length = i ∧ r.length = size - i ∧ (∀ x ∈ l, x < range) ∧ Draws rand range s l os.2) (Nat.zero_le _)
    ⟨[], out, rfl, rfl, ho, by simp, .nil _⟩ (by
      rintro i ⟨o, s0⟩ _ hi ⟨l, r, rfl, hl, hrl, hx, hd⟩
      simp only at hd
      obtain ⟨v, s1, hrs⟩ := ht range s0 h
      have hr2 := hr _ _ _ _ h hrs
      obtain ⟨y, r', rfl⟩ : ∃ y t, r = y :: t := by
        cases r with
        | nil => simp at hrl; omega
        | cons y t => exact ⟨y, t, rfl⟩
      rw [List.length_cons] at hrl
      refine ⟨((l ++ y :: r').set i v, s1), ?_, l ++ [v], r', ?_, by simp [hl], by omega, ?_, hd.snoc hrs⟩
      · simp only
        rw [hrs, ok_bind']
        change (wr (l ++ y :: r') i v >>= fun out => pure (out, s1)) = _
        rw [wr_eq_ok v (by rw [List.length_append, List.length_cons]; omega)]
        rfl
      · simp only
        rw [List.set_append_right _ _ (by omega), hl, Nat.sub_self]
        simp
      · intro x hx'
        rcases List.mem_append.1 hx' with h | h
        · exact hx x h
        · rw [List.mem_singleton.1 h]; exact hr2)
  obtain rfl : r = [] := List.length_eq_zero_iff.1 (by omega)
  rw [List.append_nil] at e
  exact ⟨l, s', e, h1, h3, h4⟩

/-- C99, the part that holds: if the sum of 32 numbers from the range fits in 32 bits, the result of `sp_normal_random` is in the range. It is the
mean, rounded down, of the next 32 random numbers of the range.
Missing: maxima from 2^27. -/
theorem C99_normal_random_partial {rand : Rand σ} (hr : rand.InRange) (ht : rand.Total) {junk min max : Nat} {s : σ} (h : min < max)
    (h32 : 32 * max ≤ 4294967296) :
    ∃ x s', normalRandom rand junk min max s = .ok (x, s') ∧ min ≤ x ∧ x < max ∧
      ∃ xs, Draws rand (max - min) s xs s' ∧ xs.length = 32 ∧ x = min + xs.sum / 32 := by
  obtain ⟨o, s', e, hl, hx, hdraws⟩ := C99_times_random_bounded hr ht (show 0 < max - min by omega) (List.replicate 32 junk) (List.length_replicate) s
  have e2 : timesAdd o 32 min = .ok (o.map (· + min)) := by
    rw [timesAdd, mapLoop_eq (g := (· + min)) (by omega) (Src.has_none _)]
    · rw [List.drop_eq_nil_of_le (by omega), List.append_nil]
      change Except.ok (List.map _ (List.take 32 o)) = _
      rw [List.take_of_length_le (by omega)]
    · intro x hx'
      have := hx x (List.mem_of_mem_take hx')
      rw [u32_of_lt (by omega)]
  have key : ∀ l : List Nat, (∀ x ∈ l, min ≤ x ∧ x < max) → l.length * min ≤ l.sum ∧ l.sum + l.length ≤ l.length * max := by
    intro l
    induction l with
    | nil => intro _; simp
    | cons x xs ih =>
      intro hl
      obtain ⟨i1, i2⟩ := ih (fun y hy => hl y (List.mem_cons_of_mem _ hy))
      obtain ⟨j1, j2⟩ := hl x (by simp)
      rw [List.sum_cons, List.length_cons, Nat.add_mul, Nat.add_mul]
      omega
  obtain ⟨k1, k2⟩ := key (o.map (· + min)) (by
    intro x hx'
    obtain ⟨y, hy, rfl⟩ := List.mem_map.1 hx'
    have := hx y hy
    omega)
  rw [List.length_map, hl] at k1 k2
  have e3 : timesSum (o.map (· + min)) 32 = .ok (o.map (· + min)).sum := by
    have := timesSum_eq (o.map (· + min)) (by omega)
    rwa [List.length_map, hl] at this
  have esum : ∀ l : List Nat, (l.map (· + min)).sum = l.sum + l.length * min := by
    intro l
    induction l with
    | nil => simp
    | cons x xs ih => rw [List.map_cons, List.sum_cons, ih, List.sum_cons, List.length_cons, Nat.add_mul]; omega
  have es := esum o
  rw [hl] at es
  generalize (o.map (· + min)).sum = t at *
  refine ⟨t / 32, s', ?_, by omega, by omega, o, hdraws, hl, by omega⟩
  rw [normalRandom, sub32_of_le (by omega) (by omega), e, ok_bind']
  simp only
  rw [e2, ok_bind', e3, ok_bind', toTime_of (by positivity)]
  · have ef : ⌊(t : ℚ) / (32 : Nat)⌋₊ = t / 32 := by
      rw [Nat.floor_eq_iff (by positivity)]
      have q1 : (((t / 32 : Nat)) : ℚ) * 32 ≤ t := by exact_mod_cast Nat.div_mul_le_self t 32
      have q2 : (t : ℚ) < ((t / 32 : Nat) + 1 : ℚ) * 32 := by
        have : t < (t / 32 + 1) * 32 := by omega
        exact_mod_cast this
      constructor
      · rw [le_div_iff₀ (by norm_num)]; push_cast at *; exact q1
      · rw [div_lt_iff₀ (by norm_num)]; push_cast at *; exact q2
    rw [ok_bind', ef]
    rfl
  · rw [div_lt_iff₀ (by norm_num)]
    have : t < 4294967296 * 32 := by omega
    exact_mod_cast this

example : ∃ x s', normalRandom halfRand 7 10 20 () = .ok (x, s') ∧ 10 ≤ x ∧ x < 20 := by
  obtain ⟨x, s', h, h1, h2, _⟩ := C99_normal_random_partial (junk := 7) (min := 10) (max := 20) (s := ()) halfRand_ok.1 halfRand_ok.2
    (by norm_num) (by norm_num)
  exact ⟨x, s', h, h1, h2⟩

/-- C99 is false for larger ranges: the sum overflows and the result is below the minimum. -/
theorem C99_normal_random_false : normalRandom halfRand 7 4000000000 4000000010 () = .ok (107685893, ()) := by decide +kernel

end Sp
