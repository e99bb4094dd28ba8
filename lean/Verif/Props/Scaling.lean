import Verif.Props.Extra

/-! # C84 and C95 to C97: scaling, seamless transitions, conversions -/

set_option linter.unusedSectionVars false

namespace Sp

/-! ### C84 -/

/-- The output of `sp_times_scale` as far as it is written. -/
def scaleState (N : Nat) (V o : Nat → Nat) (m : Nat) : Buf Nat := tab N fun a => if a < m then V a else o a

theorem scaleState_step {N : Nat} {V o : Nat → Nat} {m : Nat} (h : m < N) :
    wr (scaleState N V o m) m (V m) = .ok (scaleState N V o (m + 1)) := by
  rw [scaleState, wr_tab _ h]
  congr 1
  refine tab_congr fun a _ => ?_
  by_cases h : a = m
  · subst h; rw [if_pos rfl, if_pos (by omega)]
  · rw [if_neg h]; exact if_congr (by omega) rfl rfl

theorem scale_temp {junk : Nat} {inp : Buf Nat} {count factor : Nat} (hc : count ≤ inp.length)
    (hv : ∀ k, k < count → inp.getD k 0 * factor < 4294967296) :
    (do
      let temp ← arrayCopy (some inp) count (List.replicate count junk)
      timesMultiply temp count factor : C (Buf Nat)) = .ok (tab count fun k => inp.getD k 0 * factor) := by
  have e1 : arrayCopy (some inp) count (List.replicate count junk) = .ok (tab count fun k => inp.getD k 0) := by
    rw [C51_copy _ _ _ (by simp) hc]
    congr 1
    rw [List.drop_eq_nil_of_le (by simp), List.append_nil]
    apply List.ext_getElem?
    intro i
    rw [tab_getElem?, List.getElem?_take]
    by_cases h : i < count
    · rw [if_pos h, if_pos h, List.getElem?_eq_getElem (by omega), getD_of_lt (by omega)]
    · rw [if_neg h, if_neg h]
  rw [e1, ok_bind', timesMultiply, mapLoop]
  rw [tab_loop (v := fun k => inp.getD k 0 * factor)]
  · congr 1
    refine tab_congr fun a h => ?_
    rw [if_pos h]
  · intro i o hi ho
    rw [mapBody, rdSrc, Option.getD_none, rd_tab hi, ok_bind', ok_bind', wr_tab _ hi, ho, u32_of_lt (hv i hi)]

/-- C84, `sp_times_scale`: exactly `(count - 1) * factor` values are written, and the value at distance `j` behind the `k`-th given
value is the linear interpolation at the fraction `j / factor` between that and the next given value, scaled by `factor`. -/
theorem C84_scale {junk : Nat} {inp out : List Nat} {count factor : Nat} (hc : count ≤ inp.length) (hc32 : count < 4294967296)
    (ho : (count - 1) * factor ≤ out.length) (h32 : (count - 1) * factor < 4294967296)
    (hv : ∀ k, k < count → inp.getD k 0 * factor < 4294967296) :
    ∃ out', timesScale junk inp count factor out = .ok out' ∧ out'.length = out.length ∧
      (∀ k j, k + 1 < count → j < factor → ∃ v : Nat, out'[k * factor + j]? = some v ∧
        (v : ℚ) = factor * (inp.getD k 0 + (j : ℚ) / factor * ((inp.getD (k + 1) 0 : ℚ) - inp.getD k 0))) ∧
      ∀ i, (count - 1) * factor ≤ i → out'[i]? = out[i]? := by
  generalize hN : out.length = N at *
  have hout : out = tab N fun i => out.getD i 0 := by rw [← hN]; exact eq_tab out 0
  generalize (fun i => out.getD i 0) = o at *
  subst hout
  clear hN
  set V : Nat → Nat := fun a => inp.getD (a / factor) 0 * (factor - a % factor) + inp.getD (a / factor + 1) 0 * (a % factor) with hV
  have hinner : ∀ i j, 1 ≤ i → i < count → j < factor →
      scaleInner (tab count fun k => inp.getD k 0 * factor) factor i j (scaleState N V o ((i - 1) * factor + j)) =
        .ok (scaleState N V o ((i - 1) * factor + (j + 1))) := by
    intro i j h1 h2 hj
    have hf : 0 < factor := by omega
    have hm : (i - 1) * factor + j < (count - 1) * factor := by
      have : (i - 1 + 1) * factor ≤ (count - 1) * factor := Nat.mul_le_mul_right _ (by omega)
      rw [Nat.add_mul, Nat.one_mul] at this
      omega
    have hd : ((i - 1) * factor + j) / factor = i - 1 := by
      rw [Nat.add_comm, Nat.add_mul_div_right _ _ hf, Nat.div_eq_of_lt hj, Nat.zero_add]
    have hr : ((i - 1) * factor + j) % factor = j := by
      rw [Nat.add_comm, Nat.add_mul_mod_self_right, Nat.mod_eq_of_lt hj]
    have hVm : V ((i - 1) * factor + j) = inp.getD (i - 1) 0 * (factor - j) + inp.getD i 0 * j := by
      rw [hV]
      simp only
      rw [hd, hr, Nat.sub_add_cancel h1]
    have hVlt : V ((i - 1) * factor + j) < 4294967296 := by
      rw [hVm]
      have a1 := hv (i - 1) (by omega)
      have a2 := hv i h2
      generalize inp.getD (i - 1) 0 = x at *
      generalize inp.getD i 0 = y at *
      obtain ⟨d, rfl⟩ := Nat.exists_eq_add_of_lt hj
      rw [show j + d + 1 - j = d + 1 by omega]
      rcases le_total x y with h | h
      · have : x * (d + 1) ≤ y * (d + 1) := Nat.mul_le_mul_right _ h
        have e : y * (j + d + 1) = y * (d + 1) + y * j := by ring
        omega
      · have : y * j ≤ x * j := Nat.mul_le_mul_right _ h
        have e : x * (j + d + 1) = x * (d + 1) + x * j := by ring
        omega
    rw [scaleInner, sub32_of_le h1 (by omega), rd_tab (by omega), ok_bind', rd_tab h2, ok_bind']
    have hq : (factor : ℚ) ≠ 0 := by exact_mod_cast hf.ne'
    have et : timeInterpolate (inp.getD (i - 1) 0 * factor) (inp.getD i 0 * factor) ((j : ℚ) / factor) =
        .ok (V ((i - 1) * factor + j)) := by
      rw [← cheapRound_nat hVlt, timeInterpolate]
      congr 1
      rw [hVm]
      push_cast [Nat.cast_sub hj.le]
      field_simp
    have hk : factor * (i - 1) = (i - 1) * factor := Nat.mul_comm _ _
    rw [et, ok_bind', hk, u32_of_lt (n := (i - 1) * factor) (by omega), u32_of_lt (by omega), scaleState_step (by omega)]
    rfl
  have houter : ∀ i, 1 ≤ i → i < count →
      forRange 0 factor (scaleInner (tab count fun k => inp.getD k 0 * factor) factor i) (scaleState N V o ((i - 1) * factor)) =
        .ok (scaleState N V o ((i + 1 - 1) * factor)) := by
    intro i h1 h2
    have := forRange_states (body := scaleInner (tab count fun k => inp.getD k 0 * factor) factor i)
      (fun j => scaleState N V o ((i - 1) * factor + j)) (Nat.zero_le factor) (fun j _ hj => hinner i j h1 h2 hj)
    rw [Nat.add_zero] at this
    rw [this]
    congr 2
    obtain ⟨i, rfl⟩ := Nat.exists_eq_add_of_le h1
    simp only [Nat.add_sub_cancel_left, Nat.add_sub_cancel]
    ring
  have hall : timesScale junk inp count factor (tab N o) = .ok (scaleState N V o ((count - 1) * factor)) := by
    have e0 : tab N o = scaleState N V o ((1 - 1) * factor) := by
      rw [scaleState, Nat.sub_self, Nat.zero_mul]
      exact tab_congr fun a _ => by rw [if_neg (by omega)]
    have e1 : timesScale junk inp count factor (tab N o) = (do
      let temp ← (do
        let temp ← arrayCopy (some inp) count (List.replicate count junk)
        timesMultiply temp count factor : C (Buf Nat))
      forRange 1 count (fun i out => forRange 0 factor (scaleInner temp factor i) out) (tab N o)) := by
      rw [timesScale, bind_assoc]
    rw [e1, scale_temp hc hv, ok_bind', e0]
    by_cases h : 1 ≤ count
    · exact forRange_states (body := fun i out => forRange 0 factor (scaleInner (tab count fun k => inp.getD k 0 * factor) factor i) out)
        (fun i => scaleState N V o ((i - 1) * factor)) h houter
    · rw [forRange_of_le (by omega)]
      congr 2
      rw [show count - 1 = 1 - 1 by omega]
  refine ⟨_, hall, by rw [scaleState, tab_length], ?_, ?_⟩
  · intro k j hk hj
    have hf : 0 < factor := by omega
    have hm : k * factor + j < (count - 1) * factor := by
      have : (k + 1) * factor ≤ (count - 1) * factor := Nat.mul_le_mul_right _ (by omega)
      rw [Nat.add_mul, Nat.one_mul] at this
      omega
    have hd : (k * factor + j) / factor = k := by
      rw [Nat.add_comm, Nat.add_mul_div_right _ _ hf, Nat.div_eq_of_lt hj, Nat.zero_add]
    have hr : (k * factor + j) % factor = j := by
      rw [Nat.add_comm, Nat.add_mul_mod_self_right, Nat.mod_eq_of_lt hj]
    refine ⟨V (k * factor + j), ?_, ?_⟩
    · rw [scaleState, tab_getElem?, if_pos (by omega), if_pos hm]
    · rw [hV]
      simp only
      rw [hd, hr]
      have hq : (factor : ℚ) ≠ 0 := by exact_mod_cast hf.ne'
      push_cast [Nat.cast_sub hj.le]
      field_simp
      ring
  · intro i hi
    rw [scaleState, tab_getElem?, tab_getElem?]
    simp only [if_neg (not_lt.2 hi)]

example : timesScale 9 [1, 3, 2] 3 4 [0, 0, 0, 0, 0, 0, 0, 0, 5] = .ok [4, 6, 8, 10, 12, 11, 10, 9, 5] := by decide +kernel

/-- C84, `sp_times_scale_sum`, the part that holds: with the same pointer for both arrays, each value is the nearest integer to the value
scaled so that the sum becomes `sum`. Missing: with different arrays the previous content of `out` is scaled. -/
theorem C84_scale_sum_partial {inp : List Nat} {sum : Nat} (h0 : 0 < inp.sum) (h32 : inp.sum < 4294967296) (hs : sum < 4294967296) :
    ∃ out', timesScaleSum none inp.length sum inp = .ok out' ∧ out'.length = inp.length ∧
      (∀ (i x : Nat), inp[i]? = some x → ∃ v : Nat, out'[i]? = some v ∧ |(v : ℚ) - x * sum / inp.sum| ≤ 1 / 2) ∧
      |(out'.sum : ℚ) - sum| ≤ inp.length / 2 := by
  have hq : (0 : ℚ) < inp.sum := by exact_mod_cast h0
  have hround : ∀ x ∈ inp, ∃ v : Nat, cheapRound ((x : ℚ) * ((sum : ℚ) / inp.sum)) = .ok v ∧ |(v : ℚ) - x * sum / inp.sum| ≤ 1 / 2 := by
    intro x hx
    have hle : x ≤ inp.sum := List.single_le_sum (by simp) x hx
    have hle' : (x : ℚ) ≤ inp.sum := by exact_mod_cast hle
    have e : (x : ℚ) * ((sum : ℚ) / inp.sum) = x * sum / inp.sum := by ring
    have b1 : (x : ℚ) * sum / inp.sum ≤ sum := by
      rw [div_le_iff₀ hq, mul_comm]
      exact mul_le_mul_of_nonneg_left hle' (Nat.cast_nonneg _)
    have b2 : (0 : ℚ) ≤ x * sum / inp.sum := by positivity
    have hs' : (sum : ℚ) + 1 ≤ 4294967296 := by exact_mod_cast hs
    rw [e]
    generalize (x : ℚ) * sum / inp.sum = y at *
    refine ⟨⌊1 / 2 + y⌋₊, ?_, ?_⟩
    · rw [cheapRound, toTime_of (by linarith) (by linarith)]
    · have f1 := Nat.floor_le (show (0 : ℚ) ≤ 1 / 2 + y by linarith)
      have f2 := Nat.lt_floor_add_one (1 / 2 + y)
      rw [abs_le]
      constructor <;> linarith
  choose! g hg1 hg2 using hround
  have hmap : timesScaleSum none inp.length sum inp = .ok (inp.map g) := by
    rw [timesScaleSum, Option.getD_none, timesSum_eq inp h32, ok_bind', if_neg (by omega),
      mapLoop_eq (g := g) (le_refl _) (Src.has_none _)]
    · rw [List.drop_length, List.append_nil]
      change Except.ok (List.map g (List.take inp.length inp)) = _
      rw [List.take_length]
    · intro x hx
      exact hg1 x (List.mem_of_mem_take hx)
  refine ⟨_, hmap, by simp, ?_, ?_⟩
  · intro i x hx
    refine ⟨g x, by rw [List.getElem?_map, hx]; rfl, hg2 x (List.mem_of_getElem? hx)⟩
  · have key : ∀ l : List Nat, (∀ x ∈ l, x ∈ inp) → |((l.map g).sum : ℚ) - l.sum * (sum / inp.sum)| ≤ (l.length : ℚ) / 2 := by
      intro l
      induction l with
      | nil => intro _; simp
      | cons x xs ih =>
        intro h
        have i1 := ih (fun y hy => h y (List.mem_cons_of_mem _ hy))
        have i2 := hg2 x (h x (by simp))
        rw [List.map_cons, List.sum_cons, List.sum_cons, List.length_cons, Nat.cast_add, Nat.cast_add, Nat.cast_add, Nat.cast_one]
        rw [abs_le] at *
        have e : (x : ℚ) * sum / inp.sum = x * (sum / inp.sum) := by ring
        rw [e] at i2
        constructor
        · have := i1.1; have := i2.1; linarith
        · have := i1.2; have := i2.2; linarith
    have := key inp (fun _ h => h)
    rwa [mul_div_cancel₀ _ hq.ne'] at this

example : timesScaleSum none 3 100 [1, 2, 3] = .ok [17, 33, 50] := by decide +kernel

/-- C84 is false of `sp_times_scale_sum` with different arrays. -/
theorem C84_scale_sum_false : timesScaleSum (some [1, 3]) 2 8 [0, 0] = .ok [0, 0] := by decide +kernel

/-! ### C95 -/

/-- C95, the part that holds of `sp_times_make_seamless_right`: the elements before the last `min a_count (b_count / 2)` are copied, the
last one becomes the first one of `b`, nothing is written behind the size and there is no access outside of the arrays.
Missing: the elements between are not moved, they are copied too. -/
theorem C95_right_partial {a b out : List Nat} (ha32 : a.length < 4294967296) (hb32 : b.length < 4294967296)
    (ho : a.length ≤ out.length) (ha : ∀ x ∈ a, x < 4294967296) (hb : ∀ x ∈ b, x < 4294967296) :
    ∃ out', seamlessRight a a.length b b.length out = .ok out' ∧ out'.length = out.length ∧
      (∀ i, i + 1 < a.length ∨ (i + 1 = a.length ∧ b.length < 2) → out'[i]? = a[i]?) ∧
      (1 ≤ a.length → 2 ≤ b.length → out'[a.length - 1]? = b[0]?) ∧
      ∀ i, a.length ≤ i → out'[i]? = out[i]? := by
  generalize hN : out.length = N at *
  have hout : out = tab N fun i => out.getD i 0 := by rw [← hN]; exact eq_tab out 0
  generalize (fun i => out.getD i 0) = o at *
  subst hout
  clear hN
  have hmin : (if a.length < b.length / 2 then a.length else b.length / 2) = min a.length (b.length / 2) := by
    rw [min_def]; split_ifs <;> omega
  have hc1 : min a.length (b.length / 2) ≤ a.length := min_le_left _ _
  have hc2 : min a.length (b.length / 2) ≤ b.length / 2 := min_le_right _ _
  have hc3 : b.length < 2 → min a.length (b.length / 2) = 0 := by
    intro h
    rw [Nat.div_eq_of_lt h, Nat.min_zero]
  have hpos : 1 ≤ a.length → 2 ≤ b.length → 1 ≤ min a.length (b.length / 2) := by
    intro h1 h2; rw [le_min_iff]; omega
  generalize hcount : min a.length (b.length / 2) = count at *
  have ga : ∀ {i}, i < a.length → a.getD i 0 < 4294967296 := by
    intro i h; rw [getD_of_lt h]; exact ha _ (List.getElem_mem h)
  have gb : ∀ {i}, i < b.length → b.getD i 0 < 4294967296 := by
    intro i h; rw [getD_of_lt h]; exact hb _ (List.getElem_mem h)
  set V : Nat → Nat := fun i => if i + 1 = a.length ∧ 0 < count then b.getD 0 0 else a.getD i 0 with hV
  have e1 : mapLoop (fun x => .ok x) (some a) (a.length - count) (tab N o) = .ok (scaleState N V o (a.length - count)) := by
    rw [mapLoop, tab_loop (v := V)]
    · rfl
    · intro i o' hi _
      rw [mapBody, rdSrc, Option.getD_some, rd_getD (by omega), ok_bind', ok_bind', wr_tab _ (by omega)]
      congr 2
      funext k
      refine if_congr Iff.rfl ?_ rfl
      rw [hV]
      simp only
      rw [if_neg (by omega)]
  have e2 : ∀ i, 0 ≤ i → i < count → seamlessRightBody a b (a.length - count) count i (scaleState N V o (a.length - count + i)) =
      .ok (scaleState N V o (a.length - count + (i + 1))) := by
    intro i _ hi
    rw [seamlessRightBody, u32_of_lt (n := i + (a.length - count)) (by omega), u32_of_lt (n := 1 + i) (by omega),
      rd_getD (by omega), ok_bind', sub32_of_le (by omega) (by omega), rd_getD (by omega), ok_bind', divTime, if_neg (by omega), ok_bind']
    have ev : timeInterpolate (a.getD (i + (a.length - count)) 0) (b.getD (count - (1 + i)) 0) (((1 + i) / count : Nat) : ℚ) =
        .ok (V (a.length - count + i)) := by
      rw [hV]
      simp only
      by_cases hl : i + 1 = count
      · rw [if_pos (by omega), show (1 + i) / count = 1 by rw [show 1 + i = count by omega]; exact Nat.div_self (by omega),
          show count - (1 + i) = 0 by omega, timeInterpolate, ← cheapRound_nat (gb (i := 0) (by omega))]
        congr 1
        push_cast
        ring
      · rw [if_neg (by omega), show (1 + i) / count = 0 by exact Nat.div_eq_of_lt (by omega), timeInterpolate,
          ← cheapRound_nat (ga (i := a.length - count + i) (by omega)), Nat.add_comm i]
        congr 1
        push_cast
        ring
    rw [ev, ok_bind', Nat.add_comm i, scaleState_step (by omega)]
    rfl
  have e3 : seamlessRight a a.length b b.length (tab N o) = .ok (scaleState N V o a.length) := by
    rw [seamlessRight, hmin, sub32_of_le hc1 ha32, e1, ok_bind']
    have := forRange_states (body := seamlessRightBody a b (a.length - count) count)
      (fun i => scaleState N V o (a.length - count + i)) (Nat.zero_le count) e2
    rw [Nat.add_zero, Nat.sub_add_cancel hc1] at this
    exact this
  refine ⟨_, e3, by rw [scaleState, tab_length], ?_, ?_, ?_⟩
  · intro i hi
    rw [scaleState, tab_getElem?, if_pos (by omega), if_pos (by omega), hV]
    simp only
    rw [if_neg (by omega), getD_of_lt (by omega), List.getElem?_eq_getElem (by omega)]
  · intro h1 h2
    have := hpos h1 h2
    rw [scaleState, tab_getElem?, if_pos (by omega), if_pos (by omega), hV]
    simp only
    rw [if_pos (by omega), getD_of_lt (by omega), List.getElem?_eq_getElem (by omega)]
  · intro i hi
    rw [scaleState, tab_getElem?, tab_getElem?]
    simp only [if_neg (not_lt.2 hi)]

/-- C95 is false of `sp_times_make_seamless_right`: the third element should be half-way, and is not changed. -/
theorem C95_right_false : seamlessRight [0, 0, 0, 0] 4 [8, 8, 8, 8] 4 [9, 9, 9, 9] = .ok [0, 0, 0, 8] := by decide +kernel

/-- C95 is false of `sp_times_make_seamless_left`: with at least two elements in `a` and one in `b`, it reads behind the end of `a`. -/
theorem C95_left_out_of_bounds {a b out : List Nat} (ha : 2 ≤ a.length) (ha32 : a.length < 4294967296) (hb : 1 ≤ b.length) :
    seamlessLeft a a.length b b.length out = .error .outOfBounds := by
  have hcount : ∃ n, (if b.length < a.length / 2 then b.length else a.length / 2) = n + 1 := by
    split_ifs
    · exact ⟨b.length - 1, by omega⟩
    · exact ⟨a.length / 2 - 1, by omega⟩
  obtain ⟨n, hn⟩ := hcount
  rw [seamlessLeft, hn, forRange_head (Nat.succ_pos n)]
  have e : seamlessLeftBody a b a.length (n + 1) 0 out = .error .outOfBounds := by
    rw [seamlessLeftBody, rd_getD (by omega), ok_bind', sub32_of_le (by omega) ha32, Nat.sub_zero, rd]
    simp
  rw [e]
  rfl

example : seamlessLeft [1, 2] 2 [3] 1 [0] = .error .outOfBounds := C95_left_out_of_bounds (by simp) (by simp) (by simp)

/-- C95, and with less than two elements in `a` it copies nothing. -/
theorem C95_left_not_copied : seamlessLeft [1] 1 [5, 6] 2 [0, 0] = .ok [0, 0] := by decide +kernel

/-! ### C96 -/

/-- C96, `sp_times_scale_y`, the part that holds: if the maximum divides the target, all values are multiplied by the same factor and
the maximum becomes the target. The result is written to `in`. Missing: other targets, and writing to `out`. -/
theorem C96_times_scale_y_partial {inp : List Nat} {target q : Nat} {m : Nat} (hm : m ∈ inp) (hmax : ∀ x ∈ inp, x ≤ m) (hm0 : 0 < m)
    (ht : target = q * m) (h32 : target < 4294967296) :
    timesScaleY inp inp.length target = .ok (inp.map (· * q)) ∧ target ∈ inp.map (· * q) ∧ ∀ x ∈ inp.map (· * q), x ≤ target := by
  refine ⟨?_, ?_, ?_⟩
  · obtain ⟨m', e, h1, h2⟩ := C59_times_absolute_max inp inp.length (le_refl _)
    rw [List.take_length] at h1 h2
    have hmm : m' = m := by
      have a1 := h1 m hm
      rcases h2 with h2 | h2
      · have a2 := hmax m' h2; omega
      · omega
    subst hmm
    rw [timesScaleY, e, ok_bind', divTime, if_neg (by omega), ok_bind', timesMultiply,
      mapLoop_eq (g := (· * q)) (le_refl _) (Src.has_none _)]
    · rw [List.drop_length, List.append_nil]
      change Except.ok (List.map _ (List.take inp.length inp)) = _
      rw [List.take_length]
    · intro x hx
      have hx' : x ≤ m' := hmax x (List.mem_of_mem_take hx)
      have : x * q ≤ q * m' := by rw [Nat.mul_comm]; exact Nat.mul_le_mul_left _ hx'
      rw [ht, Nat.mul_div_cancel _ hm0, u32_of_lt (by omega)]
  · exact List.mem_map.2 ⟨m, hm, by rw [ht]; ring⟩
  · intro x hx
    obtain ⟨y, hy, rfl⟩ := List.mem_map.1 hx
    rw [ht, Nat.mul_comm]
    exact Nat.mul_le_mul_left _ (hmax y hy)

example : timesScaleY [1, 2, 4] 3 12 = .ok [3, 6, 12] := by decide +kernel

/-- C96 is false of `sp_times_scale_y`: the factor is rounded down, here the maximum should become 7 and stays 4. -/
theorem C96_times_scale_y_false : timesScaleY [2, 4] 2 7 = .ok [2, 4] := by decide +kernel

/-- C96 is false of `sp_samples_scale_y`: the result does not depend on the target. -/
theorem C96_samples_scale_y_ignores_target (inp : List ℚ) (count : Nat) (t t' : ℚ) :
    samplesScaleY inp count t = samplesScaleY inp count t' := rfl

/-- C96 is false of `sp_samples_scale_y`: the maximum becomes the count, for every target. -/
theorem C96_samples_scale_y_false (t : ℚ) : samplesScaleY [1, -4, 2] 3 t = .ok [3 / 4, -3, 3 / 2] := by
  change samplesScaleY [1, -4, 2] 3 0 = _
  decide +kernel

/-- C96, `sp_samples_scale_sum`, the part that holds: all values are multiplied by the same factor and the sum becomes the target; with
one array for both. Missing: writing to `out`. -/
theorem C96_samples_scale_sum_partial {inp : List ℝ} {target : ℝ} (h0 : inp.sum ≠ 0) :
    ∃ out, samplesScaleSum inp inp.length target = .ok out ∧ out = inp.map (· * (target / inp.sum)) ∧ out.sum = target := by
  refine ⟨inp.map (· * (target / inp.sum)), ?_, rfl, ?_⟩
  · have e : f64Sum inp inp.length = .ok inp.sum := by
      have hl : 1 ≤ inp.length := by
        rcases inp with _ | ⟨x, xs⟩
        · exact absurd rfl h0
        · simp
      have := C50_sum inp inp.length hl (le_refl _)
      rwa [List.take_length] at this
    rw [samplesScaleSum, e, ok_bind', divSample, if_neg h0, ok_bind', samplesMultiply,
      mapLoop_eq (g := (· * (target / inp.sum))) (le_refl _) (Src.has_none _)]
    · rw [List.drop_length, List.append_nil]
      change Except.ok (List.map _ (List.take inp.length inp)) = _
      rw [List.take_length]
    · intro x _; rfl
  · rw [List.sum_map_mul_right, List.map_id']
    field_simp

/-- With a negative value. -/
example : ∃ out, samplesScaleSum [1, -2, 3] 3 10 = .ok out ∧ out.sum = 10 := by
  obtain ⟨o, h1, _, h2⟩ := C96_samples_scale_sum_partial (inp := [1, -2, 3]) (target := 10) (by norm_num)
  exact ⟨o, h1, h2⟩

/-! ### C97 -/

/-- C97: converting times to samples and back gives the same times; both write exactly `count` elements. -/
theorem C97_times_round_trip {inp : List Nat} {out : List ℚ} {back : List Nat} {count : Nat} (hc : count ≤ inp.length)
    (ho : count ≤ out.length) (hb : count ≤ back.length) (h32 : ∀ x ∈ inp, x < 4294967296) :
    ∃ s, timesToSamples inp count out = .ok s ∧ s = (inp.take count).map (fun (x : Nat) => (x : ℚ)) ++ out.drop count ∧
      samplesToTimes s count back = .ok (inp.take count ++ back.drop count) := by
  have g32 : ∀ {i}, i < inp.length → inp.getD i 0 < 4294967296 := by
    intro i h; rw [getD_of_lt h]; exact h32 _ (List.getElem_mem h)
  have e1 : timesToSamples inp count out = .ok (tab out.length fun a => if a < count then (inp.getD a 0 : ℚ) else out.getD a 0) := by
    rw [timesToSamples]
    conv_lhs => rw [eq_tab out 0]
    refine tab_loop fun i o hi _ => ?_
    rw [rd_getD (by omega), ok_bind', wr_tab _ (by omega)]
  have e2 : samplesToTimes (tab out.length fun a => if a < count then (inp.getD a 0 : ℚ) else out.getD a 0) count back =
      .ok (tab back.length fun a => if a < count then inp.getD a 0 else back.getD a 0) := by
    rw [samplesToTimes]
    conv_lhs => rw [eq_tab back 0]
    refine tab_loop fun i o hi _ => ?_
    rw [rd_tab (by omega), ok_bind', if_pos hi, cheapRound_nat (g32 (by omega)), ok_bind', wr_tab _ (by omega)]
  refine ⟨_, e1, ?_, ?_⟩
  · apply List.ext_getElem?
    intro i
    rw [tab_getElem?]
    by_cases h : i < count
    · rw [if_pos (by omega), if_pos h, List.getElem?_append_left (by simp; omega), List.getElem?_map, List.getElem?_take, if_pos h,
        List.getElem?_eq_getElem (by omega), getD_of_lt (by omega)]
      rfl
    · rw [List.getElem?_append_right (by simp; omega), List.length_map, List.length_take, min_eq_left hc, List.getElem?_drop,
        show count + (i - count) = i by omega]
      by_cases h2 : i < out.length
      · rw [if_pos h2, if_neg h, getD_of_lt h2, List.getElem?_eq_getElem h2]
      · rw [if_neg h2, List.getElem?_eq_none (by omega)]
  · rw [e2]
    congr 1
    apply List.ext_getElem?
    intro i
    rw [tab_getElem?]
    by_cases h : i < count
    · rw [if_pos (by omega), if_pos h, List.getElem?_append_left (by simp; omega), List.getElem?_take, if_pos h,
        List.getElem?_eq_getElem (by omega), getD_of_lt (by omega)]
    · rw [List.getElem?_append_right (by simp; omega), List.length_take, min_eq_left hc, List.getElem?_drop,
        show count + (i - count) = i by omega]
      by_cases h2 : i < back.length
      · rw [if_pos h2, if_neg h, getD_of_lt h2, List.getElem?_eq_getElem h2]
      · rw [if_neg h2, List.getElem?_eq_none (by omega)]

example : samplesToTimes [2, 5 / 2, 7 / 3, 0] 4 [9, 9, 9, 9, 9] = .ok [2, 3, 2, 0, 9] := by decide +kernel

/-- C97: samples are converted to units by the map that takes -1 to 0 and 1 to 1, which keeps the order and the range. -/
theorem C97_units {b : List ℚ} {count : Nat} (hc : count ≤ b.length) :
    ∃ f : ℚ → ℚ, samplesToUnits b count = .ok ((b.take count).map f ++ b.drop count) ∧ f (-1) = 0 ∧ f 0 = 1 / 2 ∧ f 1 = 1 ∧
      (∀ x, f x = (x + 1) / 2) ∧ (∀ x y, x < y → f x < f y) ∧ ∀ x, -1 ≤ x → x ≤ 1 → 0 ≤ f x ∧ f x ≤ 1 := by
  refine ⟨fun x => (x + 1) / 2, ?_, by norm_num, by norm_num, by norm_num, fun _ => rfl, ?_, ?_⟩
  · exact mapLoop_eq hc (Src.has_none _) (fun x _ => rfl)
  · intro x y h; simp only; linarith
  · intro x h1 h2; simp only; constructor <;> linarith

example : samplesToUnits [-1, 1 / 2, 1, 7] 3 = .ok [0, 3 / 4, 1, 7] := by decide +kernel

/-- C97: differences between subsequent values: exactly `count - 1` values are written, also if `out` is longer; adding the first ones
to the first value gives back the array. -/
theorem C97_differences {a out : List ℚ} {count : Nat} (hc : count ≤ a.length) (h32 : count < 4294967296) (ho : count - 1 ≤ out.length) :
    ∃ out', samplesDifferences a count out = .ok out' ∧ out'.length = out.length ∧
      (∀ k, k < count → a.getD 0 0 + (out'.take k).sum = a.getD k 0) ∧ ∀ i, count - 1 ≤ i → out'[i]? = out[i]? := by
  have e1 : samplesDifferences a count out = .ok (tab out.length fun i => if i < count - 1 then a.getD (i + 1) 0 - a.getD i 0
      else out.getD i 0) := by
    rw [samplesDifferences]
    by_cases h : 1 ≤ count
    · have key := forRange_states (lo := 1) (hi := count) (body := fun i out => do
          let x ← rd a i
          let y ← rd a (sub32 i 1)
          wr out (sub32 i 1) (x - y))
        (fun m => tab out.length fun i => if i < m - 1 then a.getD (i + 1) 0 - a.getD i 0 else out.getD i 0) h (by
          intro i h1 h2
          have rdq : ∀ {i}, i < a.length → rd a i = .ok (a.getD i 0) := fun h => by rw [rd_eq_ok h, getD_of_lt h]
          rw [rdq (by omega), ok_bind', sub32_of_le h1 (by omega), rdq (by omega), ok_bind', wr_tab _ (by omega)]
          congr 1
          refine tab_congr fun k _ => ?_
          by_cases hk : k = i - 1
          · rw [if_pos hk, if_pos (by omega), hk, Nat.sub_add_cancel h1]
          · rw [if_neg hk]; exact if_congr (by omega) rfl rfl)
      rw [← key]
      congr 1
      conv_lhs => rw [eq_tab out 0]
      exact tab_congr fun i _ => by rw [if_neg (by omega)]
    · rw [forRange_of_le (by omega)]
      congr 1
      conv_lhs => rw [eq_tab out 0]
      exact tab_congr fun i _ => by rw [if_neg (by omega)]
  refine ⟨_, e1, tab_length, ?_, ?_⟩
  · intro k
    induction k with
    | zero => intro _; simp
    | succ k ih =>
      intro hk
      have := ih (by omega)
      rw [List.take_succ, List.sum_append, tab_getElem?, if_pos (by omega), if_pos (by omega)]
      simp only [Option.toList_some, List.sum_cons, List.sum_nil]
      linarith
  · intro i hi
    rw [tab_getElem?]
    by_cases h2 : i < out.length
    · rw [if_pos h2, if_neg (by omega), getD_of_lt h2, List.getElem?_eq_getElem h2]
    · rw [if_neg h2, List.getElem?_eq_none (by omega)]

example : samplesDifferences [1, 4, 2, (10 : ℚ)] 4 [0, 0, 0, 7] = .ok [3, -2, 8, 7] := by decide +kernel

/-- C97: a new constant array. -/
theorem C97_constant (junk count value : Nat) : timesConstant junk count value = .ok (List.replicate count value) := by
  rw [timesConstant, timesSet, mapLoop_eq (g := fun _ => value) (by simp) (Src.has_none _) (fun _ _ => rfl),
    List.drop_eq_nil_of_le (by simp), List.append_nil]
  change Except.ok (List.map _ (List.take count (List.replicate count junk))) = _
  simp

/-- C97, the conversion of one sample to a time: the nearest integer, halves up, and zero for samples between -3/2 and -1/2. Exactly the samples with a sum with
1/2 that is not between -1 and 2^32 have no defined result. -/
theorem C97_conversion (x : ℚ) :
    (-3 / 2 < x → x < 4294967295 + 1 / 2 → ∃ t : Nat, cheapRound x = .ok t ∧ t < 4294967296 ∧
      (-1 / 2 ≤ x → (t : ℚ) - 1 / 2 ≤ x ∧ x < t + 1 / 2) ∧ (x < -1 / 2 → t = 0)) ∧
    (x ≤ -3 / 2 ∨ 4294967295 + 1 / 2 ≤ x → cheapRound x = .error .outOfBounds) := by
  unfold cheapRound toTime
  constructor
  · intro h1 h2
    rw [if_neg (by rintro (h | h) <;> linarith)]
    refine ⟨_, rfl, ?_, fun h => ?_, fun h => ?_⟩
    · have : ⌊1 / 2 + x⌋ < 4294967296 := Int.floor_lt.2 (by push_cast; linarith)
      omega
    · have h0 : 0 ≤ ⌊1 / 2 + x⌋ := Int.floor_nonneg.2 (by linarith)
      have hc : ((⌊1 / 2 + x⌋.toNat : Nat) : ℚ) = (⌊1 / 2 + x⌋ : ℚ) := by
        have : ((⌊1 / 2 + x⌋.toNat : Nat) : ℤ) = ⌊1 / 2 + x⌋ := Int.toNat_of_nonneg h0
        exact_mod_cast congrArg (fun z : ℤ => (z : ℚ)) this
      rw [hc]
      have h3 := Int.floor_le (1 / 2 + x)
      have h4 := Int.lt_floor_add_one (1 / 2 + x)
      constructor <;> linarith
    · have : ⌊1 / 2 + x⌋ < 0 := Int.floor_lt.2 (by push_cast; linarith)
      omega
  · intro h
    rw [if_pos (by rcases h with h | h; exacts [.inl (by linarith), .inr (by linarith)])]

/-- 7/2 becomes 4. -/
example : cheapRound (7 / 2) = .ok 4 ∧ cheapRound (4294967295 + 1 / 2) = .error .outOfBounds := by decide +kernel

end Sp
