import Verif.Lemmas.PathN
import Mathlib.Tactic.IntervalCases

/-! # C117 Path functions with a fixed number of points -/

set_option linter.unusedSectionVars false

namespace Sp

/-- `sp_path_samples2` and `sp_path_times2`: a straight line from the first value at 0 to the second value at the length; the times are
the values rounded. Missing: the returned status is indeterminate (`none`). -/
theorem C117_two_points_partial {fuel length : Nat} {y1 y2 : ℚ} (hlen : length < 4294967296) :
    ∃ out, pathSamples2 fuel length y1 y2 = .ok (none, out) ∧ out.length = length ∧
      (∀ j, j < length → out[j]? = some (y1 + (y2 - y1) * (j / length))) ∧
      ((∀ y ∈ [y1, y2], 0 ≤ y ∧ y ≤ 4294967295) → pathTimes2 fuel length y1 y2 = .ok (none, out.map roundHalfUp)) := by
  obtain ⟨out, e1, e2, e3, e4⟩ := pathSamples_follows (fuel := fuel) (length := length) (pc := 2) (x := []) (y := [y1, y2])
    (c := none) (by omega) (by omega) (by simp) (by simp) (.inl rfl) hlen (by
      intro k hk
      have hk : k < 1 := by omega
      interval_cases k
      exact Nat.cast_nonneg _)
  refine ⟨out, ?_, e2, ?_, ?_⟩
  · rw [pathSamples2, e1]; rfl
  · intro j hj
    have e3 : FollowsPoints out [⟨0, y1⟩, ⟨length, y2⟩] := e3
    rw [e3 0 ⟨0, y1⟩ ⟨length, y2⟩ rfl rfl j (by simp) (by simpa using hj)]
    simp
  · intro hy
    rw [pathTimes2, pathTimes_eq e1 e2 (e4 _ _ ?_)]
    · rfl
    · intro k hk
      interval_cases k <;> simpa using hy _ (by simp)

example : pathSamples2 0 4 1 3 = .ok (none, [1, 3 / 2, 2, 5 / 2]) := by decide +kernel
example : pathTimes2 0 4 1 3 = .ok (none, [1, 2, 2, 3]) := by decide +kernel

/-- `sp_path_samples3` and `sp_path_times3`. Missing: the returned status is indeterminate. -/
theorem C117_three_points_partial {fuel length : Nat} {x1 y1 y2 y3 : ℚ} (hlen : length < 4294967296) (h0 : 0 ≤ x1) (h1 : x1 ≤ length) :
    ∃ out, pathSamples3 fuel length x1 y1 y2 y3 = .ok (none, out) ∧ out.length = length ∧
      FollowsPoints out [⟨0, y1⟩, ⟨x1, y2⟩, ⟨length, y3⟩] ∧
      ((∀ y ∈ [y1, y2, y3], 0 ≤ y ∧ y ≤ 4294967295) →
        pathTimes3 fuel length x1 y1 y2 y3 = .ok (none, out.map roundHalfUp)) := by
  obtain ⟨out, e1, e2, e3, e4⟩ := pathSamples_follows (fuel := fuel) (length := length) (pc := 3) (x := [x1]) (y := [y1, y2, y3])
    (c := none) (by omega) (by omega) (by simp) (by simp) (.inl rfl) hlen (by
      intro k hk
      have hk : k < 2 := by omega
      interval_cases k
      · exact h0
      · exact h1)
  refine ⟨out, ?_, e2, e3, ?_⟩
  · rw [pathSamples3, e1]; rfl
  · intro hy
    rw [pathTimes3, pathTimes_eq e1 e2 (e4 _ _ ?_)]
    · rfl
    · intro k hk
      interval_cases k <;> simpa using hy _ (by simp)

/-- `sp_path_samples4` and `sp_path_times4`. Missing: the returned status is indeterminate. -/
theorem C117_four_points_partial {fuel length : Nat} {x1 x2 y1 y2 y3 y4 : ℚ} (hlen : length < 4294967296) (h0 : 0 ≤ x1) (h1 : x1 ≤ x2)
    (h2 : x2 ≤ length) :
    ∃ out, pathSamples4 fuel length x1 x2 y1 y2 y3 y4 = .ok (none, out) ∧ out.length = length ∧
      FollowsPoints out [⟨0, y1⟩, ⟨x1, y2⟩, ⟨x2, y3⟩, ⟨length, y4⟩] ∧
      ((∀ y ∈ [y1, y2, y3, y4], 0 ≤ y ∧ y ≤ 4294967295) →
        pathTimes4 fuel length x1 x2 y1 y2 y3 y4 = .ok (none, out.map roundHalfUp)) := by
  obtain ⟨out, e1, e2, e3, e4⟩ := pathSamples_follows (fuel := fuel) (length := length) (pc := 4) (x := [x1, x2])
    (y := [y1, y2, y3, y4]) (c := none) (by omega) (by omega) (by simp) (by simp) (.inl rfl) hlen (by
      intro k hk
      have hk : k < 3 := by omega
      interval_cases k
      · exact h0
      · exact h1
      · exact h2)
  refine ⟨out, ?_, e2, e3, ?_⟩
  · rw [pathSamples4, e1]; rfl
  · intro hy
    rw [pathTimes4, pathTimes_eq e1 e2 (e4 _ _ ?_)]
    · rfl
    · intro k hk
      interval_cases k <;> simpa using hy _ (by simp)

/-- `sp_path_samples5` and `sp_path_times5`. Missing: the returned status is indeterminate. -/
theorem C117_five_points_partial {fuel length : Nat} {x1 x2 x3 y1 y2 y3 y4 y5 : ℚ} (hlen : length < 4294967296) (h0 : 0 ≤ x1)
    (h1 : x1 ≤ x2) (h2 : x2 ≤ x3) (h3 : x3 ≤ length) :
    ∃ out, pathSamples5 fuel length x1 x2 x3 y1 y2 y3 y4 y5 = .ok (none, out) ∧ out.length = length ∧
      FollowsPoints out [⟨0, y1⟩, ⟨x1, y2⟩, ⟨x2, y3⟩, ⟨x3, y4⟩, ⟨length, y5⟩] ∧
      ((∀ y ∈ [y1, y2, y3, y4, y5], 0 ≤ y ∧ y ≤ 4294967295) →
        pathTimes5 fuel length x1 x2 x3 y1 y2 y3 y4 y5 = .ok (none, out.map roundHalfUp)) := by
  obtain ⟨out, e1, e2, e3, e4⟩ := pathSamples_follows (fuel := fuel) (length := length) (pc := 5) (x := [x1, x2, x3])
    (y := [y1, y2, y3, y4, y5]) (c := none) (by omega) (by omega) (by simp) (by simp) (.inl rfl) hlen (by
      intro k hk
      have hk : k < 4 := by omega
      interval_cases k
      · exact h0
      · exact h1
      · exact h2
      · exact h3)
  refine ⟨out, ?_, e2, e3, ?_⟩
  · rw [pathSamples5, e1]; rfl
  · intro hy
    rw [pathTimes5, pathTimes_eq e1 e2 (e4 _ _ ?_)]
    · rfl
    · intro k hk
      interval_cases k <;> simpa using hy _ (by simp)

example : pathTimes5 0 5 1 (5 / 2) 4 1 2 5 5 0 = .ok (none, [1, 2, 5, 5, 5]) := by decide +kernel

/-! ## With curvature -/

/-- `sp_path_samples_c2` and `sp_path_times_c2`. Missing: the returned status is indeterminate, curves that are not `Curvable`. -/
theorem C117_curve2_partial {fuel length : Nat} {y1 y2 c1 : ℚ} (hlen : length < 4294967296) (hfuel : 2 * length + 1 < fuel)
    (hok : Curvable [⟨0, y1⟩, ⟨length, y2⟩] [c1]) :
    ∃ out, pathSamplesC2 fuel length y1 y2 c1 = .ok (none, out) ∧ out.length = length ∧
      FollowsCurves out [⟨0, y1⟩, ⟨length, y2⟩] [c1] ∧
      ((∀ y ∈ [y1, y2], 0 ≤ y ∧ y ≤ 4294967295) →
        pathTimesC2 fuel length y1 y2 c1 = .ok (none, out.map roundHalfUp)) := by
  obtain ⟨out, e1, e2, e3, e4⟩ := pathSamples_curves (fuel := fuel) (length := length) (pc := 2) (x := [])
    (y := [y1, y2]) (c := [c1]) (by omega) (by omega) (by simp) (by simp) rfl hlen hfuel hok
  refine ⟨out, ?_, e2, e3, ?_⟩
  · rw [pathSamplesC2]; exact bind_ok_of e1
  · intro hy
    rw [pathTimesC2]
    refine bind_ok_of (pathTimes_eq e1 e2 (e4 _ _ ?_))
    intro k hk
    interval_cases k <;> simpa using hy _ (by simp)

/-- `sp_path_samples_c3` and `sp_path_times_c3`. Missing: the returned status is indeterminate, curves that are not `Curvable`, and x that is not an
integer. -/
theorem C117_curve3_partial {fuel length x1 : Nat} {y1 y2 y3 c1 c2 : ℚ} (hlen : length < 4294967296) (hfuel : 2 * length + 1 < fuel)
    (hok : Curvable [⟨0, y1⟩, ⟨x1, y2⟩, ⟨length, y3⟩] [c1, c2]) :
    ∃ out, pathSamplesC3 fuel length x1 y1 y2 y3 c1 c2 = .ok (none, out) ∧ out.length = length ∧
      FollowsCurves out [⟨0, y1⟩, ⟨x1, y2⟩, ⟨length, y3⟩] [c1, c2] ∧
      ((∀ y ∈ [y1, y2, y3], 0 ≤ y ∧ y ≤ 4294967295) →
        pathTimesC3 fuel length x1 y1 y2 y3 c1 c2 = .ok (none, out.map roundHalfUp)) := by
  obtain ⟨out, e1, e2, e3, e4⟩ := pathSamples_curves (fuel := fuel) (length := length) (pc := 3) (x := [x1])
    (y := [y1, y2, y3]) (c := [c1, c2]) (by omega) (by omega) (by simp) (by simp) rfl hlen hfuel hok
  refine ⟨out, ?_, e2, e3, ?_⟩
  · rw [pathSamplesC3]; exact bind_ok_of e1
  · intro hy
    rw [pathTimesC3]
    refine bind_ok_of (pathTimes_eq e1 e2 (e4 _ _ ?_))
    intro k hk
    interval_cases k <;> simpa using hy _ (by simp)

/-- `sp_path_samples_c4` and `sp_path_times_c4`. Missing as for three points. -/
theorem C117_curve4_partial {fuel length x1 x2 : Nat} {y1 y2 y3 y4 c1 c2 c3 : ℚ} (hlen : length < 4294967296)
    (hfuel : 2 * length + 1 < fuel) (hok : Curvable [⟨0, y1⟩, ⟨x1, y2⟩, ⟨x2, y3⟩, ⟨length, y4⟩] [c1, c2, c3]) :
    ∃ out, pathSamplesC4 fuel length x1 x2 y1 y2 y3 y4 c1 c2 c3 = .ok (none, out) ∧ out.length = length ∧
      FollowsCurves out [⟨0, y1⟩, ⟨x1, y2⟩, ⟨x2, y3⟩, ⟨length, y4⟩] [c1, c2, c3] ∧
      ((∀ y ∈ [y1, y2, y3, y4], 0 ≤ y ∧ y ≤ 4294967295) →
        pathTimesC4 fuel length x1 x2 y1 y2 y3 y4 c1 c2 c3 = .ok (none, out.map roundHalfUp)) := by
  obtain ⟨out, e1, e2, e3, e4⟩ := pathSamples_curves (fuel := fuel) (length := length) (pc := 4) (x := [x1, x2])
    (y := [y1, y2, y3, y4]) (c := [c1, c2, c3]) (by omega) (by omega) (by simp) (by simp) rfl hlen hfuel hok
  refine ⟨out, ?_, e2, e3, ?_⟩
  · rw [pathSamplesC4]; exact bind_ok_of e1
  · intro hy
    rw [pathTimesC4]
    refine bind_ok_of (pathTimes_eq e1 e2 (e4 _ _ ?_))
    intro k hk
    interval_cases k <;> simpa using hy _ (by simp)

/-- `sp_path_samples_c5` and `sp_path_times_c5`. Missing as for three points. -/
theorem C117_curve5_partial {fuel length x1 x2 x3 : Nat} {y1 y2 y3 y4 y5 c1 c2 c3 c4 : ℚ} (hlen : length < 4294967296)
    (hfuel : 2 * length + 1 < fuel) (hok : Curvable [⟨0, y1⟩, ⟨x1, y2⟩, ⟨x2, y3⟩, ⟨x3, y4⟩, ⟨length, y5⟩] [c1, c2, c3, c4]) :
    ∃ out, pathSamplesC5 fuel length x1 x2 x3 y1 y2 y3 y4 y5 c1 c2 c3 c4 = .ok (none, out) ∧ out.length = length ∧
      FollowsCurves out [⟨0, y1⟩, ⟨x1, y2⟩, ⟨x2, y3⟩, ⟨x3, y4⟩, ⟨length, y5⟩] [c1, c2, c3, c4] ∧
      ((∀ y ∈ [y1, y2, y3, y4, y5], 0 ≤ y ∧ y ≤ 4294967295) →
        pathTimesC5 fuel length x1 x2 x3 y1 y2 y3 y4 y5 c1 c2 c3 c4 = .ok (none, out.map roundHalfUp)) := by
  obtain ⟨out, e1, e2, e3, e4⟩ := pathSamples_curves (fuel := fuel) (length := length) (pc := 5) (x := [x1, x2, x3])
    (y := [y1, y2, y3, y4, y5]) (c := [c1, c2, c3, c4]) (by omega) (by omega) (by simp) (by simp) rfl hlen hfuel hok
  refine ⟨out, ?_, e2, e3, ?_⟩
  · rw [pathSamplesC5]; exact bind_ok_of e1
  · intro hy
    rw [pathTimesC5]
    refine bind_ok_of (pathTimes_eq e1 e2 (e4 _ _ ?_))
    intro k hk
    interval_cases k <;> simpa using hy _ (by simp)

/-- `sp_envelope_zero_c3` for a fraction whose position in the envelope is an integer. Missing as for the path. -/
theorem C117_envelope_curve3_partial {fuel length n1 : Nat} {x1 y1 c1 c2 : ℚ} (hlen : length < 4294967296)
    (hfuel : 2 * length + 1 < fuel) (h1 : x1 * length = n1) (hok : Curvable [⟨0, 0⟩, ⟨x1 * length, y1⟩, ⟨length, 0⟩] [c1, c2]) :
    ∃ out, envelopeZeroC3 fuel length x1 y1 c1 c2 = .ok (none, out) ∧ out.length = length ∧
      FollowsCurves out [⟨0, 0⟩, ⟨x1 * length, y1⟩, ⟨length, 0⟩] [c1, c2] := by
  rw [envelopeZeroC3]
  rw [h1] at hok ⊢
  obtain ⟨out, e1, e2, e3, _⟩ := C117_curve3_partial hlen hfuel hok
  exact ⟨out, e1, e2, e3⟩

/-- `sp_envelope_zero_c4`: the fractions are cumulative. -/
theorem C117_envelope_curve4_partial {fuel length n1 n2 : Nat} {x1 x2 y1 y2 c1 c2 c3 : ℚ} (hlen : length < 4294967296)
    (hfuel : 2 * length + 1 < fuel) (h1 : x1 * length = n1) (h2 : (x1 + x2) * length = n2)
    (hok : Curvable [⟨0, 0⟩, ⟨x1 * length, y1⟩, ⟨(x1 + x2) * length, y2⟩, ⟨length, 0⟩] [c1, c2, c3]) :
    ∃ out, envelopeZeroC4 fuel length x1 x2 y1 y2 c1 c2 c3 = .ok (none, out) ∧ out.length = length ∧
      FollowsCurves out [⟨0, 0⟩, ⟨x1 * length, y1⟩, ⟨(x1 + x2) * length, y2⟩, ⟨length, 0⟩] [c1, c2, c3] := by
  rw [envelopeZeroC4, ← add_mul]
  rw [h1, h2] at hok ⊢
  obtain ⟨out, e1, e2, e3, _⟩ := C117_curve4_partial hlen hfuel hok
  exact ⟨out, e1, e2, e3⟩

/-- `sp_envelope_zero_c5`. -/
theorem C117_envelope_curve5_partial {fuel length n1 n2 n3 : Nat} {x1 x2 x3 y1 y2 y3 c1 c2 c3 c4 : ℚ} (hlen : length < 4294967296)
    (hfuel : 2 * length + 1 < fuel) (h1 : x1 * length = n1) (h2 : (x1 + x2) * length = n2) (h3 : (x1 + x2 + x3) * length = n3)
    (hok : Curvable [⟨0, 0⟩, ⟨x1 * length, y1⟩, ⟨(x1 + x2) * length, y2⟩, ⟨(x1 + x2 + x3) * length, y3⟩, ⟨length, 0⟩]
      [c1, c2, c3, c4]) :
    ∃ out, envelopeZeroC5 fuel length x1 x2 x3 y1 y2 y3 c1 c2 c3 c4 = .ok (none, out) ∧ out.length = length ∧
      FollowsCurves out [⟨0, 0⟩, ⟨x1 * length, y1⟩, ⟨(x1 + x2) * length, y2⟩, ⟨(x1 + x2 + x3) * length, y3⟩, ⟨length, 0⟩]
        [c1, c2, c3, c4] := by
  have : envelopeZeroC5 fuel length x1 x2 x3 y1 y2 y3 c1 c2 c3 c4 =
      pathSamplesC5 fuel length (x1 * length) ((x1 + x2) * length) ((x1 + x2 + x3) * length) 0 y1 y2 y3 0 c1 c2 c3 c4 := by
    rw [envelopeZeroC5, add_mul, add_mul, add_mul]
  rw [this]
  rw [h1, h2, h3] at hok ⊢
  obtain ⟨out, e1, e2, e3, _⟩ := C117_curve5_partial hlen hfuel hok
  exact ⟨out, e1, e2, e3⟩

/-- The hypotheses: up with a curve, down with a line. -/
theorem curvable_example (y : ℚ) (h : 1 ≤ y) : Curvable [⟨0, 0⟩, ⟨1 / 2 * (20 : Nat), y⟩, ⟨(20 : Nat), 0⟩] [1 / 2, 0] := by
  intro k p q c hp hq hc
  rcases k with _ | _ | k
  · simp at hp hq hc
    subst hp hq hc
    norm_num
    exact ⟨by linarith, by linarith⟩
  · simp at hp hq hc
    subst hp hq hc
    norm_num
  · simp at hc

example : ∃ out, envelopeZeroC3 100 20 (1 / 2) 6 (1 / 2) 0 = .ok (none, out) ∧ out.length = 20 ∧
    FollowsCurves out [⟨0, 0⟩, ⟨1 / 2 * (20 : Nat), 6⟩, ⟨(20 : Nat), 0⟩] [1 / 2, 0] :=
  C117_envelope_curve3_partial (n1 := 10) (by norm_num) (by norm_num) (by norm_num) (curvable_example 6 (by norm_num))

/-- A path that can be drawn and has a curve that starts at 3 / 2: the sample at 1 is zero, although the path goes from 5 to 6 there. The curve starts at
the rounded position 2, and the part before ends at 1. -/
theorem C117_fraction_false : ∃ out, pathSamplesC3 100 4 (3 / 2) 5 6 4 0 (1 / 2) = .ok (none, out) ∧ out[1]? = some 0 ∧
    Curvable [⟨0, 5⟩, ⟨3 / 2, 6⟩, ⟨4, 4⟩] [0, 1 / 2] ∧ ¬ FollowsCurves out [⟨0, 5⟩, ⟨3 / 2, 6⟩, ⟨4, 4⟩] [0, 1 / 2] := by
  have h : (pathSamplesC3 100 4 (3 / 2) 5 6 4 0 (1 / 2)).map (fun r => (r.1, r.2[1]?)) = .ok (none, some 0) := by decide +kernel
  cases hr : pathSamplesC3 100 4 (3 / 2) 5 6 4 0 (1 / 2) with
  | error e => rw [hr] at h; cases h
  | ok r =>
    obtain ⟨s, out⟩ := r
    rw [hr] at h
    simp only [Except.map, Except.ok.injEq, Prod.mk.injEq] at h
    obtain ⟨h1, h2⟩ := h
    subst h1
    refine ⟨out, rfl, h2, ?_, ?_⟩
    · intro k p q c hp hq hc
      rcases k with _ | _ | k
      · simp at hp hq hc
        subst hp hq hc
        norm_num
      · simp at hp hq hc
        subst hp hq hc
        norm_num
      · simp at hc
    · intro hf
      obtain ⟨v, hv, _, _, hmin, _⟩ := hf 0 ⟨0, 5⟩ ⟨3 / 2, 6⟩ 0 rfl rfl rfl 1 (by norm_num) (by norm_num)
      rw [h2] at hv
      cases hv
      norm_num at hmin

end Sp
