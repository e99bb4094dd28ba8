import Verif.Lemmas.Envelope
import Verif.Lemmas.PathN
import Mathlib.Tactic.IntervalCases

/-! # C76, C90: envelopes with two points, the only case in which the general functions are defined -/

set_option linter.unusedSectionVars false

namespace Sp

/-- The element `x[1]` is scaled although it is not part of a path with two points. -/
theorem envelopeArrays_two {length : Nat} {first last scalar x0 x1 : ℚ} {xs y : Buf ℚ} :
    envelopeArrays length 2 first last scalar (x0 :: x1 :: xs) y = .ok (x0 :: x1 * length :: xs, [first, last]) := rfl

theorem envelope_line {fuel length : Nat} {x : Buf ℚ} {y1 y2 : ℚ} (hlen : length < 4294967296) :
    ∃ out, pathSamples fuel length 2 x [y1, y2] none = .ok out ∧ out.length = length ∧
      (∀ j, j < length → out[j]? = some (y1 + (y2 - y1) * (j / length))) ∧
      ((∀ y ∈ [y1, y2], 0 ≤ y ∧ y ≤ 4294967295) → pathTimes fuel length 2 x [y1, y2] none = .ok (out.map roundHalfUp)) := by
  obtain ⟨out, e1, e2, e3, e4⟩ := pathSamples_follows (fuel := fuel) (length := length) (pc := 2) (x := x) (y := [y1, y2])
    (c := none) (by omega) (by omega) (by simp) (by simp) (.inl rfl) hlen (by
      intro k hk
      have hk : k < 1 := by omega
      interval_cases k
      exact Nat.cast_nonneg _)
  refine ⟨out, e1, e2, ?_, ?_⟩
  · intro j hj
    have e3 : FollowsPoints out [⟨0, y1⟩, ⟨length, y2⟩] := e3
    rw [e3 0 ⟨0, y1⟩ ⟨length, y2⟩ rfl rfl j (by simp) (by simpa using hj)]
    simp
  · intro hy
    rw [pathTimes_eq e1 e2 (e4 _ _ ?_)]
    intro k hk
    interval_cases k <;> simpa using hy _ (by simp)

/-- **C76, partial**: with two points and an x array of two elements or more `sp_envelope_zero` is zero everywhere. Missing: more points, and x arrays
of the documented size (`C76_envelope_zero_false`, `C76_envelope_zero_two_points_false`). -/
theorem C76_envelope_zero_two_points_partial {fuel length : Nat} (hlen : length < 4294967296) {x : Buf ℚ} (hx : 2 ≤ x.length) (y : Buf ℚ) :
    envelopeZero fuel length 2 x y none = .ok (List.replicate length 0) := by
  obtain ⟨x0, x1, xs, rfl⟩ : ∃ x0 x1 xs, x = x0 :: x1 :: xs := by
    rcases x with _ | ⟨x0, _ | ⟨x1, xs⟩⟩
    · simp at hx
    · simp at hx
    · exact ⟨x0, x1, xs, rfl⟩
  obtain ⟨out, e1, e2, e3, _⟩ := envelope_line (fuel := fuel) (x := x0 :: x1 * length :: xs) (y1 := 0) (y2 := 0) hlen
  rw [envelopeZero, envelopeArrays_two, ok_bind', e1]
  congr 1
  refine List.ext_getElem? fun j => ?_
  rw [List.getElem?_replicate]
  split
  · rw [e3 j ‹_›]
    simp
  · rw [List.getElem?_eq_none (by omega)]

example : envelopeZero 0 3 2 [5, 6] [] none = .ok [0, 0, 0] := by decide +kernel

/-- **C90, partial**: with two points and an x array of two elements or more `sp_envelope_scaled` is the straight line from the first to the last value
times the factor, rounded. -/
theorem C90_envelope_scaled_two_points_partial {fuel length : Nat} (hlen : length < 4294967296) {x : Buf ℚ} (hx : 2 ≤ x.length) {s y1 y2 : ℚ}
    (hy : ∀ y ∈ [y1, y2], 0 ≤ s * y ∧ s * y ≤ 4294967295) :
    ∃ out, envelopeScaled fuel length 2 s x [y1, y2] none = .ok out ∧ out.length = length ∧
      ∀ j, j < length → out[j]? = some (roundHalfUp (s * y1 + (s * y2 - s * y1) * (j / length))) := by
  obtain ⟨x0, x1, xs, rfl⟩ : ∃ x0 x1 xs, x = x0 :: x1 :: xs := by
    rcases x with _ | ⟨x0, _ | ⟨x1, xs⟩⟩
    · simp at hx
    · simp at hx
    · exact ⟨x0, x1, xs, rfl⟩
  obtain ⟨out, e1, e2, e3, e4⟩ := envelope_line (fuel := fuel) (x := x0 :: x1 * length :: xs) (y1 := s * y1) (y2 := s * y2) hlen
  refine ⟨out.map roundHalfUp, ?_, by simpa using e2, ?_⟩
  · rw [envelopeScaled, rd_eq_ok (by simp), ok_bind', rd_eq_ok (by simp), ok_bind', envelopeArrays_two, ok_bind']
    refine e4 fun y h => ?_
    simp only [List.mem_cons, List.not_mem_nil, or_false] at h
    rcases h with rfl | rfl
    · exact hy y1 (by simp)
    · exact hy y2 (by simp)
  · intro j hj
    rw [List.getElem?_map, e3 j hj]
    rfl

example : envelopeScaled 0 4 2 2 [5, 6] [1, 3] none = .ok [2, 3, 4, 5] := by decide +kernel

end Sp
