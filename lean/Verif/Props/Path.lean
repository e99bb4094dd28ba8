import Verif.Lemmas.Envelope
import Verif.Lemmas.PathGet
import Mathlib.Tactic.IntervalCases

/-! # Properties of paths and envelopes -/

set_option linter.unusedSectionVars false

namespace Sp

/-! ## C73 Linear paths interpolate their points -/

theorem pathPoint_cast {length pc : Nat} {x : List Nat} {y : Buf ℚ} (k : Nat) :
    (pathPoint length pc (x.map fun n : Nat => (n : ℚ)) y k).x = (pathX length pc x k : Nat) := by
  simp only [pathPoint, pathX]
  split
  · simp
  · split
    · rfl
    · rw [List.getD_eq_getElem?_getD, List.getD_eq_getElem?_getD, List.getElem?_map]
      cases x[k - 1]? <;> simp

/-- The path with points at integer x, without curvature. -/
theorem linear_path {fuel length pc : Nat} {x : List Nat} {y : Buf ℚ} {c : Option (Buf ℚ)} (h2 : 2 ≤ pc) (h24 : pc ≤ 24)
    (hx : pc - 2 ≤ x.length) (hy : pc ≤ y.length) (hc : NoCurve c pc) (hlen : length < 4294967296)
    (hinc : ∀ k, k + 1 < pc → pathX length pc x k < pathX length pc x (k + 1)) :
    ∃ out, pathSamples fuel length pc (x.map fun n : Nat => (n : ℚ)) y c = .ok out ∧ out.length = length ∧
      (∀ k j, k + 1 < pc → pathX length pc x k ≤ j → j < pathX length pc x (k + 1) →
        out[j]? = some (lineThrough (pathX length pc x k) (y.getD k 0) (pathX length pc x (k + 1)) (y.getD (k + 1) 0) j)) ∧
      (∀ j, j < length → ∃ k, k + 1 < pc ∧ pathX length pc x k ≤ j ∧ j < pathX length pc x (k + 1)) ∧
      out[0]? = y[0]? ∧
      ∀ lo hi : ℚ, (∀ k, k < pc → lo ≤ y.getD k 0 ∧ y.getD k 0 ≤ hi) → ∀ v ∈ out, lo ≤ v ∧ v ≤ hi := by
  obtain ⟨out, h1, hl, hf, hb⟩ := pathSamples_follows (fuel := fuel) (x := x.map fun n : Nat => (n : ℚ)) h2 h24 (by simpa using hx) hy hc hlen
    (by
      intro k hk
      rw [pathPoint_cast, pathPoint_cast]
      exact_mod_cast (hinc k hk).le)
  have hline : ∀ k j, k + 1 < pc → pathX length pc x k ≤ j → j < pathX length pc x (k + 1) →
        out[j]? = some (lineThrough (pathX length pc x k) (y.getD k 0) (pathX length pc x (k + 1)) (y.getD (k + 1) 0) j) := by
    intro k j hk e1 e2
    have := hf k _ _ (by rw [tab_getElem?, if_pos (by omega)]) (by rw [tab_getElem?, if_pos hk]) j
      (by rw [pathPoint_cast, Int.floor_natCast]; exact_mod_cast e1) (by rw [pathPoint_cast, Int.floor_natCast]; exact_mod_cast e2)
    rw [this, pathPoint_cast, pathPoint_cast, Int.floor_natCast, lineThrough]
    simp [pathPoint]
  refine ⟨out, h1, hl, hline, ?_, ?_, hb⟩
  · intro j hj
    refine between_points h2 (by simp [pathX]) ?_ hj
    rw [pathX, if_neg (by omega), if_pos (by omega)]
  · have h0 : pathX length pc x 0 = 0 := by simp [pathX]
    rw [hline 0 0 (by omega) (by omega) (by have := hinc 0 (by omega); omega), h0, lineThrough]
    rw [getD_of_lt (by omega), List.getElem?_eq_getElem (by omega)]
    simp

/-- `sp_path_samples` without curvature, for points with strictly increasing integer x: writes all samples, follows the
straight line between neighbouring points, starts at the first point, and stays between the smallest and the largest y.
The model has exact arithmetic. -/
theorem C73_linear_paths {fuel length pc : Nat} {x : List Nat} {y : Buf ℚ} (h2 : 2 ≤ pc) (h24 : pc ≤ 24)
    (hx : pc - 2 ≤ x.length) (hy : pc ≤ y.length) (hlen : length < 4294967296)
    (hinc : ∀ k, k + 1 < pc → pathX length pc x k < pathX length pc x (k + 1)) :
    ∃ out, pathSamples fuel length pc (x.map fun n : Nat => (n : ℚ)) y none = .ok out ∧ out.length = length ∧
      (∀ k j, k + 1 < pc → pathX length pc x k ≤ j → j < pathX length pc x (k + 1) →
        out[j]? = some (lineThrough (pathX length pc x k) (y.getD k 0) (pathX length pc x (k + 1)) (y.getD (k + 1) 0) j)) ∧
      (∀ j, j < length → ∃ k, k + 1 < pc ∧ pathX length pc x k ≤ j ∧ j < pathX length pc x (k + 1)) ∧
      out[0]? = y[0]? ∧
      ∀ lo hi : ℚ, (∀ k, k < pc → lo ≤ y.getD k 0 ∧ y.getD k 0 ≤ hi) → ∀ v ∈ out, lo ≤ v ∧ v ≤ hi :=
  linear_path h2 h24 hx hy (.inl rfl) hlen hinc

/-- More points than the limit: a write outside of the array of segments, unnoticed by the function. -/
theorem C73_limit_unchecked {fuel length pc : Nat} {x y : Buf ℚ} (h : 24 < pc) (hy : pc ≤ y.length) :
    pathSamples fuel length pc x y none = .error .outOfBounds := by
  rw [pathSamples, rd_eq_ok (show pc - 1 < List.length y by omega), rd_eq_ok (show 0 < List.length y by omega)]
  simp only [ok_bind', pathCurvature]
  rw [tab_replicate, wr_tab _ (by omega)]
  simp only [ok_bind']
  rw [wr, if_neg (by simp; omega)]
  rfl

example : pathSamples 0 6 3 ([2].map fun n : Nat => (n : ℚ)) [1, 3, 7] none = .ok [1, 2, 3, 4, 5, 6] := by decide +kernel

example : ∀ k, k + 1 < 3 → pathX 6 3 [2] k < pathX 6 3 [2] (k + 1) := by
  intro k hk
  have hk : k < 2 := by omega
  interval_cases k <;> decide

/-! ## C89 Negative curvature -/

/-- `sp_path_samples` says that curvature goes from -1 to 1, but a negative curvature gives exactly the path without
curvature. Also shown for values that are positive but less than 1e-5. -/
theorem C89_negative_curvature_ignored {fuel length pc : Nat} {x y b : Buf ℚ} (h2 : 2 ≤ pc) (h24 : pc ≤ 24)
    (hx : pc - 2 ≤ x.length) (hy : pc ≤ y.length) (hb : pc - 1 ≤ b.length) (hneg : ∀ v ∈ b, v < 1 / 100000) :
    pathSamples fuel length pc x y (some b) = pathSamples fuel length pc x y none := by
  rw [segments_collected h2 h24 hx hy (.inr ⟨b, rfl, hb, hneg⟩), segments_collected h2 h24 hx hy (.inl rfl)]

/-- The curvature 1/2 and the curvature -1/2 are not mirror images: the second is not a curve. -/
theorem C89_curvature_false :
    pathSamples 40 8 2 [] [0, 4] (some [1 / 2]) ≠ pathSamples 40 8 2 [] [0, 4] none ∧
    pathSamples 40 8 2 [] [0, 4] (some [-1 / 2]) = pathSamples 40 8 2 [] [0, 4] none ∧
    ∃ out, pathSamples 40 8 2 [] [0, 4] (some [1 / 2]) = .ok out := by
  refine ⟨by decide +kernel, by decide +kernel, ?_⟩
  have : (pathSamples 40 8 2 [] [0, 4] (some [1 / 2])).isOk = true := by decide +kernel
  cases h : pathSamples 40 8 2 [] [0, 4] (some [1 / 2]) with
  | ok out => exact ⟨out, rfl⟩
  | error e => rw [h] at this; exact absurd this (by simp [Except.isOk, Except.toBool])

/-! ## C74 Reading a path block by block -/

theorem readBlocks_inv {fuel : Nat} {ps : List Piece} {lo : ℚ} (hj : Joined lo ps) (hlo : 0 ≤ lo) (hlo0 : trunc lo = 0)
    (hint : IntegerPieces ps) {path : SplinePath} {prev e : Nat} (hi : PathInv ps path prev e) (ranges : List (Nat × Nat))
    (hr : RangesForward prev e ranges) :
    readBlocks fuel path ranges = .ok (ranges.map fun r => tab (r.2 - r.1) fun k => piecesAt 0 ps 0 (r.1 + k)) := by
  induction ranges generalizing path prev e with
  | nil => rfl
  | cons r rest ih =>
    obtain ⟨a, b⟩ := r
    obtain ⟨hab, hor, hrest⟩ := hr
    obtain ⟨path', h1, h2⟩ := splineGet_inv (fuel := fuel) hj hlo hlo0 hi hab hor fun _ => 0
    rw [readBlocks, tab_replicate, h1]
    simp only [ok_bind']
    rw [ih h2 hrest]
    simp only [ok_bind', pure_eq_ok, List.map_cons]
    congr 2
    apply tab_congr
    intro k _
    exact piecesAt_integer hint (by omega) _

/-- Paths of moves, lines and constants with integer x that does not decrease. Any sequence of reads, each of which begins at or
after the end of the one before or goes back to before its beginning, gives the values of one read over the whole range.
Missing: reads that overlap the previous read without beginning before it, and points that are not at integer x, for both of
which the property is false. -/
theorem C74_blocks_partial {fuel : Nat} {steps : List PathStep} (hs : IntegerSteps 0 steps) (T : Nat) :
    ∃ path whole, splinePathSet (steps.map PathStep.segment) = .ok path ∧ whole.length = T ∧
      readBlocks fuel path [(0, T)] = .ok [whole] ∧
      ∀ ranges, RangesForward 0 0 ranges → (∀ r ∈ ranges, r.2 ≤ T) →
        readBlocks fuel path ranges = .ok (ranges.map fun r => (whole.drop r.1).take (r.2 - r.1)) := by
  obtain ⟨segs, h1, h2⟩ := prepareSegments_pieces steps ⟨0, 0⟩
  obtain ⟨hj, hint⟩ := integerSteps_joined steps ⟨0, 0⟩ 0 rfl hs
  have hi : PathInv (piecesFrom ⟨0, 0⟩ steps) ⟨segs, 0, 0⟩ 0 0 :=
    ⟨h2, fun _ => rfl, fun k p hk _ => absurd hk (by simp), fun h => List.length_pos_iff.2 h⟩
  have hj : Joined ((0 : Nat) : ℚ) (piecesFrom ⟨0, 0⟩ steps) := hj
  have key := fun ranges hr => readBlocks_inv (fuel := fuel) hj (by norm_num) (trunc_natCast 0) hint hi ranges hr
  refine ⟨⟨segs, 0, 0⟩, tab T fun k => piecesAt 0 (piecesFrom ⟨0, 0⟩ steps) 0 k, ?_, by simp, ?_, ?_⟩
  · rw [splinePathSet, h1]; rfl
  · rw [key [(0, T)] ⟨Nat.zero_le _, .inl (le_refl _), trivial⟩]
    simp
  · intro ranges hr hT
    rw [key ranges hr]
    congr 1
    apply List.map_congr_left
    intro r hr
    apply List.ext_getElem?
    intro k
    rw [tab_getElem?, List.getElem?_take, List.getElem?_drop, tab_getElem?]
    have := hT r hr
    split
    · rw [if_pos (by omega)]
    · rfl

example : IntegerSteps 0 [.move 0 1, .line 4 3, .line 8 0, .constant] :=
  ⟨0, by norm_num, by omega, by decide, 4, by norm_num, by omega, by decide, 8, by norm_num, by omega, by decide,
    by decide, trivial⟩

example : RangesForward 0 0 [(0, 3), (3, 7), (7, 10), (2, 6)] := by simp [RangesForward]

/-- Two lines; the result of reading 0 to 4 again is not that of the first read: the first line is lost. -/
theorem C74_reread_false :
    (do let path ← splinePathSet [splineLine 2 2, splineLine 4 0]
        readBlocks 0 path [(0, 4), (0, 4)]) = .ok [[0, 1, 2, 1], [0, 0, 2, 1]] := by decide +kernel

/-- A line that begins at x 1/2: reading block by block differs from reading at once. -/
theorem C74_fraction_false :
    (do let path ← splinePathSet [splineMove (1 / 2) 0, splineLine (9 / 2) 4]
        readBlocks 0 path [(0, 4)]) = .ok [[0, 1, 2, 3]] ∧
    (do let path ← splinePathSet [splineMove (1 / 2) 0, splineLine (9 / 2) 4]
        readBlocks 0 path [(0, 2), (2, 4)]) = .ok [[0, 1], [1, 2]] := by
  constructor <;> decide +kernel

/-! ## C76 Envelopes begin and end at zero -/

/-- `sp_envelope_zero` is never well-defined for three or more points: `x[1]` is multiplied in place of `x[0]`, and `path_y[1]` is never
set. This holds for arrays of all sizes, in particular the documented ones. -/
theorem C76_envelope_zero_false {fuel length pc : Nat} (h : 3 ≤ pc) (x y : Buf ℚ) (c : Option (Buf ℚ)) :
    ∀ out, envelopeZero fuel length pc x y c ≠ .ok out := by
  intro out h'
  rw [envelopeZero, bind_eq_ok] at h'
  obtain ⟨r, hr, _⟩ := h'
  exact envelopeArrays_fault h r hr

/-- With the documented array size, which is zero for two points, not for two points either. -/
theorem C76_envelope_zero_two_points_false {fuel length : Nat} (y : Buf ℚ) (c : Option (Buf ℚ)) :
    envelopeZero fuel length 2 [] y c = .error .outOfBounds := rfl

/-- Three points: begins at zero, goes to `y1` at the fraction `x1` of the length, and back towards zero at the end. Missing: the
returned status is indeterminate (`none`), and the variants of the function with more points are stated separately. -/
theorem C76_envelope_zero3_partial {fuel length : Nat} {x1 y1 : ℚ} (hlen : length < 4294967296) (h0 : 0 ≤ x1) (h1 : x1 ≤ 1) :
    ∃ out, envelopeZero3 fuel length x1 y1 = .ok (none, out) ∧ out.length = length ∧
      FollowsPoints out [⟨0, 0⟩, ⟨x1 * length, y1⟩, ⟨length, 0⟩] ∧
      (1 ≤ x1 * length → out[0]? = some 0) ∧
      (⌊x1 * length⌋.toNat < length → out[⌊x1 * length⌋.toNat]? = some y1) ∧
      ∀ v ∈ out, min 0 y1 ≤ v ∧ v ≤ max 0 y1 := by
  have hL : (0 : ℚ) ≤ length := Nat.cast_nonneg _
  have hm0 : 0 ≤ x1 * length := mul_nonneg h0 hL
  obtain ⟨out, e1, e2, e3, e4⟩ := pathSamples_follows (fuel := fuel) (length := length) (pc := 3) (x := [x1 * length]) (y := [0, y1, 0])
    (c := none) (by omega) (by omega) (by simp) (by simp) (.inl rfl) hlen (by
      intro k hk
      have hk : k < 2 := by omega
      interval_cases k
      · exact hm0
      · change x1 * length ≤ length
        nlinarith)
  have e3 : FollowsPoints out [⟨0, 0⟩, ⟨x1 * length, y1⟩, ⟨length, 0⟩] := e3
  refine ⟨out, ?_, e2, e3, ?_, ?_, ?_⟩
  · rw [envelopeZero3, pathSamples3, e1]; rfl
  · intro h
    rw [e3 0 ⟨0, 0⟩ ⟨x1 * length, y1⟩ rfl rfl 0 (by simp) (by
      have : (1 : ℤ) ≤ ⌊x1 * length⌋ := Int.le_floor.2 (by simpa using h)
      simp only; omega)]
    simp
  · intro h
    have hf := trunc_floor hm0
    rw [trunc] at hf
    rw [e3 1 ⟨x1 * length, y1⟩ ⟨length, 0⟩ rfl rfl _ (by simp only; rw [hf]) (by
      simp only
      rw [Int.floor_natCast]
      exact_mod_cast h)]
    simp only
    have : ((⌊x1 * length⌋.toNat : Nat) : ℚ) = (⌊x1 * length⌋ : ℤ) := by exact_mod_cast hf
    rw [this]
    simp
  · refine e4 _ _ ?_
    intro k hk
    interval_cases k <;> simp

/-- Four points: the fractions are cumulative. Missing: the returned status is indeterminate. -/
theorem C76_envelope_zero4_partial {fuel length : Nat} {x1 x2 y1 y2 : ℚ} (hlen : length < 4294967296) (h0 : 0 ≤ x1) (h1 : 0 ≤ x2)
    (h2 : x1 + x2 ≤ 1) :
    ∃ out, envelopeZero4 fuel length x1 x2 y1 y2 = .ok (none, out) ∧ out.length = length ∧
      FollowsPoints out [⟨0, 0⟩, ⟨x1 * length, y1⟩, ⟨(x1 + x2) * length, y2⟩, ⟨length, 0⟩] ∧
      ∀ v ∈ out, min 0 (min y1 y2) ≤ v ∧ v ≤ max 0 (max y1 y2) := by
  have hL : (0 : ℚ) ≤ length := Nat.cast_nonneg _
  have hm0 : 0 ≤ x1 * length := mul_nonneg h0 hL
  have hm1 : 0 ≤ x2 * length := mul_nonneg h1 hL
  obtain ⟨out, e1, e2, e3, e4⟩ := pathSamples_follows (fuel := fuel) (length := length) (pc := 4)
    (x := [x1 * length, x1 * length + x2 * length]) (y := [0, y1, y2, 0])
    (c := none) (by omega) (by omega) (by simp) (by simp) (.inl rfl) hlen (by
      intro k hk
      have hk : k < 3 := by omega
      interval_cases k
      · exact hm0
      · change x1 * length ≤ x1 * length + x2 * length
        linarith
      · change x1 * length + x2 * length ≤ length
        nlinarith)
  refine ⟨out, ?_, e2, ?_, ?_⟩
  · rw [envelopeZero4, pathSamples4, e1]; rfl
  · rw [add_mul]; exact e3
  · refine e4 _ _ ?_
    intro k hk
    interval_cases k <;> simp

/-- Five points. Missing: the returned status is indeterminate. -/
theorem C76_envelope_zero5_partial {fuel length : Nat} {x1 x2 x3 y1 y2 y3 : ℚ} (hlen : length < 4294967296) (h0 : 0 ≤ x1)
    (h1 : 0 ≤ x2) (h2 : 0 ≤ x3) (h3 : x1 + x2 + x3 ≤ 1) :
    ∃ out, envelopeZero5 fuel length x1 x2 x3 y1 y2 y3 = .ok (none, out) ∧ out.length = length ∧
      FollowsPoints out [⟨0, 0⟩, ⟨x1 * length, y1⟩, ⟨(x1 + x2) * length, y2⟩, ⟨(x1 + x2 + x3) * length, y3⟩, ⟨length, 0⟩] ∧
      ∀ v ∈ out, min 0 (min y1 (min y2 y3)) ≤ v ∧ v ≤ max 0 (max y1 (max y2 y3)) := by
  have hL : (0 : ℚ) ≤ length := Nat.cast_nonneg _
  have hm0 : 0 ≤ x1 * length := mul_nonneg h0 hL
  have hm1 : 0 ≤ x2 * length := mul_nonneg h1 hL
  have hm2 : 0 ≤ x3 * length := mul_nonneg h2 hL
  obtain ⟨out, e1, e2, e3, e4⟩ := pathSamples_follows (fuel := fuel) (length := length) (pc := 5)
    (x := [x1 * length, x1 * length + x2 * length, x1 * length + x2 * length + x3 * length]) (y := [0, y1, y2, y3, 0])
    (c := none) (by omega) (by omega) (by simp) (by simp) (.inl rfl) hlen (by
      intro k hk
      have hk : k < 4 := by omega
      interval_cases k
      · exact hm0
      · change x1 * length ≤ x1 * length + x2 * length
        linarith
      · change x1 * length + x2 * length ≤ x1 * length + x2 * length + x3 * length
        linarith
      · change x1 * length + x2 * length + x3 * length ≤ length
        nlinarith)
  refine ⟨out, ?_, e2, ?_, ?_⟩
  · simp only [envelopeZero5]
    rw [pathSamples5, e1]; rfl
  · rw [add_mul (x1 + x2), add_mul x1]; exact e3
  · refine e4 _ _ ?_
    intro k hk
    interval_cases k <;> simp

example : envelopeZero3 0 8 (1 / 4) 1 = .ok (none, [0, 1 / 2, 1, 5 / 6, 2 / 3, 1 / 2, 1 / 3, 1 / 6]) := by decide +kernel

/-! ## C90 Scaled envelopes -/

/-- `sp_envelope_scaled` is never well-defined for three or more points. -/
theorem C90_envelope_scaled_false {fuel length pc : Nat} (h : 3 ≤ pc) (scalar : ℚ) (x y : Buf ℚ) (c : Option (Buf ℚ)) :
    ∀ out, envelopeScaled fuel length pc scalar x y c ≠ .ok out := by
  intro out h'
  rw [envelopeScaled] at h'
  simp only [bind_eq_ok] at h'
  obtain ⟨_, _, _, _, r, hr, _⟩ := h'
  exact envelopeArrays_fault h r hr

/-- Three points: each time is the value of the envelope through the scaled points, rounded to the nearest integer. Missing: the
returned status is indeterminate. -/
theorem C90_envelope_scaled3_partial {fuel length : Nat} {s x1 y1 y2 y3 : ℚ} (hlen : length < 4294967296) (h0 : 0 ≤ x1) (h1 : x1 ≤ 1)
    (hy : ∀ y ∈ [y1, y2, y3], 0 ≤ s * y ∧ s * y ≤ 4294967295) :
    ∃ out, envelopeScaled3 fuel length s x1 y1 y2 y3 = .ok (none, out.map roundHalfUp) ∧ out.length = length ∧
      FollowsPoints out [⟨0, s * y1⟩, ⟨x1 * length, s * y2⟩, ⟨length, s * y3⟩] := by
  have hL : (0 : ℚ) ≤ length := Nat.cast_nonneg _
  have hm0 : 0 ≤ x1 * length := mul_nonneg h0 hL
  obtain ⟨out, e1, e2, e3, e4⟩ := pathSamples_follows (fuel := fuel) (length := length) (pc := 3) (x := [x1 * length])
    (y := [s * y1, s * y2, s * y3]) (c := none) (by omega) (by omega) (by simp) (by simp) (.inl rfl) hlen (by
      intro k hk
      have hk : k < 2 := by omega
      interval_cases k
      · exact hm0
      · change x1 * length ≤ length
        nlinarith)
  refine ⟨out, ?_, e2, e3⟩
  rw [envelopeScaled3, pathTimes3, mul_comm y1, mul_comm y2, mul_comm y3, pathTimes_eq e1 e2 (e4 _ _ ?_)]
  · rfl
  · intro k hk
    interval_cases k <;> simpa using hy _ (by simp)

/-- Four points. Missing: the returned status is indeterminate. -/
theorem C90_envelope_scaled4_partial {fuel length : Nat} {s x1 x2 y1 y2 y3 y4 : ℚ} (hlen : length < 4294967296) (h0 : 0 ≤ x1)
    (h1 : 0 ≤ x2) (h2 : x1 + x2 ≤ 1) (hy : ∀ y ∈ [y1, y2, y3, y4], 0 ≤ s * y ∧ s * y ≤ 4294967295) :
    ∃ out, envelopeScaled4 fuel length s x1 x2 y1 y2 y3 y4 = .ok (none, out.map roundHalfUp) ∧ out.length = length ∧
      FollowsPoints out [⟨0, s * y1⟩, ⟨x1 * length, s * y2⟩, ⟨(x1 + x2) * length, s * y3⟩, ⟨length, s * y4⟩] := by
  have hL : (0 : ℚ) ≤ length := Nat.cast_nonneg _
  have hm0 : 0 ≤ x1 * length := mul_nonneg h0 hL
  have hm1 : 0 ≤ x2 * length := mul_nonneg h1 hL
  obtain ⟨out, e1, e2, e3, e4⟩ := pathSamples_follows (fuel := fuel) (length := length) (pc := 4)
    (x := [x1 * length, x1 * length + x2 * length]) (y := [s * y1, s * y2, s * y3, s * y4])
    (c := none) (by omega) (by omega) (by simp) (by simp) (.inl rfl) hlen (by
      intro k hk
      have hk : k < 3 := by omega
      interval_cases k
      · exact hm0
      · change x1 * length ≤ x1 * length + x2 * length
        linarith
      · change x1 * length + x2 * length ≤ length
        nlinarith)
  refine ⟨out, ?_, e2, by rw [add_mul]; exact e3⟩
  rw [envelopeScaled4, pathTimes4, pathTimes_eq e1 e2 (e4 _ _ ?_)]
  · rfl
  · intro k hk
    interval_cases k <;> simpa using hy _ (by simp)

/-- Five points. Missing: the returned status is indeterminate. -/
theorem C90_envelope_scaled5_partial {fuel length : Nat} {s x1 x2 x3 y1 y2 y3 y4 y5 : ℚ} (hlen : length < 4294967296) (h0 : 0 ≤ x1)
    (h1 : 0 ≤ x2) (h2 : 0 ≤ x3) (h3 : x1 + x2 + x3 ≤ 1)
    (hy : ∀ y ∈ [y1, y2, y3, y4, y5], 0 ≤ s * y ∧ s * y ≤ 4294967295) :
    ∃ out, envelopeScaled5 fuel length s x1 x2 x3 y1 y2 y3 y4 y5 = .ok (none, out.map roundHalfUp) ∧ out.length = length ∧
      FollowsPoints out [⟨0, s * y1⟩, ⟨x1 * length, s * y2⟩, ⟨(x1 + x2) * length, s * y3⟩, ⟨(x1 + x2 + x3) * length, s * y4⟩,
        ⟨length, s * y5⟩] := by
  have hL : (0 : ℚ) ≤ length := Nat.cast_nonneg _
  have hm0 : 0 ≤ x1 * length := mul_nonneg h0 hL
  have hm1 : 0 ≤ x2 * length := mul_nonneg h1 hL
  have hm2 : 0 ≤ x3 * length := mul_nonneg h2 hL
  obtain ⟨out, e1, e2, e3, e4⟩ := pathSamples_follows (fuel := fuel) (length := length) (pc := 5)
    (x := [x1 * length, x1 * length + x2 * length, x1 * length + x2 * length + x3 * length])
    (y := [s * y1, s * y2, s * y3, s * y4, s * y5])
    (c := none) (by omega) (by omega) (by simp) (by simp) (.inl rfl) hlen (by
      intro k hk
      have hk : k < 4 := by omega
      interval_cases k
      · exact hm0
      · change x1 * length ≤ x1 * length + x2 * length
        linarith
      · change x1 * length + x2 * length ≤ x1 * length + x2 * length + x3 * length
        linarith
      · change x1 * length + x2 * length + x3 * length ≤ length
        nlinarith)
  refine ⟨out, ?_, e2, by rw [add_mul (x1 + x2), add_mul x1]; exact e3⟩
  simp only [envelopeScaled5]
  rw [pathTimes5, pathTimes_eq e1 e2 (e4 _ _ ?_)]
  · rfl
  · intro k hk
    interval_cases k <;> simpa using hy _ (by simp)

example : envelopeScaled3 0 8 10 (1 / 4) (1 / 10) 1 0 = .ok (none, [1, 6, 10, 8, 7, 5, 3, 2]) := by decide +kernel

end Sp
