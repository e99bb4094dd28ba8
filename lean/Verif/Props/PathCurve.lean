import Verif.Lemmas.PathCurve
import Verif.Lemmas.Envelope
import Verif.Lemmas.BezierCubic
import Verif.Props.Path

/-! # Properties of curved paths -/

set_option linter.unusedSectionVars false

namespace Sp

/-! ## C75 Curved paths can be read block by block -/

/-- A block of a curve with one control point that begins as far into the segment as two times its size reads the variable `x` before it
is set, whatever the curve. -/
theorem C75_later_block_false {fuel start stop A o : Nat} {s : Segment} {p0 p2 : Point} {out : Buf ℚ}
    (h0 : rd s.points 0 = .ok p0) (h2 : rd s.points (s.pointsCount - 1) = .ok p2) (hA : p0.x = A) (hs : A ≤ start)
    (hstop : start ≤ stop) (hlim : stop < 9223372036854775808) (hlater : 2 * (stop - start) ≤ start - A) :
    bezierGenerate bezier1Points (fuel + 1) start stop s o out = .error .uninitialized := by
  rw [bezierGenerate, h0, h2]
  simp only [ok_bind']
  have hst : (start : ℚ) < 9223372036854775808 := by exact_mod_cast (by omega : start < 9223372036854775808)
  have hAs : (A : ℚ) ≤ start := by exact_mod_cast hs
  have hA0 : (0 : ℚ) ≤ A := Nat.cast_nonneg _
  rw [hA, sizeOfValue_eq (by linarith) (by linarith), trunc_sub_natCast hs, sub64_of_le hstop (by omega)]
  simp only [ok_bind']
  rw [Nat.mod_eq_of_lt (by omega), bezierLoop, if_neg (by omega)]

/-- A path of a single curve from 0 to 20. Read in blocks of 10, the second block is written before the beginning of the output; read as
15 and 5, the second block uses an unset variable. The read over the whole range is well-defined. -/
theorem C75_blocks_false :
    (do let path ← splinePathSet [splineBezier1 10 5 20 0]
        readBlocks 100 path [(0, 10), (10, 20)]) = .error .outOfBounds ∧
    (do let path ← splinePathSet [splineBezier1 10 5 20 0]
        readBlocks 100 path [(0, 15), (15, 20)]) = .error .uninitialized ∧
    ∃ bs, (do let path ← splinePathSet [splineBezier1 10 5 20 0]
              readBlocks 100 path [(0, 20)]) = .ok bs := by
  refine ⟨by decide +kernel, by decide +kernel, ?_⟩
  have : (do let path ← splinePathSet [splineBezier1 10 5 20 0]
             readBlocks 100 path [(0, 20)]).isOk = true := by decide +kernel
  cases h : (do let path ← splinePathSet [splineBezier1 10 5 20 0]
                readBlocks 100 path [(0, 20)]) with
  | ok out => exact ⟨out, rfl⟩
  | error e => rw [h] at this; exact absurd this (by simp [Except.isOk, Except.toBool])

/-- A curve with one control point, between integer x, whose control point is not left or right of it, drawn as a whole: no undefined
behaviour, every sample of the segment is written with the y of a point of the curve whose x is at most a half away, nothing else is
changed, and the values are between the smallest and the largest y of the three points. Missing: drawing a segment in
more than one block, for which the property is false. -/
theorem C75_whole_segment_partial {fuel A E o : Nat} {s : Segment} {p0 p1 p2 : Point} {r : List Point} (hk : s.kind = .bezier1)
    (hc : s.pointsCount = 3) (hp : s.points = p0 :: p1 :: p2 :: r) (h0 : p0.x = A) (h2 : p2.x = E) (hlt : A < E)
    (hlim : E < 9223372036854775808) (h01 : p0.x ≤ p1.x) (h12 : p1.x ≤ p2.x) (hfuel : 2 * (E - A) + 1 < fuel)
    {out0 : Buf ℚ} (ho : o + (E - A) ≤ out0.length) :
    ∃ out, s.generate fuel A E o out0 = .ok out ∧ out.length = out0.length ∧
      (∀ k, k < o ∨ o + (E - A) ≤ k → out[k]? = out0[k]?) ∧
      ∀ j, j < E - A → ∃ v, out[o + j]? = some v ∧ OnCurve p0 p1 p2 (A + j) v ∧
        min p0.y (min p1.y p2.y) ≤ v ∧ v ≤ max p0.y (max p1.y p2.y) := by
  obtain ⟨out, e1, e2, e3, e4⟩ := bezierGenerate_whole (fuel := fuel) (s := s) ⟨⟨r, hp⟩, h0, h2, hlt, hlim, h01, h12⟩ hc hfuel ho
  refine ⟨out, ?_, e2, e3, ?_⟩
  · rw [Segment.generate, hk]
    exact e1
  · intro j hj
    obtain ⟨t, t0, t1, ht, hv⟩ := e4 j hj
    refine ⟨_, hv, bezier_onCurve t0 t1 ht, ?_⟩
    exact bezier1_bounds t0 t1 ⟨by simp, by simp⟩ ⟨by simp, by simp⟩ ⟨by simp, by simp⟩

example : ({ splineBezier1 10 5 20 0 with points := [⟨0, 0⟩, ⟨10, 5⟩, ⟨20, 0⟩, point0] } : Segment).kind = .bezier1 ∧
    (0 : ℚ) ≤ 10 ∧ (10 : ℚ) ≤ 20 := by
  refine ⟨rfl, ?_, ?_⟩ <;> norm_num

/-- A curve with two control points whose x does not decrease from point to point, between integer x, drawn as a whole: no undefined
behaviour, every sample of the segment is written with the y of a point of the curve whose x is at most a half away, or, where the curve
skips a sample, with the middle of such values for the neighbours; nothing else is changed, and the values are between the smallest and the
largest y of the four points. Missing: drawing a segment in more than one block, for which the property is false. -/
theorem C75_whole_cubic_partial {fuel A E o : Nat} {s : Segment} {p0 p1 p2 p3 : Point} {r : List Point} (hk : s.kind = .bezier2)
    (hc : s.pointsCount = 4) (hp : s.points = p0 :: p1 :: p2 :: p3 :: r) (h0 : p0.x = A) (h3 : p3.x = E) (hlt : A < E)
    (hlim : E < 9223372036854775808) (h01 : p0.x ≤ p1.x) (h12 : p1.x ≤ p2.x) (h23 : p2.x ≤ p3.x) (hfuel : 2 * (E - A) + 1 < fuel)
    {out0 : Buf ℚ} (ho : o + (E - A) ≤ out0.length) :
    ∃ out, s.generate fuel A E o out0 = .ok out ∧ out.length = out0.length ∧
      (∀ k, k < o ∨ o + (E - A) ≤ k → out[k]? = out0[k]?) ∧
      ∀ j, j < E - A → ∃ v, out[o + j]? = some v ∧ NearCubic p0 p1 p2 p3 (A + j) v ∧
        min p0.y (min p1.y (min p2.y p3.y)) ≤ v ∧ v ≤ max p0.y (max p1.y (max p2.y p3.y)) := by
  obtain ⟨out, e1, e2, e3, e4⟩ := cubicGenerate_whole (fuel := fuel) (s := s) hc hp h0 h3 hlt hlim h01 h12 h23 hfuel ho
  refine ⟨out, ?_, e2, e3, ?_⟩
  · rw [Segment.generate, hk]
    exact e1
  · intro j hj
    obtain ⟨v, v1, v2⟩ := e4 j hj
    exact ⟨v, v1, v2, nearCubic_bounds v2 ⟨by simp, by simp⟩ ⟨by simp, by simp⟩ ⟨by simp, by simp⟩ ⟨by simp, by simp⟩⟩

/-- A curve that skips samples: its x grows by more than one per step in the middle. -/
example : ∃ out, (splineBezier2 0 1 10 2 10 3).generate 100 0 10 0 (List.replicate 10 0) = .ok out ∧ out.length = 10 := by
  obtain ⟨out, h1, h2, _⟩ := C75_whole_cubic_partial (fuel := 100) (A := 0) (E := 10) (o := 0) (s := splineBezier2 0 1 10 2 10 3)
    (p0 := point0) (p1 := ⟨0, 1⟩) (p2 := ⟨10, 2⟩) (p3 := ⟨10, 3⟩) (r := []) rfl rfl rfl (by simp [point0]) (by norm_num) (by norm_num)
    (by norm_num) (by simp [point0]) (by norm_num) (by norm_num) (by norm_num) (out0 := List.replicate 10 0) (by simp)
  exact ⟨out, h1, by simpa using h2⟩

/-! ## C91 The control point of an arc -/

/-- The point computed by `spline_path_perpendicular_point`, for points of which the second is right of the first, not on a horizontal
line, and not lower by more than the horizontal distance: it is on the perpendicular through the middle, it is in the
rectangle between the points for distances from -1 to 1, and it is on a side of the rectangle for the distance 1.
Missing: horizontal lines and steep descents, for which the property is false. -/
theorem C91_control_point_partial {p q : Point} {c : ℚ} (hx : p.x < q.x) (hy : p.y ≠ q.y) (hs : p.y - q.y ≤ q.x - p.x)
    (h0 : -1 ≤ c) (h1 : c ≤ 1) :
    ∃ r, perpendicularPoint p q c = .ok r ∧
      (r.x - (p.x + q.x) / 2) * (q.x - p.x) + (r.y - (p.y + q.y) / 2) * (q.y - p.y) = 0 ∧
      (p.x ≤ r.x ∧ r.x ≤ q.x ∧ min p.y q.y ≤ r.y ∧ r.y ≤ max p.y q.y) ∧
      (c = 1 → r.x = q.x ∨ r.y = p.y) := by
  refine ⟨arcControl p q c, perpendicularPoint_eq hx hy, ?_, arcControl_inside hx hs h0 h1, ?_⟩
  · have hw : q.x - p.x ≠ 0 := by linarith
    have hh : q.y - p.y ≠ 0 := fun h => hy (by linarith)
    rw [arcControl]
    split
    · simp only
      field_simp
      ring
    · simp only
      field_simp
      ring
  · rintro rfl
    rw [arcControl]
    split
    · left; simp only; ring
    · right; simp only; ring

example : perpendicularPoint ⟨0, 0⟩ ⟨10, 4⟩ (1 / 2) = .ok ⟨27 / 5, 1⟩ := by decide +kernel

/-- A line that goes down steeply: the point is right of the rectangle. -/
theorem C91_steep_descent_false : perpendicularPoint ⟨0, 100⟩ ⟨4, 0⟩ 1 = .ok ⟨1252, 100⟩ := by decide +kernel

/-- A horizontal line at y 1: the point is not on the line, which is the whole rectangle. -/
theorem C91_horizontal_false : perpendicularPoint ⟨0, 1⟩ ⟨4, 1⟩ 1 = .ok ⟨2, 3 / 2⟩ := by decide +kernel

/-! ## C92 Paths with curvature -/

/-- `sp_path_samples` with curvature, for points with strictly increasing integer x and curvatures up to 1, where a segment that is
curved is not horizontal and does not go down by more than its width: no undefined behaviour, all samples are written,
each sample is on the line or on the curve of its segment and between the y values of the points of its segment.
Missing: curves for which the control point is outside of the rectangle, where the property is false. -/
theorem C92_curved_paths_partial {fuel length pc : Nat} {x : List Nat} {y c : Buf ℚ} (h2 : 2 ≤ pc) (h24 : pc ≤ 24)
    (hx : pc - 2 ≤ x.length) (hy : pc ≤ y.length) (hc : pc - 1 ≤ c.length) (hlen : length < 4294967296)
    (hfuel : 2 * length + 1 < fuel)
    (hinc : ∀ k, k + 1 < pc → pathX length pc x k < pathX length pc x (k + 1))
    (hcurve : ∀ k, k + 1 < pc → c.getD k 0 < 1 / 100000 ∨ (c.getD k 0 ≤ 1 ∧ y.getD k 0 ≠ y.getD (k + 1) 0 ∧
      y.getD k 0 - y.getD (k + 1) 0 ≤ (pathX length pc x (k + 1) : ℚ) - pathX length pc x k)) :
    ∃ out, pathSamples fuel length pc (x.map fun n : Nat => (n : ℚ)) y (some c) = .ok out ∧ out.length = length ∧
      ∀ j, j < length → ∃ k v, k + 1 < pc ∧ pathX length pc x k ≤ j ∧ j < pathX length pc x (k + 1) ∧ out[j]? = some v ∧
        (c.getD k 0 < 1 / 100000 →
          v = lineThrough (pathX length pc x k) (y.getD k 0) (pathX length pc x (k + 1)) (y.getD (k + 1) 0) j) ∧
        (1 / 100000 ≤ c.getD k 0 →
          OnCurve ⟨pathX length pc x k, y.getD k 0⟩
            (arcControl ⟨pathX length pc x k, y.getD k 0⟩ ⟨pathX length pc x (k + 1), y.getD (k + 1) 0⟩ (c.getD k 0))
            ⟨pathX length pc x (k + 1), y.getD (k + 1) 0⟩ j v) ∧
        min (y.getD k 0) (y.getD (k + 1) 0) ≤ v ∧ v ≤ max (y.getD k 0) (y.getD (k + 1) 0) := by
  have hpt : ∀ k, pathPoint length pc (x.map fun n : Nat => (n : ℚ)) y k = ⟨pathX length pc x k, y.getD k 0⟩ := by
    intro k
    have := pathPoint_cast (length := length) (pc := pc) (x := x) (y := y) k
    rw [← this]
    rfl
  obtain ⟨out, e1, e2, e3⟩ := pathSamples_curved (fuel := fuel) (length := length) (x := x.map fun n : Nat => (n : ℚ)) (y := y) (c := c)
    (X := pathX length pc x) h2 h24 (by simpa using hx) hy hc hlen hfuel pathPoint_cast hinc (by
      intro k hk
      rw [hpt, hpt]
      exact hcurve k hk)
  refine ⟨out, e1, e2, ?_⟩
  intro j hj
  obtain ⟨k, v, k1, k2, k3, k4, k5⟩ := e3 j hj
  rw [hpt, hpt, SegValue] at k5
  have hlt : (pathX length pc x k : ℚ) < pathX length pc x (k + 1) := by exact_mod_cast hinc k k1
  refine ⟨k, v, k1, k2, k3, k4, ?_, ?_, ?_⟩
  · intro h
    rw [if_pos h] at k5
    exact k5
  · intro h
    rw [if_neg (by linarith)] at k5
    exact k5
  · by_cases h : c.getD k 0 < 1 / 100000
    · rw [if_pos h] at k5
      rw [k5, lineThrough]
      have d0 : (0 : ℚ) < (pathX length pc x (k + 1) : ℚ) - pathX length pc x k := by linarith
      have t0 : (0 : ℚ) ≤ ((j : ℚ) - pathX length pc x k) / ((pathX length pc x (k + 1) : ℚ) - pathX length pc x k) := by
        refine div_nonneg ?_ d0.le
        have : (pathX length pc x k : ℚ) ≤ j := by exact_mod_cast k2
        linarith
      have t1 : ((j : ℚ) - pathX length pc x k) / ((pathX length pc x (k + 1) : ℚ) - pathX length pc x k) ≤ 1 := by
        rw [div_le_one d0]
        have : (j : ℚ) ≤ pathX length pc x (k + 1) := by exact_mod_cast k3.le
        linarith
      generalize ((j : ℚ) - pathX length pc x k) / ((pathX length pc x (k + 1) : ℚ) - pathX length pc x k) = t at *
      have a1 := min_le_left (y.getD k 0) (y.getD (k + 1) 0)
      have a2 := min_le_right (y.getD k 0) (y.getD (k + 1) 0)
      have a3 := le_max_left (y.getD k 0) (y.getD (k + 1) 0)
      have a4 := le_max_right (y.getD k 0) (y.getD (k + 1) 0)
      constructor <;> nlinarith
    · rw [if_neg h] at k5
      obtain ⟨c1, _, hs⟩ : c.getD k 0 ≤ 1 ∧ y.getD k 0 ≠ y.getD (k + 1) 0 ∧
          y.getD k 0 - y.getD (k + 1) 0 ≤ (pathX length pc x (k + 1) : ℚ) - pathX length pc x k := by
        rcases hcurve k k1 with h' | h'
        · exact absurd h' h
        · exact h'
      obtain ⟨_, _, b1, b2⟩ := arcControl_inside (p := ⟨pathX length pc x k, y.getD k 0⟩)
        (q := ⟨pathX length pc x (k + 1), y.getD (k + 1) 0⟩) (c := c.getD k 0) hlt hs (by linarith) c1
      exact onCurve_bounds k5 ⟨by simp, by simp⟩ ⟨b1, b2⟩ ⟨by simp, by simp⟩

example : pathSamples 20 4 2 [] [0, 4] (some [1 / 2]) = .ok [0, 5 / 8, 33 / 32, 21 / 8] := by decide +kernel

/-- A curved path that goes down steeply: from 100 to 0 in four samples. The curve is written behind the end of the output. -/
theorem C92_steep_descent_false : pathSamples 1000 4 2 [] [100, 0] (some [1]) = .error .outOfBounds := by decide +kernel

/-- A curved path between two points with y 1 has values greater than 1. -/
theorem C92_horizontal_false : ∃ out, pathSamples 100 4 2 [] [1, 1] (some [1]) = .ok out ∧ ∃ v ∈ out, 1 < v := by
  refine ⟨[1, 19 / 16, 5 / 4, 19 / 16], ?_, ?_⟩
  · decide +kernel
  · exact ⟨5 / 4, by simp, by norm_num⟩

end Sp
