import Verif.Lemmas.PathGet

/-! # `sp_path_samples` without curves -/

set_option linter.unusedSectionVars false

namespace Sp

/-- No curvature, or only curvature that is ignored. -/
def NoCurve (c : Option (Buf ℚ)) (pc : Nat) : Prop :=
  c = none ∨ ∃ b, c = some b ∧ pc - 1 ≤ List.length b ∧ ∀ v ∈ b, v < 1 / 100000

theorem pathCurvature_noCurve {c : Option (Buf ℚ)} {pc i : Nat} (h : NoCurve c pc) (h1 : 1 ≤ i) (h2 : i < pc) :
    ∃ v, pathCurvature c i = .ok v ∧ v < 1 / 100000 := by
  rcases h with rfl | ⟨b, rfl, hb, hv⟩
  · exact ⟨0, rfl, by norm_num⟩
  · refine ⟨b[i - 1]'(by omega), ?_, hv _ (List.getElem_mem _)⟩
    rw [pathCurvature, if_neg (by omega)]
    exact rd_eq_ok (by omega)

/-- The points. -/
def pathPoint (length pc : Nat) (x y : Buf ℚ) (k : Nat) : Point :=
  ⟨if k = 0 then 0 else if k + 1 = pc then length else x.getD (k - 1) 0, y.getD k 0⟩

/-- The steps. -/
def pathSteps (length pc : Nat) (x y : Buf ℚ) : List PathStep :=
  .move 0 (y.getD 0 0) :: (List.range' 0 (pc - 1)).map fun k =>
    .line (pathPoint length pc x y (k + 1)).x (pathPoint length pc x y (k + 1)).y

theorem collectSegments_some (l : List Segment) : collectSegments (l.map some) = .ok l := by
  induction l with
  | nil => rfl
  | cons s l ih => rw [List.map_cons, collectSegments, ih]; rfl

theorem tab_succ {S : Type} (n : Nat) (f : Nat → S) : tab (n + 1) f = f 0 :: tab n fun k => f (k + 1) := by
  apply List.ext_getElem?
  intro i
  cases i with
  | zero => rw [tab_getElem?]; simp
  | succ i => rw [tab_getElem?, List.getElem?_cons_succ, tab_getElem?]; simp

theorem tab_map {S T : Type} (n : Nat) (f : Nat → S) (g : S → T) : (tab n f).map g = tab n fun k => g (f k) := by
  apply List.ext_getElem?
  intro i
  rw [tab_getElem?, List.getElem?_map, tab_getElem?]
  split <;> rfl

theorem take_tab {S : Type} {n m : Nat} (f : Nat → S) (h : n ≤ m) : (tab m f).take n = tab n f := by
  apply List.ext_getElem?
  intro i
  rw [tab_getElem?, List.getElem?_take, tab_getElem?]
  split
  · rw [if_pos (by omega)]
  · rfl

theorem range_map_tab {S : Type} (n : Nat) (f : Nat → S) : (List.range' 0 n).map f = tab n f := by
  apply List.ext_getElem?
  intro i
  rw [tab_getElem?]
  split
  · next h => simp [h]
  · next h => simp [h]

theorem segments_collected {fuel length pc : Nat} {x y : Buf ℚ} {c : Option (Buf ℚ)} (h2 : 2 ≤ pc) (h24 : pc ≤ 24)
    (hx : pc - 2 ≤ x.length) (hy : pc ≤ y.length) (hc : NoCurve c pc) :
    pathSamples fuel length pc x y c = (do
      let path ← splinePathSet ((pathSteps length pc x y).map PathStep.segment)
      let r ← splineGet fuel path 0 length (List.replicate length 0)
      pure r.2) := by
  obtain ⟨cn, hcn, hcl⟩ := pathCurvature_noCurve hc (i := pc - 1) (by omega) (by omega)
  rw [pathSamples]
  rw [rd_eq_ok (show pc - 1 < List.length y by omega), hcn, rd_eq_ok (show 0 < List.length y by omega)]
  simp only [ok_bind', pathSegment, if_pos hcl]
  rw [tab_replicate, wr_tab _ (by omega)]
  simp only [ok_bind']
  rw [wr_tab _ (by omega)]
  simp only [ok_bind']
  let G : Nat → Nat → Option Segment := fun i k =>
    if k = 0 then some (splineMove 0 (y.getD 0 0))
    else if k < i ∨ k + 1 = pc then some (splineLine (pathPoint length pc x y k).x (pathPoint length pc x y k).y) else none
  have key := forRange_states (fun i => tab 24 (G i)) (lo := 1) (hi := pc - 1) (by omega) (body := pathSegmentBody x y c)
    (fun i h1 hi => by
      obtain ⟨ci, hci, hcil⟩ := pathCurvature_noCurve hc (i := i) h1 (by omega)
      rw [pathSegmentBody, rd_eq_ok (show i - 1 < List.length x by omega), rd_eq_ok (show i < List.length y by omega), hci]
      simp only [ok_bind', pathSegment, if_pos hcil]
      rw [wr_tab _ (by omega)]
      refine congrArg _ (tab_congr fun k _ => ?_)
      simp only [G]
      by_cases hk : k = i
      · subst hk
        rw [if_pos rfl, if_neg (by omega), if_pos (by omega), pathPoint]
        simp only
        rw [if_neg (by omega), if_neg (by omega), getD_of_lt, getD_of_lt]
      · rw [if_neg hk]
        by_cases hk0 : k = 0
        · rw [if_pos hk0, if_pos hk0]
        · rw [if_neg hk0, if_neg hk0]
          by_cases hk2 : k < i ∨ k + 1 = pc
          · rw [if_pos hk2, if_pos (by omega)]
          · rw [if_neg hk2, if_neg (by omega)])
  have hstart : (tab 24 fun k => if k = pc - 1 then some (splineLine (length : ℚ) y[pc - 1])
      else if k = 0 then some (splineMove 0 y[0]) else none) = tab 24 (G 1) := by
    refine tab_congr fun k _ => ?_
    simp only [G]
    by_cases hk : k = pc - 1
    · rw [if_pos hk, if_neg (by omega), if_pos (by omega), pathPoint]
      simp only
      rw [if_neg (by omega), if_pos (by omega), hk, getD_of_lt]
    · rw [if_neg hk]
      by_cases hk0 : k = 0
      · rw [if_pos hk0, if_pos hk0, getD_of_lt]
      · rw [if_neg hk0, if_neg hk0, if_neg (by omega)]
  rw [hstart, key]
  simp only [ok_bind']
  rw [take_tab _ h24]
  have hcol : tab pc (G (pc - 1)) = ((pathSteps length pc x y).map PathStep.segment).map some := by
    obtain ⟨m, rfl⟩ : ∃ m, pc = m + 1 := ⟨pc - 1, by omega⟩
    rw [tab_succ, pathSteps, List.map_cons, List.map_cons]
    congr 1
    rw [range_map_tab, tab_map, tab_map]
    refine tab_congr fun k hk => ?_
    simp only [G]
    rw [if_neg (by omega), if_pos (by omega)]
    rfl
  rw [hcol, collectSegments_some]
  rfl

theorem piecesFrom_lines (p : Nat → Point) (m n : Nat) :
    piecesFrom (p m) ((List.range' m n).map fun k => PathStep.line (p (k + 1)).x (p (k + 1)).y) =
      (List.range' m n).map fun k => ⟨.line, p k, p (k + 1)⟩ := by
  induction n generalizing m with
  | zero => rfl
  | succ n ih =>
    rw [List.range'_succ, List.map_cons, List.map_cons, piecesFrom]
    exact congrArg _ (ih (m + 1))

theorem joined_lines (p : Nat → Point) (m n : Nat) (h : ∀ k, m ≤ k → k < m + n → (p k).x ≤ (p (k + 1)).x)
    (hlim : ∀ k, m ≤ k → k ≤ m + n → (p k).x < 9223372036854775808) :
    Joined (p m).x ((List.range' m n).map fun k => ⟨.line, p k, p (k + 1)⟩) := by
  induction n generalizing m with
  | zero => exact .nil
  | succ n ih =>
    rw [List.range'_succ, List.map_cons]
    refine .cons rfl (h m (le_refl _) (by omega)) (hlim (m + 1) (by omega) (by omega)) ?_
    exact ih (m + 1) (fun k h1 h2 => h k (by omega) (by omega)) fun k h1 h2 => hlim k (by omega) (by omega)

theorem piecesAt_lines (p : Nat → Point) (m n : Nat) (h : ∀ k, m ≤ k → k < m + n → (p k).x ≤ (p (k + 1)).x)
    {k j : Nat} (hk1 : m ≤ k) (hk2 : k < m + n) (hj1 : trunc (p k).x ≤ j) (hj2 : j < trunc (p (k + 1)).x) (d : ℚ) :
    piecesAt 0 ((List.range' m n).map fun k => ⟨.line, p k, p (k + 1)⟩) d j =
      linearlyInterpolate (p k).y (p (k + 1)).y
        (((j - trunc (p k).x + trunc (trunc (p k).x - (p k).x) : Nat) : ℚ) / ((p (k + 1)).x - (p k).x)) := by
  induction n generalizing m with
  | zero => omega
  | succ n ih =>
    rw [List.range'_succ, List.map_cons, piecesAt]
    by_cases hkm : k = m
    · subst hkm
      rw [if_pos ⟨hj1, hj2⟩, Piece.value]
      simp only [Nat.max_zero]
    · have hmono : ∀ i, m + 1 ≤ i → i ≤ k → (p (m + 1)).x ≤ (p i).x := by
        intro i hi
        induction i, hi using Nat.le_induction with
        | base => intro _; exact le_refl _
        | succ i hi ihi =>
          intro hik
          exact le_trans (ihi (by omega)) (h i (by omega) (by omega))
      have := trunc_mono (hmono k (by omega) (le_refl _))
      rw [if_neg (by simp only; omega)]
      exact ih (m + 1) (fun k h1 h2 => h k (by omega) (by omega)) (by omega) (by omega)

/-- All of `sp_path_samples` without curves, also for fractional x. -/
theorem pathSamples_lines {fuel length pc : Nat} {x y : Buf ℚ} {c : Option (Buf ℚ)} (h2 : 2 ≤ pc) (h24 : pc ≤ 24)
    (hx : pc - 2 ≤ x.length) (hy : pc ≤ y.length) (hc : NoCurve c pc) (hlen : length < 4294967296)
    (hmono : ∀ k, k + 1 < pc → (pathPoint length pc x y k).x ≤ (pathPoint length pc x y (k + 1)).x) :
    ∃ v : Nat → ℚ, pathSamples fuel length pc x y c = .ok (tab length v) ∧
      ∀ k j, k + 1 < pc → trunc (pathPoint length pc x y k).x ≤ j → j < trunc (pathPoint length pc x y (k + 1)).x →
        v j = linearlyInterpolate (y.getD k 0) (y.getD (k + 1) 0)
          (((j - trunc (pathPoint length pc x y k).x : Nat) : ℚ) /
            ((pathPoint length pc x y (k + 1)).x - (pathPoint length pc x y k).x)) := by
  have hlast : (pathPoint length pc x y (pc - 1)).x = length := by
    rw [pathPoint]
    simp only
    rw [if_neg (by omega), if_pos (by omega)]
  have hup : ∀ n k, k + n = pc - 1 → (pathPoint length pc x y k).x ≤ length := by
    intro n
    induction n with
    | zero => intro k hk; rw [show k = pc - 1 by omega, hlast]
    | succ n ih => intro k hk; exact le_trans (hmono k (by omega)) (ih (k + 1) (by omega))
  have hlo : ∀ k, k < pc → 0 ≤ (pathPoint length pc x y k).x := by
    intro k
    induction k with
    | zero => intro _; simp [pathPoint]
    | succ k ih => intro hk; exact le_trans (ih (by omega)) (hmono k hk)
  have hlim : ∀ k, k < pc → (pathPoint length pc x y k).x < 9223372036854775808 := by
    intro k hk
    refine lt_of_le_of_lt (hup (pc - 1 - k) k (by omega)) ?_
    have : (length : ℚ) < 4294967296 := by exact_mod_cast hlen
    linarith
  rw [segments_collected h2 h24 hx hy hc, splinePathSet]
  obtain ⟨segs, hs1, hs2⟩ := prepareSegments_pieces (pathSteps length pc x y) ⟨0, 0⟩
  rw [hs1]
  simp only [ok_bind', pure_eq_ok]
  have hp0 : (⟨0, y.getD 0 0⟩ : Point) = pathPoint length pc x y 0 := by simp [pathPoint]
  have hpieces : piecesFrom ⟨0, 0⟩ (pathSteps length pc x y) = ⟨.move, ⟨0, 0⟩, ⟨0, y.getD 0 0⟩⟩ ::
      (List.range' 0 (pc - 1)).map fun k => ⟨.line, pathPoint length pc x y k, pathPoint length pc x y (k + 1)⟩ := by
    rw [pathSteps, piecesFrom]
    simp only [PathStep.target, PathStep.segment, splineMove]
    rw [hp0, piecesFrom_lines]
  have hjoin : Joined 0 (piecesFrom ⟨0, 0⟩ (pathSteps length pc x y)) := by
    rw [hpieces]
    refine .cons rfl (le_refl _) (by norm_num) ?_
    have := joined_lines (pathPoint length pc x y) 0 (pc - 1) (fun k _ hk => hmono k (by omega))
      (fun k _ hk => hlim k (by omega))
    rw [← hp0] at this
    exact this
  obtain ⟨path', hg, _⟩ := splineGet_inv (fuel := fuel) hjoin (le_refl _) (by simp [trunc]) (path := ⟨segs, 0, 0⟩) (prev := 0)
    (e := 0) ⟨hs2, fun _ => rfl, fun k p hk => absurd hk (Nat.not_lt_zero _), fun _ => by rw [hpieces]; simp⟩
    (a := 0) (b := length) (Nat.zero_le _) (.inl (le_refl _)) (fun _ => 0)
  rw [tab_replicate]
  rw [Nat.sub_zero] at hg
  rw [hg]
  simp only [ok_bind']
  refine ⟨_, rfl, ?_⟩
  intro k j hk hj1 hj2
  rw [hpieces, piecesAt, if_neg (by simp [trunc]), Nat.zero_add,
    piecesAt_lines (pathPoint length pc x y) 0 (pc - 1) (fun k _ hk => hmono k (by omega)) (by omega) (by omega) hj1 hj2]
  have h0 : trunc ((trunc (pathPoint length pc x y k).x : ℚ) - (pathPoint length pc x y k).x) = 0 := by
    have := trunc_le (hlo k (by omega))
    rw [trunc, Int.toNat_eq_zero]
    have h3 : ⌊(trunc (pathPoint length pc x y k).x : ℚ) - (pathPoint length pc x y k).x⌋ ≤ ⌊(0 : ℚ)⌋ :=
      Int.floor_le_floor (by linarith)
    simpa using h3
  rw [h0, Nat.add_zero]
  rfl

/-- Every position is between two points. -/
theorem between_points {length pc : Nat} {X : Nat → Nat} (h2 : 2 ≤ pc) (h0 : X 0 = 0) (hl : X (pc - 1) = length) {j : Nat}
    (hj : j < length) : ∃ k, k + 1 < pc ∧ X k ≤ j ∧ j < X (k + 1) := by
  by_contra hcon
  push Not at hcon
  have : ∀ k, k < pc → X k ≤ j := by
    intro k
    induction k with
    | zero => intro _; omega
    | succ k ih => intro hk; exact hcon k hk (ih (by omega))
  have := this (pc - 1) (by omega)
  omega

end Sp
