import Verif.Model.PathRounded
import Verif.Lemmas.PathSamples
import Verif.Lemmas.PathCurve
import Verif.Lemmas.Float

/-! # Lemmas about paths with rounding -/

set_option linter.unusedSectionVars false

namespace Sp

theorem segments_collected_by {gen : Generator} {length pc : Nat} {x y : Buf ℚ} {c : Option (Buf ℚ)} (h2 : 2 ≤ pc) (h24 : pc ≤ 24)
    (hx : pc - 2 ≤ x.length) (hy : pc ≤ y.length) (hc : NoCurve c pc) :
    pathSamplesBy gen length pc x y c = (do
      let path ← splinePathSet ((pathSteps length pc x y).map PathStep.segment)
      let r ← splineGetBy gen path 0 length (List.replicate length 0)
      pure r.2) := by
  obtain ⟨cn, hcn, hcl⟩ := pathCurvature_noCurve hc (i := pc - 1) (by omega) (by omega)
  rw [pathSamplesBy]
  rw [rd_eq_ok (show pc - 1 < List.length y by omega), hcn, rd_eq_ok (show 0 < List.length y by omega)]
  simp only [ok_bind', pathSegment, if_pos hcl]
  rw [tab_replicate, wr_tab _ (by omega)]
  simp only [ok_bind']
  rw [wr_tab _ (by omega)]
  simp only [ok_bind']
  let G : Nat → Nat → Option Segment := fun i k =>
    if k = 0 then some (splineMove 0 (y.getD 0 0))
    else if k < i ∨ k + 1 = pc then some (splineLine (pathPoint length pc x y k).x (pathPoint length pc x y k).y) else none
  have key := forRange_states (fun i => tab 24 (G i)) (lo := 1) (hi := pc - 1) (by omega) (body := pathSegmentBody x y c)
    (fun i h1 hi => by
      obtain ⟨ci, hci, hcil⟩ := pathCurvature_noCurve hc (i := i) h1 (by omega)
      rw [pathSegmentBody, rd_eq_ok (show i - 1 < List.length x by omega), rd_eq_ok (show i < List.length y by omega), hci]
      simp only [ok_bind', pathSegment, if_pos hcil]
      rw [wr_tab _ (by omega)]
      refine congrArg _ (tab_congr fun k _ => ?_)
      simp only [G]
      by_cases hk : k = i
      · subst hk
        rw [if_pos rfl, if_neg (by omega), if_pos (by omega), pathPoint]
        simp only
        rw [if_neg (by omega), if_neg (by omega), getD_of_lt, getD_of_lt]
      · rw [if_neg hk]
        by_cases hk0 : k = 0
        · rw [if_pos hk0, if_pos hk0]
        · rw [if_neg hk0, if_neg hk0]
          by_cases hk2 : k < i ∨ k + 1 = pc
          · rw [if_pos hk2, if_pos (by omega)]
          · rw [if_neg hk2, if_neg (by omega)])
  have hstart : (tab 24 fun k => if k = pc - 1 then some (splineLine (length : ℚ) y[pc - 1])
      else if k = 0 then some (splineMove 0 y[0]) else none) = tab 24 (G 1) := by
    refine tab_congr fun k _ => ?_
    simp only [G]
    by_cases hk : k = pc - 1
    · rw [if_pos hk, if_neg (by omega), if_pos (by omega), pathPoint]
      simp only
      rw [if_neg (by omega), if_pos (by omega), hk, getD_of_lt]
    · rw [if_neg hk]
      by_cases hk0 : k = 0
      · rw [if_pos hk0, if_pos hk0, getD_of_lt]
      · rw [if_neg hk0, if_neg hk0, if_neg (by omega)]
  rw [hstart, key]
  simp only [ok_bind']
  rw [take_tab _ h24]
  have hcol : tab pc (G (pc - 1)) = ((pathSteps length pc x y).map PathStep.segment).map some := by
    obtain ⟨m, rfl⟩ : ∃ m, pc = m + 1 := ⟨pc - 1, by omega⟩
    rw [tab_succ, pathSteps, List.map_cons, List.map_cons]
    congr 1
    rw [range_map_tab, tab_map, tab_map]
    refine tab_congr fun k hk => ?_
    simp only [G]
    rw [if_neg (by omega), if_pos (by omega)]
    rfl
  rw [hcol, collectSegments_some]
  rfl

/-- A prepared segment from `A` to `E` that, drawn in parts or as a whole, gives the values `F`. -/
structure DrawsBy (gen : Generator) (F : Nat → ℚ) (s : Segment) (A E : Nat) : Prop where
  first : ∃ p, rd s.points 0 = .ok p ∧ p.x = A
  last : ∃ p, rd s.points (s.pointsCount - 1) = .ok p ∧ p.x = E
  draws : ∀ a b o n (g : Nat → ℚ), A ≤ a → a ≤ b → b ≤ E → o + (b - a) ≤ n →
    gen s a b o (tab n g) = .ok (tab n fun k => if o ≤ k ∧ k < o + (b - a) then F (a + (k - o)) else g k)

/-- Segments one after the other from `A` to `E`. -/
inductive ChainBy (gen : Generator) (F : Nat → ℚ) : Nat → List Segment → Nat → Prop
  | nil {E : Nat} : ChainBy gen F E [] E
  | cons {A B E : Nat} {s : Segment} {rest : List Segment} : A ≤ B → DrawsBy gen F s A B → ChainBy gen F B rest E →
      ChainBy gen F A (s :: rest) E

theorem ChainBy.le {gen : Generator} {F : Nat → ℚ} {A E : Nat} {segs : List Segment} (h : ChainBy gen F A segs E) : A ≤ E := by
  induction h with
  | nil => exact le_refl _
  | cons h1 _ _ ih => omega

theorem splineGetLoopBy_chain {gen : Generator} {F : Nat → ℚ} {A E start stop : Nat} (hss : start ≤ stop) (hE : E < 9223372036854775808)
    {segs : List Segment} (h : ChainBy gen F A segs E) (i cur prev : Nat) (g : Nat → ℚ) :
    ∃ cur' prev', splineGetLoopBy gen start stop segs i cur prev (tab (stop - start) g) =
      .ok (cur', prev', tab (stop - start) fun k => if A ≤ start + k ∧ start + k < E then F (start + k) else g k) := by
  induction h generalizing i cur prev g with
  | nil =>
    refine ⟨cur, prev, ?_⟩
    rw [splineGetLoopBy]
    congr 3
    exact tab_congr fun k _ => by rw [if_neg (by omega)]
  | @cons A B E s rest hAB hs hrest ih =>
    have hle := hrest.le
    obtain ⟨p, hp, hpx⟩ := hs.first
    obtain ⟨q, hq, hqx⟩ := hs.last
    rw [splineGetLoopBy, hp]
    simp only [ok_bind']
    rw [hpx, sizeOfValue_natCast (by omega), hq]
    simp only [ok_bind']
    rw [hqx, sizeOfValue_natCast (by omega)]
    simp only [ok_bind']
    by_cases c1 : A > stop
    · rw [if_pos c1]
      refine ⟨cur, start, ?_⟩
      congr 3
      exact tab_congr fun k hk => by rw [if_neg (by omega)]
    rw [if_neg c1]
    by_cases c2 : B < start
    · rw [if_pos c2]
      obtain ⟨cur', prev', q1⟩ := ih hE (i + 1) i start g
      refine ⟨cur', prev', ?_⟩
      rw [q1]
      congr 3
      refine tab_congr fun k hk => ?_
      by_cases c : start + k < E
      · rw [if_pos (by omega), if_pos (by omega)]
      · rw [if_neg (by omega), if_neg (by omega)]
    rw [if_neg c2]
    have hA : (if A < start then start else A) = max A start := by split <;> omega
    have hB : (if B > stop then stop else B) = min B stop := by split <;> omega
    have hO : (if A > start then A - start else 0) = max A start - start := by split <;> omega
    rw [hA, hB, hO, hs.draws _ _ _ _ _ (by omega) (by omega) (by omega) (by omega)]
    simp only [ok_bind']
    obtain ⟨cur', prev', q1⟩ := ih hE (i + 1) i start fun k =>
      if max A start - start ≤ k ∧ k < max A start - start + (min B stop - max A start) then
        F (max A start + (k - (max A start - start))) else g k
    refine ⟨cur', prev', ?_⟩
    rw [q1]
    congr 3
    refine tab_congr fun k hk => ?_
    by_cases c : B ≤ start + k ∧ start + k < E
    · rw [if_pos c, if_pos (by omega)]
    · rw [if_neg c]
      by_cases c' : A ≤ start + k ∧ start + k < B
      · rw [if_pos (by omega), if_pos (by omega)]
        congr 1
        omega
      · rw [if_neg (by omega), if_neg (by omega)]

theorem isDouble_nat {n : Nat} (h : n ≤ 9007199254740992) : IsDouble n := by
  have hq : (n : ℚ) ≤ 9007199254740992 := by exact_mod_cast h
  have h0 : (0 : ℚ) ≤ n := Nat.cast_nonneg n
  refine OnGrid.isDouble (e := 0) ⟨n, by simp⟩ (by norm_num) ?_ ?_
  · rw [abs_of_nonneg h0, zpow_zero, mul_one]
    calc (n : ℚ) ≤ 9007199254740992 := hq
      _ ≤ 2 ^ 53 := by norm_num
  · rw [abs_of_nonneg h0]
    refine le_trans hq (le_trans ?_ (le_doubleMax (e := 53) (by norm_num)))
    norm_num

/-- The value that is computed at position `j` of the line from `p` at `A` to `q` at `E`. -/
def lineValueR (rnd : ℚ → ℚ) (p q : Point) (A E j : Nat) : ℚ :=
  linearlyInterpolateR rnd p.y q.y (rnd (((j - A : Nat) : ℚ) / ((E - A : Nat) : ℚ)))

theorem line_drawsR {rnd : ℚ → ℚ} (h : RoundsToNearest rnd) (curves : Generator) {p q : Point} {A E : Nat} (hA : p.x = A) (hE : q.x = E) (hAE : A < E)
    (hlim : E ≤ 9007199254740992) {r : List Point} {F : Nat → ℚ} (hF : ∀ j, A ≤ j → j < E → F j = lineValueR rnd p q A E j) :
    DrawsBy (generateR rnd curves) F ⟨.line, 2, p :: q :: r, .none⟩ A E := by
  refine ⟨⟨p, rfl, hA⟩, ⟨q, rfl, hE⟩, ?_⟩
  intro a b o n g ha hab hb hn
  have hsize : rnd (q.x - p.x) = ((E - A : Nat) : ℚ) := by
    rw [hA, hE, ← Nat.cast_sub hAE.le, h.exact (isDouble_nat (by omega))]
  have hoff : sizeOfValue (rnd (rnd (a : ℚ) - p.x)) = .ok (a - A) := by
    rw [h.exact (isDouble_nat (n := a) (by omega)), hA, ← Nat.cast_sub ha, h.exact (isDouble_nat (by omega)), sizeOfValue_natCast (by omega)]
  have hne : ((E - A : Nat) : ℚ) ≠ 0 := by
    have : E - A ≠ 0 := by omega
    exact_mod_cast this
  have hsub : sub64 b a = b - a := sub64_of_le hab (by omega)
  simp only [generateR, lineGenerateR, hsub]
  rw [show rd (p :: q :: r) 0 = .ok p from rfl, show rd (p :: q :: r) 1 = .ok q from rfl]
  simp only [ok_bind', hoff, hsize]
  have key := forRange_states (fun m => tab n fun k => if o ≤ k ∧ k < o + m then F (a + (k - o)) else g k) (lo := 0) (hi := b - a)
    (Nat.zero_le _) (body := lineBodyR rnd p q ((E - A : Nat) : ℚ) (a - A) o) (fun i _ hi => by
      rw [lineBodyR, divValue, if_neg hne]
      simp only [ok_bind']
      rw [wr_tab _ (by omega)]
      refine congrArg _ (tab_congr fun k _ => ?_)
      by_cases hk : k = o + i
      · subst hk
        rw [if_pos rfl, if_pos ⟨by omega, by omega⟩, hF _ (by omega) (by omega), lineValueR, h.exact (isDouble_nat (n := i + (a - A)) (by omega)),
          show a + (o + i - o) - A = i + (a - A) by omega]
      · rw [if_neg hk]
        by_cases hc : o ≤ k ∧ k < o + i
        · rw [if_pos hc, if_pos ⟨hc.1, by omega⟩]
        · rw [if_neg hc, if_neg (by omega)])
  refine Eq.trans ?_ key
  congr 1
  refine tab_congr fun k _ => ?_
  rw [if_neg (by omega)]

theorem move_drawsR {rnd : ℚ → ℚ} (curves : Generator) {F : Nat → ℚ} {y : ℚ} :
    DrawsBy (generateR rnd curves) F ⟨.move, 2, [⟨0, 0⟩, ⟨0, y⟩, point0, point0], .none⟩ 0 0 := by
  refine ⟨⟨⟨0, 0⟩, rfl, by simp⟩, ⟨⟨0, y⟩, rfl, by simp⟩, ?_⟩
  intro a b o n g ha hab hb hn
  obtain rfl : b = 0 := by omega
  obtain rfl : a = 0 := by omega
  have hsub : sub64 0 0 = 0 := sub64_of_le (le_refl 0) (by omega)
  simp only [generateR, moveGenerate, hsub]
  rw [memzero_tab (by omega)]
  exact congrArg _ (tab_congr fun k _ => by rw [if_neg (by omega), if_neg (by omega)])

/-- The values of the whole path through the points `p k` at `X k`. -/
def pathValueR (rnd : ℚ → ℚ) (p : Nat → Point) (X : Nat → Nat) (N j : Nat) : ℚ :=
  let k := Nat.findGreatest (fun k => X k ≤ j) N
  lineValueR rnd (p k) (p (k + 1)) (X k) (X (k + 1)) j

theorem pathValueR_eq {rnd : ℚ → ℚ} {p : Nat → Point} {X : Nat → Nat} {N j k : Nat} (hinc : ∀ k, k < N → X k < X (k + 1)) (hk : k < N)
    (h1 : X k ≤ j) (h2 : j < X (k + 1)) : pathValueR rnd p X N j = lineValueR rnd (p k) (p (k + 1)) (X k) (X (k + 1)) j := by
  have hmono : ∀ d, k + 1 + d ≤ N → X (k + 1) ≤ X (k + 1 + d) := by
    intro d
    induction d with
    | zero => intro _; exact le_refl _
    | succ d ih =>
      intro hd
      have := hinc (k + 1 + d) (by omega)
      have := ih (by omega)
      rw [show k + 1 + (d + 1) = k + 1 + d + 1 by omega]
      omega
  have e : Nat.findGreatest (fun k => X k ≤ j) N = k := by
    rw [Nat.findGreatest_eq_iff]
    refine ⟨hk.le, fun _ => h1, ?_⟩
    intro n hn hnN
    have := hmono (n - (k + 1)) (by omega)
    rw [show k + 1 + (n - (k + 1)) = n by omega] at this
    omega
  rw [pathValueR, e]

/-- The prepared segments to the points after the one at index `m`. -/
theorem prepareSegments_chainR {rnd : ℚ → ℚ} (h : RoundsToNearest rnd) (curves : Generator) {p : Nat → Point} {X : Nat → Nat} {N : Nat}
    (hX : ∀ k, k ≤ N → (p k).x = X k) (hinc : ∀ k, k < N → X k < X (k + 1)) (hlim : X N ≤ 9007199254740992) (n m : Nat) (hmn : m + n = N) :
    ∃ segs, prepareSegments (p m) (((List.range' m n).map fun k => PathStep.line (p (k + 1)).x (p (k + 1)).y).map PathStep.segment) = .ok segs ∧
      ChainBy (generateR rnd curves) (pathValueR rnd p X N) (X m) segs (X N) := by
  induction n generalizing m with
  | zero =>
    refine ⟨[], rfl, ?_⟩
    rw [show m = N by omega]
    exact .nil
  | succ n ih =>
    obtain ⟨segs, h1, h2⟩ := ih (m + 1) (by omega)
    have hle := h2.le
    have hlt := hinc m (by omega)
    refine ⟨⟨.line, 2, p m :: p (m + 1) :: [point0, point0], .none⟩ :: segs, ?_, ?_⟩
    · rw [List.range'_succ, List.map_cons, List.map_cons, PathStep.segment, prepareSegments, splineLine]
      simp only
      rw [show wr [point0, (⟨(p (m + 1)).x, (p (m + 1)).y⟩ : Point), point0, point0] 0 (p m) = .ok [p m, p (m + 1), point0, point0] from rfl]
      simp only [ok_bind', Segment.runPrepare]
      rw [show rd [p m, p (m + 1), point0, point0] (2 - 1) = .ok (p (m + 1)) from rfl]
      simp only [ok_bind', h1]
      rfl
    · exact .cons hlt.le (line_drawsR h curves (hX m (by omega)) (hX (m + 1) (by omega)) hlt (by omega)
        (fun j j1 j2 => pathValueR_eq hinc (by omega) j1 j2)) h2

/-- `sp_path_samples` with rounding. -/
theorem pathSamplesR_eq {rnd : ℚ → ℚ} (h : RoundsToNearest rnd) (curves : Generator) {length pc : Nat} {x y : Buf ℚ} {c : Option (Buf ℚ)}
    {X : Nat → Nat} (h2 : 2 ≤ pc) (h24 : pc ≤ 24) (hx : pc - 2 ≤ x.length) (hy : pc ≤ y.length) (hc : NoCurve c pc) (hlen : length < 4294967296)
    (hX : ∀ k, k < pc → (pathPoint length pc x y k).x = X k) (hinc : ∀ k, k + 1 < pc → X k < X (k + 1)) :
    pathSamplesBy (generateR rnd curves) length pc x y c = .ok (tab length (pathValueR rnd (pathPoint length pc x y) X (pc - 1))) := by
  have hlast : X (pc - 1) = length := by
    have h := hX (pc - 1) (by omega)
    rw [pathPoint] at h
    simp only at h
    rw [if_neg (by omega), if_pos (by omega)] at h
    exact_mod_cast h.symm
  have hzero : X 0 = 0 := by
    have h := hX 0 (by omega)
    rw [pathPoint] at h
    simp only [if_true] at h
    exact_mod_cast h.symm
  obtain ⟨segs, h1, hch⟩ := prepareSegments_chainR h curves (p := pathPoint length pc x y) (X := X) (N := pc - 1) (fun k hk => hX k (by omega))
    (fun k hk => hinc k (by omega)) (by omega) (pc - 1) 0 (by omega)
  rw [segments_collected_by h2 h24 hx hy hc, splinePathSet, pathSteps, List.map_cons, PathStep.segment, prepareSegments, splineMove]
  have hp0 : (⟨0, y.getD 0 0⟩ : Point) = pathPoint length pc x y 0 := by simp [pathPoint]
  simp only
  rw [show wr [point0, (⟨0, y.getD 0 0⟩ : Point), point0, point0] 0 ⟨0, 0⟩ = .ok [⟨0, 0⟩, ⟨0, y.getD 0 0⟩, point0, point0] from rfl]
  simp only [ok_bind', Segment.runPrepare]
  rw [show rd [(⟨0, 0⟩ : Point), ⟨0, y.getD 0 0⟩, point0, point0] (2 - 1) = .ok ⟨0, y.getD 0 0⟩ from rfl]
  simp only [ok_bind']
  rw [hp0, h1]
  simp only [ok_bind', pure_eq_ok, splineGetBy]
  rw [if_neg (by omega), List.drop_zero, ← hp0]
  rw [hzero, hlast] at hch
  obtain ⟨cur', prev', e⟩ := splineGetLoopBy_chain (start := 0) (stop := length) (Nat.zero_le _) (by omega)
    (ChainBy.cons (le_refl 0) (move_drawsR curves (y := y.getD 0 0)) hch) 0 0 0 (fun _ => 0)
  rw [Nat.sub_zero, ← tab_replicate] at e
  rw [e]
  simp only [ok_bind']
  exact congrArg Except.ok (tab_congr fun k hk => by rw [if_pos (by omega), Nat.zero_add])

end Sp
