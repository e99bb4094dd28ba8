import Verif.Lemmas.Path
import Verif.Spec.Path

/-! # Histories of reads, and `sp_path_samples` -/

set_option linter.unusedSectionVars false

namespace Sp

/-- The pieces for steps that begin at `p`. -/
def piecesFrom (p : Point) : List PathStep → List Piece
  | [] => []
  | s :: rest => ⟨s.segment.kind, p, s.target p⟩ :: piecesFrom (s.target p) rest

theorem prepareSegments_pieces (steps : List PathStep) (p : Point) :
    ∃ segs, prepareSegments p (steps.map PathStep.segment) = .ok segs ∧ List.Forall₂ SegOk segs (piecesFrom p steps) := by
  induction steps generalizing p with
  | nil => exact ⟨[], rfl, .nil⟩
  | cons s rest ih =>
    obtain ⟨segs, h1, h2⟩ := ih (s.target p)
    cases s with
    | move x y =>
      refine ⟨⟨.move, 2, [p, ⟨x, y⟩, point0, point0], .none⟩ :: segs, ?_, .cons ⟨rfl, .inl rfl, rfl, _, rfl⟩ h2⟩
      simp only [List.map_cons, prepareSegments, PathStep.segment, splineMove]
      rw [show wr [point0, (⟨x, y⟩ : Point), point0, point0] 0 p = .ok [p, ⟨x, y⟩, point0, point0] from rfl]
      simp only [ok_bind', Segment.runPrepare]
      rw [show rd [p, (⟨x, y⟩ : Point), point0, point0] (2 - 1) = .ok ⟨x, y⟩ from rfl]
      simp only [ok_bind']
      simp only [PathStep.target] at h1
      rw [h1]
      rfl
    | line x y =>
      refine ⟨⟨.line, 2, [p, ⟨x, y⟩, point0, point0], .none⟩ :: segs, ?_, .cons ⟨rfl, .inr (.inl rfl), rfl, _, rfl⟩ h2⟩
      simp only [List.map_cons, prepareSegments, PathStep.segment, splineLine]
      rw [show wr [point0, (⟨x, y⟩ : Point), point0, point0] 0 p = .ok [p, ⟨x, y⟩, point0, point0] from rfl]
      simp only [ok_bind', Segment.runPrepare]
      rw [show rd [p, (⟨x, y⟩ : Point), point0, point0] (2 - 1) = .ok ⟨x, y⟩ from rfl]
      simp only [ok_bind']
      simp only [PathStep.target] at h1
      rw [h1]
      rfl
    | constant =>
      refine ⟨⟨.constant, 2, [p, ⟨splineSizeMax, p.y⟩, point0, point0], .constant⟩ :: segs, ?_,
        .cons ⟨rfl, .inr (.inr rfl), rfl, _, rfl⟩ h2⟩
      simp only [List.map_cons, prepareSegments, PathStep.segment, splineConstant]
      rw [show wr [point0, point0, point0, point0] 0 p = .ok [p, point0, point0, point0] from rfl]
      simp only [ok_bind', Segment.runPrepare, constantPrepare]
      rw [show rd [p, point0, point0, point0] 0 = .ok p from rfl]
      simp only [ok_bind']
      rw [show wr [p, point0, point0, point0] 1 ⟨splineSizeMax, p.y⟩ = .ok [p, ⟨splineSizeMax, p.y⟩, point0, point0] from rfl]
      simp only [ok_bind']
      rw [show rd [p, (⟨splineSizeMax, p.y⟩ : Point), point0, point0] (2 - 1) = .ok ⟨splineSizeMax, p.y⟩ from rfl]
      simp only [ok_bind']
      simp only [PathStep.target] at h1
      rw [h1]
      rfl

theorem splineSizeMax_lt : (splineSizeMax : ℚ) < 9223372036854775808 := by norm_num [splineSizeMax]

theorem natCast_lt {n : Nat} (h : n ≤ splineSizeMax) : (n : ℚ) < 9223372036854775808 := by
  have : n < 9223372036854775808 := by rw [splineSizeMax] at h; omega
  exact_mod_cast this

/-- All pieces begin at integers. -/
def IntegerPieces (ps : List Piece) : Prop := ∀ p ∈ ps, ∃ n : Nat, p.p0.x = n

theorem integerSteps_joined (steps : List PathStep) (p : Point) (lo : Nat) (hp : p.x = lo) (h : IntegerSteps lo steps) :
    Joined lo (piecesFrom p steps) ∧ IntegerPieces (piecesFrom p steps) := by
  induction steps generalizing p lo with
  | nil => exact ⟨.nil, fun q hq => absurd hq (by simp [piecesFrom])⟩
  | cons s rest ih =>
    have aux : ∀ n : Nat, (s.target p).x = n → lo ≤ n → n ≤ splineSizeMax → IntegerSteps n rest →
        Joined lo (piecesFrom p (s :: rest)) ∧ IntegerPieces (piecesFrom p (s :: rest)) := by
      intro n h1 h2 h3 h4
      obtain ⟨i1, i2⟩ := ih (s.target p) n h1 h4
      refine ⟨.cons hp (by rw [h1]; exact_mod_cast h2) (by rw [h1]; exact natCast_lt h3) (by rw [h1]; exact i1), ?_⟩
      intro q hq
      rcases List.mem_cons.1 hq with rfl | hq
      · exact ⟨lo, hp⟩
      · exact i2 q hq
    cases s with
    | move x y =>
      obtain ⟨n, rfl, h2, h3, h4⟩ := h
      exact aux n rfl h2 h3 h4
    | line x y =>
      obtain ⟨n, rfl, h2, h3, h4⟩ := h
      exact aux n rfl h2 h3 h4
    | constant =>
      exact aux splineSizeMax rfl h.1 (le_refl _) h.2

/-- A piece that begins at an integer has the same values wherever reading begins. -/
theorem Piece.value_integer {p : Piece} {n a j : Nat} (h : p.p0.x = n) (ha : n ≤ a) (hj : a ≤ j) : p.value a j = p.value n j := by
  unfold Piece.value
  cases p.kind <;> simp only
  rw [h, trunc_sub_natCast ha, trunc_sub_natCast (le_refl n)]
  have : j - a + (a - n) = j - n + (n - n) := by omega
  rw [this]

theorem piecesAt_integer {ps : List Piece} (h : IntegerPieces ps) {r j : Nat} (hj : r ≤ j) (d : ℚ) :
    piecesAt r ps d j = piecesAt 0 ps d j := by
  induction ps with
  | nil => rfl
  | cons p ps ih =>
    rw [piecesAt, piecesAt, ih fun q hq => h q (by simp [hq])]
    obtain ⟨n, hn⟩ := h p (by simp)
    by_cases c : trunc p.p0.x ≤ j ∧ j < trunc p.p1.x
    · rw [if_pos c, if_pos c]
      rw [hn, trunc_natCast] at c
      rw [hn, trunc_natCast, Nat.max_zero]
      exact Piece.value_integer hn (Nat.le_max_left _ _) (by omega)
    · rw [if_neg c, if_neg c]

/-- The state of a path after reads, the last of which ended at `e`. -/
structure PathInv (ps : List Piece) (path : SplinePath) (prev e : Nat) : Prop where
  segments : List.Forall₂ SegOk path.segments ps
  prev_eq : ps ≠ [] → path.prev = prev
  cur : ∀ (k : Nat) (p : Piece), k < path.cur → ps[k]? = some p → trunc p.p1.x ≤ e
  inside : ps ≠ [] → path.cur < ps.length

theorem piecesAt_drop {ps : List Piece} {r j i : Nat} {d : ℚ}
    (h : ∀ (k : Nat) (p : Piece), k < i → ps[k]? = some p → trunc p.p1.x ≤ j) : piecesAt r (ps.drop i) d j = piecesAt r ps d j := by
  induction ps generalizing i with
  | nil => simp
  | cons p ps ih =>
    cases i with
    | zero => rfl
    | succ i =>
      rw [List.drop_succ_cons, ih (fun k q hk hq => h (k + 1) q (by omega) hq), piecesAt, if_neg]
      have := h 0 p (by omega) rfl
      omega

theorem joined_drop {ps : List Piece} {lo : ℚ} (h : Joined lo ps) (hlo : 0 ≤ lo) (i : Nat) :
    ∃ lo', 0 ≤ lo' ∧ Joined lo' (ps.drop i) ∧ (i < ps.length → ∃ p, ps[i]? = some p ∧ p.p0.x = lo') := by
  induction h generalizing i with
  | nil => exact ⟨0, le_refl _, by simpa using .nil, fun h => absurd h (by simp)⟩
  | @cons lo p ps h1 h2 h3 h4 ih =>
    cases i with
    | zero => exact ⟨lo, hlo, .cons h1 h2 h3 h4, fun _ => ⟨p, rfl, h1⟩⟩
    | succ i =>
      obtain ⟨lo', a, b, c⟩ := ih (le_trans hlo h2) i
      exact ⟨lo', a, by simpa using b, fun h => by simpa using c (by simpa using h)⟩

/-- Pieces before one that begins at most at `e` end at most at `e`. -/
theorem joined_ends {ps : List Piece} {lo : ℚ} (h : Joined lo ps) {m k e : Nat} {p q : Piece} (hm : ps[m]? = some p)
    (hp : trunc p.p0.x ≤ e) (hk : k < m) (hq : ps[k]? = some q) : trunc q.p1.x ≤ e := by
  induction h generalizing m k with
  | nil => simp at hm
  | @cons lo p' ps h1 h2 h3 h4 ih =>
    cases m with
    | zero => omega
    | succ m =>
      simp only [List.getElem?_cons_succ] at hm
      cases k with
      | succ k =>
        simp only [List.getElem?_cons_succ] at hq
        exact ih hm (by omega) hq
      | zero =>
        simp only [List.getElem?_cons_zero, Option.some.injEq] at hq
        subst hq
        clear ih h1 h2 h3
        -- the piece `m` begins at or after the end of the first
        have : ∀ (ps : List Piece) (lo : ℚ) (m : Nat), Joined lo ps → ps[m]? = some p → lo ≤ p.p0.x := by
          intro ps
          induction ps with
          | nil => intro lo m _ h; simp at h
          | cons x ps ih2 =>
            intro lo m hj h
            cases hj with
            | cons g1 g2 g3 g4 =>
              cases m with
              | zero =>
                simp only [List.getElem?_cons_zero, Option.some.injEq] at h
                rw [← h, g1]
              | succ m =>
                simp only [List.getElem?_cons_succ] at h
                exact le_trans g2 (ih2 _ m g4 h)
        exact le_trans (trunc_mono (this ps _ m h4 hm)) hp

theorem splineGet_inv {fuel : Nat} {ps : List Piece} {lo : ℚ} (hj : Joined lo ps) (hlo : 0 ≤ lo) (hlo0 : trunc lo = 0)
    {path : SplinePath} {prev e : Nat} (hi : PathInv ps path prev e) {a b : Nat} (hab : a ≤ b) (hr : e ≤ a ∨ a < prev)
    (g : Nat → ℚ) :
    ∃ path', splineGet fuel path a b (tab (b - a) g) = .ok (path', tab (b - a) fun k => piecesAt a ps (g k) (a + k)) ∧
      PathInv ps path' a b := by
  by_cases hne : ps = []
  · subst hne
    have hs : path.segments = [] := by
      have := hi.segments
      cases h : path.segments with
      | nil => rfl
      | cons x l => rw [h] at this; cases this
    refine ⟨path, ?_, ⟨by rw [hs]; exact .nil, fun h => absurd rfl h, fun k p _ h => by simp at h, fun h => absurd rfl h⟩⟩
    rw [splineGet]
    simp only [hs, List.drop_nil, splineGetLoop, ok_bind', pure_eq_ok, piecesAt]
    cases path
    simp only at hs
    rw [hs]
  · have hprev := hi.prev_eq hne
    have hins := hi.inside hne
    -- where reading begins in the list
    obtain ⟨i, hi_eq, hskip, hcur0⟩ : ∃ i, (if a < path.prev then 0 else path.cur) = i ∧
        (∀ (k : Nat) (p : Piece), k < i → ps[k]? = some p → trunc p.p1.x ≤ a) ∧ i < ps.length ∧ (i = 0 ∨ i = path.cur ∧ e ≤ a) := by
      by_cases c : a < path.prev
      · exact ⟨0, by rw [if_pos c], fun k p hk => by omega, by omega, .inl rfl⟩
      · refine ⟨path.cur, by rw [if_neg c], fun k p hk hp => ?_, hins, .inr ⟨rfl, by omega⟩⟩
        have := hi.cur k p hk hp
        omega
    obtain ⟨lo', l1, l2, l3⟩ := joined_drop hj hlo i
    obtain ⟨cur', prev', q1, q2, q3⟩ := splineGetLoop_tab (fuel := fuel) hab (List.forall₂_drop i hi.segments) l1 l2 i
      path.cur path.prev g
    refine ⟨{ path with cur := cur', prev := prev' }, ?_, ⟨hi.segments, fun _ => ?_, ?_, fun _ => ?_⟩⟩
    · rw [splineGet]
      simp only [hi_eq, q1, ok_bind', pure_eq_ok]
      congr 2
      refine tab_congr fun k _ => ?_
      exact piecesAt_drop fun k' p hk hp => le_trans (hskip k' p hk hp) (by omega)
    · rcases q2 with q | ⟨q, _⟩
      · exact q
      · exfalso
        have := hi.segments.length_eq
        rw [List.drop_eq_nil_iff] at q
        omega
    · intro k p hk hp
      simp only at hk
      rcases q3 with ⟨c1, c2⟩ | ⟨m, p', c1, c2, c3⟩
      · rcases hcur0.2 with h0 | ⟨h0, h1⟩
        · exfalso
          subst h0
          rcases c2 with c2 | c2
          · rw [List.drop_zero] at c2
            exact hne c2
          · obtain ⟨x, x1, x2⟩ := l3 hcur0.1
            rw [← x2] at c2
            cases hj with
            | nil => exact hne rfl
            | cons g1 g2 g3 g4 =>
              simp only [List.getElem?_cons_zero, Option.some.injEq] at x1
              rw [← x1, g1, hlo0] at c2
              omega
        · have := hi.cur k p (by omega) hp
          omega
      · rw [List.getElem?_drop] at c2
        exact joined_ends hj c2 c3 (by omega) hp
    · simp only
      rcases q3 with ⟨c1, c2⟩ | ⟨m, p', c1, c2, c3⟩
      · omega
      · rw [List.getElem?_drop] at c2
        have := (List.getElem?_eq_some_iff.1 c2).1
        omega

end Sp
