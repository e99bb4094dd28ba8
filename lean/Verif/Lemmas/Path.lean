import Verif.Model.Path
import Verif.Lemmas.SeqTrace
import Mathlib.Tactic.Positivity
import Mathlib.Tactic.FieldSimp

/-! # Lemmas about spline paths of lines -/

set_option linter.unusedSectionVars false

namespace Sp

theorem sub64_of_le {a b : Nat} (h : b ≤ a) (ha : a < 18446744073709551616) : sub64 a b = a - b := by
  unfold sub64
  omega

/-- Truncation. -/
def trunc (v : ℚ) : Nat := ⌊v⌋.toNat

theorem sizeOfValue_eq {v : ℚ} (h1 : -1 < v) (h2 : v < 18446744073709551616) : sizeOfValue v = .ok (trunc v) := by
  rw [sizeOfValue, if_neg (by push Not; exact ⟨h1, h2⟩)]
  rfl

theorem trunc_le {v : ℚ} (h : 0 ≤ v) : (trunc v : ℚ) ≤ v := by
  have h0 : 0 ≤ ⌊v⌋ := Int.floor_nonneg.2 h
  have h1 : ((⌊v⌋.toNat : ℤ) : ℚ) ≤ v := by rw [Int.toNat_of_nonneg h0]; exact Int.floor_le v
  exact_mod_cast h1

theorem lt_trunc {v : ℚ} (h : 0 ≤ v) : v < trunc v + 1 := by
  have h0 : 0 ≤ ⌊v⌋ := Int.floor_nonneg.2 h
  have h1 : v < ((⌊v⌋.toNat : ℤ) : ℚ) + 1 := by rw [Int.toNat_of_nonneg h0]; exact Int.lt_floor_add_one v
  exact_mod_cast h1

theorem trunc_mono {v w : ℚ} (h : v ≤ w) : trunc v ≤ trunc w := Int.toNat_le_toNat (Int.floor_le_floor h)

theorem trunc_natCast (n : Nat) : trunc (n : ℚ) = n := by simp [trunc]

theorem trunc_lt {v : ℚ} {n : Nat} (h0 : 0 ≤ v) (h : v < n) : trunc v < n := by
  have := trunc_le h0
  exact_mod_cast lt_of_le_of_lt this h

theorem trunc_sub_natCast {a n : Nat} (h : n ≤ a) : trunc ((a : ℚ) - n) = a - n := by
  have : ((a : ℚ) - n) = ((a - n : Nat) : ℚ) := by push_cast [h]; rfl
  rw [this, trunc_natCast]

/-- A piece of a path: a segment that is not a curve, with its start and end points. -/
structure Piece where
  kind : SegKind
  p0 : Point
  p1 : Point

/-- A prepared segment and the piece it is. -/
def SegOk (s : Segment) (p : Piece) : Prop :=
  s.kind = p.kind ∧ (p.kind = .move ∨ p.kind = .line ∨ p.kind = .constant) ∧ s.pointsCount = 2 ∧
    ∃ r, s.points = p.p0 :: p.p1 :: r

/-- The value of a piece at the position `j`, when it is drawn from `a` on. -/
def Piece.value (p : Piece) (a j : Nat) : ℚ :=
  match p.kind with
  | .line => linearlyInterpolate p.p0.y p.p1.y (((j - a + trunc (a - p.p0.x) : Nat) : ℚ) / (p.p1.x - p.p0.x))
  | .constant => p.p0.y
  | _ => 0

theorem generate_tab {fuel : Nat} {s : Segment} {p : Piece} (hs : SegOk s p) {a b o n : Nat} {g : Nat → ℚ}
    (h0 : 0 ≤ p.p0.x) (h01 : p.p0.x ≤ p.p1.x) (ha : trunc p.p0.x ≤ a) (hab : a ≤ b) (hb : b ≤ trunc p.p1.x)
    (hlim : p.p1.x < 9223372036854775808) (hn : o + (b - a) ≤ n) :
    s.generate fuel a b o (tab n g) = .ok (tab n fun k => if o ≤ k ∧ k < o + (b - a) then p.value a (a + (k - o)) else g k) := by
  obtain ⟨e1, e2, e3, r, e4⟩ := hs
  have hb64 : b < 9223372036854775808 := by
    have := trunc_lt (n := 9223372036854775808) (le_trans h0 h01) (by exact_mod_cast hlim)
    omega
  have hsub : sub64 b a = b - a := sub64_of_le hab (by omega)
  rcases e2 with hk | hk | hk
  · rw [Segment.generate, e1, hk]
    simp only [moveGenerate, Piece.value, hk, hsub]
    exact memzero_tab hn
  · rw [Segment.generate, e1, hk]
    simp only [lineGenerate, Piece.value, hk, hsub, e4]
    have hoff : sizeOfValue ((a : ℚ) - p.p0.x) = .ok (trunc (a - p.p0.x)) := by
      refine sizeOfValue_eq ?_ ?_
      · have h1 := lt_trunc h0
        have h2 : (trunc p.p0.x : ℚ) ≤ a := by exact_mod_cast ha
        linarith
      · have : (a : ℚ) < 9223372036854775808 := by exact_mod_cast (lt_of_le_of_lt hab hb64)
        linarith
    rw [show rd (p.p0 :: p.p1 :: r) 0 = .ok p.p0 from rfl, show rd (p.p0 :: p.p1 :: r) 1 = .ok p.p1 from rfl]
    simp only [ok_bind', hoff]
    have key := forRange_states (fun m => tab n fun k =>
      if o ≤ k ∧ k < o + m then linearlyInterpolate p.p0.y p.p1.y
        (((a + (k - o) - a + trunc (a - p.p0.x) : Nat) : ℚ) / (p.p1.x - p.p0.x)) else g k) (lo := 0) (hi := b - a)
      (Nat.zero_le _) (body := lineBody p.p0 p.p1 (trunc (a - p.p0.x)) o) (fun i _ hi => by
        have hne : p.p1.x - p.p0.x ≠ 0 := by
          intro hz
          have : p.p0.x = p.p1.x := by linarith
          rw [this] at ha
          omega
        rw [lineBody, divValue, if_neg hne]
        simp only [ok_bind']
        rw [wr_tab _ (by omega)]
        refine congrArg _ (tab_congr fun k _ => ?_)
        by_cases hk : k = o + i
        · subst hk
          rw [if_pos rfl, if_pos ⟨by omega, by omega⟩]
          congr 3
          have : a + (o + i - o) - a = i := by omega
          rw [this]
        · rw [if_neg hk]
          by_cases h : o ≤ k ∧ k < o + i
          · rw [if_pos h, if_pos ⟨h.1, by omega⟩]
          · rw [if_neg h, if_neg (by omega)])
    refine Eq.trans ?_ key
    congr 1
    refine tab_congr fun k _ => ?_
    rw [if_neg (by omega)]
  · rw [Segment.generate, e1, hk]
    simp only [constantGenerate, Piece.value, hk, hsub, e4]
    rw [show rd (p.p0 :: p.p1 :: r) 0 = .ok p.p0 from rfl]
    simp only [ok_bind']
    have key := forRange_states (fun m => tab n fun k => if o ≤ k ∧ k < o + m then p.p0.y else g k) (lo := 0) (hi := b - a)
      (Nat.zero_le _) (body := fun i out => wr out (o + i) p.p0.y) (fun i _ hi => by
        rw [wr_tab _ (by omega)]
        refine congrArg _ (tab_congr fun k _ => ?_)
        by_cases hk : k = o + i
        · rw [if_pos hk, if_pos ⟨by omega, by omega⟩]
        · rw [if_neg hk]
          by_cases h : o ≤ k ∧ k < o + i
          · rw [if_pos h, if_pos ⟨h.1, by omega⟩]
          · rw [if_neg h, if_neg (by omega)])
    refine Eq.trans ?_ key
    congr 1
    refine tab_congr fun k _ => ?_
    rw [if_neg (by omega)]

/-- Pieces that join, beginning at `lo`. -/
inductive Joined : ℚ → List Piece → Prop
  | nil {lo : ℚ} : Joined lo []
  | cons {lo : ℚ} {p : Piece} {ps : List Piece} : p.p0.x = lo → lo ≤ p.p1.x → p.p1.x < 9223372036854775808 →
      Joined p.p1.x ps → Joined lo (p :: ps)

/-- The value at the position `j` if reading begins at `r`, and `d` where there is no piece. -/
def piecesAt (r : Nat) : List Piece → ℚ → Nat → ℚ
  | [], d, _ => d
  | p :: ps, d, j =>
    if trunc p.p0.x ≤ j ∧ j < trunc p.p1.x then p.value (max (trunc p.p0.x) r) j else piecesAt r ps d j

theorem piecesAt_before {r j : Nat} {d lo : ℚ} {ps : List Piece} (h : Joined lo ps) (hj : j < trunc lo) :
    piecesAt r ps d j = d := by
  induction h with
  | nil => rfl
  | @cons lo p ps h1 h2 h3 _ ih =>
    rw [piecesAt, if_neg, ih]
    · have := trunc_mono h2
      omega
    · rw [h1]
      omega

theorem splineGetLoop_tab {fuel start stop : Nat} (hss : start ≤ stop) {segs : List Segment} {ps : List Piece}
    (hsp : List.Forall₂ SegOk segs ps) {lo : ℚ} (hlo : 0 ≤ lo) (hj : Joined lo ps) (i cur prev : Nat) (g : Nat → ℚ) :
    ∃ cur' prev', splineGetLoop fuel start stop segs i cur prev (tab (stop - start) g) =
        .ok (cur', prev', tab (stop - start) fun k => piecesAt start ps (g k) (start + k)) ∧
      (prev' = start ∨ segs = [] ∧ prev' = prev) ∧
      (cur' = cur ∧ (ps = [] ∨ stop < trunc lo) ∨ ∃ m p, cur' = i + m ∧ ps[m]? = some p ∧ trunc p.p0.x ≤ stop) := by
  induction hsp generalizing lo i cur prev g with
  | nil => exact ⟨cur, prev, rfl, .inr ⟨rfl, rfl⟩, .inl ⟨rfl, .inl rfl⟩⟩
  | @cons s p segs ps hsp1 hsp2 ih =>
    cases hj with
    | cons h1 h2 h3 h4 =>
      have h0 : 0 ≤ p.p0.x := by rw [h1]; exact hlo
      have h01 : p.p0.x ≤ p.p1.x := by rw [h1]; exact h2
      have h1' : 0 ≤ p.p1.x := le_trans h0 h01
      have hmono := trunc_mono h01
      have hok := hsp1
      obtain ⟨e1, e2, e3, r, e4⟩ := hsp1
      rw [splineGetLoop]
      rw [e4, e3, show rd (p.p0 :: p.p1 :: r) 0 = .ok p.p0 from rfl,
        show rd (p.p0 :: p.p1 :: r) (2 - 1) = .ok p.p1 from rfl]
      simp only [ok_bind']
      rw [sizeOfValue_eq (by linarith) (by linarith), sizeOfValue_eq (by linarith) (by linarith)]
      simp only [ok_bind']
      by_cases c1 : trunc p.p0.x > stop
      · rw [if_pos c1]
        refine ⟨cur, start, ?_, .inl rfl, .inl ⟨rfl, .inr (by rw [← h1]; exact c1)⟩⟩
        congr 3
        refine tab_congr fun k hk => ?_
        exact (piecesAt_before (.cons h1 h2 h3 h4) (by rw [← h1]; omega)).symm
      · rw [if_neg c1]
        by_cases c2 : trunc p.p1.x < start
        · rw [if_pos c2]
          obtain ⟨cur', prev', q1, q2, q3⟩ := ih h1' h4 (i + 1) i start g
          refine ⟨cur', prev', ?_, ?_, ?_⟩
          · rw [q1]
            congr 3
            refine tab_congr fun k hk => ?_
            rw [piecesAt, if_neg (by omega)]
          · left
            rcases q2 with q | ⟨_, q⟩ <;> exact q
          · right
            rcases q3 with ⟨q, _⟩ | ⟨m, p', q, q', q''⟩
            · exact ⟨0, p, by omega, rfl, by omega⟩
            · exact ⟨m + 1, p', by omega, q', q''⟩
        · rw [if_neg c2]
          have hA : (if trunc p.p0.x < start then start else trunc p.p0.x) = max (trunc p.p0.x) start := by
            split <;> omega
          have hB : (if trunc p.p1.x > stop then stop else trunc p.p1.x) = min (trunc p.p1.x) stop := by
            split <;> omega
          have hO : (if trunc p.p0.x > start then trunc p.p0.x - start else 0) = max (trunc p.p0.x) start - start := by
            split <;> omega
          rw [hA, hB, hO, generate_tab hok h0 h01 (by omega) (by omega) (by omega) h3 (by omega)]
          simp only [ok_bind']
          obtain ⟨cur', prev', q1, q2, q3⟩ := ih h1' h4 (i + 1) i start _
          refine ⟨cur', prev', ?_, ?_, ?_⟩
          · rw [q1]
            clear q1 q2 q3 ih
            congr 3
            refine tab_congr fun k hk => ?_
            rw [piecesAt]
            by_cases c : trunc p.p0.x ≤ start + k ∧ start + k < trunc p.p1.x
            · rw [if_pos c, piecesAt_before h4 c.2, if_pos (by omega)]
              congr 1
              omega
            · rw [if_neg c, if_neg (by omega)]
          · left
            rcases q2 with q | ⟨_, q⟩ <;> exact q
          · right
            rcases q3 with ⟨q, _⟩ | ⟨m, p', q, q', q''⟩
            · exact ⟨0, p, by omega, rfl, by omega⟩
            · exact ⟨m + 1, p', by omega, q', q''⟩

end Sp
