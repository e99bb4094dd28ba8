import Verif.Spec.PathCustom
import Verif.Lemmas.PathCurve

/-! # Lemmas for Props/PathCustom.lean -/

set_option linter.unusedSectionVars false

namespace Sp

/-- A prepared segment from `A` to `E`. -/
structure ReadyCustom (s : CustomSegment) (A E : Nat) (f : Nat → ℚ) : Prop where
  first : ∃ p, rd s.points 0 = .ok p ∧ p.x = A
  last : ∃ p, rd s.points (s.pointsCount - 1) = .ok p ∧ p.x = E
  draws : ∀ a b o n (g : Nat → ℚ), A ≤ a → a ≤ b → b ≤ E → o + (b - a) ≤ n →
    s.generate s.points a b o (tab n g) = .ok (tab n fun k => if o ≤ k ∧ k < o + (b - a) then f (a + (k - o)) else g k)

inductive ReadyPath : Nat → List CustomSegment → List (Nat × (Nat → ℚ)) → Prop
  | nil {A : Nat} : ReadyPath A [] []
  | cons {A B : Nat} {s : CustomSegment} {rest : List CustomSegment} {f : Nat → ℚ} {fs : List (Nat × (Nat → ℚ))} :
      A ≤ B → B < 18446744073709551616 → ReadyCustom s A B f → ReadyPath B rest fs → ReadyPath A (s :: rest) ((B, f) :: fs)

/-- `valueOf` with the value after the end as a parameter. -/
def valueOr (d : ℚ) : List (Nat × (Nat → ℚ)) → Nat → ℚ
  | [], _ => d
  | (stop, f) :: rest, x => if x < stop then f x else valueOr d rest x

theorem valueOr_zero (fs : List (Nat × (Nat → ℚ))) (x : Nat) : valueOr 0 fs x = valueOf fs x := by
  induction fs with
  | nil => rfl
  | cons c fs ih => rw [valueOr, valueOf, ih]

theorem rd_of_getElem? {α : Type} {b : Buf α} {i : Nat} {v : α} (h : b[i]? = some v) : rd b i = .ok v := by
  rw [rd_ok_iff]
  exact h

theorem customPrepareSegments_draws {p : Point} {segs : List CustomSegment} {fs : List (Nat × (Nat → ℚ))} (h : DrawsPath p segs fs) :
    ∀ A : Nat, p.x = A → ∃ ready, customPrepareSegments p segs = .ok (some ready) ∧ ReadyPath A ready fs := by
  induction h with
  | nil => exact fun A _ => ⟨[], rfl, .nil⟩
  | @cons p q s rest stop f fs h1 h2 h3 h4 _ ih =>
    intro A hA
    obtain ⟨ready, r1, r2⟩ := ih stop h2
    obtain ⟨points, p1, p2, p3, p4⟩ := h4.ready
    refine ⟨{ s with points := points } :: ready, ?_, ?_⟩
    · rw [customPrepareSegments, wr_eq_ok _ h4.room]
      simp only [ok_bind']
      rw [p1]
      simp only [ok_bind', rd_of_getElem? p3, r1]
      rfl
    · refine .cons ?_ h3 ⟨⟨p, rd_of_getElem? p2, hA⟩, ⟨q, rd_of_getElem? p3, h2⟩, ?_⟩ r2
      · rw [hA, h2] at h1
        exact_mod_cast h1
      · intro a b o n g ha hab hb ho
        obtain ⟨out', o1, o2, o3⟩ := p4 a b o (tab n g) (by rw [hA]; exact_mod_cast ha) hab (by rw [h2]; exact_mod_cast hb) (by simpa using ho)
        rw [show ({ s with points := points } : CustomSegment).generate points a b o (tab n g) = .ok out' from o1]
        congr 1
        apply List.ext_getElem?
        intro k
        rw [o3, tab_getElem?, tab_getElem?]
        rw [tab_length] at o2
        by_cases c : o ≤ k ∧ k < o + (b - a)
        · rw [if_pos c, if_pos c, if_pos (by omega)]
        · rw [if_neg c, if_neg c]

theorem customGetLoop_ready {start stop : Nat} (hss : start ≤ stop) {A : Nat} {segs : List CustomSegment} {fs : List (Nat × (Nat → ℚ))}
    (h : ReadyPath A segs fs) (i cur prev : Nat) (g : Nat → ℚ) :
    ∃ cur' prev', customGetLoop start stop segs i cur prev (tab (stop - start) g) =
      .ok (cur', prev', tab (stop - start) fun k => if A ≤ start + k then valueOr (g k) fs (start + k) else g k) ∧
      (segs ≠ [] → prev' = start) ∧
      ((cur' = cur ∧ (segs = [] ∨ stop < A)) ∨
        ∃ m, cur' = i + m ∧ m < segs.length ∧ A ≤ stop ∧ ∀ k c, k < m → fs[k]? = some c → c.1 ≤ stop) := by
  induction h generalizing i cur prev g with
  | nil =>
    refine ⟨cur, prev, ?_, fun h => absurd rfl h, .inl ⟨rfl, .inl rfl⟩⟩
    rw [customGetLoop]
    congr 3
    exact tab_congr fun k _ => by rw [valueOr, ite_self]
  | @cons A B s rest f fs hAB hB hs hrest ih =>
    obtain ⟨p, hp, hpx⟩ := hs.first
    obtain ⟨q, hq, hqx⟩ := hs.last
    rw [customGetLoop, hp]
    simp only [ok_bind']
    rw [hpx, sizeOfValue_natCast (by omega), hq]
    simp only [ok_bind']
    rw [hqx, sizeOfValue_natCast (by omega)]
    simp only [ok_bind']
    by_cases c1 : A > stop
    · rw [if_pos c1]
      refine ⟨cur, start, ?_, fun _ => rfl, .inl ⟨rfl, .inr c1⟩⟩
      congr 3
      exact tab_congr fun k hk => by rw [if_neg (by omega)]
    rw [if_neg c1]
    -- the state after the rest
    have last : ∀ cur', (cur' = i ∧ (rest = [] ∨ stop < B) ∨
        ∃ m, cur' = i + 1 + m ∧ m < rest.length ∧ B ≤ stop ∧ ∀ k c, k < m → fs[k]? = some c → c.1 ≤ stop) →
        ((cur' = cur ∧ (s :: rest = [] ∨ stop < A)) ∨
        ∃ m, cur' = i + m ∧ m < (s :: rest).length ∧ A ≤ stop ∧ ∀ k c, k < m → ((B, f) :: fs)[k]? = some c → c.1 ≤ stop) := by
      rintro cur' (⟨h1, _⟩ | ⟨m, h1, h2, h3, h4⟩)
      · exact .inr ⟨0, h1, by simp, by omega, fun k c hk => by omega⟩
      · refine .inr ⟨m + 1, by omega, by simpa using h2, by omega, fun k c hk hc => ?_⟩
        cases k with
        | zero =>
          simp only [List.getElem?_cons_zero, Option.some.injEq] at hc
          rw [← hc]
          exact h3
        | succ k => exact h4 k c (by omega) (by simpa using hc)
    by_cases c2 : B < start
    · rw [if_pos c2]
      obtain ⟨cur', prev', q1, q2, q3⟩ := ih (i + 1) i start g
      refine ⟨cur', prev', ?_, fun _ => ?_, last cur' q3⟩
      · rw [q1]
        congr 3
        refine tab_congr fun k hk => ?_
        rw [if_pos (by omega), if_pos (by omega), valueOr, if_neg (by omega)]
      · by_cases hr : rest = []
        · subst hr
          rw [customGetLoop] at q1
          have := Except.ok.inj q1
          exact (Prod.mk.inj (Prod.mk.inj this).2).1.symm
        · exact q2 hr
    rw [if_neg c2]
    have hA : (if A < start then start else A) = max A start := by split <;> omega
    have hB : (if B > stop then stop else B) = min B stop := by split <;> omega
    have hO : (if A > start then A - start else 0) = max A start - start := by split <;> omega
    rw [hA, hB, hO, hs.draws _ _ _ _ _ (by omega) (by omega) (by omega) (by omega)]
    simp only [ok_bind']
    obtain ⟨cur', prev', q1, q2, q3⟩ := ih (i + 1) i start fun k =>
      if max A start - start ≤ k ∧ k < max A start - start + (min B stop - max A start) then
        f (max A start + (k - (max A start - start))) else g k
    refine ⟨cur', prev', ?_, fun _ => ?_, last cur' q3⟩
    · rw [q1]
      clear hA hB hO q3 last q1 q2 ih
      congr 3
      refine tab_congr fun k hk => ?_
      rw [valueOr]
      by_cases c : B ≤ start + k
      · rw [if_pos c, if_neg (by omega), if_pos (by omega), if_neg (by omega)]
      · rw [if_neg c]
        by_cases c' : A ≤ start + k
        · rw [if_pos (by omega), if_pos (by omega), if_pos (by omega)]
          congr 1
          omega
        · rw [if_neg (by omega), if_neg (by omega)]
    · by_cases hr : rest = []
      · subst hr
        rw [customGetLoop] at q1
        have := Except.ok.inj q1
        exact (Prod.mk.inj (Prod.mk.inj this).2).1.symm
      · exact q2 hr

/-- The state of a path after reads, the last of which ended at `e`. -/
structure CustomInv (fs : List (Nat × (Nat → ℚ))) (path : CustomPath) (prev e : Nat) : Prop where
  segments : ReadyPath 0 path.segments fs
  prev_eq : path.segments ≠ [] → path.prev = prev
  cur : ∀ k c, k < path.cur → fs[k]? = some c → c.1 ≤ e
  inside : path.segments ≠ [] → path.cur < path.segments.length

theorem ReadyPath.drop {A : Nat} {segs : List CustomSegment} {fs : List (Nat × (Nat → ℚ))} (h : ReadyPath A segs fs) {a : Nat} (hA : A ≤ a)
    (i : Nat) (hi : ∀ k c, k < i → fs[k]? = some c → c.1 ≤ a) :
    ∃ A', A' ≤ a ∧ ReadyPath A' (segs.drop i) (fs.drop i) ∧ ∀ d x, a ≤ x → valueOr d (fs.drop i) x = valueOr d fs x := by
  induction h generalizing i with
  | @nil A => exact ⟨A, hA, by simpa using .nil, fun d x _ => by simp⟩
  | @cons A B s rest f fs hAB hB hs hrest ih =>
    cases i with
    | zero => exact ⟨A, hA, .cons hAB hB hs hrest, fun d x _ => rfl⟩
    | succ i =>
      have h0 : B ≤ a := hi 0 (B, f) (by omega) rfl
      obtain ⟨A', a1, a2, a3⟩ := ih h0 i fun k c hk hc => hi (k + 1) c (by omega) (by simpa using hc)
      refine ⟨A', a1, by simpa using a2, fun d x hx => ?_⟩
      rw [List.drop_succ_cons, a3 d x hx, valueOr, if_neg (by omega)]

theorem customGet_inv {fs : List (Nat × (Nat → ℚ))} {path : CustomPath} {prev e : Nat} (hi : CustomInv fs path prev e) {a b : Nat} (hab : a ≤ b)
    (hr : e ≤ a ∨ a < prev) (g : Nat → ℚ) :
    ∃ path', customGet path a b (tab (b - a) g) = .ok (path', tab (b - a) fun k => valueOr (g k) fs (a + k)) ∧ CustomInv fs path' a b := by
  obtain ⟨i, hi_eq, hskip, hcur0⟩ : ∃ i, (if a < path.prev then 0 else path.cur) = i ∧
      (path.segments ≠ [] → ∀ k c, k < i → fs[k]? = some c → c.1 ≤ a) ∧ (i = 0 ∨ i = path.cur) := by
    by_cases c : a < path.prev
    · exact ⟨0, by rw [if_pos c], fun _ k p hk => by omega, .inl rfl⟩
    · refine ⟨path.cur, by rw [if_neg c], fun hne k p hk hp => ?_, .inr rfl⟩
      have h1 := hi.prev_eq hne
      have := hi.cur k p hk hp
      omega
  have hskip : ∀ k c, k < i → fs[k]? = some c → c.1 ≤ a := by
    intro k c hk hc
    by_cases hne : path.segments = []
    · have := hi.segments
      rw [hne] at this
      cases this
      simp at hc
    · exact hskip hne k c hk hc
  obtain ⟨A', a1, a2, a3⟩ := hi.segments.drop (Nat.zero_le a) i hskip
  obtain ⟨cur', prev', q1, q2, q3⟩ := customGetLoop_ready hab a2 i path.cur path.prev g
  refine ⟨{ path with cur := cur', prev := prev' }, ?_, hi.segments, fun hne => ?_, ?_, fun hne => ?_⟩
  · rw [customGet]
    simp only [hi_eq, q1, ok_bind', pure_eq_ok]
    congr 2
    refine tab_congr fun k _ => ?_
    rw [if_pos (by omega), a3 _ _ (by omega)]
  · apply q2
    have := hi.inside hne
    intro h
    rw [List.drop_eq_nil_iff] at h
    have : 0 < path.segments.length := List.length_pos_iff.2 hne
    omega
  · intro k c hk hc
    rcases q3 with ⟨c1, c2⟩ | ⟨m, c1, c2, c3, c4⟩
    · simp only at hk
      exfalso
      rcases c2 with c2 | c2
      · rw [List.drop_eq_nil_iff] at c2
        by_cases hne : path.segments = []
        · have := hi.segments
          rw [hne] at this
          cases this
          simp at hc
        · have := hi.inside hne
          have : 0 < path.segments.length := List.length_pos_iff.2 hne
          omega
      · omega
    · simp only at hk
      by_cases hki : k < i
      · have := hskip k c hki hc
        omega
      · refine c4 (k - i) c (by omega) ?_
        rw [List.getElem?_drop, ← hc]
        congr 1
        omega
  · have := hi.inside hne
    rcases q3 with ⟨c1, c2⟩ | ⟨m, c1, c2, c3, c4⟩
    · simp only
      omega
    · rw [List.length_drop] at c2
      simp only
      omega

theorem readCustom_inv {fs : List (Nat × (Nat → ℚ))} {path : CustomPath} {prev e : Nat} (hi : CustomInv fs path prev e) (ranges : List (Nat × Nat))
    (hr : RangesForward prev e ranges) : readCustom path ranges = .ok (ranges.map fun r => tab (r.2 - r.1) fun k => valueOf fs (r.1 + k)) := by
  induction ranges generalizing path prev e with
  | nil => rfl
  | cons r rest ih =>
    obtain ⟨a, b⟩ := r
    obtain ⟨hab, hor, hrest⟩ := hr
    obtain ⟨path', h1, h2⟩ := customGet_inv hi hab hor fun _ => 0
    rw [readCustom, tab_replicate, h1]
    simp only [ok_bind']
    rw [ih h2 hrest]
    simp only [ok_bind', pure_eq_ok, List.map_cons, valueOr_zero]

end Sp
