import Verif.Spec.PathNest
import Verif.Lemmas.Path

/-! # Lemmas about paths inside of paths -/

set_option linter.unusedSectionVars false

namespace Sp

theorem InRange.size {x : ℚ} (h : InRange x) : sizeOfValue x = .ok (trunc x) :=
  sizeOfValue_eq (by have := h.1; linarith) (by have := h.2; linarith)

theorem InRange.offset {x : ℚ} (h : InRange x) : sizeOfValue ((trunc x : Nat) - x) = .ok 0 := by
  have h1 : ((trunc x : Nat) : ℚ) ≤ x := trunc_le h.1
  have h2 : x < (trunc x : Nat) + 1 := lt_trunc h.1
  rw [sizeOfValue_eq (by linarith) (by linarith)]
  congr 1
  rw [trunc, Int.toNat_eq_zero]
  have : ⌊((trunc x : Nat) : ℚ) - x⌋ ≤ 0 := by
    have := Int.floor_le (((trunc x : Nat) : ℚ) - x)
    have h3 : ((⌊((trunc x : Nat) : ℚ) - x⌋ : ℤ) : ℚ) ≤ (0 : ℤ) := by push_cast; linarith
    exact_mod_cast h3
  exact this

theorem sub64_self {a : Nat} : sub64 a a = 0 := by
  unfold sub64
  omega

theorem memzero_none {out : Buf ℚ} {o : Nat} (h : o ≤ out.length) : memzero out o 0 = .ok out := by
  have := memzero_tab (n := out.length) (f := fun i => out.getD i 0) (d := o) (c := 0) (by omega)
  rw [← eq_tab out 0] at this
  rw [this]
  congr 1
  rw [tab_congr (g := fun i => out.getD i 0) (fun k _ => by rw [if_neg (by omega)])]
  exact (eq_tab out 0).symm

/-- No samples of a segment that is not a curve. -/
theorem generate_none {fuel : Nat} {s : Segment} (h : (NSeg.plain s).Simple) {p : Point} (hp : rd s.points 0 = .ok p) {o : Nat} {out : Buf ℚ}
    (ho : o ≤ out.length) : s.generate fuel (trunc p.x) (trunc p.x) o out = .ok out := by
  rw [NSeg.Simple] at h
  obtain ⟨hk, _, p', q, r, hpts, hpr, _⟩ := h
  have hpp : p' = p := by
    rw [hpts] at hp
    exact Except.ok.inj hp
  subst hpp
  have hq : rd s.points 1 = .ok q := by rw [hpts]; rfl
  rcases hk with hk | hk | hk
  · rw [Segment.generate, hk]
    simp only [moveGenerate]
    rw [sub64_self]
    exact memzero_none ho
  · rw [Segment.generate, hk]
    simp only [lineGenerate]
    rw [hp, hq]
    simp only [ok_bind']
    rw [hpr.offset, sub64_self]
    simp only [ok_bind']
    exact forRange_of_le (le_refl 0) _ _
  · rw [Segment.generate, hk]
    simp only [constantGenerate]
    rw [hp, sub64_self]
    simp only [ok_bind']
    exact forRange_of_le (le_refl 0) _ _

theorem NSeg.Simple.points {s : NSeg} (h : s.Simple) : ∃ p q, s.first = .ok p ∧ s.last = .ok q ∧ InRange p.x ∧ InRange q.x := by
  cases s with
  | plain s =>
    rw [NSeg.Simple] at h
    obtain ⟨_, hc, p, q, r, hpts, hp, hq⟩ := h
    refine ⟨p, q, ?_, ?_, hp, hq⟩
    · rw [NSeg.first, hpts]; rfl
    · rw [NSeg.last, hpts, hc]; rfl
  | path p0 p1 inner cur prev =>
    rw [NSeg.Simple] at h
    exact ⟨p0, p0, rfl, rfl, h.1, h.1⟩

mutual
/-- Drawing no samples changes nothing in the output. -/
theorem NSeg.Simple.none {fuel : Nat} : {s : NSeg} → s.Simple → {p : Point} → s.first = .ok p → {o : Nat} → {out : Buf ℚ} →
    o ≤ out.length → ∃ s', s.generate fuel (trunc p.x) (trunc p.x) o out = .ok (s', out)
  | .plain s, h, p, hp, o, out, ho => by
    rw [NSeg.generate, generate_none h hp ho]
    exact ⟨_, rfl⟩
  | .path p0 p1 inner cur prev, h, p, hp, o, out, ho => by
    obtain rfl : p0 = p := Except.ok.inj hp
    rw [NSeg.Simple] at h
    rw [NSeg.generate, h.1.offset]
    simp only [ok_bind']
    obtain ⟨l, c, v, e⟩ := SimpleList.none (fuel := fuel) h.2 (o := o) (skip := if 0 < prev then 0 else cur) (i := 0) (cur := cur)
      (prev := prev) ho
    rw [e]
    exact ⟨_, rfl⟩

/-- Reading the range from 0 to 0 changes nothing in the output. -/
theorem SimpleList.none {fuel : Nat} : {l : List NSeg} → SimpleList l → {o skip i cur prev : Nat} → {out : Buf ℚ} → o ≤ out.length →
    ∃ l' c v, nGetLoop fuel 0 0 o skip l i cur prev out = .ok (l', c, v, out)
  | [], _, o, skip, i, cur, prev, out, _ => ⟨[], cur, prev, by rw [nGetLoop]⟩
  | s :: rest, h, o, skip, i, cur, prev, out, ho => by
    rw [SimpleList] at h
    obtain ⟨p, q, hp, hq, hpr, hqr⟩ := h.1.points
    rw [nGetLoop]
    by_cases hs : i < skip
    · rw [if_pos hs]
      obtain ⟨l, c, v, e⟩ := SimpleList.none (fuel := fuel) h.2 (o := o) (skip := skip) (i := i + 1) (cur := cur) (prev := prev) ho
      rw [e]
      exact ⟨_, _, _, rfl⟩
    · rw [if_neg hs, hp]
      simp only [ok_bind']
      rw [hpr.size, hq]
      simp only [ok_bind']
      rw [hqr.size]
      simp only [ok_bind']
      by_cases hb : trunc p.x > 0
      · rw [if_pos hb]
        exact ⟨_, _, _, rfl⟩
      · rw [if_neg hb, if_neg (by omega)]
        have e1 : (if trunc p.x < 0 then 0 else trunc p.x) = trunc p.x := if_neg (by omega)
        have e2 : (if trunc q.x > 0 then 0 else trunc q.x) = trunc p.x := by split <;> omega
        rw [e1, e2]
        obtain ⟨s', es⟩ := NSeg.Simple.none (fuel := fuel) h.1 hp (o := o + if trunc p.x > 0 then trunc p.x - 0 else 0) (out := out)
          (by rw [if_neg hb]; exact ho)
        rw [es]
        simp only [ok_bind']
        obtain ⟨l, c, v, e⟩ := SimpleList.none (fuel := fuel) h.2 (o := o) (skip := skip) (i := i + 1) (cur := i) (prev := 0) ho
        rw [e]
        exact ⟨_, _, _, rfl⟩
end

/-! ### Lengths -/

theorem wr_keeps {out out' : Buf ℚ} {i : Nat} {v : ℚ} (h : wr out i v = .ok out') : out'.length = out.length := by
  rw [wr] at h
  split at h
  · rw [← Except.ok.inj h, List.length_set]
  · cases h

theorem forRange_keeps {lo hi : Nat} {body : Nat → Buf ℚ → C (Buf ℚ)} {out out' : Buf ℚ}
    (hb : ∀ i s s', body i s = .ok s' → s'.length = s.length) (h : forRange lo hi body out = .ok out') : out'.length = out.length := by
  by_cases hle : lo ≤ hi
  · obtain ⟨n, rfl⟩ := Nat.exists_eq_add_of_le hle
    clear hle
    induction n generalizing out' with
    | zero =>
      simp only [Nat.add_zero, forRange_self, Except.ok.injEq] at h
      rw [h]
    | succ n ih =>
      rw [← Nat.add_assoc, forRange_succ (by omega)] at h
      obtain ⟨x, h1, h2⟩ := bind_eq_ok.1 h
      rw [hb _ _ _ h2, ih h1]
  · rw [forRange_of_le (by omega)] at h
    rw [Except.ok.inj h]

theorem bezierPut_keeps {start stop o x : Nat} {y : ℚ} {out out' : Buf ℚ} (h : bezierPut start stop o x y out = .ok out') :
    out'.length = out.length := by
  rw [bezierPut] at h
  split at h
  · exact wr_keeps h
  · rw [Except.ok.inj h]

theorem bezierBody_keeps {f : Interpolator} {points : Buf Point} {size : ℚ} {p : Point} {start stop o i xp : Nat} {out : Buf ℚ}
    {r : Nat × Buf ℚ} (h : bezierBody f points size p start stop o i xp out = .ok r) : r.2.length = out.length := by
  rw [bezierBody] at h
  obtain ⟨x, _, h⟩ := bind_eq_ok.1 h
  obtain ⟨y, _, h⟩ := bind_eq_ok.1 h
  obtain ⟨out1, h1, h⟩ := bind_eq_ok.1 h
  have l1 := bezierPut_keeps h1
  split at h
  · rw [← Except.ok.inj h]
    exact l1
  · obtain ⟨q, _, h⟩ := bind_eq_ok.1 h
    obtain ⟨out2, h2, h⟩ := bind_eq_ok.1 h
    rw [← Except.ok.inj h, ← l1]
    refine forRange_keeps ?_ h2
    intro j s s' hb
    rw [bezierGapBody] at hb
    obtain ⟨t, _, hb⟩ := bind_eq_ok.1 hb
    exact wr_keeps hb

theorem bezierLoop_keeps {f : Interpolator} {points : Buf Point} {size : ℚ} {p : Point} {start stop o b fuel i xp : Nat} {x : Option Nat}
    {out out' : Buf ℚ} (h : bezierLoop f points size p start stop o b fuel i x xp out = .ok out') : out'.length = out.length := by
  induction fuel generalizing i x xp out with
  | zero => rw [bezierLoop] at h; cases h
  | succ fuel ih =>
    unfold bezierLoop at h
    split at h
    · obtain ⟨r, h1, h⟩ := bind_eq_ok.1 h
      rw [ih h, bezierBody_keeps h1]
    · split at h
      · cases h
      · split at h
        · obtain ⟨r, h1, h⟩ := bind_eq_ok.1 h
          rw [ih h, bezierBody_keeps h1]
        · rw [Except.ok.inj h]

theorem bezierGenerate_keeps {f : Interpolator} {fuel start stop o : Nat} {s : Segment} {out out' : Buf ℚ}
    (h : bezierGenerate f fuel start stop s o out = .ok out') : out'.length = out.length := by
  rw [bezierGenerate] at h
  obtain ⟨_, _, h⟩ := bind_eq_ok.1 h
  obtain ⟨_, _, h⟩ := bind_eq_ok.1 h
  obtain ⟨_, _, h⟩ := bind_eq_ok.1 h
  exact bezierLoop_keeps h

theorem generate_keeps {fuel start stop o : Nat} {s : Segment} {out out' : Buf ℚ}
    (h : s.generate fuel start stop o out = .ok out') : out'.length = out.length := by
  rw [Segment.generate] at h
  split at h
  · rw [moveGenerate, memzero] at h
    split at h
    · rw [← Except.ok.inj h]
      simp only [List.length_append, List.length_take, List.length_replicate, List.length_drop]
      omega
    · cases h
  · rw [lineGenerate] at h
    obtain ⟨_, _, h⟩ := bind_eq_ok.1 h
    obtain ⟨_, _, h⟩ := bind_eq_ok.1 h
    obtain ⟨_, _, h⟩ := bind_eq_ok.1 h
    refine forRange_keeps ?_ h
    intro j s s' hb
    rw [lineBody] at hb
    obtain ⟨t, _, hb⟩ := bind_eq_ok.1 hb
    exact wr_keeps hb
  · rw [constantGenerate] at h
    obtain ⟨_, _, h⟩ := bind_eq_ok.1 h
    refine forRange_keeps ?_ h
    intro j s s' hb
    exact wr_keeps hb
  · exact bezierGenerate_keeps h
  · exact bezierGenerate_keeps h

/-! ### Paths with and without their paths -/

/-- Segments that begin at `p`, with paths and without. -/
inductive Without : Point → List NSeg → List Segment → Prop
  | nil {p : Point} : Without p [] []
  | path {p q : Point} {inner : List NSeg} {cur prev : Nat} {ns : List NSeg} {ss : List Segment} : InRange p.x → SimpleList inner →
      Without p ns ss → Without p (.path p q inner cur prev :: ns) ss
  | plain {p q : Point} {s : Segment} {ns : List NSeg} {ss : List Segment} : rd s.points 0 = .ok p → InRange p.x →
      rd s.points (s.pointsCount - 1) = .ok q → InRange q.x → Without q ns ss → Without p (.plain s :: ns) (s :: ss)

theorem Without.loop {fuel start stop : Nat} {p : Point} {ns : List NSeg} {ss : List Segment} (h : Without p ns ss) (i i' cur cur' prev prev' : Nat)
    {out : Buf ℚ} (hlen : stop - start ≤ out.length) :
    (nGetLoop fuel start stop 0 0 ns i cur prev out).map (fun r => r.2.2.2) =
      (splineGetLoop fuel start stop ss i' cur' prev' out).map (fun r => r.2.2) := by
  induction h generalizing i i' cur cur' prev prev' out with
  | nil => rw [nGetLoop, splineGetLoop]; rfl
  | @path p q inner c v ns ss hp hinner hw ih =>
    rw [nGetLoop, if_neg (Nat.not_lt_zero _)]
    simp only [NSeg.first, NSeg.last, ok_bind']
    rw [hp.size]
    simp only [ok_bind']
    by_cases hb : trunc p.x > stop
    · rw [if_pos hb]
      -- what follows begins at the same point
      have : ∀ {ns ss}, Without p ns ss → (splineGetLoop fuel start stop ss i' cur' prev' out).map (fun r => r.2.2) = .ok out := by
        intro ns ss hw
        clear ih
        generalize hpe : p = p' at hw
        induction hw with
        | nil => rw [splineGetLoop]; rfl
        | path _ _ _ ih => exact ih hpe
        | plain h1 h2 h3 h4 _ =>
          subst hpe
          rw [splineGetLoop, h1]
          simp only [ok_bind']
          rw [h2.size, h3]
          simp only [ok_bind']
          rw [h4.size]
          simp only [ok_bind']
          rw [if_pos hb]
          rfl
      rw [this hw]
      rfl
    · rw [if_neg hb]
      by_cases ha : trunc p.x < start
      · rw [if_pos ha, ← ih (i + 1) i' i cur' start prev' hlen]
        cases nGetLoop fuel start stop 0 0 ns (i + 1) i start out <;> rfl
      · rw [if_neg ha]
        have e1 : (if trunc p.x < start then start else trunc p.x) = trunc p.x := if_neg ha
        have e2 : (if trunc p.x > stop then stop else trunc p.x) = trunc p.x := if_neg hb
        rw [e1, e2]
        obtain ⟨s', es⟩ := NSeg.Simple.none (fuel := fuel) (s := .path p q inner c v) (by rw [NSeg.Simple]; exact ⟨hp, hinner⟩) rfl
          (o := 0 + if trunc p.x > start then trunc p.x - start else 0) (out := out) (by split <;> omega)
        rw [es]
        simp only [ok_bind']
        rw [← ih (i + 1) i' i cur' start prev' hlen]
        cases nGetLoop fuel start stop 0 0 ns (i + 1) i start out <;> rfl
  | @plain p q s ns ss h1 h2 h3 h4 hw ih =>
    rw [nGetLoop, if_neg (Nat.not_lt_zero _), splineGetLoop]
    simp only [NSeg.first, NSeg.last]
    rw [h1]
    simp only [ok_bind']
    rw [h2.size, h3]
    simp only [ok_bind']
    rw [h4.size]
    simp only [ok_bind']
    by_cases hb : trunc p.x > stop
    · rw [if_pos hb, if_pos hb]
      rfl
    · rw [if_neg hb, if_neg hb]
      by_cases ha : trunc q.x < start
      · rw [if_pos ha, if_pos ha, ← ih (i + 1) (i' + 1) i i' start start hlen]
        cases nGetLoop fuel start stop 0 0 ns (i + 1) i start out <;> rfl
      · rw [if_neg ha, if_neg ha, NSeg.generate, Nat.zero_add]
        cases hg : s.generate fuel (if trunc p.x < start then start else trunc p.x) (if trunc q.x > stop then stop else trunc q.x)
            (if trunc p.x > start then trunc p.x - start else 0) out with
        | error e => rfl
        | ok out1 =>
          simp only [ok_bind', pure_eq_ok]
          rw [← ih (i + 1) (i' + 1) i i' start start (by rw [generate_keeps hg]; exact hlen)]
          cases nGetLoop fuel start stop 0 0 ns (i + 1) i start out1 <;> rfl

theorem prepared_without {start : Point} {parts ns : List NSeg} (h : nPrepareSegments start parts = .ok ns) (hr : ∀ s ∈ ns, s.Fits) :
    ∃ ss, prepareSegments start (plainSegments parts) = .ok ss ∧ Without start ns ss := by
  induction parts generalizing start ns with
  | nil =>
    rw [nPrepareSegments] at h
    rw [← Except.ok.inj h]
    exact ⟨[], rfl, .nil⟩
  | cons part rest ih =>
    rw [nPrepareSegments] at h
    obtain ⟨s, h1, h⟩ := bind_eq_ok.1 h
    obtain ⟨next, h2, h⟩ := bind_eq_ok.1 h
    obtain ⟨ns', h3, h⟩ := bind_eq_ok.1 h
    obtain rfl : s :: ns' = ns := Except.ok.inj h
    obtain ⟨ss, hs1, hs2⟩ := ih h3 (fun s hs => hr s (List.mem_cons_of_mem _ hs))
    obtain ⟨⟨p, q, f1, f2, f3, f4⟩, f5⟩ := hr s List.mem_cons_self
    cases part with
    | plain g =>
      rw [NSeg.prepared] at h1
      obtain ⟨pts, a1, h1⟩ := bind_eq_ok.1 h1
      obtain ⟨pts2, a2, h1⟩ := bind_eq_ok.1 h1
      obtain rfl := Except.ok.inj h1
      refine ⟨{ g with points := pts2 } :: ss, ?_, ?_⟩
      · rw [plainSegments, prepareSegments, a1]
        simp only [ok_bind']
        rw [a2]
        simp only [ok_bind']
        rw [show rd pts2 (g.pointsCount - 1) = .ok next from h2]
        simp only [ok_bind']
        rw [hs1]
        rfl
      · have hq : next = q := Except.ok.inj (h2.symm.trans f2)
        subst hq
        have hstart : rd pts2 0 = .ok start := by
          have hw : rd pts 0 = .ok start := by
            rw [wr] at a1
            split at a1
            · rw [← Except.ok.inj a1]
              exact rd_ok_iff.2 (by rw [List.getElem?_set_self (by assumption)])
            · cases a1
          rw [Segment.runPrepare] at a2
          split at a2
          · rw [← Except.ok.inj a2]; exact hw
          · rw [constantPrepare, hw] at a2
            simp only [ok_bind'] at a2
            rw [wr] at a2
            split at a2
            · rw [← Except.ok.inj a2]
              exact rd_ok_iff.2 (by rw [List.getElem?_set_ne (by omega)]; exact rd_ok_iff.1 hw)
            · cases a2
          · rw [arcPrepare, hw] at a2
            simp only [ok_bind'] at a2
            obtain ⟨_, _, a2⟩ := bind_eq_ok.1 a2
            obtain ⟨_, _, a2⟩ := bind_eq_ok.1 a2
            obtain ⟨_, _, a2⟩ := bind_eq_ok.1 a2
            rw [wr] at a2
            split at a2
            · rw [← Except.ok.inj a2]
              exact rd_ok_iff.2 (by rw [List.getElem?_set_ne (by omega)]; exact rd_ok_iff.1 hw)
            · cases a2
        have hps : p = start := Except.ok.inj (f1.symm.trans hstart)
        subst hps
        exact .plain hstart f3 h2 f4 hs2
    | path p0 p1 inner cur prev =>
      rw [NSeg.prepared] at h1
      obtain ⟨e, a1, h1⟩ := bind_eq_ok.1 h1
      obtain rfl := Except.ok.inj h1
      obtain rfl : start = next := Except.ok.inj h2
      obtain rfl : start = p := Except.ok.inj f1
      exact ⟨ss, hs1, .path f3 (f5 _ _ _ _ _ rfl) hs2⟩

end Sp
