import Verif.Model.NoiseSeed
import Verif.Props.NoiseEvents

/-!
# Events that take a number from a common random state when they are prepared
-/

set_option linter.unusedSectionVars false

namespace Sp
variable {S D G ρ : Type}

/-- The event functions `cb`, where prepare first takes a seed from the common state. -/
def withSeed {W : Type} (draw : G → ρ × G) (seed : ρ → D → D) (cb : Callbacks D W) : Callbacks D (G × W) where
  prepare e w := do
    let (st, e, w') ← cb.prepare { e with data := seed (draw w.1).1 e.data } w.2
    return (st, e, ((draw w.1).2, w'))
  generate x y off e w := do
    let (st, e, w') ← cb.generate x y off e w.2
    return (st, e, (w.1, w'))
  free e w := do
    let w' ← cb.free e w.2
    return (w.1, w')

section
variable {W : Type} {draw : G → ρ × G} {seed : ρ → D → D} {cb : Callbacks D W}

/-- The second list is the first list where events that are not yet prepared have their seed already. `t` is the time
up to which the list was played. -/
inductive Seeded (draw : G → ρ × G) (seed : ρ → D → D) (t : Nat) : G → List (Addr × Event D) → List (Addr × Event D) → Prop
  | nil {g} : Seeded draw seed t g [] []
  | done {g a e l l'} : e.prep = false → e.start < t → Seeded draw seed t g l l' →
      Seeded draw seed t g ((a, e) :: l) ((a, e) :: l')
  | pending {g a e l l'} : e.prep = true → t < e.stop → e.start < e.stop →
      (∀ x ∈ l, x.2.prep = true → e.start ≤ x.2.start) → (∀ x ∈ l, x.2.prep = true) →
      Seeded draw seed t (draw g).2 l l' →
      Seeded draw seed t g ((a, e) :: l) ((a, { e with data := seed (draw g).1 e.data }) :: l')

theorem withSeed_prepare {e e' : Event D} {g : G} {w w' : W} {st : Nat}
    (h : cb.prepare { e with data := seed (draw g).1 e.data } w = .ok (st, e', w')) :
    (withSeed draw seed cb).prepare e (g, w) = .ok (st, e', ((draw g).2, w')) := by
  simp only [withSeed, h, ok_bind', pure_eq_ok]

theorem withSeed_generate {e e' : Event D} {g : G} {w w' : W} {st x y off : Nat}
    (h : cb.generate x y off e w = .ok (st, e', w')) :
    (withSeed draw seed cb).generate x y off e (g, w) = .ok (st, e', (g, w')) := by
  simp only [withSeed, h, ok_bind', pure_eq_ok]

theorem Seeded.later {t u : Nat} {g : G} {l l' : List (Addr × Event D)} (h : Seeded draw seed t g l l') (htu : t ≤ u)
    (hs : ∀ x ∈ l, x.2.prep = true → u ≤ x.2.start) : Seeded draw seed u g l l' := by
  induction h with
  | nil => exact .nil
  | done h1 h2 _ ih => exact .done h1 (by omega) (ih fun x hx => hs x (by simp [hx]))
  | @pending g a e l l' h1 h2 h3 h4 h5 _ ih =>
    have : u ≤ e.start := hs (a, e) (by simp) h1
    exact .pending h1 (by omega) h3 h4 h5 (ih fun x hx => hs x (by simp [hx]))

theorem seqList_seeded (hk : KeepsTimes cb) {t u off : Nat} (htu : t ≤ u) {g : G} {l l' : List (Addr × Event D)}
    (h : Seeded draw seed t g l l') {w w' : W} {l1' : List (Addr × Event D)} {log : List Call}
    (hr : seqList cb t u off l' w = .ok (0, l1', w', log)) :
    ∃ l1 g', seqList (withSeed draw seed cb) t u off l (g, w) = .ok (0, l1, (g', w'), log) ∧
      Seeded draw seed u g' l1 l1' ∧ (∀ x ∈ l1, x.2.prep = true → ∃ y ∈ l, y = x) := by
  induction h generalizing w l1' w' log with
  | @nil g =>
    simp only [seqList, Except.ok.injEq, Prod.mk.injEq, true_and] at hr
    obtain ⟨rfl, rfl, rfl⟩ := hr
    exact ⟨[], g, rfl, .nil, by simp⟩
  | @done g a e l l' h1 h2 h3 ih =>
    unfold seqList at hr ⊢
    by_cases hst : e.stop ≤ t
    · rw [if_pos hst] at hr ⊢
      rw [bind_eq_ok] at hr
      obtain ⟨⟨w1, log1⟩, f1, hr⟩ := hr
      simp only at hr
      rw [bind_eq_ok] at hr
      obtain ⟨⟨st, l2, w2, log2⟩, f2, hr⟩ := hr
      simp only [pure_eq_ok, Except.ok.injEq, Prod.mk.injEq] at hr
      obtain ⟨rfl, rfl, rfl, rfl⟩ := hr
      obtain ⟨l1, g', k1, k2, k3⟩ := ih f2
      refine ⟨l1, g', ?_, k2, fun x hx hp => by obtain ⟨y, hy, rfl⟩ := k3 x hx hp; exact ⟨y, by simp [hy], rfl⟩⟩
      have : eventFree (withSeed draw seed cb) a e (g, w) = .ok ((g, w1), log1) := by
        unfold eventFree at f1 ⊢
        split at f1
        · rw [bind_eq_ok] at f1
          obtain ⟨w3, f3, f1⟩ := f1
          simp only [pure_eq_ok, Except.ok.injEq, Prod.mk.injEq] at f1
          obtain ⟨rfl, rfl⟩ := f1
          rename_i hf
          rw [if_pos hf]
          simp only [withSeed, f3, ok_bind', pure_eq_ok]
        · simp only [Except.ok.injEq, Prod.mk.injEq] at f1
          obtain ⟨rfl, rfl⟩ := f1
          rename_i hf
          rw [if_neg hf]
      rw [this, ok_bind']
      simp only [k1, ok_bind', pure_eq_ok]
    · rw [if_neg hst, if_neg (by omega)] at hr ⊢
      rw [bind_eq_ok] at hr
      obtain ⟨⟨st, e1, w1, log1⟩, f1, hr⟩ := hr
      simp only at hr
      have hz : st = 0 := by
        by_contra hz
        rw [if_pos hz] at hr
        simp only [pure_eq_ok, Except.ok.injEq, Prod.mk.injEq] at hr
        exact hz hr.1
      subst hz
      simp only [ne_eq, not_true_eq_false, if_false] at hr
      rw [bind_eq_ok] at hr
      obtain ⟨⟨st, l2, w2, log2⟩, f2, hr⟩ := hr
      simp only [pure_eq_ok, Except.ok.injEq, Prod.mk.injEq] at hr
      obtain ⟨rfl, rfl, rfl, rfl⟩ := hr
      obtain ⟨l1, g', k1, k2, k3⟩ := ih f2
      unfold seqEvent at f1
      unfold prepareOptional at f1
      rw [if_neg (by simp [h1]), ok_bind'] at f1
      simp only [ne_eq, not_true_eq_false, if_false] at f1
      rw [bind_eq_ok] at f1
      obtain ⟨⟨st, e2, w2⟩, f3, f1⟩ := f1
      simp only [pure_eq_ok, Except.ok.injEq, Prod.mk.injEq] at f1
      obtain ⟨rfl, rfl, rfl, rfl⟩ := f1
      obtain ⟨m1, m2, m3⟩ := hk.generate _ _ _ _ _ _ _ _ f3
      refine ⟨(a, e2) :: l1, g', ?_, .done (m3 h1) (by rw [m1]; omega) k2, ?_⟩
      · unfold seqEvent prepareOptional
        rw [if_neg (by simp [h1]), ok_bind']
        simp only [ne_eq, not_true_eq_false, if_false, withSeed_generate f3, ok_bind', pure_eq_ok, k1]
      · intro x hx hp
        rcases List.mem_cons.1 hx with rfl | hx
        · rw [m3 h1] at hp; cases hp
        · obtain ⟨y, hy, rfl⟩ := k3 x hx hp
          exact ⟨y, by simp [hy], rfl⟩
  | @pending g a e l l' h1 h2 h3 h4 h5 h6 ih =>
    unfold seqList at hr ⊢
    simp only at hr
    rw [if_neg (by omega)] at hr ⊢
    by_cases hbr : u ≤ e.start
    · rw [if_pos hbr] at hr ⊢
      simp only [Except.ok.injEq, Prod.mk.injEq, true_and] at hr
      obtain ⟨rfl, rfl, rfl⟩ := hr
      refine ⟨_, g, rfl, (Seeded.pending h1 h2 h3 h4 h5 h6).later htu ?_, fun x hx _ => ⟨x, hx, rfl⟩⟩
      intro x hx hp
      rcases List.mem_cons.1 hx with rfl | hx
      · exact hbr
      · have := h4 x hx hp; omega
    · rw [if_neg hbr] at hr ⊢
      rw [bind_eq_ok] at hr
      obtain ⟨⟨st, e1, w1, log1⟩, f1, hr⟩ := hr
      simp only at hr
      have hz : st = 0 := by
        by_contra hz
        rw [if_pos hz] at hr
        simp only [pure_eq_ok, Except.ok.injEq, Prod.mk.injEq] at hr
        exact hz hr.1
      subst hz
      simp only [ne_eq, not_true_eq_false, if_false] at hr
      rw [bind_eq_ok] at hr
      obtain ⟨⟨st, l2, w2, log2⟩, f2, hr⟩ := hr
      simp only [pure_eq_ok, Except.ok.injEq, Prod.mk.injEq] at hr
      obtain ⟨rfl, rfl, rfl, rfl⟩ := hr
      obtain ⟨l1, g', k1, k2, k3⟩ := ih f2
      unfold seqEvent prepareOptional at f1
      simp only at f1
      rw [if_pos h1] at f1
      rw [bind_eq_ok] at f1
      obtain ⟨⟨st3, e3, w3, log3⟩, f3, f1⟩ := f1
      rw [bind_eq_ok] at f3
      obtain ⟨⟨st4, e4, w4⟩, f4, f3⟩ := f3
      simp only at f3
      have hz : st4 = 0 := by
        by_contra hz
        rw [if_pos hz] at f3
        simp only [pure_eq_ok, Except.ok.injEq, Prod.mk.injEq] at f3
        obtain ⟨rfl, _⟩ := f3
        simp only [ne_eq, hz, not_false_eq_true, if_true, pure_eq_ok, Except.ok.injEq, Prod.mk.injEq] at f1
        exact f1.1
      subst hz
      simp only [ne_eq, not_true_eq_false, if_false, pure_eq_ok, Except.ok.injEq, Prod.mk.injEq] at f3
      obtain ⟨rfl, rfl, rfl, rfl⟩ := f3
      simp only [ne_eq, not_true_eq_false, if_false] at f1
      rw [bind_eq_ok] at f1
      obtain ⟨⟨st, e2, w2⟩, f3, f1⟩ := f1
      simp only [pure_eq_ok, Except.ok.injEq, Prod.mk.injEq] at f1
      obtain ⟨rfl, rfl, rfl, rfl⟩ := f1
      obtain ⟨m1, m2, m3⟩ := hk.generate _ _ _ _ _ _ _ _ f3
      have m4 := hk.prepare _ _ _ _ _ f4
      simp only at m1 m2 m3 m4
      refine ⟨(a, e2) :: l1, g', ?_, .done (m3 trivial) (by rw [m1, m4.1]; omega) k2, ?_⟩
      · unfold seqEvent prepareOptional
        simp only [h1, if_true]
        simp only [withSeed_prepare (e := e) f4, ok_bind', pure_eq_ok, ne_eq, not_true_eq_false, if_false, withSeed_generate f3, k1]
      · intro x hx hp
        rcases List.mem_cons.1 hx with rfl | hx
        · rw [m3 trivial] at hp; cases hp
        · obtain ⟨y, hy, rfl⟩ := k3 x hx hp
          exact ⟨y, by simp [hy], rfl⟩

end

/-! ### many blocks -/

theorem seqBlocks_seeded {ok : Nat → Prop} {cb : Callbacks D (Buf (Buf S))} (hk : KeepsTimes cb) (draw : G → ρ × G)
    (seed : ρ → D → D) {nch n fuel base t0 : Nat} {ps : List (Part S)}
    (stops : List Nat) {t : Nat} {l l' : List (Addr × Event D)} {heap : Heap (Event D)}
    {head : Option Addr} {log0 : List Call} (hb : Blocks t stops) (hsh : Shorter ok)
    (hok : ∀ p ∈ blockBounds t stops, ok (p.2 - p.1)) (last : Nat)
    (hlast : (t :: stops).getLast? = some last) (hoff : base + (last - t0) ≤ n) (ht0 : t0 ≤ t)
    (hwf : WellFormed heap head l) (hf : l.length < fuel) {g : G} (hs : Seeded draw seed t g l l') (h : Chain ok cb nch t ps l')
    (f : Nat → Nat → S) :
    t ≤ last ∧ ∃ s logs, seqBlocks (withSeed draw seed cb) fuel (fun t => base + (t - t0)) t stops
        ⟨heap, head, (g, blk nch n f), log0⟩ = .ok (0, s, logs) ∧
      s.world.2 = blk nch n (applyRange (mixParts ps) t (base + (t - t0)) (last - t) f) := by
  induction stops generalizing t l l' heap head log0 f g with
  | nil =>
    simp only [List.getLast?_singleton, Option.some.injEq] at hlast
    subst hlast
    refine ⟨Nat.le_refl _, _, _, rfl, ?_⟩
    rw [Nat.sub_self, applyRange_zero]
  | cons u stops ih =>
    obtain ⟨h1, h2, h3⟩ := hb
    have hlast' : (u :: stops).getLast? = some last := by
      rw [← hlast]; simp [List.getLast?_cons_cons]
    have hul : u ≤ last := by
      clear ih hlast hoff hok
      induction stops generalizing u with
      | nil => simp at hlast'; omega
      | cons v stops ih2 =>
        obtain ⟨k1, k2, k3⟩ := h3
        have := ih2 v (by omega) k2 k3 (by rw [← hlast']; simp [List.getLast?_cons_cons])
        omega
    obtain ⟨l1', log, e1, e2⟩ := seqList_mix (off := base + (t - t0)) (n := n) h (by omega) h2 hsh
      (hok (t, u) (by simp [blockBounds])) (by omega) f
    obtain ⟨l1, g', k1, k2, _⟩ := seqList_seeded hk (by omega) hs e1
    have htop : seqListTop (withSeed draw seed cb) t u (base + (t - t0)) l (g, blk nch n f) =
        .ok (0, l1, (g', blk nch n (applyRange (mixParts ps) t (base + (t - t0)) (u - t) f)), log) := by
      unfold seqListTop
      rw [k1, ok_bind']
      rfl
    have hr := seq_refines (withSeed draw seed cb) t u (base + (t - t0)) l ⟨heap, head, (g, blk nch n f), []⟩ fuel hf hwf
    rw [htop] at hr
    obtain ⟨heap', head', r1, r2, _, _⟩ := hr
    have hlen := (seqList_addrs _ _ _ _ _ _ _ _ _ _ k1).length_le
    simp only [List.length_map] at hlen
    obtain ⟨_, s, logs, e5, e6⟩ := ih (log0 := [] ++ log) h3 (fun p hp => hok p (by simp [blockBounds, hp])) hlast' (by omega)
      (by simpa using r2) (by simpa using Nat.lt_of_le_of_lt hlen hf) k2 e2 (applyRange (mixParts ps) t (base + (t - t0)) (u - t) f)
    refine ⟨by omega, s, ([] ++ log) :: logs, ?_, ?_⟩
    · unfold seqBlocks
      simp only [r1, ok_bind', e5, ne_eq, not_true_eq_false, if_false]
      rfl
    · rw [e6, show base + (u - t0) = base + (t - t0) + (u - t) by omega, applyRange_comp (by omega) hul]

/-- The list with the seeds. -/
def seedList (draw : G → ρ × G) (seed : ρ → D → D) : G → List (Addr × Event D) → List (Addr × Event D)
  | _, [] => []
  | g, (a, e) :: l => (a, { e with data := seed (draw g).1 e.data }) :: seedList draw seed (draw g).2 l

theorem seedList_seeded (draw : G → ρ × G) (seed : ρ → D → D) (t : Nat) (g : G) {l : List (Addr × Event D)} (hs : SortedEvents l)
    (h : ∀ x ∈ l, x.2.prep = true ∧ t < x.2.stop ∧ x.2.start < x.2.stop) :
    Seeded draw seed t g l (seedList draw seed g l) := by
  obtain ⟨h1, h2, h3⟩ := hs
  induction l generalizing g with
  | nil => exact .nil
  | cons x l ih =>
    obtain ⟨a, e⟩ := x
    obtain ⟨q1, q2, q3⟩ := h (a, e) (by simp)
    exact .pending q1 q2 q3 (fun x hx _ => (List.pairwise_cons.1 h1).1 x hx) (fun x hx => (h x (by simp [hx])).1)
      (ih _ (fun x hx => h x (by simp [hx])) (List.pairwise_cons.1 h1).2 (fun x hx => h2 x (by simp [hx]))
        (fun x hx => h3 x (by simp [hx])))

theorem seedList_getElem? (draw : G → ρ × G) (seed : ρ → D → D) (g : G) (l : List (Addr × Event D)) (i : Nat) :
    (seedList draw seed g l)[i]? = l[i]?.map fun x => (x.1, { x.2 with data := seed (randomAt draw g i) x.2.data }) := by
  induction l generalizing g i with
  | nil => simp [seedList]
  | cons x l ih =>
    obtain ⟨a, e⟩ := x
    cases i with
    | zero => simp [seedList, randomAt]
    | succ i => simpa [seedList, randomAt] using ih _ i

end Sp
