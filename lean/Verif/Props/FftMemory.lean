import Verif.Model.FftMemory
import Verif.Props.FilterMemory
import Verif.Props.Fft

/-!
# C141: memory of Fourier transforms, and failing allocations
-/

set_option linter.unusedSectionVars false

namespace Sp

/-- Every allocation with a number from `i` to before `j` succeeds. -/
def AllOk (ok : Nat → Bool) (i j : Nat) : Prop := ∀ k, i ≤ k → k < j → ok k = true

theorem AllOk.trans {ok : Nat → Bool} {i j k : Nat} (h : AllOk ok i j) (h' : AllOk ok j k) : AllOk ok i k := by
  intro l h1 h2
  by_cases hl : l < j
  · exact h l h1 hl
  · exact h' l (by omega) h2

theorem AllOk.mono {ok : Nat → Bool} {i j i' j' : Nat} (h : AllOk ok i j) (hi : i ≤ i') (hj : j' ≤ j) : AllOk ok i' j' :=
  fun l h1 h2 => h l (by omega) (by omega)

theorem Alloc.malloc_own (ok : Nat → Bool) {m0 : Live} {a : Alloc} {as : List Nat} (h : Own m0 a.live as) :
    ∃ p b, a.malloc ok = (p, b) ∧ Own m0 b.live (p.toList ++ as) ∧ b.count = a.count + 1 ∧ p.isNone = !ok a.count := by
  unfold Alloc.malloc
  cases hk : ok a.count
  · exact ⟨none, _, rfl, h, rfl, rfl⟩
  · exact ⟨some _, _, rfl, h.malloc, rfl, rfl⟩

theorem Alloc.free_own {m0 : Live} (hm : m0.Fresh) {as : List Nat} : ∀ (ps : List (Option Nat)) {a : Alloc},
    Own m0 a.live (ps.flatMap Option.toList ++ as) → ∃ b, Alloc.free ps a = .ok b ∧ Own m0 b.live as ∧ b.count = a.count
  | [], a, h => ⟨a, rfl, h, rfl⟩
  | none :: ps, a, h => by
    obtain ⟨b, e, hb, hc⟩ := Alloc.free_own hm (as := as) ps (a := a) (by simpa using h)
    exact ⟨b, e, hb, hc⟩
  | some p :: ps, a, h => by
    obtain ⟨l, e1, h1⟩ := Own.free (as := ps.flatMap Option.toList ++ as) (a := p) (by simpa using h) hm
    obtain ⟨b, e, hb, hc⟩ := Alloc.free_own hm (as := as) ps (a := ⟨l, a.count⟩) h1
    refine ⟨b, ?_, hb, hc⟩
    rw [Alloc.free, e1, ok_bind', e]

section
variable {S : Type} [Zero S] [Add S] [Sub S] [Mul S] [Neg S] [Div S] [NatCast S] [OfNat S 2] [Trig S]

/-- The outcome of a call with memory: it ends with the same allocations `as` as before and the result `s'` if all allocations it tried succeeded,
otherwise it fails and leaves `s` as it was. -/
def Follows (ok : Nat → Bool) (m0 : Live) (as : List Nat) (s s' : CBufOf S) (a : Alloc) (run : C (Bool × CBufOf S × Alloc)) : Prop :=
  ∃ b t a', run = .ok (b, t, a') ∧ Own m0 a'.live as ∧ a.count ≤ a'.count ∧
    ((b = true ∧ t = s' ∧ AllOk ok a.count a'.count) ∨ (b = false ∧ t = s ∧ ¬ AllOk ok a.count a'.count))

theorem fftRadix2Mem_follows (ok : Nat → Bool) {m0 : Live} (hm : m0.Fresh) {as : List Nat} {n : Nat} {s s' : CBufOf S} {a : Alloc}
    (h : Own m0 a.live as) (hr : fftRadix2 n s = .ok (true, s')) : Follows ok m0 as s s' a (fftRadix2Mem ok n s a) := by
  unfold fftRadix2 at hr
  unfold fftRadix2Mem
  dsimp only at hr ⊢
  split at hr
  · simp [pure, Except.pure] at hr
  rename_i hc1
  split at hr
  · simp [pure, Except.pure] at hr
  rename_i hc2
  obtain ⟨table, ht, hr⟩ := bind_eq_ok.1 hr
  obtain ⟨s1, hs1, hr⟩ := bind_eq_ok.1 hr
  obtain ⟨s2, hs2, hr⟩ := bind_eq_ok.1 hr
  simp only [pure, Except.pure, Except.ok.injEq, Prod.mk.injEq, true_and] at hr
  subst hr
  rw [if_neg hc1, if_neg hc2]
  obtain ⟨p1, a1, e1, h1, c1, n1⟩ := Alloc.malloc_own ok h
  obtain ⟨p2, a2, e2, h2, c2, n2⟩ := Alloc.malloc_own ok h1
  simp only [e1, e2]
  obtain ⟨a3, e3, h3, c3⟩ := Alloc.free_own hm (as := as) [p1, p2] (a := a2) (h2.perm (by
    simp only [List.flatMap_cons, List.flatMap_nil, List.append_nil, List.append_assoc, ← List.append_assoc]
    exact (List.perm_append_comm).append_right _))
  rw [n1, n2]
  split
  · rename_i hn
    refine ⟨false, s, a3, ?_, h3, by omega, .inr ⟨rfl, rfl, fun hall => ?_⟩⟩
    · rw [e3, ok_bind']
      rfl
    · rw [c1, hall a.count (by omega) (by omega), hall (a.count + 1) (by omega) (by omega)] at hn
      simp at hn
  · rename_i hn
    refine ⟨true, s2, a3, ?_, h3, by omega, .inl ⟨rfl, rfl, fun k k1 k2 => ?_⟩⟩
    · rw [ht, ok_bind', hs1, ok_bind', hs2, ok_bind', e3, ok_bind']
      rfl
    · simp only [Bool.or_eq_true, Bool.not_eq_true', not_or, Bool.not_eq_false] at hn
      rw [c1] at hn
      obtain rfl | rfl : k = a.count ∨ k = a.count + 1 := by omega
      · exact hn.1
      · exact hn.2

/-- The transform that is called by `Fft_convolveComplex`. -/
def TransformFollows (ok : Nat → Bool) (m0 : Live) (transform : Nat → CBufOf S → C (Bool × CBufOf S))
    (transformMem : Nat → CBufOf S → Alloc → C (Bool × CBufOf S × Alloc)) : Prop :=
  ∀ (n : Nat) (s s' : CBufOf S) (a : Alloc) (as : List Nat), Own m0 a.live as → transform n s = .ok (true, s') →
    Follows ok m0 as s s' a (transformMem n s a)

theorem fftConvolveMem_follows (ok : Nat → Bool) {m0 : Live} (hm : m0.Fresh) {as : List Nat}
    {transform : Nat → CBufOf S → C (Bool × CBufOf S)} {transformMem : Nat → CBufOf S → Alloc → C (Bool × CBufOf S × Alloc)}
    (hf : TransformFollows ok m0 transform transformMem) {n : Nat} {x y out out' : CBufOf S} {a : Alloc}
    (h : Own m0 a.live as) (hr : fftConvolve transform n x y out = .ok (true, out')) :
    Follows ok m0 as out out' a (fftConvolveMem ok transformMem n x y out a) := by
  unfold fftConvolve at hr
  unfold fftConvolveMem
  split at hr
  · simp [pure, Except.pure] at hr
  rename_i hc1
  rw [if_neg hc1]
  obtain ⟨⟨bx, x1⟩, hx1, hr⟩ := bind_eq_ok.1 hr
  cases bx
  · simp [pure, Except.pure] at hr
  obtain ⟨⟨b2, y1⟩, hy1, hr⟩ := bind_eq_ok.1 hr
  cases b2
  · simp [pure, Except.pure] at hr
  obtain ⟨x2, hx2, hr⟩ := bind_eq_ok.1 hr
  obtain ⟨⟨b3, x3⟩, hx3, hr⟩ := bind_eq_ok.1 hr
  cases b3
  · simp [pure, Except.pure] at hr
  obtain ⟨o, ho, hr⟩ := bind_eq_ok.1 hr
  simp only [pure, Except.pure, Except.ok.injEq, Prod.mk.injEq, true_and] at hr
  subst hr
  obtain ⟨p1, a1, e1, h1, c1, n1⟩ := Alloc.malloc_own ok h
  obtain ⟨p2, a2, e2, h2, c2, n2⟩ := Alloc.malloc_own ok h1
  obtain ⟨p3, a3, e3, h3, c3, n3⟩ := Alloc.malloc_own ok h2
  obtain ⟨p4, a4, e4, h4, c4, n4⟩ := Alloc.malloc_own ok h3
  have hfree : ∀ {b : Alloc}, Own m0 b.live (p4.toList ++ (p3.toList ++ (p2.toList ++ (p1.toList ++ as)))) →
      ∃ c, Alloc.free [p4, p3, p2, p1] b = .ok c ∧ Own m0 c.live as ∧ c.count = b.count := fun {b} hb =>
    Alloc.free_own hm (as := as) [p4, p3, p2, p1] (a := b) (by simpa using hb)
  simp only [e1, e2, e3, e4]
  rw [n1, n2, n3, n4, c3, c2, c1]
  split
  · rename_i hn
    obtain ⟨a5, e5, h5, c5⟩ := hfree h4
    refine ⟨false, out, a5, ?_, h5, by omega, .inr ⟨rfl, rfl, fun hall => ?_⟩⟩
    · rw [e5, ok_bind']
      rfl
    · rw [hall a.count (by omega) (by omega), hall (a.count + 1) (by omega) (by omega), hall (a.count + 1 + 1) (by omega) (by omega),
        hall (a.count + 1 + 1 + 1) (by omega) (by omega)] at hn
      simp at hn
  · rename_i hn
    simp only [Bool.or_eq_true, Bool.not_eq_true', not_or, Bool.not_eq_false] at hn
    have hall4 : AllOk ok a.count a4.count := by
      intro k k1 k2
      obtain rfl | rfl | rfl | rfl : k = a.count ∨ k = a.count + 1 ∨ k = a.count + 1 + 1 ∨ k = a.count + 1 + 1 + 1 := by omega
      exacts [hn.1.1.1, hn.1.1.2, hn.1.2, hn.2]
    obtain ⟨b, t, a5, e5, h5, c5, hcase⟩ := hf _ _ _ _ _ h4 hx1
    rw [e5, ok_bind']
    rcases hcase with ⟨rfl, rfl, all5⟩ | ⟨rfl, rfl, bad⟩
    swap
    · obtain ⟨a9, e9, h9, c9⟩ := hfree h5
      refine ⟨false, out, a9, ?_, h9, by omega, .inr ⟨rfl, rfl, fun hall => bad (hall.mono (by omega) (by omega))⟩⟩
      simp only [Bool.not_false, if_true]
      rw [e9, ok_bind']
      rfl
    simp only [Bool.not_true, Bool.false_eq_true, if_false]
    obtain ⟨b, t, a6, e6, h6, c6, hcase⟩ := hf _ _ _ _ _ h5 hy1
    rw [e6, ok_bind']
    rcases hcase with ⟨rfl, rfl, all6⟩ | ⟨rfl, rfl, bad⟩
    swap
    · obtain ⟨a9, e9, h9, c9⟩ := hfree h6
      refine ⟨false, out, a9, ?_, h9, by omega, .inr ⟨rfl, rfl, fun hall => bad (hall.mono (by omega) (by omega))⟩⟩
      simp only [Bool.not_false, if_true]
      rw [e9, ok_bind']
      rfl
    simp only [Bool.not_true, Bool.false_eq_true, if_false]
    rw [show forRange 0 n (fftMultiplyBody t) _ = _ from hx2, ok_bind']
    obtain ⟨b, t, a7, e7, h7, c7, hcase⟩ := hf _ _ _ _ _ h6 hx3
    rw [e7, ok_bind']
    rcases hcase with ⟨rfl, rfl, all7⟩ | ⟨rfl, rfl, bad⟩
    swap
    · obtain ⟨a9, e9, h9, c9⟩ := hfree h7
      refine ⟨false, out, a9, ?_, h9, by omega, .inr ⟨rfl, rfl, fun hall => bad (hall.mono (by omega) (by omega))⟩⟩
      simp only [Bool.not_false, if_true]
      rw [e9, ok_bind']
      rfl
    simp only [Bool.not_true, Bool.false_eq_true, if_false]
    obtain ⟨a9, e9, h9, c9⟩ := hfree h7
    refine ⟨true, o, a9, ?_, h9, by omega, .inl ⟨rfl, rfl, ?_⟩⟩
    · rw [show forRange 0 n (fftScaleBody n _) out = _ from ho, ok_bind', e9, ok_bind']
      rfl
    · rw [c9]
      exact ((hall4.trans all5).trans all6).trans all7

theorem fftBluesteinMem_follows (ok : Nat → Bool) {m0 : Live} (hm : m0.Fresh) {as : List Nat}
    {transform : Nat → CBufOf S → C (Bool × CBufOf S)} {transformMem : Nat → CBufOf S → Alloc → C (Bool × CBufOf S × Alloc)}
    (hf : TransformFollows ok m0 transform transformMem) {n : Nat} {s s' : CBufOf S} {a : Alloc}
    (h : Own m0 a.live as) (hr : fftBluestein transform n s = .ok (true, s')) :
    Follows ok m0 as s s' a (fftBluesteinMem ok transformMem n s a) := by
  unfold fftBluestein at hr
  unfold fftBluesteinMem
  obtain ⟨m?, hm?, hr⟩ := bind_eq_ok.1 hr
  rw [hm?, ok_bind']
  cases m? with
  | none => simp [pure, Except.pure] at hr
  | some m =>
  dsimp only at hr ⊢
  split at hr
  · simp [pure, Except.pure] at hr
  rename_i hc1
  rw [if_neg hc1]
  obtain ⟨table, ht, hr⟩ := bind_eq_ok.1 hr
  obtain ⟨x, hx, hr⟩ := bind_eq_ok.1 hr
  obtain ⟨y, hy, hr⟩ := bind_eq_ok.1 hr
  obtain ⟨y', hy', hr⟩ := bind_eq_ok.1 hr
  obtain ⟨⟨bc, c⟩, hc, hr⟩ := bind_eq_ok.1 hr
  cases bc
  · simp [pure, Except.pure] at hr
  obtain ⟨o, ho, hr⟩ := bind_eq_ok.1 hr
  simp only [pure, Except.pure, Except.ok.injEq, Prod.mk.injEq, true_and] at hr
  subst hr
  obtain ⟨p1, a1, e1, h1, c1, n1⟩ := Alloc.malloc_own ok h
  obtain ⟨p2, a2, e2, h2, c2, n2⟩ := Alloc.malloc_own ok h1
  obtain ⟨p3, a3, e3, h3, c3, n3⟩ := Alloc.malloc_own ok h2
  obtain ⟨p4, a4, e4, h4, c4, n4⟩ := Alloc.malloc_own ok h3
  obtain ⟨p5, a5, e5, h5, c5, n5⟩ := Alloc.malloc_own ok h4
  obtain ⟨p6, a6, e6, h6, c6, n6⟩ := Alloc.malloc_own ok h5
  obtain ⟨p7, a7, e7, h7, c7, n7⟩ := Alloc.malloc_own ok h6
  obtain ⟨p8, a8, e8, h8, c8, n8⟩ := Alloc.malloc_own ok h7
  have hfree : ∀ {b : Alloc}, Own m0 b.live (p8.toList ++ (p7.toList ++ (p6.toList ++ (p5.toList ++ (p4.toList ++ (p3.toList ++ (p2.toList ++
      (p1.toList ++ as)))))))) →
      ∃ c, Alloc.free [p8, p7, p6, p5, p4, p3, p2, p1] b = .ok c ∧ Own m0 c.live as ∧ c.count = b.count := fun {b} hb =>
    Alloc.free_own hm (as := as) [p8, p7, p6, p5, p4, p3, p2, p1] (a := b) (by simpa using hb)
  simp only [e1, e2, e3, e4, e5, e6, e7, e8]
  rw [n1, n2, n3, n4, n5, n6, n7, n8]
  have d : a1.count = a.count + 1 ∧ a2.count = a.count + 2 ∧ a3.count = a.count + 3 ∧ a4.count = a.count + 4 ∧ a5.count = a.count + 5 ∧
      a6.count = a.count + 6 ∧ a7.count = a.count + 7 ∧ a8.count = a.count + 8 := by omega
  obtain ⟨d1, d2, d3, d4, d5, d6, d7, d8⟩ := d
  rw [d1, d2, d3, d4, d5, d6, d7]
  split
  · rename_i hn
    obtain ⟨a9, e9, h9, c9⟩ := hfree h8
    refine ⟨false, s, a9, ?_, h9, by omega, .inr ⟨rfl, rfl, fun hall => ?_⟩⟩
    · rw [e9, ok_bind']
      rfl
    · rw [hall a.count (by omega) (by omega), hall (a.count + 1) (by omega) (by omega), hall (a.count + 2) (by omega) (by omega),
        hall (a.count + 3) (by omega) (by omega), hall (a.count + 4) (by omega) (by omega), hall (a.count + 5) (by omega) (by omega),
        hall (a.count + 6) (by omega) (by omega), hall (a.count + 7) (by omega) (by omega)] at hn
      simp at hn
  · rename_i hn
    simp only [Bool.or_eq_true, Bool.not_eq_true', not_or, Bool.not_eq_false] at hn
    have hall8 : AllOk ok a.count a8.count := by
      intro k k1 k2
      obtain rfl | rfl | rfl | rfl | rfl | rfl | rfl | rfl : k = a.count ∨ k = a.count + 1 ∨ k = a.count + 2 ∨ k = a.count + 3 ∨
        k = a.count + 4 ∨ k = a.count + 5 ∨ k = a.count + 6 ∨ k = a.count + 7 := by omega
      exacts [hn.1.1.1.1.1.1.1, hn.1.1.1.1.1.1.2, hn.1.1.1.1.1.2, hn.1.1.1.1.2, hn.1.1.1.2, hn.1.1.2, hn.1.2, hn.2]
    rw [ht, ok_bind', hx, ok_bind', hy, ok_bind', hy', ok_bind']
    obtain ⟨b, t, a9, e9, h9, c9, hcase⟩ := fftConvolveMem_follows ok hm hf h8 hc
    rw [e9, ok_bind']
    obtain ⟨a10, e10, h10, c10⟩ := hfree h9
    rcases hcase with ⟨rfl, rfl, all9⟩ | ⟨rfl, rfl, bad⟩
    · simp only [Bool.not_true, Bool.false_eq_true, if_false]
      refine ⟨true, o, a10, ?_, h10, by omega, .inl ⟨rfl, rfl, ?_⟩⟩
      · rw [show forRange 0 n (chirpMultiplyBody table _) s = _ from ho, ok_bind', e10, ok_bind']
        rfl
      · rw [c10]
        exact hall8.trans all9
    · refine ⟨false, s, a10, ?_, h10, by omega, .inr ⟨rfl, rfl, fun hall => bad (hall.mono (by omega) (by omega))⟩⟩
      simp only [Bool.not_false, if_true]
      rw [e10, ok_bind']
      rfl

theorem fftTransformMem_follows (ok : Nat → Bool) {m0 : Live} (hm : m0.Fresh) : ∀ depth : Nat,
    TransformFollows (S := S) ok m0 (fftTransform depth) (fftTransformMem ok depth)
  | 0 => fun _ _ _ _ _ _ hr => by simp [fftTransform] at hr
  | depth + 1 => fun n s s' a as h hr => by
    unfold fftTransform at hr
    unfold fftTransformMem
    split at hr
    · rename_i h0
      rw [if_pos h0]
      simp only [pure, Except.pure, Except.ok.injEq, Prod.mk.injEq, true_and] at hr
      exact ⟨true, s, a, rfl, h, le_refl _, .inl ⟨rfl, hr, fun k _ _ => by omega⟩⟩
    rename_i h0
    rw [if_neg h0]
    split at hr
    · rename_i h1
      rw [if_pos h1]
      exact fftRadix2Mem_follows ok hm h hr
    · rename_i h1
      rw [if_neg h1]
      exact fftBluesteinMem_follows ok hm (fftTransformMem_follows ok hm depth) h hr

theorem spFftMem_follows (ok : Nat → Bool) {a : Alloc} (hm : a.live.Fresh) {n : Nat} {re im re' im' : Buf S}
    (hr : spFft n re im = .ok (0, re', im')) : ∃ status re2 im2 a', spFftMem ok n re im a = .ok (status, re2, im2, a') ∧
      a'.live.live = a.live.live ∧
      (status = 0 ∧ re2 = re' ∧ im2 = im' ∧ AllOk ok a.count a'.count ∨
        status = 1 ∧ re2 = re ∧ im2 = im ∧ ¬ AllOk ok a.count a'.count) := by
  obtain ⟨⟨b, s⟩, h1, h2⟩ := bind_eq_ok.1 hr
  cases b
  · simp [pure, Except.pure] at h2
  simp only [pure, Except.pure, Except.ok.injEq, Prod.mk.injEq] at h2
  obtain ⟨b, t, a', e, hown, _, hcase⟩ := fftTransformMem_follows ok hm 2 _ _ _ a [] ⟨List.nodup_nil, by simp, le_refl _, by simp⟩ h1
  refine ⟨if b then 0 else 1, t.1, t.2, a', ?_, ?_, ?_⟩
  · rw [spFftMem, e]
    rfl
  · funext x
    have := hown.live x
    simp only [List.not_mem_nil, or_false] at this
    exact Bool.eq_iff_iff.2 this
  · rcases hcase with ⟨rfl, rfl, hall⟩ | ⟨rfl, rfl, bad⟩
    · exact .inl ⟨rfl, h2.2.1, h2.2.2, hall⟩
    · exact .inr ⟨rfl, rfl, rfl, bad⟩

theorem spFftiMem_follows (ok : Nat → Bool) {a : Alloc} (hm : a.live.Fresh) {n : Nat} {re im re' im' : Buf S}
    (hr : spFfti n re im = .ok (0, re', im')) : ∃ status re2 im2 a', spFftiMem ok n re im a = .ok (status, re2, im2, a') ∧
      a'.live.live = a.live.live ∧
      (status = 0 ∧ re2 = re' ∧ im2 = im' ∧ AllOk ok a.count a'.count ∨
        status = 1 ∧ re2 = re ∧ im2 = im ∧ ¬ AllOk ok a.count a'.count) := by
  obtain ⟨⟨b, s⟩, h1, h2⟩ := bind_eq_ok.1 hr
  cases b
  · simp [pure, Except.pure] at h2
  simp only [pure, Except.pure, Except.ok.injEq, Prod.mk.injEq] at h2
  obtain ⟨b, t, a', e, hown, _, hcase⟩ := fftTransformMem_follows ok hm 2 _ _ _ a [] ⟨List.nodup_nil, by simp, le_refl _, by simp⟩ h1
  refine ⟨if b then 0 else 1, t.2, t.1, a', ?_, ?_, ?_⟩
  · rw [spFftiMem, e]
    rfl
  · funext x
    have := hown.live x
    simp only [List.not_mem_nil, or_false] at this
    exact Bool.eq_iff_iff.2 this
  · rcases hcase with ⟨rfl, rfl, hall⟩ | ⟨rfl, rfl, bad⟩
    · exact .inl ⟨rfl, h2.2.1, h2.2.2, hall⟩
    · exact .inr ⟨rfl, rfl, rfl, bad⟩

end

/-- C141. `sp_fft` with any pattern of failing allocations, for every length that the parameter type can hold and arrays with at least that many
elements: the call ends without a fault and exactly the memory that was allocated before is allocated afterwards; it returns 0 if and only if
every allocation that was tried succeeded, and then the arrays are the discrete Fourier transform; otherwise it returns 1 and the arrays are
unchanged. -/
theorem C141_fft (ok : Nat → Bool) {a : Alloc} (hm : a.live.Fresh) {n : Nat} {re im : List ℝ} (hn : n < 4294967296)
    (hlen : im.length = re.length) (hle : n ≤ re.length) :
    ∃ status re' im' a', spFftMem ok n re im a = .ok (status, re', im', a') ∧ a'.live.live = a.live.live ∧
      (status = 0 ↔ ∀ k, a.count ≤ k → k < a'.count → ok k = true) ∧
      (status = 0 → re'.length = re.length ∧ im'.length = im.length ∧
        (∀ k, k < n → complexAt re' im' k = dft n (complexAt re im) k) ∧ ∀ k, n ≤ k → re'[k]? = re[k]? ∧ im'[k]? = im[k]?) ∧
      (status ≠ 0 → status = 1 ∧ re' = re ∧ im' = im) := by
  obtain ⟨re', im', e, hspec⟩ := C71_dft hn hlen hle
  obtain ⟨status, re2, im2, a', e2, hl, ⟨rfl, rfl, rfl, hall⟩ | ⟨rfl, rfl, rfl, bad⟩⟩ := spFftMem_follows ok hm e
  · exact ⟨_, _, _, a', e2, hl, ⟨fun _ => hall, fun _ => rfl⟩, fun _ => hspec, fun h => absurd rfl h⟩
  · exact ⟨_, _, _, a', e2, hl, ⟨fun h => absurd h (by decide), fun h => absurd h bad⟩, fun h => absurd h (by decide),
      fun _ => ⟨rfl, rfl, rfl⟩⟩

/-- C141 for `sp_ffti` on the result of `sp_fft`: elements multiplied by the length, or return value 1 and unchanged arrays. -/
theorem C141_ffti (ok : Nat → Bool) {a : Alloc} (hm : a.live.Fresh) {n : Nat} {re im : List ℝ} (hn : n < 4294967296)
    (hlen : im.length = re.length) (hle : n ≤ re.length) :
    ∃ re1 im1, spFft n re im = .ok (0, re1, im1) ∧ ∃ status re' im' a', spFftiMem ok n re1 im1 a = .ok (status, re', im', a') ∧
      a'.live.live = a.live.live ∧
      (status = 0 ↔ ∀ k, a.count ≤ k → k < a'.count → ok k = true) ∧
      (status = 0 → re'.length = re.length ∧ im'.length = im.length ∧ (∀ k, k < n → complexAt re' im' k = n * complexAt re im k) ∧
        ∀ k, n ≤ k → re'[k]? = re[k]? ∧ im'[k]? = im[k]?) ∧
      (status ≠ 0 → status = 1 ∧ re' = re1 ∧ im' = im1) := by
  obtain ⟨re1, im1, re', im', e0, e, hspec⟩ := C72_inverse hn hlen hle
  obtain ⟨status, re2, im2, a', e2, hl, ⟨rfl, rfl, rfl, hall⟩ | ⟨rfl, rfl, rfl, bad⟩⟩ := spFftiMem_follows ok hm e
  · exact ⟨re1, im1, e0, _, _, _, a', e2, hl, ⟨fun _ => hall, fun _ => rfl⟩, fun _ => hspec, fun h => absurd rfl h⟩
  · exact ⟨_, _, e0, _, _, _, a', e2, hl, ⟨fun h => absurd h (by decide), fun h => absurd h bad⟩, fun h => absurd h (by decide),
      fun _ => ⟨rfl, rfl, rfl⟩⟩

/-- C141. The same for any arithmetic, in particular with rounding after every operation: the result is that of the call without failing allocations (C133), or return
value 1 and unchanged arrays. -/
theorem C141_any_arithmetic {S : Type} [Zero S] [Add S] [Sub S] [Mul S] [Neg S] [Div S] [NatCast S] [OfNat S 2] [Trig S]
    (ok : Nat → Bool) {a : Alloc} (hm : a.live.Fresh) {n : Nat} {re im re' im' : List S} (hr : spFft n re im = .ok (0, re', im')) :
    ∃ status re2 im2 a', spFftMem ok n re im a = .ok (status, re2, im2, a') ∧ a'.live.live = a.live.live ∧
      (status = 0 ↔ ∀ k, a.count ≤ k → k < a'.count → ok k = true) ∧
      (status = 0 → re2 = re' ∧ im2 = im') ∧ (status ≠ 0 → status = 1 ∧ re2 = re ∧ im2 = im) := by
  obtain ⟨status, re2, im2, a', e2, hl, ⟨rfl, rfl, rfl, hall⟩ | ⟨rfl, rfl, rfl, bad⟩⟩ := spFftMem_follows ok hm hr
  · exact ⟨_, _, _, a', e2, hl, ⟨fun _ => hall, fun _ => rfl⟩, fun _ => ⟨rfl, rfl⟩, fun h => absurd rfl h⟩
  · exact ⟨_, _, _, a', e2, hl, ⟨fun h => absurd h (by decide), fun h => absurd h bad⟩, fun h => absurd h (by decide),
      fun _ => ⟨rfl, rfl, rfl⟩⟩

/-- Three elements, for which there are 18 allocations: all succeed. -/
example : ∃ re' im' a', spFftMem (fun _ => true) 3 [1, 2, 5] [0, 0, 1] ⟨⟨1, fun b => b == 0⟩, 0⟩ = .ok (0, re', im', a') ∧
    a'.live.live = (fun b => b == 0) ∧ complexAt re' im' 0 = dft 3 (complexAt [1, 2, 5] [0, 0, 1]) 0 := by
  obtain ⟨st, re', im', a', e, hl, h0, h1, _⟩ := C141_fft (fun _ => true) (a := ⟨⟨1, fun b => b == 0⟩, 0⟩) (n := 3) (re := [1, 2, 5])
    (im := [0, 0, 1]) (fun b hb => by simp at hb ⊢; omega) (by norm_num) rfl (by simp)
  have hst : st = 0 := h0.2 fun _ _ _ => rfl
  subst hst
  exact ⟨re', im', a', e, hl, (h1 rfl).2.2.1 0 (by norm_num)⟩

/-- Any values for the trigonometric functions. -/
local instance : Trig ℚ := ⟨3, fun x => x, fun x => x⟩

/-- Three elements: the last of the 18 allocations fails. -/
example : (do
    let r ← fftTransformMem (S := ℚ) (fun k => k != 17) 2 3 ([1, 2, 5], [0, 0, 1]) ⟨⟨1, fun b => b == 0⟩, 0⟩
    pure (r.1, r.2.1, r.2.2.count, (List.range 40).filter r.2.2.live.live)) = .ok (false, ([1, 2, 5], [0, 0, 1]), 18, [0]) := by
  decide +kernel

end Sp
