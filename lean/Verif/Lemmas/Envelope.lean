import Verif.Model.Envelope
import Verif.Lemmas.PathSamples
import Verif.Lemmas.SeqTrace

/-! # Lemmas about paths of times and envelopes -/

set_option linter.unusedSectionVars false

namespace Sp

theorem trunc_floor {v : ℚ} (h : 0 ≤ v) : ((trunc v : Nat) : ℤ) = ⌊v⌋ := Int.toNat_of_nonneg (Int.floor_nonneg.2 h)

theorem pathPoint_zero {length pc : Nat} {x y : Buf ℚ} : (pathPoint length pc x y 0).x = 0 := rfl

theorem pathPoint_last {length pc : Nat} {x y : Buf ℚ} (h2 : 2 ≤ pc) : (pathPoint length pc x y (pc - 1)).x = length := by
  rw [pathPoint]
  simp only
  rw [if_neg (by omega), if_pos (by omega)]

theorem pathPoint_nonneg {length pc : Nat} {x y : Buf ℚ}
    (hmono : ∀ k, k + 1 < pc → (pathPoint length pc x y k).x ≤ (pathPoint length pc x y (k + 1)).x) {k : Nat} (hk : k < pc) :
    0 ≤ (pathPoint length pc x y k).x := by
  induction k with
  | zero => exact le_refl _
  | succ k ih => exact le_trans (ih (by omega)) (hmono k hk)

/-- A path without curvature follows its points. -/
theorem pathSamples_follows {fuel length pc : Nat} {x y : Buf ℚ} {c : Option (Buf ℚ)} (h2 : 2 ≤ pc) (h24 : pc ≤ 24)
    (hx : pc - 2 ≤ x.length) (hy : pc ≤ y.length) (hc : NoCurve c pc) (hlen : length < 4294967296)
    (hmono : ∀ k, k + 1 < pc → (pathPoint length pc x y k).x ≤ (pathPoint length pc x y (k + 1)).x) :
    ∃ out, pathSamples fuel length pc x y c = .ok out ∧ out.length = length ∧
      FollowsPoints out (tab pc (pathPoint length pc x y)) ∧
      ∀ lo hi : ℚ, (∀ k, k < pc → lo ≤ y.getD k 0 ∧ y.getD k 0 ≤ hi) → ∀ v ∈ out, lo ≤ v ∧ v ≤ hi := by
  obtain ⟨v, hv, hval⟩ := pathSamples_lines (fuel := fuel) h2 h24 hx hy hc hlen hmono
  have hnn : ∀ {k}, k < pc → 0 ≤ (pathPoint length pc x y k).x := fun hk => pathPoint_nonneg hmono hk
  refine ⟨tab length v, hv, by simp, ?_, ?_⟩
  · intro k p q hp hq j hj1 hj2
    rw [tab_getElem?] at hp hq
    have hk : k + 1 < pc := by
      by_contra h
      rw [if_neg h] at hq
      exact absurd hq (by simp)
    rw [if_pos (by omega), Option.some.injEq] at hp
    rw [if_pos hk, Option.some.injEq] at hq
    subst hp hq
    rw [← trunc_floor (hnn (by omega))] at hj1
    rw [← trunc_floor (hnn hk)] at hj2
    have e1 : trunc (pathPoint length pc x y k).x ≤ j := by exact_mod_cast hj1
    have e2 : j < trunc (pathPoint length pc x y (k + 1)).x := by exact_mod_cast hj2
    have hjl : j < length := by
      have : ∀ n k, k + n + 1 = pc → trunc (pathPoint length pc x y k).x ≤ length := by
        intro n
        induction n with
        | zero =>
          intro k hk
          rw [show k = pc - 1 by omega, pathPoint_last h2, trunc_natCast]
        | succ n ih =>
          intro k hk
          exact le_trans (trunc_mono (hmono k (by omega))) (ih (k + 1) (by omega))
      have := this (pc - 1 - (k + 1)) (k + 1) (by omega)
      omega
    rw [tab_getElem?, if_pos hjl, hval k j hk e1 e2, linearlyInterpolate]
    congr 1
    have : (((j - trunc (pathPoint length pc x y k).x : Nat)) : ℚ) = (j : ℚ) - (⌊(pathPoint length pc x y k).x⌋ : ℤ) := by
      rw [Nat.cast_sub e1, ← trunc_floor (hnn (by omega))]
      push_cast
      ring
    rw [this]
    simp only [pathPoint]
    ring
  · intro lo hi hb w hw
    obtain ⟨j, hj, rfl⟩ := List.getElem_of_mem hw
    have hjl : j < length := by simpa using hj
    have e : (tab length v)[j] = v j := by
      have := tab_getElem? (n := length) (f := v) j
      rw [if_pos hjl, List.getElem?_eq_getElem hj] at this
      exact Option.some.inj this
    rw [e]
    obtain ⟨k, hk, h1, h3⟩ := between_points (X := fun k => trunc (pathPoint length pc x y k).x) h2
      (by simp only [pathPoint_zero]; exact trunc_natCast 0) (by simp only [pathPoint_last h2]; exact trunc_natCast length) hjl
    rw [hval k j hk h1 h3, linearlyInterpolate]
    obtain ⟨a1, a2⟩ := hb k (by omega)
    obtain ⟨b1, b2⟩ := hb (k + 1) hk
    have hlt : ((j - trunc (pathPoint length pc x y k).x : Nat) : ℚ) ≤
        (pathPoint length pc x y (k + 1)).x - (pathPoint length pc x y k).x := by
      have f1 : ((trunc (pathPoint length pc x y (k + 1)).x : Nat) : ℚ) ≤ (pathPoint length pc x y (k + 1)).x :=
        trunc_le (hnn hk)
      have f2 : (pathPoint length pc x y k).x < (trunc (pathPoint length pc x y k).x : Nat) + 1 := lt_trunc (hnn (by omega))
      have f3 : (j : ℚ) + 1 ≤ (trunc (pathPoint length pc x y (k + 1)).x : Nat) := by exact_mod_cast h3
      rw [Nat.cast_sub h1]
      linarith
    have hd : (0 : ℚ) < (pathPoint length pc x y (k + 1)).x - (pathPoint length pc x y k).x := by
      rcases lt_or_eq_of_le (hmono k hk) with h | h
      · linarith
      · rw [h] at h1; omega
    generalize (pathPoint length pc x y (k + 1)).x - (pathPoint length pc x y k).x = d at *
    have t0 : (0 : ℚ) ≤ ((j - trunc (pathPoint length pc x y k).x : Nat) : ℚ) / d := by positivity
    have t1 : ((j - trunc (pathPoint length pc x y k).x : Nat) : ℚ) / d ≤ 1 := by rw [div_le_one hd]; exact hlt
    generalize ((j - trunc (pathPoint length pc x y k).x : Nat) : ℚ) / d = t at *
    constructor <;> nlinarith

/-- A path of times is the path of samples rounded. -/
theorem pathTimes_eq {fuel length pc : Nat} {x y : Buf ℚ} {c : Option (Buf ℚ)} {out : Buf ℚ}
    (h : pathSamples fuel length pc x y c = .ok out) (hl : out.length = length)
    (hv : ∀ v ∈ out, 0 ≤ v ∧ v ≤ 4294967295) : pathTimes fuel length pc x y c = .ok (out.map roundHalfUp) := by
  rw [pathTimes, h]
  simp only [ok_bind']
  have hlo : ∀ i (hi : i < length), rd out i = .ok (out.getD i 0) := by
    intro i hi
    rw [rd_eq_ok (by omega), getD_of_lt (by omega)]
  rw [tab_replicate]
  have := forRange_states (fun i => tab length fun j => if j < i then roundHalfUp (out.getD j 0) else 0) (Nat.zero_le length)
    (body := toTimesBody out) (by
      intro i _ hi
      rw [toTimesBody, hlo i hi]
      simp only [ok_bind']
      have hm : out.getD i 0 ∈ out := by
        rw [getD_of_lt (by omega)]
        exact List.getElem_mem _
      obtain ⟨v0, v1⟩ := hv _ hm
      rw [timeOfValue, if_neg (by push Not; constructor <;> linarith)]
      simp only [ok_bind']
      rw [wr_tab _ hi]
      congr 1
      apply tab_congr
      intro j hj
      grind [roundHalfUp])
  simp only [Nat.not_lt_zero, if_false] at this
  rw [this]
  congr 1
  apply List.ext_getElem?
  intro j
  rw [tab_getElem?, List.getElem?_map]
  split
  · next hj => rw [List.getElem?_eq_getElem (by omega), getD_of_lt (by omega)]; rfl
  · next hj => rw [List.getElem?_eq_none (by omega)]; rfl

theorem collectValues_none {l : List (Option ℚ)} {r : List ℚ} (h : collectValues l = .ok r) (i : Nat) : l[i]? ≠ some none := by
  induction l generalizing r i with
  | nil => simp
  | cons a l ih =>
    cases a with
    | none => exact absurd h (by simp [collectValues])
    | some v =>
      rw [collectValues, bind_eq_ok] at h
      obtain ⟨r', h', _⟩ := h
      cases i with
      | zero => simp
      | succ i => simpa using ih h' i

theorem envelope_loop_unset {length n : Nat} {scalar : ℚ} {y : Buf ℚ} {lo : Nat} (hlo : 2 ≤ lo) {s s' : Buf ℚ × Buf (Option ℚ)}
    (h : iter (envelopeBody length scalar y) n lo s = .ok s') (h1 : s.2[1]? = some none) : s'.2[1]? = some none := by
  induction n generalizing lo s with
  | zero =>
    rw [iter_zero, Except.ok.injEq] at h
    rwa [← h]
  | succ n ih =>
    rw [iter_succ] at h
    obtain ⟨t, ht, h⟩ := bind_eq_ok.1 h
    refine ih (by omega) h ?_
    rw [envelopeBody] at ht
    simp only [bind_eq_ok] at ht
    obtain ⟨a, _, b, _, x, _, v, _, p, hp, ht⟩ := ht
    rw [pure_eq_ok, Except.ok.injEq] at ht
    subst ht
    rw [wr] at hp
    split at hp
    · rw [Except.ok.injEq] at hp
      subst hp
      simp only
      rw [List.getElem?_set_ne (by omega)]
      exact h1
    · exact absurd hp (by simp)

theorem envelopeArrays_fault {length pc : Nat} (hpc : 3 ≤ pc) {first last scalar : ℚ} {x y : Buf ℚ} (r : Buf ℚ × Buf ℚ) :
    envelopeArrays length pc first last scalar x y ≠ .ok r := by
  intro h
  rw [envelopeArrays] at h
  simp only [bind_eq_ok] at h
  obtain ⟨a, _, x', _, p1, h1, p2, h2, s, hs, ys, hy, _⟩ := h
  have e1 : p2[1]? = some none := by
    rw [wr] at h1 h2
    split at h1
    · rw [Except.ok.injEq] at h1
      subst h1
      split at h2
      · rw [Except.ok.injEq] at h2
        subst h2
        rw [List.getElem?_set_ne (by omega)]
        rfl
      · exact absurd h2 (by simp)
    · exact absurd h1 (by simp)
  have e2 := envelope_loop_unset (le_refl 2) hs e1
  refine collectValues_none hy 1 ?_
  rw [List.getElem?_take, if_pos (by omega)]
  exact e2

end Sp
