import Verif.Model.PathN
import Verif.Spec.PathN
import Verif.Lemmas.Envelope
import Verif.Props.PathCurve

/-! # Lemmas about paths with a fixed number of points -/

set_option linter.unusedSectionVars false

namespace Sp

theorem pathX_le_of {length pc : Nat} {x : List Nat} (hinc : ∀ k, k + 1 < pc → pathX length pc x k < pathX length pc x (k + 1))
    {a b : Nat} (hab : a ≤ b) (hb : b < pc) : pathX length pc x a ≤ pathX length pc x b := by
  induction b with
  | zero => have : a = 0 := by omega
            rw [this]
  | succ b ih =>
    rcases Nat.lt_or_ge b a with h | h
    · have : a = b + 1 := by omega
      rw [this]
    · exact le_trans (ih h (by omega)) (hinc b hb).le

theorem tab_some {α : Type} {n k : Nat} {f : Nat → α} {a : α} (h : (tab n f)[k]? = some a) : k < n ∧ a = f k := by
  rw [tab_getElem?] at h
  split at h
  · exact ⟨by assumption, (Option.some.inj h).symm⟩
  · exact absurd h (by simp)

theorem pathPoint_x {length pc : Nat} {x : List Nat} {y : Buf ℚ} (k : Nat) :
    pathPoint length pc (x.map fun n : Nat => (n : ℚ)) y k = ⟨pathX length pc x k, y.getD k 0⟩ := by
  have := pathPoint_cast (length := length) (pc := pc) (x := x) (y := y) k
  rw [← this]
  rfl

/-- A path with curvature follows its points. -/
theorem pathSamples_curves {fuel length pc : Nat} {x : List Nat} {y c : Buf ℚ} (h2 : 2 ≤ pc) (h24 : pc ≤ 24)
    (hx : pc - 2 ≤ x.length) (hy : pc ≤ y.length) (hc : pc - 1 = c.length) (hlen : length < 4294967296)
    (hfuel : 2 * length + 1 < fuel)
    (hok : Curvable (tab pc (pathPoint length pc (x.map fun n : Nat => (n : ℚ)) y)) c) :
    ∃ out, pathSamples fuel length pc (x.map fun n : Nat => (n : ℚ)) y (some c) = .ok out ∧ out.length = length ∧
      FollowsCurves out (tab pc (pathPoint length pc (x.map fun n : Nat => (n : ℚ)) y)) c ∧
      ∀ lo hi : ℚ, (∀ k, k < pc → lo ≤ y.getD k 0 ∧ y.getD k 0 ≤ hi) → ∀ v ∈ out, lo ≤ v ∧ v ≤ hi := by
  have hok' : ∀ k, k + 1 < pc → pathX length pc x k < pathX length pc x (k + 1) ∧
      (c.getD k 0 < 1 / 100000 ∨ (c.getD k 0 ≤ 1 ∧ y.getD k 0 ≠ y.getD (k + 1) 0 ∧
      y.getD k 0 - y.getD (k + 1) 0 ≤ (pathX length pc x (k + 1) : ℚ) - pathX length pc x k)) := by
    intro k hk
    have hck : c[k]? = some (c.getD k 0) := by
      rw [getD_of_lt (by omega)]
      exact List.getElem?_eq_getElem (by omega)
    have := hok k _ _ _ (by rw [tab_getElem?, if_pos (by omega)]) (by rw [tab_getElem?, if_pos (by omega)]) hck
    rw [pathPoint_x, pathPoint_x] at this
    simp only at this
    exact ⟨by exact_mod_cast this.1, this.2⟩
  have hinc := fun k hk => (hok' k hk).1
  obtain ⟨out, e1, e2, e3⟩ := C92_curved_paths_partial (fuel := fuel) h2 h24 hx hy hc.le hlen hfuel hinc fun k hk => (hok' k hk).2
  refine ⟨out, e1, e2, ?_, ?_⟩
  · intro k p q c' hp hq hc' j hj1 hj2
    obtain ⟨_, rfl⟩ := tab_some hp
    obtain ⟨hk, rfl⟩ := tab_some hq
    rw [pathPoint_x] at hj1 hj2
    simp only at hj1 hj2
    have hj1 : pathX length pc x k ≤ j := by exact_mod_cast hj1
    have hj2 : j < pathX length pc x (k + 1) := by exact_mod_cast hj2
    have hlast : pathX length pc x (pc - 1) = length := by rw [pathX, if_neg (by omega), if_pos (by omega)]
    have hjl : j < length := by
      have := pathX_le_of hinc (a := k + 1) (b := pc - 1) (by omega) (by omega)
      omega
    obtain ⟨k', v, k1, k2, k3, k4, k5, k6, k7⟩ := e3 j hjl
    have hkk : k' = k := by
      rcases Nat.lt_trichotomy k' k with h | h | h
      · have := pathX_le_of hinc (a := k' + 1) (b := k) h (by omega)
        omega
      · exact h
      · have := pathX_le_of hinc (a := k + 1) (b := k') h (by omega)
        omega
    subst hkk
    have hcv : c' = c.getD k' 0 := by
      have hl : k' < c.length := by omega
      rw [List.getElem?_eq_getElem hl] at hc'
      rw [getD_of_lt hl]
      exact (Option.some.inj hc').symm
    subst hcv
    rw [pathPoint_x, pathPoint_x]
    exact ⟨v, k4, k5, k6, k7⟩
  · intro lo hi hb v hv
    obtain ⟨j, hj, rfl⟩ := List.getElem_of_mem hv
    obtain ⟨k, v', k1, k2, k3, k4, k5, k6, k7, k8⟩ := e3 j (by omega)
    rw [List.getElem?_eq_getElem hj] at k4
    obtain rfl := Option.some.inj k4
    have b1 := hb k (by omega)
    have b2 := hb (k + 1) (by omega)
    exact ⟨le_trans (le_min b1.1 b2.1) k7, le_trans k8 (max_le b1.2 b2.2)⟩

end Sp
