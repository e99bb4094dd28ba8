import Verif.Spec.Block

namespace Sp
variable {S : Type}

theorem applyRange_comp {G : Nat → Nat → S → S} {a b d off : Nat} (hab : a ≤ b) (hbd : b ≤ d)
    (f : Nat → Nat → S) :
    applyRange G b (off + (b - a)) (d - b) (applyRange G a off (b - a) f) = applyRange G a off (d - a) f := by
  funext c k
  unfold applyRange
  by_cases h1 : off ≤ k
  · by_cases h2 : k < off + (b - a)
    · rw [if_neg (by omega), if_pos (by omega), if_pos (by omega)]
    · by_cases h3 : k < off + (d - a)
      · rw [if_pos (by omega), if_neg (by omega), if_pos (by omega)]
        congr 1; omega
      · rw [if_neg (by omega), if_neg (by omega), if_neg (by omega)]
  · rw [if_neg (by omega), if_neg (by omega), if_neg (by omega)]

theorem applyRange_zero (G : Nat → Nat → S → S) (a off : Nat) (f : Nat → Nat → S) :
    applyRange G a off 0 f = f := by
  funext c k
  unfold applyRange
  rw [if_neg (by omega)]

theorem applyRange_congr {G H : Nat → Nat → S → S} {a off len : Nat} {f : Nat → Nat → S}
    (h : ∀ c i x, a ≤ i → i < a + len → G c i x = H c i x) :
    applyRange G a off len f = applyRange H a off len f := by
  funext c k
  unfold applyRange
  split
  · exact h _ _ _ (by omega) (by omega)
  · rfl

end Sp
