import Verif.Model.Arrays
import Verif.Lemmas.SeqTrace

/-! # Lemmas about the array loops -/

namespace Sp
variable {S T : Type}

theorem rd_append {pre post : Buf S} {x : S} {i : Nat} (h : i = pre.length) : rd (pre ++ x :: post) i = .ok x := by
  rw [rd_ok_iff, h]; simp

theorem wr_append {pre post : Buf S} {x v : S} {i : Nat} (h : i = pre.length) :
    wr (pre ++ x :: post) i v = .ok (pre ++ v :: post) := by
  rw [wr_eq_ok _ (by simp [h]), h]; simp

/-- The source array that is meant by an operand. -/
def Src.get (a : Src S) (out : Buf S) : Buf S := a.getD out

/-- An operand can be read at `count` indices. -/
def Src.Has (a : Src S) (count : Nat) : Prop := ∀ s, a = some s → count ≤ s.length

theorem Src.has_none (count : Nat) : Src.Has (none : Src S) count := by simp [Src.Has]

theorem Src.has_some {s : Buf S} {count : Nat} : Src.Has (some s : Src S) count ↔ count ≤ s.length := by
  simp [Src.Has]

theorem Src.Has.le {a : Src S} {out : Buf S} {count : Nat} (h : a.Has count) (ho : count ≤ out.length) :
    count ≤ (a.get out).length := by
  cases a with
  | none => exact ho
  | some s => exact h s rfl

/-- Cell `i` of an operand, while the cells of `out` before `i` have been overwritten. -/
theorem rdSrc_at {a : Src S} {out pre : Buf S} {i : Nat} (hl : pre.length = i) (hi : i < out.length)
    (h : i < (a.get out).length) : rdSrc a (pre ++ out.drop i) i = .ok ((a.get out)[i]) := by
  cases a with
  | none =>
    unfold rdSrc
    rw [Option.getD_none, List.drop_eq_getElem_cons hi, rd_append hl.symm]
    rfl
  | some s => exact rd_eq_ok h

theorem zipLoop_eq {f : S → S → C S} {g : S → S → S} {a b : Src S} {count : Nat} {out : Buf S}
    (hc : count ≤ out.length) (ha : a.Has count) (hb : b.Has count)
    (hf : ∀ x ∈ (a.get out).take count, ∀ y ∈ (b.get out).take count, f x y = .ok (g x y)) :
    zipLoop f a b count out =
      .ok (List.zipWith g ((a.get out).take count) ((b.get out).take count) ++ out.drop count) := by
  have hla := ha.le hc
  have hlb := hb.le hc
  have h := forRange_states (lo := 0) (hi := count) (body := zipBody f a b)
    (fun i => List.zipWith g ((a.get out).take i) ((b.get out).take i) ++ out.drop i) (Nat.zero_le _) (by
      intro i _ hi
      have hl : (List.zipWith g ((a.get out).take i) ((b.get out).take i)).length = i := by
        rw [List.length_zipWith, List.length_take, List.length_take]; omega
      have hm : ∀ c : Buf S, (h : count ≤ c.length) → c[i] ∈ c.take count := fun c h => by
        rw [List.mem_take_iff_getElem]
        exact ⟨i, by omega, rfl⟩
      unfold zipBody
      rw [rdSrc_at hl (by omega) (by omega), ok_bind', rdSrc_at hl (by omega) (by omega), ok_bind',
        hf _ (hm _ hla) _ (hm _ hlb), ok_bind', List.drop_eq_getElem_cons (by omega),
        wr_append hl.symm]
      congr 1
      rw [List.take_succ_eq_append_getElem (by omega), List.take_succ_eq_append_getElem (by omega),
        List.zipWith_append (by rw [List.length_take, List.length_take]; omega)]
      simp)
  simpa [zipLoop] using h

theorem mapLoop_eq {f : S → C S} {g : S → S} {a : Src S} {count : Nat} {out : Buf S}
    (hc : count ≤ out.length) (ha : a.Has count) (hf : ∀ x ∈ (a.get out).take count, f x = .ok (g x)) :
    mapLoop f a count out = .ok (((a.get out).take count).map g ++ out.drop count) := by
  have hla := ha.le hc
  have h := forRange_states (lo := 0) (hi := count) (body := mapBody f a)
    (fun i => ((a.get out).take i).map g ++ out.drop i) (Nat.zero_le _) (by
      intro i _ hi
      have hl : (((a.get out).take i).map g).length = i := by
        rw [List.length_map, List.length_take]; omega
      have hm : (a.get out)[i] ∈ (a.get out).take count := by
        rw [List.mem_take_iff_getElem]
        exact ⟨i, by omega, rfl⟩
      unfold mapBody
      rw [rdSrc_at hl (by omega) (by omega), ok_bind',
        hf _ hm, ok_bind', List.drop_eq_getElem_cons (by omega), wr_append hl.symm]
      congr 1
      rw [List.take_succ_eq_append_getElem (by omega), List.map_append, List.append_assoc]
      rfl)
  simpa [mapLoop] using h

end Sp
