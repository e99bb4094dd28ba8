import Verif.Lemmas.Convolve
import Verif.Lemmas.SeqTrace
import Verif.Model.ConvolutionFilter

/-!
Operations on the beginning of a longer output array.
-/

set_option linter.unusedSectionVars false

namespace Sp

section
variable {S : Type _}

theorem rd_longer {b r : Buf S} {i : Nat} {v : S} (h : rd b i = .ok v) : rd (b ++ r) i = .ok v := by
  rw [rd_ok_iff] at h ⊢
  rw [List.getElem?_append_left (List.getElem?_eq_some_iff.1 h).1, h]

theorem wr_longer {b r b' : Buf S} {i : Nat} {v : S} (h : wr b i v = .ok b') : wr (b ++ r) i v = .ok (b' ++ r) := by
  unfold wr at h ⊢
  split at h
  · next hi =>
    injection h with h
    rw [if_pos (by rw [List.length_append]; omega), ← h, List.set_append_left _ _ hi]
  · cases h

theorem addAt_longer [Add S] {b r b' : Buf S} {i : Nat} {v : S} (h : addAt b i v = .ok b') :
    addAt (b ++ r) i v = .ok (b' ++ r) := by
  unfold addAt at h ⊢
  obtain ⟨o, h1, h2⟩ := bind_eq_ok.1 h
  rw [rd_longer h1, ok_bind', wr_longer h2]

theorem memcpy_longer {b r b' src : Buf S} {d s n : Nat} (h : memcpy b d src s n = .ok b') :
    memcpy (b ++ r) d src s n = .ok (b' ++ r) := by
  unfold memcpy at h ⊢
  split at h
  · next hi =>
    injection h with h
    rw [if_pos (by rw [List.length_append]; omega), ← h, List.take_append_of_le_length (by omega),
      List.drop_append_of_le_length (by omega)]
    simp
  · cases h

theorem memzero_longer [Zero S] {b r b' : Buf S} {d n : Nat} (h : memzero b d n = .ok b') :
    memzero (b ++ r) d n = .ok (b' ++ r) := by
  unfold memzero at h ⊢
  split at h
  · next hi =>
    injection h with h
    rw [if_pos (by rw [List.length_append]; omega), ← h, List.take_append_of_le_length (by omega),
      List.drop_append_of_le_length (by omega)]
    simp
  · cases h

end

theorem forRange_frame {σ τ : Type _} {lo hi : Nat} {body : Nat → σ → C σ} {body' : Nat → τ → C τ} (φ : σ → τ)
    (h : ∀ i s s', body i s = .ok s' → body' i (φ s) = .ok (φ s')) {s s' : σ} (hr : forRange lo hi body s = .ok s') :
    forRange lo hi body' (φ s) = .ok (φ s') := by
  by_cases hle : lo ≤ hi
  · obtain ⟨n, rfl⟩ := Nat.exists_eq_add_of_le hle
    clear hle
    induction n generalizing s' with
    | zero =>
      rw [Nat.add_zero, forRange_self] at hr ⊢
      injection hr with hr
      rw [hr]
    | succ n ih =>
      rw [← Nat.add_assoc, forRange_succ (by omega)] at hr ⊢
      obtain ⟨s1, h1, h2⟩ := bind_eq_ok.1 hr
      exact bind_eq_ok.2 ⟨φ s1, ih h1, h _ _ _ h2⟩
  · rw [forRange_of_le (by omega)] at hr ⊢
    injection hr with hr
    rw [hr]

variable {S : Type _} [Zero S] [Add S] [Mul S]

theorem convolveOne_append {a b out out' r : Buf S} {aLen bLen : Nat}
    (h : convolveOne a aLen b bLen out = .ok out') : convolveOne a aLen b bLen (out ++ r) = .ok (out' ++ r) := by
  unfold convolveOne at h ⊢
  refine forRange_frame (· ++ r) (fun i s s' h => ?_) h
  refine forRange_frame (· ++ r) (fun j s s' h => ?_) h
  unfold convolveStep at h ⊢
  obtain ⟨x, h1, h⟩ := bind_eq_ok.1 h
  obtain ⟨y, h2, h⟩ := bind_eq_ok.1 h
  rw [h1, ok_bind', h2, ok_bind', addAt_longer h]

theorem convolvePrepare_append {carry carry' out out' r : Buf S} {aLen carryLen : Nat}
    (h : convolvePrepare aLen carryLen carry out = .ok (out', carry')) :
    convolvePrepare aLen carryLen carry (out ++ r) = .ok (out' ++ r, carry') := by
  unfold convolvePrepare at h ⊢
  split at h
  · next h0 =>
    rw [if_pos h0]
    split at h
    · next h1 =>
      rw [if_pos h1]
      obtain ⟨o1, k1, h⟩ := bind_eq_ok.1 h
      obtain ⟨c1, k2, h⟩ := bind_eq_ok.1 h
      obtain ⟨o2, k3, h⟩ := bind_eq_ok.1 h
      injection h with h
      injection h with e1 e2
      rw [memcpy_longer k1, ok_bind', k2, ok_bind', memzero_longer k3, ok_bind', pure_eq_ok, e1, e2]
    · next h1 =>
      rw [if_neg h1]
      obtain ⟨o1, k1, h⟩ := bind_eq_ok.1 h
      obtain ⟨c1, k2, h⟩ := bind_eq_ok.1 h
      obtain ⟨c2, k3, h⟩ := bind_eq_ok.1 h
      injection h with h
      injection h with e1 e2
      rw [memcpy_longer k1, ok_bind', k2, ok_bind', k3, ok_bind', pure_eq_ok, e1, e2]
  · next h0 =>
    rw [if_neg h0]
    obtain ⟨o1, k1, h⟩ := bind_eq_ok.1 h
    injection h with h
    injection h with e1 e2
    rw [memzero_longer k1, ok_bind', pure_eq_ok, e1, e2]

theorem convolve_append {a b carry carry' out out' r : Buf S} {aLen bLen carryLen : Nat}
    (h : convolve a aLen b bLen carryLen carry out = .ok (out', carry')) :
    convolve a aLen b bLen carryLen carry (out ++ r) = .ok (out' ++ r, carry') := by
  unfold convolve at h ⊢
  obtain ⟨⟨o1, c1⟩, k1, h⟩ := bind_eq_ok.1 h
  rw [convolvePrepare_append k1, ok_bind']
  simp only at h ⊢
  generalize (if aLen < bLen then 0 else sub32 aLen (sub32 bLen 1)) = size at h ⊢
  obtain ⟨o2, k2, h⟩ := bind_eq_ok.1 h
  have k2' : (if size ≠ 0 then convolveOne a size b bLen (o1 ++ r) else .ok (o1 ++ r)) =
        .ok (o2 ++ r) := by
    split at k2
    · next h0 => rw [if_pos h0, convolveOne_append k2]
    · next h0 => rw [if_neg h0]; injection k2 with k2; rw [k2]
  rw [k2', ok_bind']
  refine forRange_frame (fun s => (s.1 ++ r, s.2)) (fun i s s' h => ?_) h
  refine forRange_frame (fun s => (s.1 ++ r, s.2)) (fun j s s' h => ?_) h
  unfold convolveCarryStep at h ⊢
  obtain ⟨x, h1, h⟩ := bind_eq_ok.1 h
  obtain ⟨y, h2, h⟩ := bind_eq_ok.1 h
  rw [h1, ok_bind', h2, ok_bind']
  split at h
  · next h0 =>
    rw [if_pos h0]
    obtain ⟨o, h3, h⟩ := bind_eq_ok.1 h
    injection h with h
    rw [addAt_longer h3, ok_bind', pure_eq_ok, ← h]
  · next h0 =>
    rw [if_neg h0]
    obtain ⟨o, h3, h⟩ := bind_eq_ok.1 h
    injection h with h
    rw [h3, ok_bind', pure_eq_ok, ← h]

theorem convolutionFilter_append {F : Type} [DecidableEq F] {S : Type} [Zero S] [Add S] [Mul S]
    {irOf : F → List UInt8 → Option (Buf S)} {junk : S} {x : Buf S} {f : F}
    {args : List UInt8} {st : Option (FilterState F S)} {o r : Buf S} {res : FilterResult F S}
    (h : convolutionFilter irOf junk x f args st o = .ok res) :
    convolutionFilter irOf junk x f args st (o ++ r) = .ok { res with out := res.out ++ r } := by
  unfold convolutionFilter at h ⊢
  obtain ⟨r1, h1, h⟩ := bind_eq_ok.1 h
  rw [h1, ok_bind']
  obtain ⟨success, state, called⟩ := r1
  cases success with
  | false =>
    injection h with h
    rw [← h]
    rfl
  | true =>
    cases state with
    | none =>
      injection h with h
      rw [← h]
      rfl
    | some st1 =>
      simp only at h ⊢
      cases hir : st1.ir with
      | none =>
        rw [hir] at h
        cases h
      | some ir =>
        rw [hir] at h
        simp only at h ⊢
        obtain ⟨⟨o1, c1⟩, h2, h⟩ := bind_eq_ok.1 h
        injection h with h
        rw [convolve_append h2, ok_bind', ← h]
        rfl

end Sp
