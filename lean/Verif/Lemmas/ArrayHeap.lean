import Verif.Model.ArrayHeap
import Verif.Props.RandomArrays
import Verif.Props.ArraysSelect
import Mathlib.Data.List.Nodup

/-!
# Memory compared with an earlier memory
-/

set_option linter.unusedSectionVars false

namespace Sp
variable {S : Type}

/-- Addresses that were not yet returned are not allocated. -/
def ArrayHeap.Fresh (h : ArrayHeap S) : Prop := ∀ a, h.next ≤ a → h.cell a = none

/-- Compared to `h0`, exactly the arrays `l`, given with their addresses, were allocated and are still allocated, and nothing else changed. -/
structure Owns (h0 h : ArrayHeap S) (l : List (Nat × ArrayCell S)) : Prop where
  nodup : (l.map Prod.fst).Nodup
  new : ∀ x ∈ l, h0.next ≤ x.1 ∧ x.1 < h.next
  next : h0.next ≤ h.next
  here : ∀ x ∈ l, h.cell x.1 = some x.2
  frame : ∀ b, b ∉ l.map Prod.fst → h.cell b = h0.cell b

theorem Owns.refl (h : ArrayHeap S) : Owns h h [] := ⟨List.nodup_nil, by simp, le_refl _, by simp, fun _ _ => rfl⟩

theorem Owns.perm {h0 h : ArrayHeap S} {l l' : List (Nat × ArrayCell S)} (hh : Owns h0 h l) (hp : l.Perm l') : Owns h0 h l' :=
  ⟨(hp.map Prod.fst).nodup_iff.1 hh.nodup, fun x hx => hh.new x (hp.mem_iff.2 hx), hh.next, fun x hx => hh.here x (hp.mem_iff.2 hx),
    fun b hb => hh.frame b fun hb' => hb ((hp.map Prod.fst).mem_iff.1 hb')⟩

theorem Owns.alloc {h0 h : ArrayHeap S} {l : List (Nat × ArrayCell S)} (hh : Owns h0 h l) (c : ArrayCell S) :
    Owns h0 (h.alloc c).2 (((h.alloc c).1, c) :: l) := by
  have hnot : ∀ x ∈ l, x.1 ≠ h.next := fun x hx => by have := (hh.new x hx).2; omega
  refine ⟨?_, fun x hx => ?_, Nat.le_succ_of_le hh.next, fun x hx => ?_, fun b hb => ?_⟩
  · rw [List.map_cons, List.nodup_cons]
    refine ⟨fun hm => ?_, hh.nodup⟩
    obtain ⟨x, hx, hx'⟩ := List.mem_map.1 hm
    exact hnot x hx hx'
  · rcases List.mem_cons.1 hx with rfl | hx
    · exact ⟨hh.next, Nat.lt_succ_self _⟩
    · exact ⟨(hh.new x hx).1, Nat.lt_succ_of_lt (hh.new x hx).2⟩
  · rcases List.mem_cons.1 hx with rfl | hx
    · simp [ArrayHeap.alloc]
    · show (if x.1 = h.next then some c else h.cell x.1) = _
      rw [if_neg (hnot x hx), hh.here x hx]
  · simp only [List.map_cons, List.mem_cons, not_or] at hb
    show (if b = h.next then some c else h.cell b) = _
    rw [if_neg (show ¬ b = h.next from hb.1), hh.frame b hb.2]

theorem Owns.put {h0 h : ArrayHeap S} {l : List (Nat × ArrayCell S)} {p : Nat} {c : ArrayCell S} (hh : Owns h0 h ((p, c) :: l)) (c' : ArrayCell S) :
    Owns h0 (h.put p (some c')) ((p, c') :: l) := by
  have hn := hh.nodup
  rw [List.map_cons, List.nodup_cons] at hn
  refine ⟨hh.nodup, fun x hx => ?_, hh.next, fun x hx => ?_, fun b hb => ?_⟩
  · rcases List.mem_cons.1 hx with rfl | hx
    · exact hh.new (p, c) (by simp)
    · exact hh.new x (by simp [hx])
  · rcases List.mem_cons.1 hx with rfl | hx
    · simp [ArrayHeap.put]
    · show (if x.1 = p then some c' else h.cell x.1) = _
      rw [if_neg fun e : x.1 = p => hn.1 (by rw [← e]; exact List.mem_map.2 ⟨x, hx, rfl⟩), hh.here x (by simp [hx])]
  · simp only [List.map_cons, List.mem_cons, not_or] at hb
    show (if b = p then some c' else h.cell b) = _
    rw [if_neg hb.1, hh.frame b (by simp [hb])]

theorem Owns.free {h0 h : ArrayHeap S} (hf : h0.Fresh) {l : List (Nat × ArrayCell S)} {p : Nat} {c : ArrayCell S} (hh : Owns h0 h ((p, c) :: l)) :
    ∃ h', h.free p = .ok h' ∧ Owns h0 h' l := by
  have hn := hh.nodup
  rw [List.map_cons, List.nodup_cons] at hn
  refine ⟨h.put p none, ?_, hn.2, fun x hx => hh.new x (by simp [hx]), hh.next, fun x hx => ?_, fun b hb => ?_⟩
  · rw [ArrayHeap.free, hh.here (p, c) (by simp)]
    rfl
  · show (if x.1 = p then none else h.cell x.1) = _
    rw [if_neg fun e : x.1 = p => hn.1 (by rw [← e]; exact List.mem_map.2 ⟨x, hx, rfl⟩), hh.here x (by simp [hx])]
  · show (if b = p then none else h.cell b) = _
    split
    · rename_i e
      subst e
      exact (hf b (hh.new (b, c) (by simp)).1).symm
    · rename_i e
      exact hh.frame b (by simp [e, hb])

theorem Owns.times {h0 h : ArrayHeap S} {l : List (Nat × ArrayCell S)} (hh : Owns h0 h l) {p : Nat} {b : Buf Nat} (hm : (p, ArrayCell.times b) ∈ l) :
    h.times p = .ok b := by rw [ArrayHeap.times, hh.here _ hm]

theorem Owns.samples {h0 h : ArrayHeap S} {l : List (Nat × ArrayCell S)} (hh : Owns h0 h l) {p : Nat} {b : Buf S} (hm : (p, ArrayCell.samples b) ∈ l) :
    h.samples p = .ok b := by rw [ArrayHeap.samples, hh.here _ hm]

theorem Owns.pointers {h0 h : ArrayHeap S} {l : List (Nat × ArrayCell S)} (hh : Owns h0 h l) {p : Nat} {b : Buf (Option Nat)}
    (hm : (p, ArrayCell.pointers b) ∈ l) : h.pointers p = .ok b := by rw [ArrayHeap.pointers, hh.here _ hm]

theorem Owns.setTimes {h0 h : ArrayHeap S} (l : List (Nat × ArrayCell S)) {l' : List (Nat × ArrayCell S)} {p : Nat} {b : Buf Nat}
    (hh : Owns h0 h (l ++ (p, ArrayCell.times b) :: l')) (b' : Buf Nat) :
    ∃ h', h.setTimes p b' = .ok h' ∧ Owns h0 h' (l ++ (p, ArrayCell.times b') :: l') := by
  refine ⟨h.put p (some (.times b')), ?_, ((hh.perm List.perm_middle).put (.times b')).perm List.perm_middle.symm⟩
  rw [ArrayHeap.setTimes, hh.here (p, ArrayCell.times b) (by simp)]

theorem Owns.setSamples {h0 h : ArrayHeap S} (l : List (Nat × ArrayCell S)) {l' : List (Nat × ArrayCell S)} {p : Nat} {b : Buf S}
    (hh : Owns h0 h (l ++ (p, ArrayCell.samples b) :: l')) (b' : Buf S) :
    ∃ h', h.setSamples p b' = .ok h' ∧ Owns h0 h' (l ++ (p, ArrayCell.samples b') :: l') := by
  refine ⟨h.put p (some (.samples b')), ?_, ((hh.perm List.perm_middle).put (.samples b')).perm List.perm_middle.symm⟩
  rw [ArrayHeap.setSamples, hh.here (p, ArrayCell.samples b) (by simp)]

theorem Owns.setPointers {h0 h : ArrayHeap S} (l : List (Nat × ArrayCell S)) {l' : List (Nat × ArrayCell S)} {p : Nat} {b : Buf (Option Nat)}
    (hh : Owns h0 h (l ++ (p, ArrayCell.pointers b) :: l')) (b' : Buf (Option Nat)) :
    ∃ h', h.setPointers p b' = .ok h' ∧ Owns h0 h' (l ++ (p, ArrayCell.pointers b') :: l') := by
  refine ⟨h.put p (some (.pointers b')), ?_, ((hh.perm List.perm_middle).put (.pointers b')).perm List.perm_middle.symm⟩
  rw [ArrayHeap.setPointers, hh.here (p, ArrayCell.pointers b) (by simp)]

/-- An array that was allocated before is not one of the new ones. -/
theorem Owns.not_mem {h0 h : ArrayHeap S} (hf : h0.Fresh) {l : List (Nat × ArrayCell S)} (hh : Owns h0 h l) {p : Nat} (hp : h0.cell p ≠ none) :
    p ∉ l.map Prod.fst := by
  intro hm
  obtain ⟨x, hx, rfl⟩ := List.mem_map.1 hm
  exact hp (hf _ (hh.new x hx).1)

theorem Owns.old {h0 h : ArrayHeap S} (hf : h0.Fresh) {l : List (Nat × ArrayCell S)} (hh : Owns h0 h l) {p : Nat} (hp : h0.cell p ≠ none) :
    h.cell p = h0.cell p := hh.frame p (hh.not_mem hf hp)

/-- A change of an array that was allocated before. -/
theorem Owns.putOld {h0 h : ArrayHeap S} (hf : h0.Fresh) {l : List (Nat × ArrayCell S)} (hh : Owns h0 h l) {p : Nat} (hp : h0.cell p ≠ none)
    (c : Option (ArrayCell S)) : Owns (h0.put p c) (h.put p c) l := by
  have hn := hh.not_mem hf hp
  refine ⟨hh.nodup, hh.new, hh.next, fun x hx => ?_, fun b hb => ?_⟩
  · show (if x.1 = p then c else h.cell x.1) = _
    rw [if_neg fun e : x.1 = p => hn (e ▸ List.mem_map_of_mem hx), hh.here x hx]
  · show (if b = p then c else h.cell b) = (if b = p then c else h0.cell b)
    rw [hh.frame b hb]

theorem ArrayHeap.Fresh.put {h0 : ArrayHeap S} (hf : h0.Fresh) {p : Nat} (hp : h0.cell p ≠ none) (c : Option (ArrayCell S)) : (h0.put p c).Fresh := by
  intro a ha
  show (if a = p then c else h0.cell a) = none
  rw [if_neg (fun e => hp (by rw [← e]; exact hf a ha)), hf a ha]

theorem memcpy_all {α : Type} {b a : Buf α} {n : Nat} (hb : b.length = n) (ha : n ≤ a.length) : memcpy b 0 a 0 n = .ok (a.take n) := by
  rw [memcpy_start (by omega) (by omega)]
  simp [hb]

/-- Pointers to the arrays `cells` and null pointers behind them. -/
def ptrs (cells : List (Nat × Buf Nat)) (n : Nat) : Buf (Option Nat) := cells.map (fun x => some x.1) ++ List.replicate n none

/-- Contents of the arrays `cells`. -/
def contents (cells : List (Nat × Buf Nat)) (n : Nat) : Buf (Option (Buf Nat)) := cells.map (fun x => some x.2) ++ List.replicate n none

/-- The arrays `cells` as memory. -/
def asCells (S : Type) (cells : List (Nat × Buf Nat)) : List (Nat × ArrayCell S) := cells.map fun x => (x.1, ArrayCell.times x.2)

theorem wr_lt {α : Type} {b b' : Buf α} {i : Nat} {v : α} (h : wr b i v = .ok b') : i < b.length := by
  by_contra hi
  simp [wr, hi] at h

theorem timesSwap_length {α : Type} {m m' : Buf α} {i j : Nat} (h : timesSwap m i j = .ok m') : m'.length = m.length := by
  unfold timesSwap at h
  split at h
  · simp at h
  obtain ⟨_, _, h⟩ := bind_eq_ok.1 h
  obtain ⟨_, _, h⟩ := bind_eq_ok.1 h
  obtain ⟨m1, h1, h⟩ := bind_eq_ok.1 h
  rw [wr_length h, wr_length h1]

theorem wr_next {α : Type} (l : List (Option α)) (n : Nat) (x : α) : wr (l ++ List.replicate (n + 1) none) l.length (some x) =
    .ok ((l ++ [some x]) ++ List.replicate n none) := by
  rw [wr_eq_ok _ (by simp)]
  simp [List.replicate_succ]

theorem arrayFree_holds {h0 : ArrayHeap S} (hf : h0.Fresh) {p : Nat} {rest : List (Nat × ArrayCell S)} (bs : Buf (Option Nat)) :
    ∀ (cells : List (Nat × Buf Nat)) (i : Nat) {h : ArrayHeap S}, bs.drop i = cells.map (fun x => some x.1) →
      Owns h0 h ((p, ArrayCell.pointers bs) :: (asCells S cells ++ rest)) →
      ∃ h', forRange i (i + cells.length) (arrayFreeBody p) h = .ok h' ∧ Owns h0 h' ((p, ArrayCell.pointers bs) :: rest)
  | [], i, h, _, hh => ⟨h, forRange_self _ _ _, hh⟩
  | x :: cells, i, h, hb, hh => by
    have hi : bs[i]? = some (some x.1) := by
      have := congrArg (fun l => l[0]?) hb
      simpa using this
    obtain ⟨h1, e1, hh1⟩ := Owns.free hf (l := (p, ArrayCell.pointers bs) :: (asCells S cells ++ rest)) (p := x.1) (c := ArrayCell.times x.2)
      (hh.perm (List.Perm.swap _ _ _))
    obtain ⟨h2, e2, hh2⟩ := arrayFree_holds hf bs cells (i + 1) (h := h1) (by
      have := congrArg List.tail hb
      simpa using this) hh1
    refine ⟨h2, ?_, hh2⟩
    rw [forRange_head (by simp), arrayFreeBody, hh.pointers (b := bs) (by simp), ok_bind', rd_ok_iff.2 hi, ok_bind', ArrayHeap.freeOption, e1]
    rw [show i + (x :: cells).length = i + 1 + cells.length by simp; omega]
    exact e2

/-- `sp_times_array_free` on an array of pointers to arrays. -/
theorem arrayFreeHeap_holds {h0 : ArrayHeap S} (hf : h0.Fresh) {p : Nat} {rest : List (Nat × ArrayCell S)} (cells : List (Nat × Buf Nat)) {h : ArrayHeap S}
    (hh : Owns h0 h ((p, ArrayCell.pointers (ptrs cells 0)) :: (asCells S cells ++ rest))) :
    ∃ h', arrayFreeHeap p cells.length h = .ok h' ∧ Owns h0 h' rest := by
  obtain ⟨h1, e1, hh1⟩ := arrayFree_holds hf (ptrs cells 0) cells 0 (by simp [ptrs]) hh
  obtain ⟨h2, e2, hh2⟩ := hh1.free hf
  refine ⟨h2, ?_, hh2⟩
  rw [Nat.zero_add] at e1
  rw [arrayFreeHeap, e1, ok_bind', e2]

end Sp
