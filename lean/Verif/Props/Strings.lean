import Verif.Model.Strings
import Verif.Props.RandomArrays
import Mathlib.Data.Nat.Bitwise

/-!
# C144: strings, C145: display of bits
-/

set_option linter.unusedSectionVars false

namespace Sp

/-- The array `a` begins with the string `s`: its bytes, none of them zero, and a zero byte. -/
def HoldsString (a : Buf (Option Nat)) (s : List Nat) : Prop :=
  (∀ v ∈ s, v ≠ 0) ∧ ∃ rest, a = s.map some ++ some 0 :: rest

/-- An array that is the string `s` and no byte more. -/
def stringOf (s : List Nat) : Buf (Option Nat) := s.map some ++ [some 0]

theorem holdsString_stringOf {s : List Nat} (h : ∀ v ∈ s, v ≠ 0) : HoldsString (stringOf s) s := ⟨h, [], rfl⟩

theorem strlenFrom_spec {a : Buf (Option Nat)} {s : List Nat} (h : HoldsString a s) : ∀ (n i : Nat), i ≤ s.length → s.length < i + n →
    strlenFrom a n i = .ok s.length
  | 0, i, h1, h2 => by omega
  | n + 1, i, h1, h2 => by
    obtain ⟨hz, rest, rfl⟩ := h
    rw [strlenFrom]
    rcases Nat.lt_or_ge i s.length with hi | hi
    · have : rdByte (s.map some ++ some 0 :: rest) i = .ok s[i] := by
        have e : rd (s.map some ++ some 0 :: rest) i = .ok (some s[i]) := by
          rw [rd_ok_iff, List.getElem?_append_left (by simpa using hi)]
          simp [hi]
        rw [rdByte, e, ok_bind']
        rfl
      rw [this, ok_bind', if_neg (hz _ (List.getElem_mem _))]
      exact strlenFrom_spec ⟨hz, rest, rfl⟩ n (i + 1) hi (by omega)
    · have e : i = s.length := by omega
      subst e
      have : rdByte (s.map some ++ some 0 :: rest) s.length = .ok 0 := by
        have e : rd (s.map some ++ some 0 :: rest) s.length = .ok (some 0) := by
          rw [rd_ok_iff]
          simp
        rw [rdByte, e, ok_bind']
        rfl
      rw [this, ok_bind', if_pos rfl]
      rfl

theorem strlen_spec {a : Buf (Option Nat)} {s : List Nat} (h : HoldsString a s) : strlen a = .ok s.length := by
  refine strlenFrom_spec h _ _ (Nat.zero_le _) ?_
  obtain ⟨_, rest, rfl⟩ := h
  simp
  omega

theorem memcpy_part {S : Type _} (p src mid q r : List S) (rest : List S) {d n : Nat} (hd : d = p.length) (hn : n = mid.length)
    (hq : q.length = mid.length) (hs : src = mid ++ rest) : memcpy (p ++ (q ++ r)) d src 0 n = .ok (p ++ (mid ++ r)) := by
  subst hs hd hn
  have : List.drop mid.length (q ++ r) = r := by rw [← hq]; simp
  simp [memcpy, hq, List.drop_append, this]

/-- C144: appending. For any two strings whose lengths together fit the address range the result of `string_append` is a new array with
exactly the bytes of the first string, those of the second and one zero byte. Without memory it is null. -/
theorem C144_append {a b : Buf (Option Nat)} {s t : List Nat} (ha : HoldsString a s) (hb : HoldsString b t)
    (hlen : s.length + t.length + 1 < 18446744073709551616) :
    stringAppend true a b = .ok (some (stringOf (s ++ t))) ∧ stringAppend false a b = .ok none := by
  refine ⟨?_, by simp [stringAppend, strlen_spec ha, strlen_spec hb]⟩
  rw [stringAppend, strlen_spec ha, ok_bind', strlen_spec hb, ok_bind', if_neg (by simp)]
  rw [u64, Nat.mod_eq_of_lt (by omega), mallocBytes, show 1 + s.length + t.length = s.length + (t.length + 1) by omega,
    List.replicate_add]
  obtain ⟨_, ra, rfl⟩ := ha
  obtain ⟨_, rb, rfl⟩ := hb
  have e1 := memcpy_part (S := Option Nat) [] (s.map some ++ some 0 :: ra) (s.map some) (List.replicate s.length none)
    (List.replicate (t.length + 1) none) (some 0 :: ra) (d := 0) (n := s.length) rfl (by simp) (by simp) rfl
  rw [List.nil_append, List.nil_append] at e1
  dsimp only
  rw [e1, ok_bind']
  have e2 := memcpy_part (S := Option Nat) (s.map some) (t.map some ++ some 0 :: rb) (t.map some ++ [some 0])
    (List.replicate (t.length + 1) none) [] rb (d := s.length) (n := 1 + t.length) (by simp) (by simp; omega) (by simp) (by simp)
  rw [List.append_nil, List.append_nil] at e2
  rw [e2, ok_bind']
  simp [stringOf]

example : stringAppend true (stringOf [104, 105]) (stringOf [33] ++ [none, some 7]) = .ok (some (stringOf [104, 105, 33])) :=
  (C144_append (s := [104, 105]) (t := [33]) (holdsString_stringOf (by decide)) ⟨by decide, [none, some 7], rfl⟩ (by decide)).1

/-- C144: copies. `string_clone` makes a new array with exactly the bytes of the string and one zero byte, or null without memory. -/
theorem C144_clone {a : Buf (Option Nat)} {s : List Nat} (ha : HoldsString a s) (hlen : s.length + 1 < 18446744073709551616) :
    stringClone true a = .ok (some (stringOf s)) ∧ stringClone false a = .ok none := by
  refine ⟨?_, by simp [stringClone, strlen_spec ha]⟩
  rw [stringClone, strlen_spec ha, ok_bind', if_neg (by simp)]
  rw [u64, Nat.mod_eq_of_lt (by omega), mallocBytes]
  obtain ⟨_, ra, rfl⟩ := ha
  have e1 := memcpy_part (S := Option Nat) [] (s.map some ++ some 0 :: ra) (s.map some ++ [some 0]) (List.replicate (1 + s.length) none)
    [] ra (d := 0) (n := 1 + s.length) rfl (by simp; omega) (by simp; omega) (by simp)
  rw [List.nil_append, List.nil_append, List.append_nil, List.append_nil] at e1
  rw [e1]
  rfl

example : stringClone true (stringOf [104, 105] ++ [none]) = .ok (some (stringOf [104, 105])) :=
  (C144_clone (s := [104, 105]) ⟨by decide, [none], rfl⟩ (by decide)).1

/-- The strings in an array of pointers. -/
def HoldStrings (as : Buf (Buf (Option Nat))) (ss : List (List Nat)) : Prop := List.Forall₂ HoldsString as ss

theorem intercalate_cons {α : Type _} (d s : List α) : ∀ ss : List (List α),
    List.intercalate d (s :: ss) = s ++ (ss.map fun x => d ++ x).flatten
  | [] => by simp [List.intercalate]
  | t :: ss => by
    have := intercalate_cons d t ss
    simp only [List.intercalate] at this ⊢
    simp [List.intersperse, this]

/-- The bytes after the first string in a joined string. -/
def joinTail (d : List Nat) (ss : List (List Nat)) : List Nat := (ss.map fun x => d ++ x).flatten

theorem joinSize_spec : ∀ (as : Buf (Buf (Option Nat))) (ss : List (List Nat)) (before more : Buf (Buf (Option Nat))) (size : Nat),
    HoldStrings as ss → size + ss.flatten.length < 18446744073709551616 →
    forRange before.length (before.length + as.length) (joinSizeBody (before ++ (as ++ more))) size = .ok (size + ss.flatten.length)
  | [], ss, before, more, size, h, _ => by
    cases h
    simp
  | a :: as, ss, before, more, size, h, hl => by
    cases h with
    | @cons _ s _ ss h1 h2 =>
      simp only [List.flatten_cons, List.length_append] at hl
      rw [forRange_head (by simp)]
      have e : joinSizeBody (before ++ (a :: as ++ more)) before.length size = .ok (size + s.length) := by
        rw [joinSizeBody, rd_ok_iff.2 (by simp : (before ++ (a :: as ++ more))[before.length]? = some a), ok_bind', strlen_spec h1, ok_bind', u64,
          Nat.mod_eq_of_lt (by omega)]
        rfl
      rw [e, bind_ok]
      have := joinSize_spec as ss (before ++ [a]) more (size + s.length) h2 (by omega)
      simp only [List.length_append, List.length_cons, List.length_nil, List.append_assoc, List.cons_append, List.nil_append] at this
      simp only [List.length_cons, List.cons_append, List.flatten_cons, List.length_append]
      rw [show before.length + (as.length + 1) = before.length + (0 + 1) + as.length by omega, this]
      simp only [Except.ok.injEq]
      omega

theorem joinBody_spec {dbuf : Buf (Option Nat)} {d : List Nat} (hd : HoldsString dbuf d) :
    ∀ (as : Buf (Buf (Option Nat))) (ss : List (List Nat)) (before more : Buf (Buf (Option Nat))) (p r : Buf (Option Nat)),
    HoldStrings as ss →
    forRange before.length (before.length + as.length) (joinBody (before ++ (as ++ more)) dbuf d.length)
        (p ++ (List.replicate (joinTail d ss).length none ++ r), p.length) =
      .ok (p ++ ((joinTail d ss).map some ++ r), p.length + (joinTail d ss).length)
  | [], ss, before, more, p, r, h => by
    cases h
    simp [joinTail]
  | a :: as, ss, before, more, p, r, h => by
    cases h with
    | @cons _ s _ ss h1 h2 =>
      have hj : joinTail d (s :: ss) = d ++ (s ++ joinTail d ss) := by simp [joinTail]
      rw [forRange_head (by simp)]
      have e : joinBody (before ++ (a :: as ++ more)) dbuf d.length before.length
          (p ++ (List.replicate (joinTail d (s :: ss)).length none ++ r), p.length) =
          .ok ((p ++ d.map some ++ s.map some) ++ (List.replicate (joinTail d ss).length none ++ r), (p ++ d.map some ++ s.map some).length) := by
        obtain ⟨hdz, rd', hd'⟩ := id hd
        obtain ⟨hsz, rs', hs'⟩ := id h1
        rw [joinBody, hj, List.length_append, List.replicate_add, List.append_assoc]
        dsimp only
        rw [memcpy_part p dbuf (d.map some) (List.replicate d.length none) _ (some 0 :: rd') rfl (by simp) (by simp) hd', ok_bind',
          rd_ok_iff.2 (by simp : (before ++ (a :: as ++ more))[before.length]? = some a), ok_bind', strlen_spec h1, ok_bind',
          List.length_append, List.replicate_add, List.append_assoc, ← List.append_assoc p,
          memcpy_part (p ++ d.map some) a (s.map some) (List.replicate s.length none) _ (some 0 :: rs') (by simp; omega) (by simp) (by simp) hs',
          ok_bind']
        simp
        omega
      rw [e, bind_ok]
      have := joinBody_spec hd as ss (before ++ [a]) more (p ++ d.map some ++ s.map some) r h2
      simp only [List.length_append, List.length_cons, List.length_nil, List.append_assoc, List.cons_append, List.nil_append] at this
      simp only [List.length_cons, List.cons_append, List.length_append, List.append_assoc]
      rw [show before.length + (as.length + 1) = before.length + (0 + 1) + as.length by omega, this, hj]
      simp
      omega

theorem joinTail_length (d : List Nat) : ∀ ss : List (List Nat), (joinTail d ss).length = d.length * ss.length + ss.flatten.length
  | [] => rfl
  | s :: ss => by
    have := joinTail_length d ss
    simp only [joinTail, List.map_cons, List.flatten_cons, List.length_append, List.length_cons] at this ⊢
    rw [this, Nat.mul_add]
    omega

/-- C144: joining. For any number of strings and any delimiter, `string_join` gives a new array that is exactly the strings with the
delimiter between each two and a zero byte, and the length without the zero byte. It is null for no strings or without memory. -/
theorem C144_join {as : Buf (Buf (Option Nat))} {ss : List (List Nat)} (more : Buf (Buf (Option Nat))) {dbuf : Buf (Option Nat)} {d : List Nat}
    (has : HoldStrings as ss) (hd : HoldsString dbuf d) (hne : ss ≠ [])
    (hlen : (List.intercalate d ss).length + 1 < 18446744073709551616) :
    stringJoin true (as ++ more) as.length dbuf =
      .ok (some (stringOf (List.intercalate d ss), (List.intercalate d ss).length)) ∧
    stringJoin false (as ++ more) as.length dbuf = .ok none ∧ stringJoin true (as ++ more) 0 dbuf = .ok none := by
  cases has with
  | nil => exact absurd rfl hne
  | @cons a s as ss h1 h2 =>
    have hc := h2.length_eq
    rw [intercalate_cons] at hlen ⊢
    change ((s ++ joinTail d ss).length + 1 < _) at hlen
    rw [List.length_append, joinTail_length] at hlen
    have hsize := joinSize_spec (a :: as) (s :: ss) [] more (1 + d.length * as.length) (.cons h1 h2) (by
      simp only [List.flatten_cons, List.length_append]
      rw [hc]
      omega)
    have hcopy := joinBody_spec hd as ss [a] more (s.map some) [none] h2
    simp only [List.length_nil, List.nil_append, Nat.zero_add, List.length_cons, List.cons_append, List.length_map,
      List.flatten_cons, List.length_append] at hsize hcopy
    have hs0 : 1 + d.length * as.length + (s.length + ss.flatten.length) = s.length + ((joinTail d ss).length + 1) := by
      rw [joinTail_length, hc]
      omega
    rw [hs0] at hsize
    have ha : rd (a :: as ++ more) 0 = .ok a := rfl
    refine ⟨?_, ?_, by simp [stringJoin]⟩
    · rw [stringJoin, if_neg (by simp), strlen_spec hd, ok_bind']
      simp only [List.length_cons, Nat.add_sub_cancel, List.cons_append]
      rw [u64, Nat.mod_eq_of_lt (by rw [hc]; omega), hsize, ok_bind', if_neg (by simp)]
      have ha : rd (a :: (as ++ more)) 0 = .ok a := rfl
      obtain ⟨_, ra, hra⟩ := id h1
      have e1 := memcpy_part (S := Option Nat) [] a (s.map some) (List.replicate s.length none)
        (List.replicate ((joinTail d ss).length + 1) none) (some 0 :: ra) (d := 0) (n := s.length) rfl (by simp) (by simp) hra
      rw [List.nil_append, List.nil_append] at e1
      rw [ha, ok_bind', strlen_spec h1, ok_bind', mallocBytes, List.replicate_add, e1, ok_bind', List.replicate_add, List.replicate_one,
        Nat.add_comm as.length 1, hcopy, ok_bind']
      dsimp only
      have hl : (s.length + ((joinTail d ss).length + 1) + 18446744073709551615) % 18446744073709551616 = s.length + (joinTail d ss).length := by
        rw [joinTail_length]
        omega
      rw [hl, wr_eq_ok _ (by simp), ok_bind']
      have : (s.map some ++ ((joinTail d ss).map some ++ [none])).set (s.length + (joinTail d ss).length) (some 0) =
          stringOf (s ++ joinTail d ss) := by
        rw [← List.append_assoc, List.set_append_right _ _ (by simp), stringOf]
        simp
      rw [this]
      simp [joinTail]
    · rw [stringJoin, if_neg (by simp), strlen_spec hd, ok_bind']
      simp only [List.length_cons, Nat.add_sub_cancel, List.cons_append]
      rw [u64, Nat.mod_eq_of_lt (by rw [hc]; omega), hsize, ok_bind', if_pos (by simp)]
      rfl

example : stringJoin true [stringOf [97], stringOf [], stringOf [98, 99]] 3 (stringOf [44, 32]) =
    .ok (some (stringOf [97, 44, 32, 44, 32, 98, 99], 7)) :=
  (C144_join (as := [stringOf [97], stringOf [], stringOf [98, 99]]) (ss := [[97], [], [98, 99]]) (d := [44, 32]) []
    (.cons (holdsString_stringOf (by decide)) (.cons (holdsString_stringOf (by decide)) (.cons (holdsString_stringOf (by decide)) .nil)))
    (holdsString_stringOf (by decide)) (by decide) (by decide)).1

/-- C144, what holds of the trailing slash: the given string is the result (0) exactly if it is empty or ends with a slash. -/
theorem C144_trailing_slash_partial {a : Buf (Option Nat)} {s : List Nat} (ha : HoldsString a s) (hlen : s.length < 4294967296) :
    (ensureTrailingSlash true a = .ok (0, none) ↔ s = [] ∨ s.getLast? = some 47) ∧
    (s ≠ [] → s.getLast? ≠ some 47 → ensureTrailingSlash false a = .ok (1, none)) := by
  have hr : s ≠ [] → rdByte a (s.length - 1) = .ok (s.getLast?.getD 0) := by
    intro hne
    obtain ⟨_, rest, rfl⟩ := ha
    obtain ⟨p, c, rfl⟩ := List.eq_nil_or_concat s |>.resolve_left hne
    rw [List.concat_eq_append] at *
    have e : rd ((p ++ [c]).map some ++ some 0 :: rest) ((p ++ [c]).length - 1) = .ok (some c) := by
      rw [rd_ok_iff]
      simp
    rw [rdByte, e, ok_bind']
    simp
  have hl : s ≠ [] → s.length ≠ 0 := fun h => by simpa using h
  have hg : s ≠ [] → (s.getLast?.getD 0 = 47 ↔ s.getLast? = some 47) := by
    intro hne
    obtain ⟨p, c, rfl⟩ := List.eq_nil_or_concat s |>.resolve_left hne
    simp
  constructor
  · rw [ensureTrailingSlash, strlen_spec ha, ok_bind']
    simp only [u32_of_lt hlen]
    rcases eq_or_ne s [] with rfl | hne
    · simp
    · rw [if_neg (hl hne), hr hne, ok_bind', pure_eq_ok, ok_bind']
      by_cases h47 : s.getLast? = some 47
      · rw [if_pos (by simpa using (hg hne).2 h47)]
        simp [h47]
      · rw [if_neg (by simpa using fun h => h47 ((hg hne).1 h)), if_neg (by simp)]
        simp only [hne, h47, or_self, iff_false]
        intro h
        obtain ⟨_, _, h⟩ := bind_eq_ok.1 h
        obtain ⟨_, _, h⟩ := bind_eq_ok.1 h
        obtain ⟨_, _, h⟩ := bind_eq_ok.1 h
        simp at h
  · intro hne h47
    rw [ensureTrailingSlash, strlen_spec ha, ok_bind']
    simp only [u32_of_lt hlen]
    rw [if_neg (hl hne), hr hne, ok_bind', pure_eq_ok, ok_bind', if_neg (by simpa using fun h => h47 ((hg hne).1 h)), if_pos (by simp)]
    rfl

example : ensureTrailingSlash true (stringOf [97, 47]) = .ok (0, none) :=
  (C144_trailing_slash_partial (s := [97, 47]) (holdsString_stringOf (by decide)) (by decide)).1.2 (.inr rfl)

/-- C144 is false of `ensure_trailing_slash`: for each string that does not end with a slash the result is the empty string. The slash is
stored, but the zero byte replaces the first byte, and the last byte is never set. -/
theorem C144_trailing_slash_false {a : Buf (Option Nat)} {s : List Nat} (ha : HoldsString a s) (hlen : s.length + 2 < 4294967296)
    (hne : s ≠ []) (hs : s.getLast? ≠ some 47) :
    ∃ new, ensureTrailingSlash true a = .ok (2, some new) ∧ HoldsString new [] ∧ ¬ HoldsString new (s ++ [47]) ∧
      new = some 0 :: (s.tail ++ [47]).map some ++ [none] := by
  have hr : rdByte a (s.length - 1) = .ok (s.getLast?.getD 0) ∧ s.getLast?.getD 0 ≠ 47 := by
    obtain ⟨_, rest, rfl⟩ := ha
    obtain ⟨p, c, rfl⟩ := List.eq_nil_or_concat s |>.resolve_left hne
    rw [List.concat_eq_append] at *
    have e : rd ((p ++ [c]).map some ++ some 0 :: rest) ((p ++ [c]).length - 1) = .ok (some c) := by
      rw [rd_ok_iff]
      simp
    rw [rdByte, e, ok_bind']
    simp at hs ⊢
    exact hs
  have hl : s.length ≠ 0 := by simpa using hne
  refine ⟨some 0 :: (s.tail ++ [47]).map some ++ [none], ?_, ⟨by simp, _, rfl⟩, ?_, rfl⟩
  · rw [ensureTrailingSlash, strlen_spec ha, ok_bind']
    simp only [u32_of_lt (show s.length < 4294967296 by omega), u32_of_lt (show 2 + s.length < 4294967296 by omega)]
    rw [if_neg hl, hr.1, ok_bind', pure_eq_ok, ok_bind', if_neg (by simpa using hr.2), if_neg (by simp), mallocBytes,
      show 2 + s.length = s.length + 2 by omega, List.replicate_add]
    obtain ⟨_, ra, rfl⟩ := ha
    have e1 := memcpy_part (S := Option Nat) [] (s.map some ++ some 0 :: ra) (s.map some) (List.replicate s.length none)
      (List.replicate 2 none) (some 0 :: ra) (d := 0) (n := s.length) rfl (by simp) (by simp) rfl
    rw [List.nil_append, List.nil_append] at e1
    rw [e1, ok_bind', wr_eq_ok _ (by simp), ok_bind', wr_eq_ok _ (by simp), ok_bind']
    cases s with
    | nil => exact absurd rfl hne
    | cons c s =>
      simp [List.set_append_right, List.replicate]
  · rintro ⟨h1, rest, h2⟩
    cases s with
    | nil => exact absurd rfl hne
    | cons c s =>
      have h3 := congrArg List.head? h2
      simp only [List.cons_append, List.head?_cons, List.map_cons, Option.some.injEq] at h3
      exact h1 c (by simp) h3.symm

example : ∃ new, ensureTrailingSlash true (stringOf [97, 98]) = .ok (2, some new) ∧ HoldsString new [] ∧
    ¬ HoldsString new ([97, 98] ++ [47]) ∧ new = some 0 :: ([98] ++ [47]).map some ++ [none] :=
  C144_trailing_slash_false (holdsString_stringOf (by decide)) (by decide) (by decide) (by decide)

/-- C145: the text of `sph_helper_display_bits`, for memory of any size: for each byte in order eight digits, the lowest bit first, and a line
break at the end. -/
theorem C145_display_bits (bytes : List Nat) (more : Buf (Option Nat)) :
    displayBits (bytes.map some ++ more) bytes.length =
      .ok ((bytes.flatMap fun v => (List.range 8).map fun i => if v / 2 ^ i % 2 = 1 then '1' else '0') ++ ['\n']) := by
  have hbit : ∀ v i : Nat, bitChar (decide ((1 <<< i) &&& v ≠ 0)) = if v / 2 ^ i % 2 = 1 then '1' else '0' := by
    intro v i
    rw [bitChar, Nat.one_shiftLeft, Nat.and_comm, Nat.and_two_pow, Nat.testBit_eq_decide_div_mod_eq]
    by_cases hb : v / 2 ^ i % 2 = 1 <;> simp [hb]
  have hu8 : ∀ (v : Nat) (out : List Char), displayBitsU8 v out =
      .ok (out ++ (List.range 8).map fun i => if v / 2 ^ i % 2 = 1 then '1' else '0') := by
    intro v out
    have h0 := hbit v 0
    rw [show (1 : Nat) <<< 0 = 1 from rfl] at h0
    rw [displayBitsU8, h0]
    have := forRange_states (fun i => out ++ (List.range i).map fun i => if v / 2 ^ i % 2 = 1 then '1' else '0') (lo := 1) (hi := 8)
      (by omega) (body := displayBitsBody v) (fun i _ _ => by
        rw [displayBitsBody, hbit, List.range_succ, List.map_append, List.append_assoc]
        rfl)
    exact this
  rw [displayBits]
  have := forRange_states (fun k => ((bytes.take k).flatMap fun v => (List.range 8).map fun i => if v / 2 ^ i % 2 = 1 then '1' else '0'))
    (lo := 0) (hi := bytes.length) (by omega) (body := fun i out => do
      let v ← rdByte (bytes.map some ++ more) i
      displayBitsU8 v out) (fun i _ hi => by
        have e : rd (bytes.map some ++ more) i = .ok (some bytes[i]) := by
          rw [rd_ok_iff, List.getElem?_append_left (by simpa using hi)]
          simp [hi]
        rw [rdByte, e, ok_bind']
        simp only [pure_eq_ok, ok_bind', hu8]
        rw [List.take_add_one, List.flatMap_append]
        simp [hi])
  rw [List.take_length] at this
  rw [List.take_zero, List.flatMap_nil] at this
  rw [this]
  rfl

example : displayBits [some 1, some 6] 2 = .ok "1000000001100000\n".toList := by decide +kernel

end Sp
