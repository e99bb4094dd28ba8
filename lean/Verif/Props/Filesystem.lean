import Verif.Model.Filesystem
import Verif.Props.FilterMemory

/-!
# C150: creating directories
-/

namespace Sp

/-- `q` is `p` or contains it. -/
def FilePath.Within (p q : FilePath) : Prop := q.absolute = p.absolute ∧ q.names <:+ p.names

/-- A file system is a tree: what exists is in something that exists, and `/` and `.` exist. -/
def FileWorld.Tree (w : FileWorld) : Prop := (∀ b, w.exist ⟨b, []⟩ = true) ∧ ∀ p, w.exist p = true → w.exist p.parent = true

theorem FileWorld.Tree.within {w : FileWorld} (hw : w.Tree) {p q : FilePath} (hp : w.exist p = true) (h : p.Within q) : w.exist q = true := by
  obtain ⟨b, names⟩ := p
  obtain ⟨c, names'⟩ := q
  obtain ⟨h1, t, h2⟩ := h
  simp only at h1 h2
  subst h1
  induction t generalizing names with
  | nil => simp only [List.nil_append] at h2; rw [h2]; exact hp
  | cons x t ih =>
    subst h2
    exact ih (t ++ names') rfl (hw.2 _ hp)

theorem FilePath.within_self (p : FilePath) : p.Within p := ⟨rfl, List.suffix_refl _⟩

theorem FilePath.within_cons {b : Bool} {x : List UInt8} {rest : List (List UInt8)} {q : FilePath} :
    (⟨b, x :: rest⟩ : FilePath).Within q ↔ q = ⟨b, x :: rest⟩ ∨ (⟨b, rest⟩ : FilePath).Within q := by
  obtain ⟨c, names⟩ := q
  simp only [Within, List.suffix_cons_iff, FilePath.mk.injEq]
  constructor
  · rintro ⟨rfl, h | h⟩
    · exact .inl ⟨rfl, h⟩
    · exact .inr ⟨rfl, h⟩
  · rintro (⟨rfl, h⟩ | ⟨rfl, h⟩)
    · exact ⟨rfl, .inl h⟩
    · exact ⟨rfl, .inr h⟩

theorem ensure_ok (may : FilePath → Bool) (names : List (List UInt8)) (abs : Bool) (w : FileWorld) (hw : w.Tree) (hm : w.mem.Fresh) (fuel : Nat)
    (hf : names.length < fuel) (hrel : abs = true ∨ ∀ x, [x] <:+ names → w.exist ⟨abs, [x]⟩ = true) :
    ∃ b w', ensureDirectories may fuel ⟨abs, names⟩ w = .ok (b, w') ∧ w'.Tree ∧ w'.mem.Fresh ∧ w'.mem.live = w.mem.live ∧
      (w.exist ⟨abs, names⟩ = false ∨ w.errnoExists = false → w'.errnoExists = false) ∧ w'.exist ⟨abs, names⟩ = b ∧
      (∀ q, w.exist q = true → w'.exist q = true) ∧
      (∀ q, w'.exist q = true → w.exist q = true ∨ ((⟨abs, names⟩ : FilePath).Within q ∧ may q = true)) ∧
      (b = true ↔ ∀ q, (⟨abs, names⟩ : FilePath).Within q → w.exist q = true ∨ may q = true) := by
  induction names generalizing w fuel with
  | nil =>
    obtain ⟨fuel, rfl⟩ : ∃ k, fuel = k + 1 := ⟨fuel - 1, by omega⟩
    have h0 := hw.1 abs
    refine ⟨true, w, ?_, hw, hm, rfl, ?_, h0, fun _ h => h, fun _ h => .inl h, ?_⟩
    · simp [ensureDirectories, fileExists, h0]
    · rintro (h | h)
      · rw [h0] at h; simp at h
      · exact h
    · simp only [true_iff]
      exact fun q hq => .inl (hw.within h0 hq)
  | cons x rest ih =>
    obtain ⟨fuel, rfl⟩ : ∃ k, fuel = k + 1 := ⟨fuel - 1, by omega⟩
    by_cases h0 : w.exist ⟨abs, x :: rest⟩ = true
    · refine ⟨true, w, ?_, hw, hm, rfl, ?_, h0, fun _ h => h, fun _ h => .inl h, ?_⟩
      · simp [ensureDirectories, fileExists, h0]
      · rintro (h | h)
        · rw [h0] at h; simp at h
        · exact h
      · simp only [true_iff]
        exact fun q hq => .inl (hw.within h0 hq)
    · have h0' : w.exist ⟨abs, x :: rest⟩ = false := by simpa using h0
      have hslash : abs = true ∨ 2 ≤ (x :: rest).length := by
        rcases hrel with h | h
        · exact .inl h
        · refine .inr ?_
          cases rest with
          | nil => exact absurd (h x (List.suffix_refl _)) h0
          | cons y r => simp
      obtain ⟨b, w2, e1, e2, e3, e4, e5, e6, e7, e8, e9⟩ := ih { w with errnoExists := false, mem := w.mem.malloc.2 } hw
        (by
          intro a ha
          simp only [Live.malloc] at ha ⊢
          rw [if_neg (by omega)]
          exact hm a (by omega)) fuel (by simp only [List.length_cons] at hf; omega)
        (hrel.imp_right fun h y hy => h y (List.suffix_cons_iff.2 (.inr hy)))
      have e5 := e5 (.inr rfl)
      simp only at e4 e7 e8 e9
      have hlive : w2.mem.live w.mem.next = true := by rw [e4]; simp [Live.malloc]
      have hfree : w2.mem.free (some w.mem.next) = .ok ⟨w2.mem.next, w.mem.live⟩ := by
        simp only [Live.free, hlive, if_true]
        congr 2
        funext a
        rw [e4]
        simp only [Live.malloc]
        split
        · next h => rw [h, hm _ (Nat.le_refl _)]
        · rfl
      have hnew : w2.exist ⟨abs, x :: rest⟩ = false := by
        by_contra hc
        rcases e8 ⟨abs, x :: rest⟩ (by simpa using hc) with h | ⟨h, _⟩
        · exact h0 h
        · have := h.2.length_le
          simp at this
      have hfresh : (⟨w2.mem.next, w.mem.live⟩ : Live).Fresh := by
        intro a ha
        have := e3 a ha
        rw [e4] at this
        simp only [Live.malloc] at this
        by_contra hc
        split at this
        · simp at this
        · simp only at hc; exact hc this
      have run : ensureDirectories may (fuel + 1) ⟨abs, x :: rest⟩ w =
          (if b then pure (makeDir may ⟨abs, x :: rest⟩ { w2 with mem := ⟨w2.mem.next, w.mem.live⟩ })
           else pure (false, { w2 with mem := ⟨w2.mem.next, w.mem.live⟩ })) := by
        rw [ensureDirectories]
        simp only [fileExists, h0', Bool.false_eq_true, if_false, dirname2]
        rw [if_pos hslash]
        simp only [FilePath.parent, List.tail_cons]
        rw [show (w.mem.malloc).1 = w.mem.next from rfl]
        simp only [e1, ok_bind', freePath, hfree, e5]
        cases b <;> rfl
      by_cases hb : b = true
      · subst hb
        rw [if_pos rfl] at run
        have hpar : w2.exist (FilePath.parent ⟨abs, x :: rest⟩) = true := e6
        by_cases hmay : may ⟨abs, x :: rest⟩ = true
        · refine ⟨true, { w2 with
              mem := ⟨w2.mem.next, w.mem.live⟩
              exist := fun q => if q = ⟨abs, x :: rest⟩ then true else w2.exist q }, ?_, ⟨?_, ?_⟩, hfresh, rfl, fun _ => e5, by simp, ?_, ?_, ?_⟩
          · rw [run, makeDir]
            simp [hnew, hpar, hmay]
          · intro c
            simp only
            split
            · rfl
            · exact e2.1 c
          · intro q hq
            simp only at hq ⊢
            split
            · rfl
            · split at hq
              · next h => rw [h]; exact hpar
              · exact e2.2 q hq
          · intro q hq
            simp only
            split
            · rfl
            · exact e7 q hq
          · intro q hq
            simp only at hq
            split at hq
            · next h => rw [h]; exact .inr ⟨FilePath.within_self _, hmay⟩
            · exact (e8 q hq).imp_right fun h => ⟨FilePath.within_cons.2 (.inr h.1), h.2⟩
          · simp only [true_iff]
            intro q hq
            rcases FilePath.within_cons.1 hq with rfl | hq
            · exact .inr hmay
            · exact e9.1 rfl q hq
        · refine ⟨false, { w2 with mem := ⟨w2.mem.next, w.mem.live⟩, errnoExists := false }, ?_, e2, hfresh, rfl, fun _ => rfl, hnew, e7,
            fun q hq => (e8 q hq).imp_right fun h => ⟨FilePath.within_cons.2 (.inr h.1), h.2⟩, ?_⟩
          · rw [run, makeDir]
            simp [hnew, hmay]
          · simp only [Bool.false_eq_true, false_iff]
            intro h
            rcases h _ (FilePath.within_self _) with h | h
            · exact h0 h
            · exact hmay h
      · have hb' : b = false := by simpa using hb
        subst hb'
        rw [if_neg (by simp)] at run
        refine ⟨false, { w2 with mem := ⟨w2.mem.next, w.mem.live⟩ }, run, e2, hfresh, rfl, fun _ => e5, hnew, e7,
            fun q hq => (e8 q hq).imp_right fun h => ⟨FilePath.within_cons.2 (.inr h.1), h.2⟩, ?_⟩
        simp only [Bool.false_eq_true, false_iff]
        intro h
        have := e9.2 fun q hq => h q (FilePath.within_cons.2 (.inr hq))
        simp at this

/-- **C150, partial.** For an absolute path, and for a relative one whose first name exists, in every file system: `ensure_directory_structure` ends
without undefined behaviour and all its memory is freed; it returns 1 exactly if the path exists then, which is so exactly if each missing part of it can be
created; nothing that existed is gone, and what is new are the path and directories it is in. Missing: relative paths whose first name does not exist
(`C150_relative_undefined`). -/
theorem C150_directories_partial (may : FilePath → Bool) {p : FilePath} {w : FileWorld} (hw : w.Tree) (hm : w.mem.Fresh) {fuel : Nat}
    (hf : p.names.length < fuel) (hrel : p.absolute = true ∨ ∀ x, [x] <:+ p.names → w.exist ⟨p.absolute, [x]⟩ = true) :
    ∃ b w', ensureDirectories may fuel p w = .ok (b, w') ∧ w'.mem.live = w.mem.live ∧ w'.exist p = b ∧ w'.Tree ∧
      (b = true ↔ ∀ q, p.Within q → w.exist q = true ∨ may q = true) ∧
      (∀ q, w.exist q = true → w'.exist q = true) ∧ ∀ q, w'.exist q = true → w.exist q = true ∨ p.Within q := by
  obtain ⟨b, w', e1, e2, _, e4, _, e6, e7, e8, e9⟩ := ensure_ok may p.names p.absolute w hw hm fuel hf hrel
  exact ⟨b, w', e1, e4, e6, e2, e9, e7, fun q hq => (e8 q hq).imp_right fun h => h.1⟩

/-- **C150 is false for relative paths whose first name does not exist**: `dirname_2` does not return a new string then, and a constant string is given
to `free`. -/
theorem C150_relative_undefined (may : FilePath → Bool) {names : List (List UInt8)} {w : FileWorld} (hw : w.Tree) {x : List UInt8}
    (hx : [x] <:+ names) (hmiss : w.exist ⟨false, [x]⟩ = false) {fuel : Nat} (hf : names.length < fuel) :
    ensureDirectories may fuel ⟨false, names⟩ w = .error .doubleFree := by
  induction names generalizing w fuel with
  | nil => simp at hx
  | cons y rest ih =>
    obtain ⟨fuel, rfl⟩ : ∃ k, fuel = k + 1 := ⟨fuel - 1, by omega⟩
    have h0 : w.exist ⟨false, y :: rest⟩ = false := by
      by_contra hc
      have := hw.within (p := ⟨false, y :: rest⟩) (q := ⟨false, [x]⟩) (by simpa using hc) ⟨rfl, hx⟩
      rw [hmiss] at this
      simp at this
    rw [ensureDirectories]
    simp only [fileExists, h0, Bool.false_eq_true, if_false, dirname2, false_or]
    rw [List.suffix_cons_iff] at hx
    cases rest with
    | nil =>
      simp only [List.length_singleton, show ¬ 2 ≤ 1 by omega, if_false, FilePath.parent, List.tail_cons]
      obtain ⟨fuel, rfl⟩ : ∃ k, fuel = k + 1 := ⟨fuel - 1, by simp at hf; omega⟩
      have h1 := hw.1 false
      simp [ensureDirectories, fileExists, h1, freePath]
    | cons z r =>
      rw [if_pos (by simp)]
      simp only [FilePath.parent, List.tail_cons]
      have := ih (w := { w with errnoExists := false, mem := w.mem.malloc.2 }) hw (by simpa using hx) hmiss (fuel := fuel)
        (by simp only [List.length_cons] at hf ⊢; omega)
      rw [this]
      rfl

/-- Non-vacuity: a file system with only `/` and `.`, in which everything can be created, and the path `/a/b`. -/
example : ∃ w', ensureDirectories (fun _ => true) 3 ⟨true, [[98], [97]]⟩ ⟨fun p => p.names.isEmpty, true, ⟨5, fun _ => false⟩⟩ = .ok (true, w') ∧
    w'.exist ⟨true, [[97]]⟩ = true ∧ w'.exist ⟨true, [[98]]⟩ = false := ⟨_, rfl, rfl, rfl⟩

example : (⟨fun p => p.names.isEmpty, true, ⟨5, fun _ => false⟩⟩ : FileWorld).Tree ∧ Live.Fresh ⟨5, fun _ => false⟩ := by
  refine ⟨⟨fun _ => rfl, fun p hp => ?_⟩, fun _ _ => rfl⟩
  obtain ⟨b, names⟩ := p
  cases names with
  | nil => rfl
  | cons _ _ => simp at hp

end Sp
