import Verif.Model.ReadErrors
import Verif.Props.File

/-! # C161: reading from devices that fail -/

set_option linter.unusedSectionVars false

namespace Sp
variable {S F : Type}

/-! ### Specification -/

/-- Beginning at `p`, the first place at a distance that is a multiple of eight with the text "data", and at least four bytes after it, is `q - 8`. -/
def EveryEighth (content : List Nat) (p q : Nat) : Prop :=
  ∃ k, q = p + 8 * k + 8 ∧ q ≤ content.length ∧ (content.drop (p + 8 * k)).take 4 = ascii "data" ∧
    ∀ j < k, (content.drop (p + 8 * j)).take 4 ≠ ascii "data"

/-- What the code finds: like `DataAt`, but where the device can not seek the next chunk is assumed to begin directly after the header. -/
inductive FoundAt (canSeek : Nat → Bool) (content : List Nat) : Nat → Nat → Prop
  | here {p : Nat} : p + 8 ≤ content.length → (content.drop p).take 4 = ascii "data" → FoundAt canSeek content p (p + 8)
  | next {p q : Nat} : p + 8 ≤ content.length → (content.drop p).take 4 ≠ ascii "data" →
      FoundAt canSeek content (p + 8 + if canSeek (p + 8) then numberLE ((content.drop (p + 4)).take 4) else 0) q →
      FoundAt canSeek content p q

/-! ### Helpers -/

theorem FoundAt.unique {cs : Nat → Bool} {content : List Nat} {p q r : Nat} (h1 : FoundAt cs content p q) (h2 : FoundAt cs content p r) : q = r := by
  induction h1 with
  | here a b => cases h2 with
    | here _ _ => rfl
    | next _ c _ => exact absurd b c
  | next a b c ih => cases h2 with
    | here _ d => exact absurd d b
    | next _ _ d => exact ih d

theorem drop_take_take (l : List Nat) (b p n : Nat) (h : p + n ≤ b) : ((l.take b).drop p).take n = (l.drop p).take n := by
  rw [List.drop_take, List.take_take, Nat.min_eq_left (by omega)]

/-- With a device that can seek everywhere the right place is found, if it can be read. -/
theorem foundAt_seek {cs : Nat → Bool} (hs : ∀ p, cs p = true) {content : List Nat} {bad p q : Nat} :
    FoundAt cs (content.take bad) p q ↔ DataAt content p q ∧ q ≤ bad := by
  constructor
  · intro h
    induction h with
    | here a b =>
      rw [List.length_take] at a
      rw [drop_take_take _ _ _ _ (by omega)] at b
      exact ⟨DataAt.here (by omega) b, by omega⟩
    | next a b _ ih =>
      rw [List.length_take] at a
      rw [drop_take_take _ _ _ _ (by omega)] at b
      rw [hs, if_pos rfl, drop_take_take _ _ _ _ (by omega)] at ih
      exact ⟨DataAt.next (by omega) b ih.1, ih.2⟩
  · rintro ⟨h, hq⟩
    induction h with
    | here a b =>
      exact FoundAt.here (by rw [List.length_take]; omega) (by rw [drop_take_take _ _ _ _ (by omega)]; exact b)
    | @next p q a b hd ih =>
      have hlt : p + 8 ≤ bad := by
        have : ∀ {x y}, DataAt content x y → x + 8 ≤ y := by
          intro x y h
          induction h with
          | here _ _ => omega
          | next _ _ _ ih => omega
        have := this hd
        omega
      refine FoundAt.next (by rw [List.length_take]; omega) (by rw [drop_take_take _ _ _ _ (by omega)]; exact b) ?_
      rw [hs, if_pos rfl, drop_take_take _ _ _ _ (by omega)]
      exact ih hq

/-- Without seeking, every eighth place is looked at. -/
theorem foundAt_pipe {cs : Nat → Bool} (hs : ∀ p, cs p = false) {content : List Nat} {p q : Nat} :
    FoundAt cs content p q ↔ EveryEighth content p q := by
  constructor
  · intro h
    induction h with
    | here a b => exact ⟨0, by omega, a, by simpa using b, by simp⟩
    | @next p q a b hd ih =>
      simp only [hs, Bool.false_eq_true, if_false, Nat.add_zero] at ih
      obtain ⟨k, k1, k2, k3, k4⟩ := ih
      refine ⟨k + 1, by omega, k2, by rw [show p + 8 * (k + 1) = p + 8 + 8 * k by ring]; exact k3, ?_⟩
      intro j hj
      cases j with
      | zero => simpa using b
      | succ j =>
        rw [show p + 8 * (j + 1) = p + 8 + 8 * j by ring]
        exact k4 j (by omega)
  · rintro ⟨k, k1, k2, k3, k4⟩
    induction k generalizing p with
    | zero =>
      subst k1
      exact FoundAt.here (by omega) (by simpa using k3)
    | succ k ih =>
      refine FoundAt.next (by omega) (by simpa using k4 0 (by omega)) ?_
      simp only [hs, Bool.false_eq_true, if_false, Nat.add_zero]
      refine ih (by omega) (by rw [show p + 8 + 8 * k = p + 8 * (k + 1) by ring]; exact k3) ?_
      intro j hj
      rw [show p + 8 + 8 * j = p + 8 * (j + 1) by ring]
      exact k4 (j + 1) (by omega)

theorem devGet_fst (dev : Device) (f : Stream) (n : Nat) : (devGet dev f n).1 = ((f.content.take dev.bad).drop f.pos).take n := rfl

theorem devGet_content (dev : Device) (f : Stream) (n : Nat) : (devGet dev f n).2.content = f.content := rfl

theorem devGet_pos (dev : Device) (f : Stream) (n : Nat) : (devGet dev f n).2.pos = f.pos + (devGet dev f n).1.length := rfl

theorem devSeek_content (dev : Device) (f : Stream) (n : Nat) : (devSeek dev f n).content = f.content := by
  unfold devSeek; split <;> rfl

theorem devSeek_pos (dev : Device) (f : Stream) (n : Nat) : (devSeek dev f n).pos = f.pos + if dev.canSeek f.pos then n else 0 := by
  unfold devSeek; split <;> rfl

theorem devChunkLoop_spec (dev : Device) {content can : List Nat} (hcan : content.take dev.bad = can) (hb : ∀ x ∈ can, x < 256) (fuel p : Nat)
    (hp : p + 8 ≤ can.length)
    (hfuel : can.length < fuel + p) (f : Stream) (hc : f.content = content) (hpos : f.pos = p + 8) :
    ∃ st f', devChunkLoop dev fuel (get32 can p) (get32 can (p + 4)) f = .ok (st, f') ∧ f'.content = content ∧
      ((st = 0 ∧ FoundAt dev.canSeek can p f'.pos) ∨ (st = 3 ∧ ¬ ∃ q, FoundAt dev.canSeek can p q)) := by
  induction fuel generalizing p f with
  | zero => omega
  | succ fuel ih =>
    have hiff : wavStringData = get32 can p ↔ (can.drop p).take 4 = ascii "data" := by
      rw [wavStringData_eq, eq_comm]
      exact ofLe_take_eq hb (by omega) (by decide) rfl
    rw [devChunkLoop]
    by_cases hd : wavStringData = get32 can p
    · rw [if_pos hd]
      refine ⟨0, f, rfl, hc, Or.inl ⟨rfl, ?_⟩⟩
      rw [hpos]
      exact FoundAt.here hp (hiff.1 hd)
    · rw [if_neg hd]
      have hnd : (can.drop p).take 4 ≠ ascii "data" := fun h => hd (hiff.2 h)
      have hnum : numberLE ((can.drop (p + 4)).take 4) = get32 can (p + 4) := numberLE_eq _
      obtain ⟨p', hp'⟩ : ∃ p', p' = p + 8 + if dev.canSeek (p + 8) then get32 can (p + 4) else 0 := ⟨_, rfl⟩
      have hle : p + 8 ≤ p' := by rw [hp']; exact Nat.le_add_right _ _
      have hno : ¬ p' + 8 ≤ can.length → ¬ ∃ q, FoundAt dev.canSeek can p q := by
        rintro h ⟨q, hq⟩
        cases hq with
        | here _ h2 => exact hnd h2
        | next _ _ h3 =>
          rw [hnum, ← hp'] at h3
          cases h3 with
          | here h4 _ => exact h h4
          | next h4 _ _ => exact h h4
      have l2 : ∀ k, ((can.drop k).take 4).length = min 4 (can.length - k) := by
        intro k; rw [List.length_take, List.length_drop]
      obtain ⟨f1, hf1⟩ : ∃ f1, f1 = devSeek dev f (get32 can (p + 4)) := ⟨_, rfl⟩
      have c1 : f1.content = content := by rw [hf1, devSeek_content, hc]
      have q1 : f1.pos = p' := by rw [hf1, devSeek_pos, hpos, hp']
      have g1 : (devGet dev f1 4).1 = (can.drop p').take 4 := by rw [devGet_fst, c1, hcan, q1]
      obtain ⟨f2, hf2⟩ : ∃ f2, f2 = (devGet dev f1 4).2 := ⟨_, rfl⟩
      have c2 : f2.content = content := by rw [hf2, devGet_content, c1]
      simp only [← hf1, ← hf2, g1]
      by_cases h4 : ((can.drop p').take 4).length < 4
      · rw [if_pos h4]
        rw [l2] at h4
        exact ⟨_, _, rfl, c2, Or.inr ⟨rfl, hno (by omega)⟩⟩
      · rw [if_neg h4]
        have e4 : ((can.drop p').take 4).length = 4 := by rw [l2] at h4 ⊢; omega
        have q2 : f2.pos = p' + 4 := by rw [hf2, devGet_pos, g1, e4, q1]
        have g2 : (devGet dev f2 4).1 = (can.drop (p' + 4)).take 4 := by rw [devGet_fst, c2, hcan, q2]
        rw [g2]
        by_cases h8 : ((can.drop (p' + 4)).take 4).length < 4
        · rw [if_pos h8]
          rw [l2] at h8
          exact ⟨_, _, rfl, by rw [devGet_content, c2], Or.inr ⟨rfl, hno (by omega)⟩⟩
        · rw [if_neg h8]
          have e8 : ((can.drop (p' + 4)).take 4).length = 4 := by rw [l2] at h8 ⊢; omega
          rw [l2] at h8
          obtain ⟨st, f', k1, k2, k3⟩ := ih p' (by omega) (by omega) (devGet dev f2 4).2 (by rw [devGet_content, c2])
            (by rw [devGet_pos, g2, e8, q2])
          refine ⟨st, f', k1, k2, ?_⟩
          rcases k3 with ⟨k3, k4⟩ | ⟨k3, k4⟩
          · exact Or.inl ⟨k3, FoundAt.next hp hnd (by rw [hnum, ← hp']; exact k4)⟩
          · refine Or.inr ⟨k3, ?_⟩
            rintro ⟨q, hq⟩
            cases hq with
            | here _ h2 => exact hnd h2
            | next _ _ h3 => exact k4 ⟨q, by rw [hnum, ← hp'] at h3; exact h3⟩

/-! ### Opening -/

/-- Opening for reading with any device: the status and the position by what is readable, the file is open in any case. -/
theorem devOpen_spec (dev : Device) (content : List Nat) (hb : ∀ x ∈ content, x < 256) (file : SpFile) :
    ∃ st file' f' io, devOpenRead dev content file = .ok (st, file', io) ∧ file'.file = some f' ∧ f'.content = content ∧ io.isOpen = true ∧
      (¬ IsWav (content.take dev.bad) → st = 3) ∧ (IsWav (content.take dev.bad) → ¬ IsFloat32 (content.take dev.bad) → st = 4) ∧
      (IsWav (content.take dev.bad) → IsFloat32 (content.take dev.bad) → (¬ ∃ q, FoundAt dev.canSeek (content.take dev.bad) 36 q) → st = 3) ∧
      (IsWav (content.take dev.bad) → IsFloat32 (content.take dev.bad) → ∀ q, FoundAt dev.canSeek (content.take dev.bad) 36 q → st = 0 ∧ f'.pos = q) := by
  obtain ⟨can, hcan⟩ : ∃ can, content.take dev.bad = can := ⟨_, rfl⟩
  rw [hcan]
  have hb : ∀ x ∈ can, x < 256 := fun x hx => hb x (List.mem_of_mem_take (hcan ▸ hx))
  have hcl : can.length ≤ content.length := by rw [← hcan, List.length_take]; omega
  unfold IsWav IsFloat32
  rw [bytesLE_two, bytesLE_two]
  have hl : (can.take 44).length = min 44 can.length := List.length_take
  have hget : ∀ p n, p + n ≤ 44 → ((can.take 44).drop p).take n = (can.drop p).take n :=
    fun p n h => drop_take_take can 44 p n h
  have e1 : wavStringRiff = ofLe (ascii "RIFF") := by decide
  have e2 : wavStringWav = ofLe (ascii "WAVE") := by decide
  have e3 : wavStringFmt = ofLe (ascii "fmt ") := by decide
  have e5 : (3 : Nat) = ofLe (le16 3) := by decide
  have e6 : (32 : Nat) = ofLe (le16 32) := by decide
  have hA : ((can.take 44).length = 44 ∧ get32 (can.take 44) 0 = wavStringRiff ∧
      get32 (can.take 44) 8 = wavStringWav ∧ get32 (can.take 44) 12 = wavStringFmt) ↔
      (44 ≤ can.length ∧ can.take 4 = ascii "RIFF" ∧ (can.drop 8).take 4 = ascii "WAVE" ∧
        (can.drop 12).take 4 = ascii "fmt ") := by
    rw [hl]
    by_cases h44 : 44 ≤ can.length
    · simp only [get32, hget 0 4 (by omega), hget 8 4 (by omega), hget 12 4 (by omega), e1, e2, e3]
      rw [ofLe_take_eq hb (p := 0) (n := 4) (t := ascii "RIFF") (by omega) (by decide) rfl,
        ofLe_take_eq hb (p := 8) (n := 4) (t := ascii "WAVE") (by omega) (by decide) rfl,
        ofLe_take_eq hb (p := 12) (n := 4) (t := ascii "fmt ") (by omega) (by decide) rfl]
      simp [h44]
    · constructor
      · rintro ⟨h, _⟩; omega
      · rintro ⟨h, _⟩; omega
  obtain ⟨f0, hf0⟩ : ∃ f0 : Stream, f0 = { content := content, pos := 0, eof := false } := ⟨_, rfl⟩
  have g0 : (devGet dev f0 44).1 = can.take 44 := by rw [devGet_fst, hf0]; simp only [hcan, List.drop_zero]
  have c0 : (devGet dev f0 44).2.content = content := by rw [devGet_content, hf0]
  rw [devOpenRead]
  simp only [← hf0, g0, c0]
  by_cases h1 : (can.take 44).length = 44 ∧ get32 (can.take 44) 0 = wavStringRiff ∧
      get32 (can.take 44) 8 = wavStringWav ∧ get32 (can.take 44) 12 = wavStringFmt
  · rw [if_neg (not_not.2 h1)]
    obtain ⟨g1, g2, g3, g4⟩ := hA.1 h1
    have hB : (3 = get16 (can.take 44) 20 ∧ 32 = get16 (can.take 44) 34) ↔
        ((can.drop 20).take 2 = le16 3 ∧ (can.drop 34).take 2 = le16 32) := by
      have k1 := ofLe_take_eq hb (p := 20) (n := 2) (t := le16 3) (by omega) (by decide) rfl
      have k2 := ofLe_take_eq hb (p := 34) (n := 2) (t := le16 32) (by omega) (by decide) rfl
      rw [← e5, eq_comm] at k1
      rw [← e6, eq_comm] at k2
      rw [get16, get16, hget 20 2 (by omega), hget 34 2 (by omega), k1, k2]
    by_cases h2 : 3 = get16 (can.take 44) 20 ∧ 32 = get16 (can.take 44) 34
    · rw [if_neg (not_not.2 h2)]
      have hg1 : get32 (can.take 44) 36 = get32 can 36 := by rw [get32, hget 36 4 (by omega)]; rfl
      have hg2 : get32 (can.take 44) 40 = get32 can 40 := by rw [get32, hget 40 4 (by omega)]; rfl
      rw [hg1, hg2]
      obtain ⟨st, f', k1, k2, k3⟩ := devChunkLoop_spec dev hcan hb (content.length + 1) 36 (by omega) (by omega)
        (devGet dev f0 44).2 c0 (by rw [devGet_pos, g0, h1.1, hf0])
      rw [k1, ok_bind']
      refine ⟨st, _, f', _, rfl, rfl, k2, rfl, fun h => absurd ⟨g1, g2, g3, g4⟩ h, fun _ h => absurd (hB.1 h2) h, fun _ _ h => ?_, fun _ _ q hq => ?_⟩
      · rcases k3 with ⟨_, k4⟩ | ⟨k3, _⟩
        · exact absurd ⟨_, k4⟩ h
        · exact k3
      · rcases k3 with ⟨k3, k4⟩ | ⟨_, k4⟩
        · exact ⟨k3, k4.unique hq⟩
        · exact absurd ⟨q, hq⟩ k4
    · rw [if_pos h2]
      exact ⟨_, _, _, _, rfl, rfl, c0, rfl, fun h => absurd ⟨g1, g2, g3, g4⟩ h, fun _ _ => rfl, fun _ h => absurd (hB.2 h) h2, fun _ h => absurd (hB.2 h) h2⟩
  · rw [if_pos h1]
    exact ⟨_, _, _, _, rfl, rfl, c0, rfl, fun _ => rfl, fun h => absurd (hA.2 h) h1, fun h => absurd (hA.2 h) h1, fun h => absurd (hA.2 h) h1⟩

theorem isWav_take {content : List Nat} {bad : Nat} : IsWav (content.take bad) ↔ IsWav content ∧ 44 ≤ bad := by
  unfold IsWav
  by_cases hb : 44 ≤ bad
  · rw [drop_take_take _ _ _ _ (by omega), drop_take_take _ _ _ _ (by omega), List.take_take, Nat.min_eq_left (by omega), List.length_take]
    constructor
    · rintro ⟨a, b⟩; exact ⟨⟨by omega, b⟩, hb⟩
    · rintro ⟨⟨a, b⟩, _⟩; exact ⟨by omega, b⟩
  · rw [List.length_take]
    constructor
    · rintro ⟨a, _⟩; omega
    · rintro ⟨_, a⟩; omega

theorem isFloat_take {content : List Nat} {bad : Nat} (hb : 44 ≤ bad) : IsFloat32 (content.take bad) ↔ IsFloat32 content := by
  unfold IsFloat32
  rw [drop_take_take _ _ _ _ (by omega), drop_take_take _ _ _ _ (by omega)]

/-- C161, partial: with a device that seeks everywhere and fails to read from some byte on, opening succeeds exactly if the file is a wav file with
32 bit floats and all up to the samples can be read, and then the position is that of the samples; otherwise the failure is reported. -/
theorem C161_open_partial (dev : Device) (hs : ∀ p, dev.canSeek p = true) (content : List Nat) (hb : ∀ x ∈ content, x < 256) (file : SpFile) :
    ∃ st file' f' io, devOpenRead dev content file = .ok (st, file', io) ∧ file'.file = some f' ∧ f'.content = content ∧
      (st = 0 ↔ IsWav content ∧ IsFloat32 content ∧ ∃ q, DataAt content 36 q ∧ q ≤ dev.bad) ∧
      (st = 0 → DataAt content 36 f'.pos) ∧ (st ≠ 0 → st = 3 ∨ st = 4) := by
  obtain ⟨st, file', f', io, h1, h2, h3, _, h4, h5, h6, h7⟩ := devOpen_spec dev content hb file
  refine ⟨st, file', f', io, h1, h2, h3, ?_⟩
  by_cases hw : IsWav (content.take dev.bad)
  · obtain ⟨w1, w2⟩ := isWav_take.1 hw
    by_cases hf : IsFloat32 (content.take dev.bad)
    · have hf' := (isFloat_take w2).1 hf
      by_cases hq : ∃ q, FoundAt dev.canSeek (content.take dev.bad) 36 q
      · obtain ⟨q, hq⟩ := hq
        obtain ⟨k1, k2⟩ := h7 hw hf q hq
        have hd := (foundAt_seek hs).1 hq
        exact ⟨⟨fun _ => ⟨w1, hf', q, hd⟩, fun _ => k1⟩, fun _ => k2 ▸ hd.1, fun h => absurd k1 h⟩
      · have k := h6 hw hf hq
        refine ⟨⟨fun h => by omega, ?_⟩, fun h => by omega, fun _ => Or.inl k⟩
        rintro ⟨_, _, q, hd⟩
        exact absurd ⟨q, (foundAt_seek hs).2 hd⟩ hq
    · have k := h5 hw hf
      refine ⟨⟨fun h => by omega, ?_⟩, fun h => by omega, fun _ => Or.inr k⟩
      rintro ⟨_, h, _⟩
      exact absurd ((isFloat_take w2).2 h) hf
  · have k := h4 hw
    refine ⟨⟨fun h => by omega, ?_⟩, fun h => by omega, fun _ => Or.inl k⟩
    rintro ⟨a, _, q, hd, hq⟩
    have h44 : 44 ≤ q := by
      cases hd with
      | here _ _ => omega
      | next _ _ hd =>
        have : ∀ {x y}, DataAt content x y → x + 8 ≤ y := by
          intro x y h
          induction h with
          | here _ _ => omega
          | next _ _ _ ih => omega
        have := this hd
        omega
    exact absurd (isWav_take.2 ⟨a, by omega⟩) hw

/-- C161 is false for devices that do not seek, for example pipes, since the result of `fseek` is not used: success is reported exactly if there is
"data" at a place with a distance of eight times a number from the first chunk, whatever the chunks are, and the position is there. -/
theorem C161_pipe (dev : Device) (hs : ∀ p, dev.canSeek p = false) (content : List Nat) (hb : ∀ x ∈ content, x < 256)
    (hr : content.length ≤ dev.bad) (hw : IsWav content) (hf : IsFloat32 content) (file : SpFile) :
    ∃ st file' f' io, devOpenRead dev content file = .ok (st, file', io) ∧ file'.file = some f' ∧
      (st = 0 ↔ ∃ q, EveryEighth content 36 q) ∧ ∀ q, EveryEighth content 36 q → f'.pos = q := by
  obtain ⟨st, file', f', io, h1, h2, h3, _, h4, h5, h6, h7⟩ := devOpen_spec dev content hb file
  rw [List.take_of_length_le hr] at *
  refine ⟨st, file', f', io, h1, h2, ?_, fun q hq => (h7 hw hf q ((foundAt_pipe hs).2 hq)).2⟩
  constructor
  · intro h
    by_contra hq
    have := h6 hw hf (fun ⟨q, k⟩ => hq ⟨q, (foundAt_pipe hs).1 k⟩)
    omega
  · rintro ⟨q, hq⟩
    exact (h7 hw hf q ((foundAt_pipe hs).2 hq)).1

/-- A wav file with a chunk of eight bytes of text before the samples. -/
def textBeforeData (text samples : List Nat) : List Nat :=
  ascii "RIFF" ++ le32 (52 + samples.length) ++ ascii "WAVE" ++ ascii "fmt " ++ le32 16 ++ le16 3 ++ le16 1 ++ le32 48000 ++ le32 192000 ++
    le16 4 ++ le16 32 ++ ascii "note" ++ le32 8 ++ text ++ ascii "data" ++ le32 samples.length ++ samples

/-- C161 is false: opening a wav file from a pipe succeeds with a position other than that of the samples. -/
theorem C161_wrong_place_false : ∃ (content : List Nat) (file' : SpFile) (f' : Stream) (io : Io),
    (∀ x ∈ content, x < 256) ∧ IsWav content ∧ IsFloat32 content ∧ DataAt content 36 60 ∧
    devOpenRead ⟨content.length, fun _ => false⟩ content ⟨none, 0, some 1⟩ = .ok (0, file', io) ∧
    file'.file = some f' ∧ f'.pos = 52 := by
  refine ⟨textBeforeData (ascii "data set") [0, 0, 128, 63], _, _, _, by decide +kernel, by unfold IsWav; decide +kernel, by unfold IsFloat32; decide +kernel, ?_, rfl, rfl, rfl⟩
  refine DataAt.next (by decide +kernel) (by decide +kernel) ?_
  have : 36 + 8 + numberLE (((textBeforeData (ascii "data set") [0, 0, 128, 63]).drop (36 + 4)).take 4) = 52 := by
    rw [numberLE_eq]; decide +kernel
  rw [this]
  exact DataAt.here (by decide +kernel) (by decide +kernel)

/-- C161 is false for the file: whatever the reason of a failure, the file stays open, unlike with `sp_file_open_write`. -/
theorem C161_left_open_false (dev : Device) (content : List Nat) (hb : ∀ x ∈ content, x < 256) (file : SpFile) :
    ∃ st file' io, devOpenRead dev content file = .ok (st, file', io) ∧ io.isOpen = true ∧
      ∃ io', devCloseRead io = .ok io' ∧ io'.isOpen = false := by
  obtain ⟨st, file', f', io, h1, _, _, h4, _⟩ := devOpen_spec dev content hb file
  exact ⟨st, file', io, h1, h4, { io with isOpen := false }, by rw [devCloseRead, ioClose, if_pos h4], rfl⟩

/-! ### Reading -/

theorem devGet_healthy {dev : Device} {f : Stream} (h : f.content.length ≤ dev.bad) (n : Nat) : devGet dev f n = f.get n := by
  unfold devGet Stream.get
  simp only [List.take_of_length_le h, h, decide_true, Bool.true_or, Bool.and_true]

/-- With a device that works, reading is that of C69. -/
theorem C161_healthy_read_partial (dev : Device) (fmt : FloatFmt S F) (file : SpFile) {f : Stream} (hf : file.file = some f)
    (hd : f.content.length ≤ dev.bad) (n : Nat) (samples : Buf (Buf S)) :
    (devFileRead dev fmt file n samples).map (fun r => (r.1, r.2.2)) = fileRead fmt file n samples := by
  unfold devFileRead fileRead
  rw [hf]
  cases hc : file.channelCount with
  | none => simp only [getChannels, error_bind']; rfl
  | some ch =>
    simp only [getChannels, derefFile, ok_bind', devGet_healthy hd]
    obtain ⟨N, hN⟩ : ∃ N, u32 (ch * n) = N := ⟨_, rfl⟩
    obtain ⟨M, hM⟩ : ∃ M, u32 (4 * N) = M := ⟨_, rfl⟩
    simp only [hN, hM]
    obtain ⟨r, hr⟩ : ∃ r, f.get (4 * N) = r := ⟨_, rfl⟩
    have heof : r.1.length < 4 * N → r.2.eof = true := by
      intro h
      rw [← hr] at h ⊢
      simp only [Stream.get] at h ⊢
      simp only [Bool.or_eq_true, decide_eq_true_eq]
      exact Or.inr h
    have hlen : r.1.length ≤ 4 * N := by
      rw [← hr]
      simp only [Stream.get, List.length_take]
      omega
    rw [hr]
    by_cases h1 : M < r.1.length
    · rw [if_pos h1, if_pos h1]; rfl
    · rw [if_neg h1, if_neg h1]
      by_cases h2 : r.1.length / 4 ≠ N
      · have he := heof (by omega)
        by_cases h3 : r.1.length / 4 = 0
        · rw [if_pos ⟨h2, he, h3⟩, if_pos ⟨h2, h3⟩]; rfl
        · rw [if_neg (show ¬ (_ ∧ _ ∧ r.1.length / 4 = 0) by tauto), if_neg (show ¬ (_ ∧ ¬ r.2.eof = true) by tauto),
            if_neg (show ¬ (_ ∧ r.1.length / 4 = 0) by tauto)]
          by_cases h4 : ch = 0
          · rw [if_pos h4, if_pos h4]; rfl
          · rw [if_neg h4, if_neg h4]
            cases forRange 0 (r.1.length / 4 / ch) (fileReadFrame fmt (floatsOf fmt (r.1.length / 4) r.1) ch) samples <;> rfl
      · rw [if_neg (show ¬ (r.1.length / 4 ≠ N ∧ _ ∧ _) by tauto), if_neg (show ¬ (r.1.length / 4 ≠ N ∧ _) by tauto),
          if_neg (show ¬ (r.1.length / 4 ≠ N ∧ _) by tauto)]
        by_cases h4 : ch = 0
        · rw [if_pos h4, if_pos h4]; rfl
        · rw [if_neg h4, if_neg h4]
          cases forRange 0 (r.1.length / 4 / ch) (fileReadFrame fmt (floatsOf fmt (r.1.length / 4) r.1) ch) samples <;> rfl

/-- C161, partial: if the device fails in the middle of what is read, nothing is written to the samples, and the function has a status for this (3),
but, C161 is false for this, returns nothing: the caller can not know. -/
theorem C161_read_partial (dev : Device) (fmt : FloatFmt S F) {file : SpFile} {f : Stream} (hf : file.file = some f) {ch : Nat}
    (hset : file.channelCount = some ch) (heof : f.eof = false) {n : Nat} (h0 : 0 < n * ch) (hn : 4 * (n * ch) < 4294967296)
    (hbad : dev.bad < f.pos + 4 * (n * ch)) (hin : dev.bad < f.content.length) (hpos : f.pos < f.content.length) (samples : Buf (Buf S)) :
    ∃ file', devFileRead dev fmt file n samples = .ok (none, 3, file', samples) := by
  have e1 : u32 (ch * n) = n * ch := by rw [Nat.mul_comm, u32_of_lt (by omega)]
  have hl : (devGet dev f (4 * (n * ch))).1.length < 4 * (n * ch) := by
    rw [devGet_fst]
    simp only [List.length_take, List.length_drop]
    omega
  have he : (devGet dev f (4 * (n * ch))).2.eof = false := by
    simp only [devGet, heof, decide_eq_false (show ¬ f.content.length ≤ dev.bad by omega),
      decide_eq_false (show ¬ f.content.length ≤ f.pos by omega), Bool.or_false, Bool.and_false]
  unfold devFileRead
  rw [hset, hf]
  simp only [getChannels, derefFile, ok_bind', e1, u32_of_lt hn]
  rw [if_neg (by omega), if_neg (by rw [he]; simp), if_pos ⟨by omega, by rw [he]; simp⟩]
  exact ⟨_, rfl⟩

/-! ### Cases -/

/-- A pipe with a file of the library: its first chunk is the data chunk, so that no seeking is needed. -/
example : ∃ file' f' io, devOpenRead ⟨100, fun _ => false⟩ (wavFile 1 48000 [0, 0, 128, 63]) ⟨none, 0, some 1⟩ = .ok (0, file', io) ∧
    file'.file = some f' ∧ f'.pos = 44 := ⟨_, _, _, rfl, rfl, rfl⟩

/-- A device that fails in the header, and in the samples. -/
example : ∃ file' io, devOpenRead ⟨43, fun _ => true⟩ (wavFile 1 48000 [0, 0, 128, 63]) ⟨none, 0, some 1⟩ = .ok (3, file', io) := ⟨_, _, rfl⟩

example : ∃ file', devFileRead ⟨47, fun _ => true⟩ byteFmt ⟨some ⟨wavFile 1 48000 [7, 0, 0, 0, 8, 0, 0, 0], 44, false⟩, 0, some 1⟩ 2 [[1, 2]]
    = .ok (none, 3, file', [[1, 2]]) :=
  C161_read_partial ⟨47, fun _ => true⟩ byteFmt rfl rfl rfl (by decide) (by decide) (by decide) (by decide +kernel) (by decide +kernel) _

end Sp
