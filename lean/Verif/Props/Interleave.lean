import Verif.Model.File
import Verif.Lemmas.Arrays
import Mathlib.Tactic.SplitIfs

/-! # C70: interleaving and deinterleaving -/

set_option linter.unusedSectionVars false

namespace Sp
variable {S σ : Type}

theorem interleaveChannels_rule (P : Nat → σ → Prop) {body : Nat → Nat → σ → C σ} {base ch : Nat} {s : σ}
    (hlt : base + ch < 4294967296) (h0 : P (base + ch) s)
    (hstep : ∀ c s, c < ch → P (base + c + 1) s → ∃ s', body c (base + c) s = .ok s' ∧ P (base + c) s') :
    ∃ s', interleaveChannels body ch (base + ch) s = .ok (base, s') ∧ P base s' := by
  induction ch generalizing s with
  | zero => exact ⟨s, rfl, h0⟩
  | succ c ih =>
    obtain ⟨s1, e1, p1⟩ := hstep c s (by omega) h0
    obtain ⟨s2, e2, p2⟩ := ih (by omega) p1 (fun c' s' hc => hstep c' s' (by omega))
    refine ⟨s2, ?_, p2⟩
    rw [interleaveChannels, sub32_of_le (by omega) hlt, show base + (c + 1) - 1 = base + c by omega, e1, ok_bind', e2]

/-- The loop runs through all pairs from the last to the first; the third index is the position. -/
theorem interleaveLoop_rule (P : Nat → σ → Prop) {body : Nat → Nat → Nat → σ → C σ} {n ch : Nat} {s : σ}
    (hlt : n * ch < 4294967296) (h0 : P (n * ch) s)
    (hstep : ∀ i c s, i < n → c < ch → P (i * ch + c + 1) s →
      ∃ s', body i c (i * ch + c) s = .ok s' ∧ P (i * ch + c) s') :
    ∃ s', interleaveLoop body ch n (n * ch) s = .ok s' ∧ P 0 s' := by
  induction n generalizing s with
  | zero => exact ⟨s, rfl, by simpa using h0⟩
  | succ n ih =>
    rw [Nat.succ_mul] at hlt h0
    obtain ⟨s1, e1, p1⟩ := interleaveChannels_rule P (body := body n) hlt h0 (fun c s hc => hstep n c s (by omega) hc)
    obtain ⟨s2, e2, p2⟩ := ih (by omega) p1 (fun i c s hi => hstep i c s (by omega))
    refine ⟨s2, ?_, p2⟩
    rw [interleaveLoop, Nat.succ_mul, e1, ok_bind', e2]

/-- Cell `i` of row `c`. -/
def cellAt (a : Buf (Buf S)) (c i : Nat) : Option S := (a[c]?).bind (fun r => r[i]?)

/-- The arrays have at least `ch` rows of at least `n` cells. -/
def HasCells (a : Buf (Buf S)) (ch n : Nat) : Prop := ∀ c < ch, ∀ i < n, (cellAt a c i).isSome

theorem rd2_eq {a : Buf (Buf S)} {c i : Nat} {v : S} (h : cellAt a c i = some v) : rd2 a c i = .ok v := by
  unfold cellAt at h
  rw [Option.bind_eq_some_iff] at h
  obtain ⟨r, h1, h2⟩ := h
  rw [rd2, rd_ok_iff.2 h1, ok_bind', rd_ok_iff.2 h2]

theorem wr2_eq {a : Buf (Buf S)} {c i : Nat} (v : S) (h : (cellAt a c i).isSome) :
    ∃ a', wr2 a c i v = .ok a' ∧ a'.length = a.length ∧ (∀ c' : Nat, (a'[c']?).map List.length = (a[c']?).map List.length) ∧
      ∀ c' i', cellAt a' c' i' = if c' = c ∧ i' = i then some v else cellAt a c' i' := by
  rw [Option.isSome_iff_exists] at h
  obtain ⟨w, h⟩ := h
  unfold cellAt at h
  rw [Option.bind_eq_some_iff] at h
  obtain ⟨r, h1, h2⟩ := h
  obtain ⟨hc, rfl⟩ := List.getElem?_eq_some_iff.1 h1
  obtain ⟨hi, rfl⟩ := List.getElem?_eq_some_iff.1 h2
  refine ⟨a.set c (a[c].set i v), ?_, by simp, ?_, ?_⟩
  · rw [wr2, rd_eq_ok hc, ok_bind', wr_eq_ok _ hi, ok_bind', wr_eq_ok _ hc]
  · intro c'
    rw [List.getElem?_set]
    by_cases e : c = c'
    · subst e; simp [hc]
    · simp [e]
  · intro c' i'
    unfold cellAt
    rw [List.getElem?_set]
    by_cases e : c = c'
    · subst e
      simp only [hc, if_true, Option.bind_some, List.getElem?_set, List.getElem?_eq_getElem hc, true_and]
      by_cases e' : i = i'
      · subst e'; simp [hi]
      · simp [e', Ne.symm e']
    · simp [e, Ne.symm e]

/-- C70: `sp_interleave` writes the cell `i` of channel `c` to `i * channels + c`, for all samples and
channels, and changes nothing else. -/
theorem C70_interleave (a : Buf (Buf S)) (b : Buf S) (n ch : Nat) (hlt : n * ch < 4294967296)
    (ha : HasCells a ch n) (hb : n * ch ≤ b.length) :
    ∃ b', spInterleave a b n ch = .ok b' ∧ b'.length = b.length ∧
      (∀ i < n, ∀ c < ch, b'[i * ch + c]? = cellAt a c i) ∧ ∀ k, n * ch ≤ k → b'[k]? = b[k]? := by
  obtain ⟨b', h1, h2, h3, h4⟩ := interleaveLoop_rule
    (P := fun k (b' : Buf S) => b'.length = b.length ∧
      (∀ i < n, ∀ c < ch, k ≤ i * ch + c → b'[i * ch + c]? = cellAt a c i) ∧ ∀ k, n * ch ≤ k → b'[k]? = b[k]?)
    (body := fun i c k b => do let v ← rd2 a c i; wr b k v) (s := b) hlt
    ⟨rfl, by
      intro i hi c hc h
      have : (i + 1) * ch ≤ n * ch := Nat.mul_le_mul_right _ hi
      rw [Nat.succ_mul] at this
      omega, by simp⟩ (by
      rintro i c s hi hc ⟨g1, g2, g3⟩
      have hk : (i + 1) * ch ≤ n * ch := Nat.mul_le_mul_right _ hi
      rw [Nat.succ_mul] at hk
      obtain ⟨v, hv⟩ := Option.isSome_iff_exists.1 (ha c hc i hi)
      refine ⟨s.set (i * ch + c) v, ?_, by simp [g1], ?_, ?_⟩
      · rw [rd2_eq hv, ok_bind', wr_eq_ok _ (by omega)]
      · intro i' hi' c' hc' hle
        by_cases e : i * ch + c = i' * ch + c'
        · have ei : i = i' := by
            have := congrArg (· / ch) e
            simpa [Nat.mul_comm _ ch, Nat.mul_add_div (show 0 < ch by omega), Nat.div_eq_of_lt hc, Nat.div_eq_of_lt hc'] using this
          subst ei
          obtain rfl : c = c' := by omega
          rw [List.getElem?_set_self (by omega), hv]
        · rw [List.getElem?_set_ne e]
          exact g2 i' hi' c' hc' (by omega)
      · intro k hk'
        rw [List.getElem?_set_ne (by omega)]
        exact g3 k hk')
  refine ⟨b', ?_, h2, fun i hi c hc => h3 i hi c hc (Nat.zero_le _), h4⟩
  rw [spInterleave, u32_of_lt hlt, h1]

/-- C70: `sp_deinterleave` writes `i * channels + c` to cell `i` of channel `c`, for all samples and
channels, and changes nothing else. -/
theorem C70_deinterleave (a : Buf (Buf S)) (b : Buf S) (n ch : Nat) (hlt : n * ch < 4294967296)
    (ha : HasCells a ch n) (hb : n * ch ≤ b.length) :
    ∃ a', spDeinterleave a b n ch = .ok a' ∧ a'.length = a.length ∧
      (∀ c : Nat, (a'[c]?).map List.length = (a[c]?).map List.length) ∧
      (∀ c i, cellAt a' c i = if c < ch ∧ i < n then b[i * ch + c]? else cellAt a c i) := by
  obtain ⟨a', h1, h2, h3, h4⟩ := interleaveLoop_rule
    (P := fun k (a' : Buf (Buf S)) => a'.length = a.length ∧
      (∀ c : Nat, (a'[c]?).map List.length = (a[c]?).map List.length) ∧
      (∀ c i, cellAt a' c i = if c < ch ∧ i < n ∧ k ≤ i * ch + c then b[i * ch + c]? else cellAt a c i))
    (body := fun i c k a => do let v ← rd b k; wr2 a c i v) (s := a) hlt
    ⟨rfl, fun _ => rfl, by
      intro c i
      rw [if_neg]
      rintro ⟨hc, hi, h⟩
      have : (i + 1) * ch ≤ n * ch := Nat.mul_le_mul_right _ hi
      rw [Nat.succ_mul] at this
      omega⟩ (by
      rintro i c s hi hc ⟨g1, g2, g3⟩
      have hk : (i + 1) * ch ≤ n * ch := Nat.mul_le_mul_right _ hi
      rw [Nat.succ_mul] at hk
      obtain ⟨s', e1, e2, e3, e4⟩ := wr2_eq (a := s) (c := c) (i := i) (b[i * ch + c]'(by omega)) (by
        rw [g3, if_neg (by omega)]
        exact ha c hc i hi)
      refine ⟨s', ?_, by rw [e2, g1], fun c' => by rw [e3, g2], ?_⟩
      · rw [rd_eq_ok (by omega), ok_bind', e1]
      · intro c' i'
        rw [e4, g3]
        by_cases e : c' = c ∧ i' = i
        · obtain ⟨rfl, rfl⟩ := e
          simp [hc, hi, List.getElem?_eq_getElem (show i' * ch + c' < b.length by omega)]
        · rw [if_neg e]
          by_cases hr : c' < ch ∧ i' < n
          · have hne : i * ch + c ≠ i' * ch + c' := by
              intro e'
              have ei : i = i' := by
                have := congrArg (· / ch) e'
                simpa [Nat.mul_comm _ ch, Nat.mul_add_div (show 0 < ch by omega), Nat.div_eq_of_lt hc, Nat.div_eq_of_lt hr.1] using this
              subst ei
              exact e ⟨by omega, rfl⟩
            have : i * ch + c + 1 ≤ i' * ch + c' ↔ i * ch + c ≤ i' * ch + c' := by omega
            simp only [this]
          · rw [if_neg (by tauto), if_neg (by tauto)])
  refine ⟨a', ?_, h2, h3, fun c i => by rw [h4]; simp⟩
  rw [spDeinterleave, u32_of_lt hlt, h1]

/-- C70: interleaving and then deinterleaving into other arrays gives the same samples. -/
theorem C70_roundtrip (a a2 : Buf (Buf S)) (b : Buf S) (n ch : Nat) (hlt : n * ch < 4294967296)
    (ha : HasCells a ch n) (ha2 : HasCells a2 ch n) (hb : n * ch ≤ b.length) :
    ∃ b' a', spInterleave a b n ch = .ok b' ∧ spDeinterleave a2 b' n ch = .ok a' ∧
      ∀ c < ch, ∀ i < n, cellAt a' c i = cellAt a c i := by
  obtain ⟨b', h1, h2, h3, _⟩ := C70_interleave a b n ch hlt ha hb
  obtain ⟨a', g1, _, _, g4⟩ := C70_deinterleave a2 b' n ch hlt ha2 (by omega)
  refine ⟨b', a', h1, g1, fun c hc i hi => ?_⟩
  rw [g4, if_pos ⟨hc, hi⟩, h3 i hi c hc]

/-- C70: deinterleaving and then interleaving gives the same array. -/
theorem C70_roundtrip2 (a : Buf (Buf S)) (b b2 : Buf S) (n ch : Nat) (hlt : n * ch < 4294967296)
    (ha : HasCells a ch n) (hb : n * ch ≤ b.length) (hb2 : n * ch ≤ b2.length) :
    ∃ a' b', spDeinterleave a b n ch = .ok a' ∧ spInterleave a' b2 n ch = .ok b' ∧
      ∀ k < n * ch, b'[k]? = b[k]? := by
  obtain ⟨a', g1, _, _, g4⟩ := C70_deinterleave a b n ch hlt ha hb
  have hm : ∀ c < ch, ∀ i < n, i * ch + c < n * ch := by
    intro c hc i hi
    have hk : (i + 1) * ch ≤ n * ch := Nat.mul_le_mul_right _ hi
    rw [Nat.succ_mul] at hk
    omega
  obtain ⟨b', h1, h2, h3, _⟩ := C70_interleave a' b2 n ch hlt (by
    intro c hc i hi
    rw [g4, if_pos ⟨hc, hi⟩, List.getElem?_eq_getElem (lt_of_lt_of_le (hm c hc i hi) hb)]
    rfl) hb2
  refine ⟨a', b', g1, h1, fun k hk => ?_⟩
  have hch : 0 < ch := by
    rcases Nat.eq_zero_or_pos ch with h | h
    · subst h; simp at hk
    · exact h
  have hi : k / ch < n := by rwa [Nat.div_lt_iff_lt_mul hch]
  have hc : k % ch < ch := Nat.mod_lt _ hch
  have := h3 (k / ch) hi (k % ch) hc
  rw [Nat.div_add_mod'] at this
  rw [this, g4, if_pos ⟨hc, hi⟩, Nat.div_add_mod']

/-- Two channels with three samples. -/
example : spInterleave [[1, 2, 3], [4, 5, 6, 7]] [0, 0, 0, 0, 0, 0, 9] 3 2 = .ok [1, 4, 2, 5, 3, 6, 9] := rfl

example : spDeinterleave [[0, 0, 0], [0, 0, 0, 7]] [1, 4, 2, 5, 3, 6, 9] 3 2 = .ok [[1, 2, 3], [4, 5, 6, 7]] := rfl

example : HasCells [[1, 2, 3], [4, 5, 6, 7]] 2 3 := by unfold HasCells; decide

end Sp
