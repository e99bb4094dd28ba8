import Verif.Props.Block
import Verif.Lemmas.WaveAdder

/-!
# C179: blocks when allocations fail

`addrs i` is what the allocation of channel `i` returns, `none` if it fails.
-/

set_option linter.unusedSectionVars false

namespace Sp
variable {S : Type}

/-- The array that is left for channel `c`: the one of the last allocation up to `c` that has not failed. -/
def LastAllocated (addrs : Nat → Option Addr) (c : Nat) (a : Addr) : Prop :=
  ∃ k, k ≤ c ∧ addrs k = some a ∧ ∀ j, k < j → j ≤ c → addrs j = none

/-- **C179, when a block is made.** Exactly if the first allocation succeeds, whatever the others do, the call returns, always with the status of success.
The status of a block without channels is success, too. -/
theorem C179_new_defined_iff [Zero S] (addrs : Nat → Option Addr) {nch size : Nat} {out : Block} {m : Mem S} (hl : nch ≤ out.samples.length) :
    (∃ r, blockNew addrs nch size out m = .ok r) ↔ nch = 0 ∨ (addrs 0).isSome := by
  constructor
  · rintro ⟨r, h⟩
    by_contra hc
    rw [not_or] at hc
    have h0 : addrs 0 = none := by
      cases e : addrs 0 with
      | none => rfl
      | some a => exact absurd (by simp [e]) hc.2
    rw [C77_block_new_uses_unset_pointer addrs h0 nch size out m (Nat.pos_of_ne_zero hc.1)] at h
    cases h
  · intro h
    obtain ⟨b, m', e⟩ : ∃ b m', blockNew addrs nch size out m = .ok (0, b, m') := by
      obtain ⟨s', e, p⟩ := forRange_rule
        (fun i (s : Nat × Option Addr × Buf (Option Ptr) × Mem S × List Addr) => s.1 = 0 ∧ (0 < i → s.2.1.isSome) ∧ s.2.2.1.length = out.samples.length)
        (Nat.zero_le nch)
        (body := fun i (st, channel, samples, m, reg) =>
          if st ≠ 0 then .ok (st, channel, samples, m, reg)
          else do
            let r : Nat × Option Addr × Mem S := helperCalloc (addrs i) size channel m
            if r.1 ≠ 0 then .ok (r.1, r.2.1, samples, r.2.2, reg)
            else do
              let a ← isSet r.2.1
              let samples ← wr samples i (some (a, 0))
              return (0, some a, samples, r.2.2, reg ++ [a]))
        (s := (0, none, out.samples, m, [])) ⟨rfl, by simp, rfl⟩ (by
          rintro i ⟨st, ch, sa, m1, reg⟩ _ hi ⟨h1, h2, h3⟩
          simp only at h1 h2 h3
          subst h1
          obtain ⟨a, ha⟩ : ∃ a, (helperCalloc (addrs i) size ch m1).2.1 = some a := by
            cases e : addrs i with
            | some a => exact ⟨a, rfl⟩
            | none =>
              have hi0 : 0 < i := by
                rcases Nat.eq_zero_or_pos i with rfl | h'
                · rcases h with h | h
                  · omega
                  · rw [e] at h
                    cases h
                · exact h'
              obtain ⟨a, ha⟩ := Option.isSome_iff_exists.1 (h2 hi0)
              exact ⟨a, ha⟩
          have hst : (helperCalloc (addrs i) size ch m1).1 = 0 := by
            cases addrs i <;> rfl
          refine ⟨(0, some a, sa.set i (some (a, 0)), (helperCalloc (addrs i) size ch m1).2.2, reg ++ [a]), ?_, rfl, fun _ => rfl, by simpa using h3⟩
          simp only [ne_eq, not_true_eq_false, if_false, hst, ha, isSet, ok_bind']
          rw [wr_eq_ok _ (by omega), ok_bind']
          rfl)
      obtain ⟨st, ch, sa, m1, reg⟩ := s'
      simp only at p
      obtain ⟨rfl, -, -⟩ := p
      refine ⟨⟨nch, size, sa⟩, m1, ?_⟩
      unfold blockNew
      rw [e, ok_bind']
      simp only [ne_eq, not_true_eq_false, if_false]
      rfl
    exact ⟨_, e⟩

/-- **C179, what the channels are.** Whenever the call returns, the status is success, and each channel is the array of the last allocation that did not fail, so that a channel
whose allocation failed is the same array as the channel before. All arrays that were allocated hold `size` zeros and nothing else has changed. -/
theorem C179_channels_partial [Zero S] {addrs : Nat → Option Addr} {nch size : Nat} {out b : Block} {m m' : Mem S} {st : Nat} (hl : nch ≤ out.samples.length)
    (h : blockNew addrs nch size out m = .ok (st, b, m')) :
    st = 0 ∧ b.channelCount = nch ∧ b.size = size ∧
      (∀ c, c < nch → ∃ a, LastAllocated addrs c a ∧ b.samples[c]? = some (some (a, 0))) ∧
      (∀ k a, k < nch → addrs k = some a → m' a = some (List.replicate size 0)) ∧
      (∀ a, (∀ k, k < nch → addrs k ≠ some a) → m' a = m a) := by
  unfold blockNew at h
  obtain ⟨⟨st1, ch, sa, m1, reg⟩, e, h⟩ := bind_eq_ok.1 h
  have p := forRange_post
    (fun i (s : Nat × Option Addr × Buf (Option Ptr) × Mem S × List Addr) => s.1 = 0 ∧ s.2.2.1.length = out.samples.length ∧
      (∀ c, c < i → ∃ a, LastAllocated addrs c a ∧ s.2.2.1[c]? = some (some (a, 0)) ∧ (c + 1 = i → s.2.1 = some a)) ∧ (i = 0 → s.2.1 = none) ∧
      (∀ k a, k < i → addrs k = some a → s.2.2.2.1 a = some (List.replicate size 0)) ∧ (∀ a, (∀ k, k < i → addrs k ≠ some a) → s.2.2.2.1 a = m a))
    (Nat.zero_le nch) (by
      rintro i ⟨st, ch, sa, m1, reg⟩ s' _ hi ⟨h1, h2, h3, h4, h5, h6⟩ hs
      simp only at h1 h2 h3 h4 h5 h6
      subst h1
      have hst : (helperCalloc (addrs i) size ch m1).1 = 0 := by
        cases addrs i <;> rfl
      simp only [ne_eq, not_true_eq_false, if_false, hst] at hs
      obtain ⟨a, ha, hs⟩ := bind_eq_ok.1 hs
      rw [wr_eq_ok _ (by omega), ok_bind'] at hs
      cases hs
      have hva : (helperCalloc (addrs i) size ch m1).2.1 = some a := by
        cases e : (helperCalloc (addrs i) size ch m1).2.1 with
        | none => rw [e] at ha; cases ha
        | some x => rw [e] at ha; cases ha; rfl
      have hlast : LastAllocated addrs i a := by
        cases e : addrs i with
        | some x =>
          rw [e] at hva
          cases hva
          exact ⟨i, le_refl i, e, fun j h1 h2 => by omega⟩
        | none =>
          rw [e] at hva
          simp only [helperCalloc] at hva
          rcases Nat.eq_zero_or_pos i with h0 | h0
          · rw [h4 h0] at hva
            cases hva
          · obtain ⟨a', ⟨k, k1, k2, k3⟩, -, l3⟩ := h3 (i - 1) (by omega)
            rw [l3 (by omega)] at hva
            cases hva
            refine ⟨k, by omega, k2, fun j j1 j2 => ?_⟩
            by_cases hj : j = i
            · rw [hj, e]
            · exact k3 j j1 (by omega)
      refine ⟨rfl, by simpa using h2, fun c hc => ?_, by omega, fun k x hk hx => ?_, fun x hx => ?_⟩
      · by_cases hci : c = i
        · subst hci
          exact ⟨a, hlast, by simp [show c < sa.length by omega], fun _ => rfl⟩
        · obtain ⟨a', l1, l2, -⟩ := h3 c (by omega)
          refine ⟨a', l1, ?_, by omega⟩
          simp only
          rw [List.getElem?_set_ne (by omega), l2]
      · simp only
        cases e : addrs i with
        | none =>
          have : k ≠ i := by
            rintro rfl
            rw [e] at hx
            cases hx
          exact h5 k x (by omega) hx
        | some y =>
          simp only [helperCalloc, Mem.set]
          by_cases hy : x = y
          · rw [if_pos hy]
          · rw [if_neg hy]
            have : k ≠ i := by
              rintro rfl
              rw [e] at hx
              cases hx
              exact hy rfl
            exact h5 k x (by omega) hx
      · simp only
        cases e : addrs i with
        | none => exact h6 x fun k hk => hx k (by omega)
        | some y =>
          have hy : x ≠ y := by
            rintro rfl
            exact hx i (by omega) e
          simp only [helperCalloc, Mem.set, if_neg hy]
          exact h6 x fun k hk => hx k (by omega))
    ⟨rfl, rfl, by simp, fun _ => rfl, by simp, fun _ _ => rfl⟩ e
  obtain ⟨p1, -, p3, -, p5, p6⟩ := p
  simp only at p1 p3 p5 p6
  subst p1
  cases h
  exact ⟨rfl, rfl, rfl, fun c hc => let ⟨a, h1, h2, _⟩ := p3 c hc; ⟨a, h1, h2⟩, p5, p6⟩

/-- A block with the same array twice cannot be freed. -/
private theorem free_twice {b : Block} {i j : Nat} {a : Addr} (hij : i < j) (hj : j < b.channelCount) (hs : b.size ≠ 0)
    (h1 : b.samples[i]? = some (some (a, 0))) (h2 : b.samples[j]? = some (some (a, 0))) (m m' : Mem S) : blockFree b m ≠ .ok m' := by
  intro h
  unfold blockFree at h
  rw [if_pos hs] at h
  have := forRange_post (fun n (x : Mem S) => (i < n → x a = none) ∧ n ≤ j) (Nat.zero_le b.channelCount) (by
    rintro n x x' _ hn ⟨p1, p2⟩ e
    obtain ⟨s, e1, e⟩ := bind_eq_ok.1 e
    obtain ⟨p, e2, e⟩ := bind_eq_ok.1 e
    have e1 := rd_ok_iff.1 e1
    unfold Mem.free at e
    by_cases hp : p.2 = 0 ∧ (x p.1).isSome
    · rw [if_pos hp] at e
      cases e
      refine ⟨fun hin => ?_, ?_⟩
      · unfold Mem.set
        by_cases hap : a = p.1
        · rw [if_pos hap]
        · rw [if_neg hap]
          apply p1
          by_contra hc
          have : n = i := by omega
          subst this
          rw [h1] at e1
          cases e1
          cases e2
          exact hap rfl
      · by_contra hc
        have : n = j := by omega
        subst this
        rw [h2] at e1
        cases e1
        cases e2
        rw [p1 hij] at hp
        exact absurd hp.2 (by simp)
    · rw [if_neg hp] at e
      cases e) ⟨by omega, by omega⟩ h
  omega

/-- **C179, freeing.** A block that was made, of nonzero size, can be freed exactly if no allocation failed, and then the memory is as before; otherwise an array is freed twice. -/
theorem C179_free_iff [Zero S] {addrs : Nat → Option Addr} {nch size : Nat} {out b : Block} {m m' : Mem S} {st : Nat} (hl : nch ≤ out.samples.length) (hs : size ≠ 0)
    (hu : ∀ i a, i < nch → addrs i = some a → m a = none) (hd : ∀ i j a, i < nch → j < nch → addrs i = some a → addrs j = some a → i = j)
    (h : blockNew addrs nch size out m = .ok (st, b, m')) :
    blockFree b m' = .ok m ∨ (∀ m'', blockFree b m' ≠ .ok m'') ∧ ∃ i, i < nch ∧ addrs i = none := by
  obtain ⟨-, rfl, rfl, p4, p5, p6⟩ := C179_channels_partial hl h
  by_cases hall : ∃ i, i < b.channelCount ∧ addrs i = none
  · refine .inr ⟨fun m'' => ?_, hall⟩
    obtain ⟨i, hi, e⟩ := hall
    obtain ⟨a, ⟨k, k1, k2, k3⟩, q⟩ := p4 i hi
    have hki : k ≠ i := by
      rintro rfl
      rw [e] at k2
      cases k2
    obtain ⟨a', ⟨l, l1, l2, l3⟩, q'⟩ := p4 k (by omega)
    have : l = k := by
      by_contra hc
      have := l3 k (by omega) (le_refl k)
      rw [k2] at this
      cases this
    subst this
    rw [k2] at l2
    cases l2
    exact free_twice (by omega) hi hs q' q m' m''
  · have hall' : ∀ i, i < b.channelCount → ∃ a, addrs i = some a := by
      intro i hi
      cases e : addrs i with
      | none => exact absurd ⟨i, hi, e⟩ hall
      | some a => exact ⟨a, rfl⟩
    obtain ⟨ad, had⟩ : ∃ ad : Nat → Addr, ∀ i, i < b.channelCount → addrs i = some (ad i) :=
      ⟨fun i => (addrs i).getD 0, fun i hi => by obtain ⟨a, ha⟩ := hall' i hi; simp [ha]⟩
    have hp : b.HasPointers fun c => (ad c, 0) := by
      intro c hc
      obtain ⟨a, ⟨k, k1, k2, k3⟩, q⟩ := p4 c hc
      rw [q]
      have : k = c := by
        by_contra hne
        have := k3 c (by omega) (le_refl c)
        rw [had c hc] at this
        cases this
      subst this
      rw [had k hc] at k2
      cases k2
      rfl
    left
    rw [blockFree_eq hs hp m' (fun c hc => by rw [p5 c (ad c) hc (had c hc)]; rfl)
      (fun i j hi hj he => hd i j (ad i) hi hj (had i hi) (by rw [he]; exact had j hj))]
    congr 1
    funext a
    by_cases hx : ∃ i, i < b.channelCount ∧ ad i = a
    · rw [if_pos hx]
      obtain ⟨i, hi, rfl⟩ := hx
      exact (hu i (ad i) hi (had i hi)).symm
    · rw [if_neg hx]
      refine p6 a fun k hk e => hx ⟨k, hk, ?_⟩
      rw [had k hk] at e
      exact Option.some.inj e

/-- **C179 is false of isolated map events.** Whatever the event and the map function do, if an allocation for the temporary block, which has samples, fails, then the call does not return:
an unset pointer is stored, or the event or the map function has undefined behaviour, or an array is freed twice. -/
theorem C179_isolated_false {E K : Type} [Zero S] {addrs : Nat → Option Addr} {gen : Nat → Nat → Block → E → Mem S → C (Nat × E × Mem S)}
    {map : Nat → Nat → Block → Block → K → Mem S → C (Nat × K × Mem S)} {x y : Nat} {out : Block} {e : E} {k : K} {m : Mem S}
    (hl : out.channelCount ≤ out.samples.length) (hs : out.size ≠ 0) {i : Nat} (hi : i < out.channelCount) (hf : addrs i = none) (r : Nat × E × K × Mem S) :
    mapIsolatedGenerate addrs gen map x y out e k m ≠ .ok r := by
  intro h
  unfold mapIsolatedGenerate at h
  obtain ⟨⟨st, b, m'⟩, h1, h⟩ := bind_eq_ok.1 h
  have hl' : out.channelCount ≤ (List.replicate out.samples.length (none : Option Ptr)).length := by simpa using hl
  obtain ⟨rfl, q1, q2, q3, -, -⟩ := C179_channels_partial (out := ⟨0, 0, List.replicate out.samples.length none⟩) hl' h1
  have hfree : ∀ m1 m2 : Mem S, blockFree b m1 ≠ .ok m2 := by
    obtain ⟨a, ⟨k, k1, k2, k3⟩, p⟩ := q3 i hi
    have hki : k ≠ i := by
      rintro rfl
      rw [hf] at k2
      cases k2
    obtain ⟨a', ⟨l, l1, l2, l3⟩, p'⟩ := q3 k (by omega)
    have : l = k := by
      by_contra hc
      have := l3 k (by omega) (le_refl k)
      rw [k2] at this
      cases this
    subst this
    rw [k2] at l2
    cases l2
    exact fun m1 m2 => free_twice (by omega) (by omega) (by omega) p' p m1 m2
  simp only [ne_eq, not_true_eq_false, if_false] at h
  obtain ⟨⟨st, e', m1⟩, -, h⟩ := bind_eq_ok.1 h
  simp only at h
  by_cases hst : st ≠ 0
  · rw [if_pos hst] at h
    obtain ⟨m2, h2, -⟩ := bind_eq_ok.1 h
    exact hfree _ _ h2
  · rw [if_neg hst] at h
    obtain ⟨⟨st', k', m2⟩, -, h⟩ := bind_eq_ok.1 h
    obtain ⟨m3, h2, -⟩ := bind_eq_ok.1 h
    exact hfree _ _ h2

/-- Non-vacuity: four channels of three samples, allocations one and two fail; channels zero to two are the same array. -/
example : ∃ b m', blockNew (S := Nat) (fun i => if i = 0 then some 5 else if i = 3 then some 9 else none) 4 3 ⟨0, 0, List.replicate 4 none⟩ (fun _ => none) = .ok (0, b, m') ∧
    b.samples = [some (5, 0), some (5, 0), some (5, 0), some (9, 0)] ∧ m' 5 = some [0, 0, 0] ∧ ∀ m'', blockFree b m' ≠ .ok m'' := by
  obtain ⟨⟨st, b, m'⟩, h⟩ := (C179_new_defined_iff (S := Nat) (fun i => if i = 0 then some 5 else if i = 3 then some 9 else none) (nch := 4) (size := 3)
    (out := ⟨0, 0, List.replicate 4 none⟩) (m := fun _ => none) (by simp)).2 (.inr rfl)
  have hfree := C179_free_iff (by simp) (by decide) (fun _ _ _ _ => rfl) (fun i j a hi hj e1 e2 => by
    split at e1 <;> split at e2 <;> (try split at e1) <;> (try split at e2) <;> simp_all <;> exact absurd (e1.trans e2.symm) (by decide)) h
  obtain ⟨rfl, -, -, -, h5, -⟩ := C179_channels_partial (by simp) h
  refine ⟨b, m', h, ?_, h5 0 5 (by decide) rfl, ?_⟩
  · have : blockNew (S := Nat) (fun i => if i = 0 then some 5 else if i = 3 then some 9 else none) 4 3 ⟨0, 0, List.replicate 4 none⟩ (fun _ => none) =
      .ok (0, ⟨4, 3, [some (5, 0), some (5, 0), some (5, 0), some (9, 0)]⟩, m') := by
      rw [h]
      have e : (blockNew (S := Nat) (fun i => if i = 0 then some 5 else if i = 3 then some 9 else none) 4 3 ⟨0, 0, List.replicate 4 none⟩ (fun _ => none)).map
          (fun r => r.2.1) = .ok ⟨4, 3, [some (5, 0), some (5, 0), some (5, 0), some (9, 0)]⟩ := rfl
      rw [h] at e
      cases e
      rfl
    rw [h] at this
    cases this
    rfl
  · rcases hfree with hf | hf
    · exfalso
      have h1 := congrArg (fun r : C (Mem Nat) => r.map fun _ => ()) hf
      have e : ((blockNew (S := Nat) (fun i => if i = 0 then some 5 else if i = 3 then some 9 else none) 4 3 ⟨0, 0, List.replicate 4 none⟩ (fun _ => none)).bind
          (fun r => blockFree r.2.1 r.2.2)).map (fun _ => ()) = .error .doubleFree := rfl
      rw [h] at e
      simp only [Except.bind] at e
      rw [hf] at e
      cases e
    · exact hf.1

end Sp
