import Verif.Model.BlockGenerate
import Verif.Lemmas.SeqTrace

/-!
# C30: sub-block generation
-/

set_option linter.unusedSectionVars false

namespace Sp
variable {σ : Type}

/-- The arguments of a call: length, offset in the block and offset in the event. -/
structure SubBlock where
  len : Nat
  blockOffset : Nat
  eventOffset : Nat

/-- `calls` are consecutive nonempty sub-blocks of at most `resolution` samples that cover exactly the
samples `i` to `duration` of a block which begins at event time `start`. -/
def Tiles (resolution start duration : Nat) : Nat → List SubBlock → Prop
  | i, [] => i = duration
  | i, c :: rest => 0 < c.len ∧ c.len ≤ resolution ∧ c.blockOffset = i ∧ c.eventOffset = start + i ∧
      Tiles resolution start duration (i + c.len) rest

/-- Makes the calls in order and stops at the first failure. -/
def runCalls (gen : Nat → Nat → Nat → σ → C (Nat × σ)) : List SubBlock → σ → C (Nat × σ)
  | [], s => .ok (0, s)
  | c :: rest, s => do
    let (st, s) ← gen c.len c.blockOffset c.eventOffset s
    if st ≠ 0 then return (st, s) else runCalls gen rest s

/-- The sum of the lengths of sub-blocks that tile is the duration. -/
theorem Tiles.sum {resolution start duration i : Nat} {calls : List SubBlock}
    (h : Tiles resolution start duration i calls) : i + (calls.map SubBlock.len).sum = duration := by
  induction calls generalizing i with
  | nil => simpa [Tiles] using h
  | cons c rest ih =>
    have := ih h.2.2.2.2
    simp only [List.map_cons, List.sum_cons]
    omega

theorem blockGenerate_tail (gen : Nat → Nat → Nat → σ → C (Nat × σ)) {r start duration : Nat}
    (hr : 0 < r) (hrd : r ≤ duration) (hd : start + duration < 4294967296) :
    ∀ (m k fuel : Nat), m + k = duration / r → m < fuel → ∃ calls, Tiles r start duration (k * r) calls ∧
      ∀ s, (do
        let (st, i, s) ← blockGenerateLoop gen r (duration / r * r) start fuel (k * r) s
        if st ≠ 0 then return (st, s)
        else if duration % r ≠ 0 then gen (duration % r) i (u32 (i + start)) s
        else return (0, s)) = runCalls gen calls s := by
  have hdiv := Nat.div_add_mod duration r
  rw [Nat.mul_comm] at hdiv
  intro m
  induction m with
  | zero =>
    intro k fuel hk hfuel
    obtain ⟨fuel, rfl⟩ : ∃ f, fuel = f + 1 := ⟨fuel - 1, by omega⟩
    rw [Nat.zero_add] at hk
    subst hk
    have hlt := Nat.mod_lt duration hr
    have hloop : ∀ s, blockGenerateLoop gen r (duration / r * r) start (fuel + 1) (duration / r * r) s =
        .ok (0, duration / r * r, s) := by
      intro s; unfold blockGenerateLoop; rw [if_neg (by omega)]
    by_cases h0 : duration % r = 0
    · refine ⟨[], by simp only [Tiles]; omega, ?_⟩
      intro s
      rw [hloop, ok_bind']
      simp [h0, runCalls]
    · refine ⟨[⟨duration % r, duration / r * r, start + duration / r * r⟩],
        ⟨by simp only; omega, by simp only; omega, rfl, rfl, ?_⟩, ?_⟩
      · simp only [Tiles]; omega
      · intro s
        rw [hloop, ok_bind']
        simp only [ne_eq, not_true_eq_false, if_false, h0, not_false_eq_true, if_true]
        rw [u32_of_lt (by omega), Nat.add_comm _ start]
        unfold runCalls
        simp only
        cases gen (duration % r) (duration / r * r) (start + duration / r * r) s with
        | error f => rfl
        | ok p =>
          obtain ⟨st, s⟩ := p
          rw [ok_bind']
          simp only [runCalls]
          split
          · rfl
          · next h => simp only [Decidable.not_not] at h; rw [h]
  | succ m ih =>
    intro k fuel hk hfuel
    obtain ⟨fuel, rfl⟩ : ∃ f, fuel = f + 1 := ⟨fuel - 1, by omega⟩
    obtain ⟨calls, h1, h2⟩ := ih (k + 1) fuel (by omega) (by omega)
    have hmul : (k + 1) * r ≤ duration / r * r := Nat.mul_le_mul_right r (by omega)
    rw [Nat.add_mul, Nat.one_mul] at hmul h1 h2
    refine ⟨⟨r, k * r, start + k * r⟩ :: calls, ⟨hr, Nat.le_refl _, rfl, rfl, h1⟩, ?_⟩
    intro s
    unfold blockGenerateLoop
    rw [if_pos (by omega), u32_of_lt (show k * r + start < 4294967296 by omega),
      u32_of_lt (show k * r + r < 4294967296 by omega), Nat.add_comm _ start]
    unfold runCalls
    simp only
    cases gen r (k * r) (start + k * r) s with
    | error f => rfl
    | ok p =>
      obtain ⟨st, s⟩ := p
      simp only [ok_bind']
      by_cases hst : st = 0
      · subst hst
        simp only [ne_eq, not_true_eq_false, if_false]
        exact h2 s
      · simp only [ne_eq, hst, not_false_eq_true, if_true, pure_eq_ok, ok_bind']

/-- **C30**, for nonempty ranges: for every resolution, start and end and every generate function,
`sp_event_block_generate` makes exactly a tiling sequence of calls, in order, up to the first failing
one, and returns its status. The calls depend only on the range and the resolution. In particular
(`Tiles.sum`) the lengths sum to the duration.
Missing for the full property: the empty range, see `C30_zero_duration_undefined`. -/
theorem C30_tiles_partial (gen : Nat → Nat → Nat → σ → C (Nat × σ)) {resolution start stop fuel : Nat}
    (hr : 0 < resolution) (hlt : start < stop) (hstop : stop < 4294967296) (hf : stop - start < fuel) :
    ∃ calls, Tiles resolution start (stop - start) 0 calls ∧
      ∀ s, eventBlockGenerate fuel gen resolution start stop s = runCalls gen calls s := by
  have hmono : ∀ {r r' st d i : Nat} {calls : List SubBlock}, r ≤ r' → Tiles r st d i calls →
      Tiles r' st d i calls := by
    intro r r' st d i calls hle
    induction calls generalizing i with
    | nil => exact id
    | cons c rest ih => exact fun ⟨h1, h2, h3, h4, h5⟩ => ⟨h1, by omega, h3, h4, ih h5⟩
  have hdur : sub32 stop start = stop - start := sub32_of_le (by omega) hstop
  have key : ∀ r, 0 < r → r ≤ stop - start → r ≤ resolution →
      r = (if stop - start < resolution then stop - start else resolution) →
      ∃ calls, Tiles resolution start (stop - start) 0 calls ∧
      ∀ s, eventBlockGenerate fuel gen resolution start stop s = runCalls gen calls s := by
    intro r hr0 hrd hrr hreq
    have hdiv := Nat.div_mul_le_self (stop - start) r
    have hle : (stop - start) / r ≤ stop - start := Nat.div_le_self _ _
    obtain ⟨calls, h1, h2⟩ := blockGenerate_tail gen (start := start) hr0 hrd (by omega)
      ((stop - start) / r) 0 fuel (by omega) (by omega)
    rw [Nat.zero_mul] at h1
    refine ⟨calls, hmono hrr h1, fun s => ?_⟩
    rw [← h2 s]
    unfold eventBlockGenerate
    simp only [hdur, ← hreq]
    rw [if_neg (by omega), u32_of_lt (by omega), Nat.zero_mul]
  by_cases hc : stop - start < resolution
  · exact key (stop - start) (by omega) (Nat.le_refl _) (by omega) (by rw [if_pos hc])
  · exact key resolution hr (by omega) (Nat.le_refl _) (by rw [if_neg hc])

/-- **C30 is false for the empty range**: the code divides by zero. -/
theorem C30_zero_duration_undefined (gen : Nat → Nat → Nat → σ → C (Nat × σ)) (resolution start fuel : Nat)
    (s : σ) : eventBlockGenerate fuel gen resolution start start s = .error .divByZero := by
  have : sub32 start start = 0 := by unfold sub32; omega
  unfold eventBlockGenerate
  simp only [this]
  by_cases h : 0 < resolution
  · rw [if_pos h, if_pos rfl]
  · rw [if_neg h, if_pos (by omega)]

/-- Non-vacuity: 3 to 10 with resolution 3, the third call fails. -/
example : eventBlockGenerate 9 (fun n i t (s : List (Nat × Nat × Nat)) =>
      .ok (if i = 6 then 5 else 0, s ++ [(n, i, t)])) 3 3 10 [] =
    .ok (5, [(3, 0, 3), (3, 3, 6), (1, 6, 9)]) := by rfl

example : ∃ calls, Tiles 3 3 7 0 calls ∧ ∀ s, eventBlockGenerate 9
      (fun n i t (s : List (Nat × Nat × Nat)) => .ok (0, s ++ [(n, i, t)])) 3 3 10 s =
    runCalls (fun n i t (s : List (Nat × Nat × Nat)) => .ok (0, s ++ [(n, i, t)])) calls s :=
  C30_tiles_partial _ (resolution := 3) (start := 3) (stop := 10) (fuel := 9) (by decide) (by decide)
    (by decide) (by decide)

end Sp
