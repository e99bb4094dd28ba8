import Verif.Lemmas.MovingAverage

/-! # The moving average: C09 -/

set_option linter.unusedSectionVars false

namespace Sp
variable {S : Type} [Field S] [CharZero S]

theorem windowMean_eq (e : Int → S) (r : Nat) (i : Int) : windowMean e r i = windowSum e r i / (2 * r + 1 : Nat) := rfl

theorem bind_of {α β : Type} {m : C α} {a : α} {f : α → C β} {r : C β} (h : m = .ok a) (h2 : f a = r) : (m >>= f) = r := by
  rw [h]; exact h2

/-- C09, the part that holds: for a width up to the size (the documentation asks for less), with `prev` of the same size or missing and
`next` of at least `radius` elements or missing, there is no access outside of the arrays, exactly the first `in_size` elements of the
output are written, and each of them is the mean over the window - except that when `next` is missing this is not so for the last
`radius` elements. -/
theorem C09_moving_average_partial {inp out : List S} {prev next : Option (List S)} {radius : Nat}
    (hw : 2 * radius + 1 ≤ inp.length) (h32 : inp.length < 4294967296) (hout : inp.length ≤ out.length)
    (hprev : ∀ p, prev = some p → p.length = inp.length) (hnext : ∀ q, next = some q → radius ≤ q.length) :
    ∃ out', movingAverage inp inp.length prev next radius out = .ok out' ∧ out'.length = out.length ∧
      (∀ i, i < inp.length → (next ≠ none ∨ i < inp.length - radius) →
        out'[i]? = some (windowMean (extended inp prev next) radius i)) ∧
      ∀ i, inp.length ≤ i → out'[i]? = out[i]? := by
  generalize hN : out.length = N at *
  have ho : out = tab N fun i => out.getD i 0 := by rw [← hN]; exact eq_tab out 0
  generalize (fun i => out.getD i 0) = o at *
  subst ho
  clear hN
  have e1 : movingAverage inp inp.length prev next radius (tab N o) =
      (forRange (inp.length - radius) inp.length (averageLastBody inp next inp.length radius (2 * radius + 1))
        (averageState (extended inp prev next) radius N o (inp.length - radius))).bind fun s => .ok s.2 := by
    have e0 : ((windowSum (extended inp prev next) radius 0,
        tab N fun k => if k = 0 then windowSum (extended inp prev next) radius 0 / (2 * radius + 1 : Nat) else o k) : S × Buf S) =
        averageState (extended inp prev next) radius N o 1 := by
      rw [averageState, show (((1 : ℕ) : ℤ) - 1) = 0 by norm_num]
      refine congrArg _ ?_
      refine tab_congr fun a _ => ?_
      by_cases h : a = 0
      · subst h; rw [if_pos rfl, if_pos (by omega), Nat.cast_zero]
      · rw [if_neg h, if_neg (by omega)]
    have f1 : forRange 1 (radius + 1) (averageFirstBody inp prev inp.length radius (2 * radius + 1))
        (averageState (extended inp prev next) radius N o 1) = .ok (averageState (extended inp prev next) radius N o (radius + 1)) :=
      forRange_states (body := averageFirstBody inp prev inp.length radius (2 * radius + 1))
        (averageState (extended inp prev next) radius N o) (by omega)
        (fun i h1 h2 => averageFirst_step hw h32 hprev hout h1 h2)
    have f2 : forRange (radius + 1) (inp.length - radius) (averageMiddleBody inp radius (2 * radius + 1))
        (averageState (extended inp prev next) radius N o (radius + 1)) =
          .ok (averageState (extended inp prev next) radius N o (inp.length - radius)) :=
      forRange_states (body := averageMiddleBody inp radius (2 * radius + 1))
        (averageState (extended inp prev next) radius N o) (by omega)
        (fun i h1 h2 => averageMiddle_step h32 hout h1 h2)
    have hu : u32 (radius * 2 + 1) = 2 * radius + 1 := by rw [u32_of_lt (by omega)]; ring
    rw [movingAverage, hu]
    refine bind_of (averageInit_eq (next := next) hw h32 hprev) ?_
    refine bind_of (wr_tab _ (by omega)) ?_
    rw [e0, sub32_of_le (by omega) (by omega)]
    refine bind_of f1 ?_
    refine bind_of f2 ?_
    rfl
  rw [e1]
  cases next with
  | some q =>
    rw [forRange_states (averageState (extended inp prev (some q)) radius N o) (by omega)
      (fun i h1 h2 => averageLast_step hw h32 (hnext q rfl) hout h1 h2)]
    refine ⟨_, rfl, tab_length, ?_, ?_⟩
    · intro i hi _
      rw [averageState]
      rw [tab_getElem?, if_pos (by omega), if_pos hi, windowMean_eq]
    · intro i hi
      rw [averageState]
      rw [tab_getElem?, tab_getElem?]
      simp only [if_neg (not_lt.2 hi)]
  | none =>
    obtain ⟨s', g, e, hg⟩ := averageLast_missing (N := N)
      (f := fun a => if a < inp.length - radius then windowSum (extended inp prev none) radius a / (2 * radius + 1 : Nat) else o a)
      (s := windowSum (extended inp prev none) radius (((inp.length - radius : ℕ) : ℤ) - 1)) hw h32 hout
    rw [averageState, e]
    refine ⟨_, rfl, tab_length, ?_, ?_⟩
    · intro i hi h
      have h' : i < inp.length - radius := h.resolve_left (fun h => h rfl)
      rw [tab_getElem?, if_pos (by omega), hg i (Or.inl h'), if_pos h', windowMean_eq]
    · intro i hi
      rw [tab_getElem?, tab_getElem?, hg i (Or.inr hi)]
      have : ¬ i < inp.length - radius := by omega
      simp only [if_neg this]

/-- With both neighbours. -/
example : movingAverage [(1 : ℚ), 2, 6, 4, 5] 5 (some [9, 9, 9, 9, 3]) (some [7]) 1 [0, 0, 0, 0, 0] =
    .ok [2, 3, 4, 5, 16 / 3] := by decide +kernel

/-- C09 is false when `next` is missing: for the documented example `[0 1 2 3 0]` and the radius one, the last value should be the mean
of `3 0 -3`, and is two thirds. -/
theorem C09_missing_next_false :
    movingAverage [(0 : ℚ), 1, 2, 3, 0] 5 none none 1 [0, 0, 0, 0, 0] = .ok [0, 1, 2, 5 / 3, 2 / 3] ∧
    windowMean (extended [(0 : ℚ), 1, 2, 3, 0] none none) 1 4 = 0 := by
  constructor
  · decide +kernel
  · decide +kernel

/-- C09: the documentation also says that with the reflection the first value stays the same. This is false: it is divided by the
width. -/
theorem C09_first_value_false :
    movingAverage [(3 : ℚ), 1, 2, 1, 5] 5 none (some [0]) 1 [0, 0, 0, 0, 0] = .ok [1, 2, 4 / 3, 8 / 3, 2] := by
  decide +kernel

end Sp
