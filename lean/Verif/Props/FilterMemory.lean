import Verif.Model.FilterMemory
import Verif.Lemmas.SeqTrace
import Mathlib.Data.List.Nodup

/-!
# C105: memory of convolution filter states
-/

set_option linter.unusedSectionVars false

namespace Sp
variable {F : Type} [DecidableEq F]

/-- Addresses that were not yet returned are not live. -/
def Live.Fresh (m : Live) : Prop := ∀ a, m.next ≤ a → m.live a = false

/-- Compared to `m0`, exactly the allocations `as` have been made and not freed. -/
structure Own (m0 m : Live) (as : List Nat) : Prop where
  nodup : as.Nodup
  new : ∀ a ∈ as, m0.next ≤ a ∧ a < m.next
  next : m0.next ≤ m.next
  live : ∀ b, m.live b = true ↔ m0.live b = true ∨ b ∈ as

theorem Own.perm {m0 m : Live} {as bs : List Nat} (h : Own m0 m as) (hp : as.Perm bs) : Own m0 m bs :=
  ⟨hp.nodup_iff.1 h.nodup, fun a ha => h.new a (hp.mem_iff.2 ha), h.next, fun b => by rw [h.live, hp.mem_iff]⟩

theorem Own.malloc {m0 m : Live} {as : List Nat} (h : Own m0 m as) : Own m0 m.malloc.2 (m.malloc.1 :: as) := by
  refine ⟨List.nodup_cons.2 ⟨fun ha => ?_, h.nodup⟩, fun a ha => ?_, ?_, fun b => ?_⟩
  · have := (h.new _ ha).2
    simp only [Live.malloc] at this
    omega
  · rcases List.mem_cons.1 ha with rfl | ha
    · exact ⟨h.next, by simp [Live.malloc]⟩
    · have := h.new a ha
      exact ⟨this.1, by simp only [Live.malloc]; omega⟩
  · have := h.next
    simp only [Live.malloc]
    omega
  · simp only [Live.malloc, List.mem_cons]
    split
    · simp [*]
    · simp [h.live b, *]

theorem Own.free {m0 m : Live} {as : List Nat} {a : Nat} (h : Own m0 m (a :: as)) (hm : m0.Fresh) :
    ∃ m', m.free (some a) = .ok m' ∧ Own m0 m' as := by
  have hl : m.live a = true := (h.live a).2 (.inr (by simp))
  refine ⟨{ m with live := fun b => if b = a then false else m.live b }, by rw [Live.free, if_pos hl], (List.nodup_cons.1 h.nodup).2,
    fun b hb => h.new b (by simp [hb]), h.next, fun b => ?_⟩
  simp only
  split
  · rename_i hb
    subst hb
    have h1 := hm b (h.new b (by simp)).1
    simp [h1, (List.nodup_cons.1 h.nodup).1]
  · rename_i hb
    rw [h.live b]
    simp [hb]

theorem Own.realloc {m0 m : Live} {as : List Nat} {a : Nat} (h : Own m0 m (a :: as)) (hm : m0.Fresh) :
    ∃ a' m', m.realloc a = .ok (a', m') ∧ Own m0 m' (a' :: as) := by
  obtain ⟨m1, h1, h2⟩ := h.free hm
  refine ⟨m1.malloc.1, m1.malloc.2, ?_, h2.malloc⟩
  rw [Live.realloc, h1, ok_bind']
  rfl

/-- The allocations of a filter state. -/
def FilterMem.all (st : FilterMem F) : List Nat := st.ir :: st.args :: st.addr :: st.carry.toList

theorem filterMemCarry_own {m0 m : Live} (hm : m0.Fresh) {n ir : Nat} {st : FilterMem F}
    (h : Own m0 m (ir :: st.args :: st.addr :: st.carry.toList)) :
    ∃ st' m', filterMemCarry n ir st m = .ok (st', m') ∧ Own m0 m' st'.all := by
  unfold filterMemCarry
  cases hc : st.carry with
  | some c =>
    simp only
    rw [hc] at h
    split
    · obtain ⟨a', m', h1, h2⟩ := (h.perm (bs := c :: [ir, st.args, st.addr]) (by
        simp only [Option.toList]
        exact (List.perm_append_comm (l₁ := [ir, st.args, st.addr]) (l₂ := [c])))).realloc hm
      refine ⟨_, m', by rw [h1, ok_bind']; rfl, h2.perm ?_⟩
      simp only [FilterMem.all, Option.toList]
      exact (List.perm_append_comm (l₁ := [a']) (l₂ := [ir, st.args, st.addr]))
    · refine ⟨_, m, rfl, ?_⟩
      simp only [FilterMem.all, hc]
      exact h
  | none =>
    simp only
    rw [hc] at h
    split
    · refine ⟨_, _, rfl, h.malloc.perm ?_⟩
      simp only [FilterMem.all, Option.toList]
      exact (List.perm_append_comm (l₁ := [m.malloc.1]) (l₂ := [ir, st.args, st.addr]))
    · refine ⟨_, m, rfl, ?_⟩
      simp only [FilterMem.all, hc]
      exact h

theorem filterMemSet_own {irOf : F → List UInt8 → Option Nat} {f : F} {args : List UInt8} {m0 m : Live} (hm : m0.Fresh)
    {old : Option (FilterMem F)} (h : Own m0 m (old.elim [] FilterMem.all)) (hir : old = none ∨ irOf f args ≠ none) :
    ∃ st m', filterMemSet irOf f args old m = .ok ((irOf f args).isSome || old.isSome, st, m') ∧
      Own m0 m' (st.elim [] FilterMem.all) ∧ (st = none ↔ old = none ∧ irOf f args = none) := by
  unfold filterMemSet
  cases old with
  | none =>
    simp only
    simp only [Option.elim_none] at h
    cases hi : irOf f args with
    | none =>
      simp only
      obtain ⟨m1, h1, h2⟩ := (h.malloc.malloc.perm (List.Perm.swap ..)).free hm
      obtain ⟨m2, h3, h4⟩ := h2.free hm
      refine ⟨none, m2, ?_, h4, by simp⟩
      rw [h1, ok_bind', h3, ok_bind']
      rfl
    | some n =>
      simp only
      obtain ⟨st, m', h1, h2⟩ := filterMemCarry_own (n := n) hm (ir := m.malloc.2.malloc.2.malloc.1)
        (st := (⟨m.malloc.1, m.malloc.2.malloc.2.malloc.1, none, 0, m.malloc.2.malloc.1, args, f, args.length, 0⟩ : FilterMem F)) h.malloc.malloc.malloc
      refine ⟨some st, m', ?_, h2, by simp⟩
      rw [h1, ok_bind']
      rfl
  | some st =>
    simp only
    simp only [Option.elim_some] at h
    obtain ⟨n, hi⟩ := Option.ne_none_iff_exists'.1 (hir.resolve_left (by simp))
    rw [hi]
    by_cases hu : st.irF = f ∧ args.length = st.argsLen ∧ st.argBytes.take args.length = args
    · rw [if_pos hu]
      exact ⟨some st, m, rfl, h, by simp⟩
    rw [if_neg hu]
    have ha : ∃ a' m', filterMemArgs args st m = .ok (a', m') ∧
        Own m0 m' (st.ir :: a' :: st.addr :: st.carry.toList) := by
      unfold filterMemArgs
      split
      · obtain ⟨a', m', h1, h2⟩ := (h.perm (List.Perm.swap ..)).realloc hm
        exact ⟨a', m', h1, h2.perm (List.Perm.swap ..)⟩
      · exact ⟨_, _, rfl, h⟩
    obtain ⟨a', m1, h1, h2⟩ := ha
    obtain ⟨m2, h3, h4⟩ := h2.free hm
    obtain ⟨st', m', h5, h6⟩ := filterMemCarry_own (n := n) hm (ir := m2.malloc.1)
      (st := { st with args := a', argBytes := args ++ st.argBytes.drop args.length }) h4.malloc
    refine ⟨some st', m', ?_, h6, by simp⟩
    rw [h1, ok_bind']
    simp only [h3, ok_bind', h5]
    rfl

theorem filterMemFree_own {m0 m : Live} (hm : m0.Fresh) {st : Option (FilterMem F)} (h : Own m0 m (st.elim [] FilterMem.all)) :
    ∃ m', filterMemFree st m = .ok m' ∧ Own m0 m' [] := by
  unfold filterMemFree
  cases st with
  | none => exact ⟨m, rfl, h⟩
  | some st =>
    simp only [Option.elim_some, FilterMem.all] at h ⊢
    obtain ⟨m1, h1, h2⟩ := h.free hm
    have : ∃ m2, m1.free st.carry = .ok m2 ∧ Own m0 m2 [st.args, st.addr] := by
      cases hc : st.carry with
      | none => exact ⟨m1, rfl, by simpa [hc] using h2⟩
      | some c =>
        rw [hc] at h2
        exact (h2.perm (bs := [c, st.args, st.addr]) (List.perm_append_comm (l₁ := [st.args, st.addr]) (l₂ := [c]))).free hm
    obtain ⟨m2, h3, h4⟩ := this
    obtain ⟨m3, h5, h6⟩ := h4.free hm
    obtain ⟨m4, h7, h8⟩ := h6.free hm
    exact ⟨m4, by simp only [h1, ok_bind', h3, h5, h7], h8⟩

theorem filterMemCalls_own {irOf : F → List UInt8 → Option Nat} {m0 : Live} (hm : m0.Fresh) (calls : List (F × List UInt8))
    {old : Option (FilterMem F)} {m : Live} (h : Own m0 m (old.elim [] FilterMem.all))
    (hir : (old = none ∧ List.IsChain (fun a b => irOf a.1 a.2 ≠ none → irOf b.1 b.2 ≠ none) calls) ∨ ∀ c ∈ calls, irOf c.1 c.2 ≠ none) :
    ∃ st m', filterMemCalls irOf calls old m = .ok (st, m') ∧ Own m0 m' (st.elim [] FilterMem.all) := by
  induction calls generalizing old m with
  | nil => exact ⟨old, m, rfl, h⟩
  | cons c rest ih =>
    obtain ⟨f, args⟩ := c
    obtain ⟨st, m1, h1, h2, h3⟩ := filterMemSet_own (irOf := irOf) (f := f) (args := args) hm h
      (hir.imp (fun h => h.1) (fun h => h (f, args) (by simp)))
    have hrest : (st = none ∧ List.IsChain (fun a b => irOf a.1 a.2 ≠ none → irOf b.1 b.2 ≠ none) rest) ∨ ∀ c ∈ rest, irOf c.1 c.2 ≠ none := by
      rcases hir with ⟨ho, hch⟩ | hall
      · by_cases hn : irOf f args = none
        · exact .inl ⟨h3.2 ⟨ho, hn⟩, hch.tail⟩
        · right
          clear ih h1 h2 h3
          induction rest generalizing f args with
          | nil => simp
          | cons d rest ih2 =>
            rw [List.isChain_cons_cons] at hch
            have hd := hch.1 hn
            intro c hc
            rcases List.mem_cons.1 hc with rfl | hc
            · exact hd
            · exact ih2 d.1 d.2 hch.2 hd c hc
      · exact .inr fun c hc => hall c (by simp [hc])
    obtain ⟨st', m', h4, h5⟩ := ih h2 hrest
    refine ⟨st', m', ?_, h5⟩
    rw [filterMemCalls, h1, ok_bind']
    exact h4

/-- **C105, partial.** For every sequence of filter calls with one state, with any functions and arguments, where no call fails
after one has succeeded: no access to freed memory, and `sp_convolution_filter_state_free` releases everything that was
allocated, exactly once, and nothing else. Missing: failures of later calls, see below. -/
theorem C105_released_partial {irOf : F → List UInt8 → Option Nat} {m0 : Live} (hm : m0.Fresh) (calls : List (F × List UInt8))
    (hir : List.IsChain (fun a b => irOf a.1 a.2 ≠ none → irOf b.1 b.2 ≠ none) calls) :
    ∃ st m m', filterMemCalls irOf calls none m0 = .ok (st, m) ∧ filterMemFree st m = .ok m' ∧ m'.live = m0.live := by
  obtain ⟨st, m, h1, h2⟩ := filterMemCalls_own hm calls (old := none) (m := m0)
    ⟨List.nodup_nil, by simp, Nat.le_refl _, by simp⟩ (.inl ⟨rfl, hir⟩)
  obtain ⟨m', h3, h4⟩ := filterMemFree_own hm h2
  refine ⟨st, m, m', h1, h3, ?_⟩
  funext b
  have := h4.live b
  simp only [List.not_mem_nil, or_false] at this
  exact Bool.eq_iff_iff.2 this

/-- Non-vacuity: a failing call, then impulse responses of lengths 3, 1, 9 and 1 by two functions. -/
example : ∃ st m m', filterMemCalls (F := Bool) (fun _ a => if a = [] then none else some (a.headD 0).toNat)
      [(true, []), (true, [3]), (false, [1, 2]), (true, [9]), (false, [1])] none ⟨5, fun a => a = 2⟩ = .ok (st, m) ∧
    filterMemFree st m = .ok m' ∧ m'.live = fun a => decide (a = 2) := by
  refine C105_released_partial (m0 := ⟨5, fun a => a = 2⟩) ?_ _ (by simp)
  intro a ha
  simp only [decide_eq_false_iff_not]
  have : 5 ≤ a := ha
  omega

/-- **C105 is false** if a call fails after one has succeeded: the old impulse response is freed but stays in the state, and
freeing the state frees it a second time. -/
theorem C105_failed_update_double_free {irOf : F → List UInt8 → Option Nat} {m0 m : Live} (hm : m0.Fresh) {st : FilterMem F}
    (h : Own m0 m st.all) {f : F} {args : List UInt8} (hf : irOf f args = none)
    (hne : ¬ (st.irF = f ∧ args.length = st.argsLen ∧ st.argBytes.take args.length = args)) :
    ∃ st' m', filterMemSet irOf f args (some st) m = .ok (false, some st', m') ∧ filterMemFree (some st') m' = .error .doubleFree := by
  unfold filterMemSet
  simp only
  rw [if_neg hne]
  have ha : ∃ a' m', filterMemArgs args st m = .ok (a', m') ∧
      Own m0 m' (st.ir :: a' :: st.addr :: st.carry.toList) := by
    unfold filterMemArgs
    split
    · obtain ⟨a', m', h1, h2⟩ := (h.perm (List.Perm.swap ..)).realloc hm
      exact ⟨a', m', h1, h2.perm (List.Perm.swap ..)⟩
    · exact ⟨_, _, rfl, h⟩
  obtain ⟨a', m1, h1, h2⟩ := ha
  obtain ⟨m2, h3, h4⟩ := h2.free hm
  refine ⟨{ st with args := a', argBytes := args ++ st.argBytes.drop args.length }, m2, ?_, ?_⟩
  · rw [h1, ok_bind']
    simp only [h3, ok_bind', hf]
    rfl
  · have hl : m2.live st.ir = false := by
      rw [← Bool.not_eq_true, h4.live, not_or]
      refine ⟨?_, (List.nodup_cons.1 h2.nodup).1⟩
      rw [hm _ (h2.new _ (by simp)).1]
      simp
    unfold filterMemFree
    simp only [Live.free, hl]
    rfl

example : (filterMemCalls (F := Unit) (fun _ a => if a = [] then none else some 3) [((), [1]), ((), [])] none ⟨0, fun _ => false⟩).bind
    (fun r => filterMemFree r.1 r.2) = .error .doubleFree := by rfl

end Sp
