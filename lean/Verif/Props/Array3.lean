import Verif.Model.Array3
import Verif.Props.FilterMemory

/-!
# C146: arrays with a number of used elements, C147: registers of memory
-/

set_option linter.unusedSectionVars false

namespace Sp
variable {S : Type}

/-- The array holds the elements `l`, in order, with room for `cap`. -/
def Array3.HoldsList (a : Array3 S) (cap : Nat) (l : List S) : Prop :=
  a.size = cap ∧ a.used = some l.length ∧ l.length ≤ cap ∧ cap < 18446744073709551616 ∧
    ∃ rest, a.data = some (l.map some ++ rest) ∧ l.length + rest.length = cap

/-- What a program does to a list with a capacity; `none` if it does something that is not allowed: adding to a full list, removing from an
empty one, resizing to nothing or to more than the address range. -/
def array3Spec : List (Array3Op S) → Nat × List S → Option (Nat × List S)
  | [], s => some s
  | .add v :: os, (cap, l) => if l.length < cap then array3Spec os (cap, l ++ [v]) else none
  | .remove :: os, (cap, l) => if l = [] then none else array3Spec os (cap, l.dropLast)
  | .clear :: os, (cap, _) => array3Spec os (cap, [])
  | .resize false n :: os, (cap, l) => if n = 0 then none else array3Spec os (cap, l)
  | .resize true n :: os, (_, l) => if n = 0 ∨ 18446744073709551616 ≤ n then none else array3Spec os (n, l.take n)

theorem Array3.holds_new {a : Array3 S} {n : Nat} (hn : n < 18446744073709551616) :
    (Array3.new true n a).1 = 0 ∧ (Array3.new true n a).2.HoldsList n [] :=
  ⟨rfl, rfl, rfl, Nat.zero_le _, hn, List.replicate n none, rfl, by simp⟩

theorem Array3.HoldsList.add {a : Array3 S} {cap : Nat} {l : List S} (h : a.HoldsList cap l) (v : S) (hl : l.length < cap) :
    ∃ a', a.add v = .ok a' ∧ a'.HoldsList cap (l ++ [v]) := by
  obtain ⟨h1, h2, h3, h4, rest, h5, h6⟩ := h
  obtain ⟨r, rest, rfl⟩ : ∃ r t, rest = r :: t := by
    cases rest with
    | nil => simp at h6; omega
    | cons r t => exact ⟨r, t, rfl⟩
  simp only [List.length_cons] at h6
  refine ⟨⟨some ((l ++ [v]).map some ++ rest), a.size, some (l.length + 1)⟩, ?_, h1, by simp, by simp; omega, h4, rest, rfl, by simp; omega⟩
  rw [Array3.add, Array3.usedValue, h2]
  simp only [ok_bind', h5]
  rw [wr_eq_ok _ (by simp), ok_bind', Nat.mod_eq_of_lt (by omega), List.set_append_right _ _ (by simp)]
  simp

theorem Array3.HoldsList.remove {a : Array3 S} {cap : Nat} {l : List S} (h : a.HoldsList cap l) (hl : l ≠ []) :
    ∃ a', a.remove = .ok a' ∧ a'.HoldsList cap l.dropLast := by
  obtain ⟨h1, h2, h3, h4, rest, h5, h6⟩ := h
  obtain ⟨p, v, rfl⟩ := List.eq_nil_or_concat l |>.resolve_left hl
  rw [List.concat_eq_append] at *
  simp only [List.length_append, List.length_cons, List.length_nil] at *
  refine ⟨{ a with used := some p.length }, ?_, h1, by simp, by simp; omega, h4, some v :: rest, by simp [h5], by simp; omega⟩
  rw [Array3.remove, Array3.usedValue, h2]
  simp only [ok_bind', pure_eq_ok]
  rw [show (p.length + (0 + 1) + 18446744073709551615) % 18446744073709551616 = p.length by omega]

theorem Array3.HoldsList.clear {a : Array3 S} {cap : Nat} {l : List S} (h : a.HoldsList cap l) : a.clear.HoldsList cap [] := by
  obtain ⟨h1, h2, h3, h4, rest, h5, h6⟩ := h
  exact ⟨h1, rfl, Nat.zero_le _, h4, l.map some ++ rest, h5, by simpa using h6⟩

theorem Array3.HoldsList.resize {a : Array3 S} {cap : Nat} {l : List S} (h : a.HoldsList cap l) {n : Nat} (h0 : n ≠ 0)
    (hn : n < 18446744073709551616) : ∃ a', a.resize true n = .ok (0, a') ∧ a'.HoldsList n (l.take n) := by
  obtain ⟨h1, h2, h3, h4, rest, h5, h6⟩ := h
  refine ⟨⟨some ((l.map some ++ rest).take n ++ List.replicate (n - (l.map some ++ rest).length) none), n,
    some (if n < l.length then n else l.length)⟩, ?_, rfl, ?_, ?_, hn, rest.take (n - l.length) ++ List.replicate (n - cap) none, ?_, ?_⟩
  · rw [Array3.resize, if_neg h0, if_neg (by simp), Array3.usedValue, h2]
    simp only [ok_bind', h5, Option.getD_some, pure_eq_ok]
  · simp only [List.length_take, Option.some.injEq]
    split <;> omega
  · simp only [List.length_take]
    omega
  · simp only [Option.some.injEq]
    rw [List.take_append, List.length_append, List.length_map, h6, List.map_take, List.append_assoc]
  · simp only [List.length_append, List.length_take, List.length_replicate]
    omega

theorem array3Run_spec : ∀ (os : List (Array3Op S)) {a : Array3 S} {cap cap' : Nat} {l l' : List S}, a.HoldsList cap l →
    array3Spec os (cap, l) = some (cap', l') → ∃ a', array3Run os a = .ok a' ∧ a'.HoldsList cap' l'
  | [], a, cap, cap', l, l', h, hs => by
    simp only [array3Spec, Option.some.injEq, Prod.mk.injEq] at hs
    obtain ⟨rfl, rfl⟩ := hs
    exact ⟨a, rfl, h⟩
  | .add v :: os, a, cap, cap', l, l', h, hs => by
    rw [array3Spec] at hs
    split at hs
    · rename_i hl
      obtain ⟨a1, e1, h1⟩ := h.add v hl
      obtain ⟨a2, e2, h2⟩ := array3Run_spec os h1 hs
      refine ⟨a2, ?_, h2⟩
      rw [array3Run, Array3Op.run, e1, ok_bind', e2]
    · simp at hs
  | .remove :: os, a, cap, cap', l, l', h, hs => by
    rw [array3Spec] at hs
    split at hs
    · simp at hs
    · rename_i hl
      obtain ⟨a1, e1, h1⟩ := h.remove hl
      obtain ⟨a2, e2, h2⟩ := array3Run_spec os h1 hs
      refine ⟨a2, ?_, h2⟩
      rw [array3Run, Array3Op.run, e1, ok_bind', e2]
  | .clear :: os, a, cap, cap', l, l', h, hs => by
    rw [array3Spec] at hs
    obtain ⟨a2, e2, h2⟩ := array3Run_spec os h.clear hs
    exact ⟨a2, by rw [array3Run, Array3Op.run, ok_bind', e2], h2⟩
  | .resize false n :: os, a, cap, cap', l, l', h, hs => by
    rw [array3Spec] at hs
    split at hs
    · simp at hs
    · rename_i hn
      obtain ⟨a2, e2, h2⟩ := array3Run_spec os h hs
      refine ⟨a2, ?_, h2⟩
      rw [array3Run, Array3Op.run, Array3.resize, if_neg hn, if_pos (by simp)]
      exact e2
  | .resize true n :: os, a, cap, cap', l, l', h, hs => by
    rw [array3Spec] at hs
    split at hs
    · simp at hs
    · rename_i hn
      obtain ⟨a1, e1, h1⟩ := h.resize (n := n) (by omega) (by omega)
      obtain ⟨a2, e2, h2⟩ := array3Run_spec os h1 hs
      refine ⟨a2, ?_, h2⟩
      rw [array3Run, Array3Op.run, e1]
      exact e2

/-- C146: any program of adds, removals, clearings and resizings on a new array, with memory for the first allocation, that the
specification on lists allows ends without a fault. Then `array3_size` is the number of elements, each index below gives its element, and
the tests for room tell how many more can be added. -/
theorem C146_array (a : Array3 S) {n cap : Nat} {l : List S} (hn : n < 18446744073709551616) (os : List (Array3Op S))
    (hs : array3Spec os (n, []) = some (cap, l)) :
    (Array3.new true n a).1 = 0 ∧ ∃ a', array3Run os (Array3.new true n a).2 = .ok a' ∧ a'.used = some l.length ∧ a'.size = cap ∧
      (∀ i (h : i < l.length), a'.get i = .ok l[i]) ∧ a'.unusedSize = .ok (cap - l.length) ∧ a'.full = .ok (decide (l.length = cap)) ∧
      a'.notFull = .ok (decide (l.length < cap)) := by
  obtain ⟨e0, h0⟩ := Array3.holds_new (a := a) hn
  obtain ⟨a', e, h1, h2, h3, h4, rest, h5, h6⟩ := array3Run_spec os h0 hs
  refine ⟨e0, a', e, h2, h1, fun i hi => ?_, ?_, ?_, ?_⟩
  · have : rd (l.map some ++ rest) i = .ok (some l[i]) := by
      rw [rd_ok_iff, List.getElem?_append_left (by simpa using hi)]
      simp [hi]
    rw [Array3.get, h5]
    simp only
    rw [this]
    rfl
  · rw [Array3.unusedSize, Array3.usedValue, h2]
    simp only [ok_bind', pure_eq_ok, h1]
    congr 1
    omega
  · rw [Array3.full, Array3.usedValue, h2, h1]
    rfl
  · rw [Array3.notFull, Array3.usedValue, h2, h1]
    rfl

example (a : Array3 Nat) : ∃ a', array3Run [.add 5, .add 6, .resize false 9, .resize true 3, .add 7, .remove, .add 8] (Array3.new true 2 a).2 = .ok a' ∧
    a'.used = some 3 ∧ a'.get 2 = .ok 8 := by
  obtain ⟨_, a', e, h1, _, h2, _⟩ := C146_array a (n := 2) (cap := 3) (l := [5, 6, 8]) (by decide)
    [.add 5, .add 6, .resize false 9, .resize true 3, .add 7, .remove, .add 8] rfl
  exact ⟨a', e, h1, h2 2 (by decide)⟩

/-- C146: without memory, creating and resizing return 1 and leave the array as it is. -/
theorem C146_no_memory (a : Array3 S) (n : Nat) :
    Array3.new false n a = (1, a) ∧ (0 < n → a.resize false n = .ok (1, a)) :=
  ⟨rfl, fun h => by simp [Array3.resize, Nat.pos_iff_ne_zero.1 h]⟩

/-- C146: an array declared with `array3_declare` is empty and full; after resizing it is like a new one. -/
theorem C146_declare {n cap : Nat} {l : List S} (h0 : 0 < n) (hn : n < 18446744073709551616) (os : List (Array3Op S))
    (hs : array3Spec os (n, []) = some (cap, l)) :
    (Array3.declare : Array3 S).full = .ok true ∧ (Array3.declare : Array3 S).notFull = .ok false ∧
    (Array3.declare : Array3 S).unusedSize = .ok 0 ∧
    ∃ a', array3Run (.resize true n :: os) (Array3.declare : Array3 S) = .ok a' ∧ a'.used = some l.length ∧ a'.size = cap ∧
      ∀ i (h : i < l.length), a'.get i = .ok l[i] := by
  obtain ⟨_, a', e, h1, h2, h3, _⟩ := C146_array (Array3.declare : Array3 S) hn os hs
  refine ⟨rfl, rfl, by simp [Array3.unusedSize, Array3.usedValue, Array3.declare], a', ?_, h1, h2, h3⟩
  have : (Array3.declare : Array3 S).resize true n = .ok (0, (Array3.new true n (Array3.declare : Array3 S)).2) := by
    simp [Array3.resize, Array3.declare, Array3.new, Array3.usedValue, Nat.pos_iff_ne_zero.1 h0]
  rw [array3Run, Array3Op.run, this]
  exact e

example : ∃ a', array3Run [.resize true 2, .add 5] (Array3.declare : Array3 Nat) = .ok a' ∧ a'.get 0 = .ok 5 := by
  obtain ⟨_, _, _, a', e, _, _, h⟩ := C146_declare (S := Nat) (n := 2) (cap := 2) (l := [5]) (by decide) (by decide) [.add 5] rfl
  exact ⟨a', e, h 0 (by decide)⟩

/-- C146: adding is not checked. One element more than fits is written behind the array. -/
theorem C146_add_full_false {a : Array3 S} {cap : Nat} {l : List S} (h : a.HoldsList cap l) (hfull : l.length = cap) (v : S) :
    a.add v = .error .outOfBounds := by
  obtain ⟨h1, h2, h3, h4, rest, h5, h6⟩ := h
  rw [Array3.add, Array3.usedValue, h2]
  simp only [ok_bind', h5]
  have : rest = [] := List.length_eq_zero_iff.1 (by omega)
  subst this
  simp [wr]

example : (Array3.mk (some [some 4]) 1 (some 1) : Array3 Nat).add 5 = .error .outOfBounds :=
  C146_add_full_false (cap := 1) (l := [4]) ⟨rfl, rfl, by decide, by decide, [], rfl, rfl⟩ rfl 5

/-- C146: `array3_data_last` is not the last element unless the array is full: after adding one element to a new array for more than one it
reads a cell that was never set. -/
theorem C146_data_last_false (a : Array3 S) {n : Nat} (h1 : 1 < n) (hn : n < 18446744073709551616) (v : S) :
    ∃ a', array3Run [.add v] (Array3.new true n a).2 = .ok a' ∧ a'.get 0 = .ok v ∧ a'.dataLast = .error .uninitialized := by
  refine ⟨⟨some (some v :: List.replicate (n - 1) none), n, some 1⟩, ?_, rfl, ?_⟩
  · obtain ⟨m, rfl⟩ : ∃ m, n = m + 1 := ⟨n - 1, by omega⟩
    simp [array3Run, Array3Op.run, Array3.add, Array3.new, Array3.usedValue, wr, List.replicate_succ]
  · have : rd (some v :: List.replicate (n - 1) none) (n - 1) = .ok none := by
      obtain ⟨m, rfl⟩ : ∃ m, n = m + 2 := ⟨n - 2, by omega⟩
      rw [rd_ok_iff]
      simp
    rw [Array3.dataLast, Array3.get]
    simp only
    rw [show (n + 18446744073709551615) % 18446744073709551616 = n - 1 by omega, this]
    rfl

example (a : Array3 Nat) : ∃ a', array3Run [.add 7] (Array3.new true 4 a).2 = .ok a' ∧ a'.get 0 = .ok 7 ∧ a'.dataLast = .error .uninitialized :=
  C146_data_last_false a (by decide) (by decide) 7

/-- C146, what holds of the last element: it is right for a full array. -/
theorem C146_data_last_partial {a : Array3 S} {cap : Nat} {l : List S} (h : a.HoldsList cap l) (hfull : l.length = cap) (hl : l ≠ []) :
    a.dataLast = .ok (l.getLast hl) := by
  obtain ⟨h1, h2, h3, h4, rest, h5, h6⟩ := h
  have : rest = [] := List.length_eq_zero_iff.1 (by omega)
  subst this
  have hp : 0 < l.length := List.length_pos_iff.2 hl
  have hr : rd (l.map some ++ []) (cap - 1) = .ok (some (l.getLast hl)) := by
    rw [rd_ok_iff, List.append_nil, ← hfull, List.getLast_eq_getElem]
    simp
  rw [Array3.dataLast, Array3.get, h5, h1]
  simp only
  rw [show (cap + 18446744073709551615) % 18446744073709551616 = cap - 1 by omega, hr]
  rfl

example : (Array3.mk (some [some 4, some 9]) 2 (some 2) : Array3 Nat).dataLast = .ok 9 :=
  C146_data_last_partial (cap := 2) (l := [4, 9]) ⟨rfl, rfl, by decide, by decide, [], rfl, rfl⟩ rfl (by decide)

/-- C146: an array declared with `array3_declare_stack` cannot be used as it is: the number of used elements was never set, the first add uses it.
-/
theorem C146_declare_stack_false (n : Nat) (v : S) :
    (Array3.declareStack n : Array3 S).add v = .error .uninitialized ∧ ∃ a, (Array3.declareStack (n + 1) : Array3 S).clear.add v = .ok a := by
  refine ⟨rfl, ?_⟩
  simp [Array3.declareStack, Array3.clear, Array3.add, Array3.usedValue, wr]

/-- The addresses that are not null. -/
def realAddresses (l : List (Option Nat)) : List Nat := l.filterMap id

theorem memregAddAll_spec : ∀ (as before : List (Option Nat)) (k : Nat), as.length ≤ k → before.length + as.length < 4294967296 →
    memregAddAll as ⟨before.map some ++ List.replicate k none, before.length⟩ =
      .ok ⟨(before ++ as).map some ++ List.replicate (k - as.length) none, (before ++ as).length⟩
  | [], before, k, _, _ => by simp [memregAddAll]
  | a :: as, before, k, hk, hl => by
    obtain ⟨k, rfl⟩ : ∃ m, k = m + 1 := ⟨k - 1, by simp at hk; omega⟩
    simp only [List.length_cons] at hk hl
    have e : memregAdd a ⟨before.map some ++ List.replicate (k + 1) none, before.length⟩ =
        .ok ⟨(before ++ [a]).map some ++ List.replicate k none, (before ++ [a]).length⟩ := by
      rw [memregAdd, wr_eq_ok _ (by simp), ok_bind', u32_of_lt (by simp; omega), List.set_append_right _ _ (by simp)]
      simp [List.replicate_succ]
    rw [memregAddAll, e, ok_bind', memregAddAll_spec as (before ++ [a]) k (by omega) (by simp; omega)]
    simp

theorem memregFreeLoop_spec {m0 : Live} (hm : m0.Fresh) (rest : Buf (Option (Option Nat))) : ∀ (as : List (Option Nat)) (others : List Nat) (m : Live)
    (freed : List (Option Nat)), Own m0 m (realAddresses as ++ others) →
    ∃ m', memregFreeLoop (as.map some ++ rest) as.length m freed = .ok (m', freed ++ as.reverse) ∧ Own m0 m' others := by
  intro as
  induction as using List.reverseRecOn generalizing rest with
  | nil => exact fun others m freed h => ⟨m, by simp [memregFreeLoop], by simpa [realAddresses] using h⟩
  | append_singleton as a ih =>
    intro others m freed h
    have hf : ∃ m1, m.free a = .ok m1 ∧ Own m0 m1 (realAddresses as ++ others) := by
      cases a with
      | none => exact ⟨m, rfl, by simpa [realAddresses] using h⟩
      | some x =>
        have h' : Own m0 m (x :: (realAddresses as ++ others)) := h.perm (by
          simp only [realAddresses, List.filterMap_append, List.filterMap_cons, id, List.filterMap_nil, List.append_assoc, List.cons_append, List.nil_append]
          exact List.perm_middle)
        exact h'.free hm
    obtain ⟨m1, e1, h1⟩ := hf
    obtain ⟨m2, e2, h2⟩ := ih (some a :: rest) others m1 (freed ++ [a]) h1
    refine ⟨m2, ?_, h2⟩
    rw [show (as ++ [a]).length = as.length + 1 by simp, memregFreeLoop]
    have hr : rd ((as ++ [a]).map some ++ rest) as.length = .ok (some a) := by
      rw [rd_ok_iff]
      simp
    rw [hr, ok_bind']
    simp only
    rw [e1, ok_bind', show (as ++ [a]).map some ++ rest = as.map some ++ some a :: rest by simp, e2]
    simp

/-- C147: a register with room for all addresses that are added. `memreg_free` gives each to `free`, once, in the reverse order. If they are
null or live allocations, each registered once, then all of these are freed and nothing else (`others` stay), and a second `memreg_free` does nothing.
-/
theorem C147_register {m0 m : Live} (hm : m0.Fresh) {size : Nat} {as : List (Option Nat)} {others : List Nat} (hroom : as.length ≤ size)
    (hlen : as.length < 4294967296) (hown : Own m0 m (realAddresses as ++ others)) :
    ∃ r m' r', memregAddAll as (memregInit size) = .ok r ∧ memregFree r m = .ok (r', m', as.reverse) ∧ Own m0 m' others ∧
      memregFree r' m' = .ok (r', m', []) := by
  have e := memregAddAll_spec as [] size hroom (by simpa using hlen)
  simp only [List.map_nil, List.nil_append, List.length_nil] at e
  obtain ⟨m', e1, h1⟩ := memregFreeLoop_spec hm (List.replicate (size - as.length) none) as others m [] hown
  refine ⟨_, m', ⟨as.map some ++ List.replicate (size - as.length) none, 0⟩, e, ?_, h1, rfl⟩
  rw [memregFree, e1]
  rfl

/-- C147: room is not checked. One address more than the register has room for is written behind it. -/
theorem C147_overflow_false {size : Nat} {as : List (Option Nat)} (hfull : as.length = size) (hlen : size < 4294967296) (a : Option Nat) :
    ∃ r, memregAddAll as (memregInit size) = .ok r ∧ memregAdd a r = .error .outOfBounds := by
  have e := memregAddAll_spec as [] size (by omega) (by simpa [hfull] using hlen)
  simp only [List.map_nil, List.nil_append, List.length_nil] at e
  refine ⟨_, e, ?_⟩
  simp [memregAdd, wr, hfull]

example : ∃ r m' r', memregAddAll [some 0, none, some 1] (memregInit 4) = .ok r ∧
    memregFree r ((Live.mk 0 fun _ => false).malloc.2.malloc.2) = .ok (r', m', [some 1, none, some 0]) ∧
    Own ⟨0, fun _ => false⟩ m' [] ∧ memregFree r' m' = .ok (r', m', []) :=
  C147_register (m0 := ⟨0, fun _ => false⟩) (as := [some 0, none, some 1]) (fun _ _ => rfl) (by decide) (by decide)
    (((Own.mk (by simp) (by simp) le_rfl (by simp) : Own ⟨0, fun _ => false⟩ ⟨0, fun _ => false⟩ []).malloc.malloc).perm (List.Perm.swap _ _ _))

example : ∃ r, memregAddAll [some 3, some 4] (memregInit 2) = .ok r ∧ memregAdd (some 5) r = .error .outOfBounds :=
  C147_overflow_false rfl (by decide) _

end Sp
