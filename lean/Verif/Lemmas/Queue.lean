import Verif.Model.Queue
import Mathlib.Data.List.Nodup

/-! # The queue represents a list -/

namespace Sp
variable {R : Type}

/-- The queue contains the nodes `l` in order. -/
structure QRepr (q : Queue) (m : QMem R) (l : List Addr) : Prop where
  size : q.size = l.length
  first : q.first = l[0]?
  last : q.last = l.getLast?
  nodup : l.Nodup
  chain : ∀ i, (h : i < l.length) → ∃ x, m l[i] = some x ∧ x.next = l[i + 1]?

theorem QRepr.init (m : QMem R) : QRepr queueInit m [] :=
  ⟨rfl, rfl, rfl, List.nodup_nil, fun i h => absurd h (by simp)⟩

/-- Changes of the memory that keep the `next` pointers of the contained nodes. -/
theorem QRepr.congr {q : Queue} {m m' : QMem R} {l : List Addr} (h : QRepr q m l)
    (hm : ∀ a ∈ l, (m' a).map QNode.next = (m a).map QNode.next) : QRepr q m' l := by
  refine ⟨h.size, h.first, h.last, h.nodup, fun i hi => ?_⟩
  obtain ⟨x, h1, h2⟩ := h.chain i hi
  have := hm _ (List.getElem_mem hi)
  rw [h1] at this
  cases h3 : m' l[i] with
  | none => rw [h3] at this; simp at this
  | some y =>
    rw [h3] at this
    simp only [Option.map_some, Option.some.injEq] at this
    exact ⟨y, rfl, by rw [this, h2]⟩

theorem setNext_eq {m : QMem R} {a : Addr} {p : Option Addr} {x : QNode R} (h : m a = some x) :
    m.setNext a p = .ok (fun b => if b = a then some { x with next := p } else m b) := by
  simp [QMem.setNext, h]

/-- Enqueueing adds to the end. The memory is only changed in `next` fields of contained nodes and the new one. -/
theorem queueEnq_repr {q : Queue} {m : QMem R} {l : List Addr} (h : QRepr q m l) {node : Addr} (hn : node ∉ l)
    (hl : l.length + 1 < 4294967296) {x : QNode R} (hx : m node = some x) :
    ∃ q' m', queueEnq q m node = .ok (q', m') ∧ QRepr q' m' (l ++ [node]) ∧
      (∀ a, (m' a).map QNode.rest = (m a).map QNode.rest) ∧
      (∀ a, a ∉ l → a ≠ node → m' a = m a) := by
  have hsz : u32 (1 + q.size) = (l ++ [node]).length := by
    rw [h.size, u32_of_lt (by omega), List.length_append, List.length_singleton, Nat.add_comm]
  rcases List.eq_nil_or_concat l with rfl | ⟨l', z, rfl⟩
  · have hf : q.first = none := by rw [h.first]; rfl
    refine ⟨{ size := u32 (1 + q.size), first := some node, last := some node },
      fun b => if b = node then some { x with next := none } else m b, ?_, ?_, ?_, ?_⟩
    · rw [queueEnq, hf]
      simp only
      rw [setNext_eq hx, ok_bind']
      rfl
    · refine ⟨hsz, rfl, rfl, by simp, fun i hi => ?_⟩
      have hi0 : i = 0 := by simpa using hi
      subst hi0
      exact ⟨{ x with next := none }, by simp, rfl⟩
    · intro a
      by_cases e : a = node
      · subst e; simp [hx]
      · simp [e]
    · intro a _ h2
      simp [h2]
  · rw [List.concat_eq_append] at *
    have hf : q.first = some ((l' ++ [z])[0]) := by
      rw [h.first, List.getElem?_eq_getElem (by simp)]
    have hlast : q.last = some z := by rw [h.last]; simp
    have hzn : z ≠ node := by rintro rfl; exact hn (by simp)
    obtain ⟨y, hy, hyn⟩ := h.chain l'.length (by simp)
    simp only [List.getElem_concat_length] at hy
    have hx' : (fun b => if b = z then some { y with next := some node } else m b) node = some x := by
      simp [Ne.symm hzn, hx]
    refine ⟨{ size := u32 (1 + q.size), first := q.first, last := some node },
      fun b => if b = node then some { x with next := none } else
      (fun b => if b = z then some { y with next := some node } else m b) b, ?_, ?_, ?_, ?_⟩
    · rw [queueEnq, hf, hlast]
      simp only [derefNode, ok_bind']
      rw [setNext_eq hy, ok_bind', setNext_eq hx', ok_bind']
      rfl
    · refine ⟨hsz, ?_, by simp, ?_, ?_⟩
      · change q.first = _ 
        rw [h.first, List.getElem?_append_left (l₁ := l' ++ [z]) (l₂ := [node]) (by simp)]
      · rw [List.nodup_append]
        refine ⟨h.nodup, by simp, ?_⟩
        intro a ha b hb
        simp only [List.mem_singleton] at hb
        rintro rfl
        exact hn (hb ▸ ha)
      · intro i hi
        have hi' : i < l'.length + 2 := by simpa using hi
        by_cases e1 : i = l'.length + 1
        · subst e1
          refine ⟨{ x with next := none }, ?_, ?_⟩
          · simp
          · simp
        · by_cases e2 : i = l'.length
          · subst e2
            refine ⟨{ y with next := some node }, ?_, ?_⟩
            · simp [hzn]
            · simp
          · have hil : i < l'.length := by omega
            obtain ⟨w, w1, w2⟩ := h.chain i (by simp; omega)
            refine ⟨w, ?_, ?_⟩
            · have hne1 : (l' ++ [z])[i]'(by simp; omega) ≠ node := by
                intro e
                exact hn (e ▸ List.getElem_mem _)
              have hne2 : (l' ++ [z])[i]'(by simp; omega) ≠ z := by
                intro e
                have h3 : (l' ++ [z])[l'.length]'(by simp) = z := by simp
                have := (List.Nodup.getElem_inj_iff h.nodup).1 (e.trans h3.symm)
                omega
              rw [List.getElem_append_left (show i < (l' ++ [z]).length by simp; omega)]
              simp only [hne1, hne2, if_false]
              exact w1
            · rw [w2, List.getElem?_append_left (l₁ := l' ++ [z]) (l₂ := [node]) (by simp; omega)]
    · intro a
      by_cases e : a = node
      · subst e; simp [hx]
      · by_cases e2 : a = z
        · subst e2; simp [hy, e]
        · simp [e, e2]
    · intro a h1 h2
      have : a ≠ z := by rintro rfl; exact h1 (by simp)
      simp [h2, this]

/-- Dequeueing takes the first. -/
theorem queueDeq_repr {q : Queue} {m : QMem R} {a : Addr} {l : List Addr} (h : QRepr q m (a :: l))
    (hl : l.length + 1 < 4294967296) : ∃ q', queueDeq q m = .ok (a, q') ∧ QRepr q' m l := by
  obtain ⟨x, hx, hxn⟩ := h.chain 0 (by simp)
  simp only [List.getElem_cons_zero, List.getElem?_cons_succ] at hx hxn
  have hf : q.first = some a := by rw [h.first]; rfl
  have hsz : sub32 q.size 1 = l.length := by
    rw [h.size, List.length_cons, sub32_of_le (by omega) hl]
    omega
  have hchain : ∀ i, (hi : i < l.length) → ∃ x, m l[i] = some x ∧ x.next = l[i + 1]? := by
    intro i hi
    obtain ⟨y, y1, y2⟩ := h.chain (i + 1) (by simpa using hi)
    exact ⟨y, by simpa using y1, by simpa using y2⟩
  have hnd := (List.nodup_cons.1 h.nodup).2
  rw [queueDeq, hf]
  simp only [derefNode, ok_bind', QMem.load, hx]
  cases l with
  | nil =>
    have : x.next.isNone = true := by rw [hxn]; rfl
    rw [this]
    exact ⟨_, rfl, hsz, hxn, rfl, hnd, hchain⟩
  | cons b l =>
    have : x.next.isNone = false := by rw [hxn]; rfl
    rw [this]
    exact ⟨_, rfl, hsz, hxn, by simpa using h.last, hnd, hchain⟩

end Sp
