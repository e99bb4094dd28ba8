import Verif.Lemmas.Queue

/-! # C35: the queue is first in first out -/

set_option linter.unusedSectionVars false

namespace Sp
variable {R : Type}

/-- An operation on a queue. -/
inductive QOp
  | enq (a : Addr)
  | deq

/-- Specification: the contents and outputs of a first in first out list. `none` if an operation is not allowed:
taking from an empty list, adding what is already contained. -/
def fifoRun : List Addr → List QOp → Option (List Addr × List Addr)
  | l, [] => some (l, [])
  | l, .enq a :: ops => if a ∈ l then none else fifoRun (l ++ [a]) ops
  | [], .deq :: _ => none
  | a :: l, .deq :: ops => (fifoRun l ops).map (fun r => (r.1, a :: r.2))

/-- The operations on the queue in memory. Returns the queue, the memory and what was dequeued. -/
def queueRun : Queue → QMem R → List QOp → C (Queue × QMem R × List Addr)
  | q, m, [] => .ok (q, m, [])
  | q, m, .enq a :: ops => do
    let r ← queueEnq q m a
    queueRun r.1 r.2 ops
  | q, m, .deq :: ops => do
    let r ← queueDeq q m
    let s ← queueRun r.2 m ops
    pure (s.1, s.2.1, r.1 :: s.2.2)

theorem fifo_run_repr (ops : List QOp) (q : Queue) (m : QMem R) (l : List Addr) (h : QRepr q m l)
    (hm : ∀ a, QOp.enq a ∈ ops → (m a).isSome) (hlen : l.length + ops.length < 4294967296) {l' outs : List Addr}
    (hr : fifoRun l ops = some (l', outs)) :
    ∃ q' m', queueRun q m ops = .ok (q', m', outs) ∧ QRepr q' m' l' := by
  induction ops generalizing q m l outs with
  | nil =>
    simp only [fifoRun, Option.some.injEq, Prod.mk.injEq] at hr
    obtain ⟨rfl, rfl⟩ := hr
    exact ⟨q, m, rfl, h⟩
  | cons op ops ih =>
    rw [List.length_cons] at hlen
    cases op with
    | enq a =>
      rw [fifoRun] at hr
      split at hr
      · cases hr
      · next hnot =>
        obtain ⟨x, hx⟩ := Option.isSome_iff_exists.1 (hm a (by simp))
        obtain ⟨q1, m1, e1, r1, k1, _⟩ := queueEnq_repr h hnot (by omega) hx
        obtain ⟨q2, m2, e2, r2⟩ := ih q1 m1 (l ++ [a]) r1 (by
          intro b hb
          have := k1 b
          have h2 := hm b (by simp [hb])
          rw [← Option.isSome_map (f := QNode.rest), this, Option.isSome_map]
          exact h2) (by rw [List.length_append, List.length_singleton]; omega) hr
        refine ⟨q2, m2, ?_, r2⟩
        rw [queueRun, e1, ok_bind', e2]
    | deq =>
      cases l with
      | nil => simp [fifoRun] at hr
      | cons a l =>
        rw [fifoRun, Option.map_eq_some_iff] at hr
        obtain ⟨⟨l1, o1⟩, h1, h2⟩ := hr
        simp only [Prod.mk.injEq] at h2
        obtain ⟨rfl, rfl⟩ := h2
        rw [List.length_cons] at hlen
        obtain ⟨q1, e1, r1⟩ := queueDeq_repr h (by omega)
        obtain ⟨q2, m2, e2, r2⟩ := ih q1 m l r1 (fun b hb => hm b (by simp [hb])) (by omega) h1
        refine ⟨q2, m2, ?_, r2⟩
        rw [queueRun, e1, ok_bind']
        simp only
        rw [e2]
        rfl

/-- C35: any allowed sequence of operations on an initialised queue dequeues what a first in first out list
gives, and the size is the number of contained nodes. Nodes are allocated. -/
theorem C35_fifo (ops : List QOp) (m : QMem R) (hm : ∀ a, QOp.enq a ∈ ops → (m a).isSome)
    (hlen : ops.length < 4294967296) {l outs : List Addr} (hr : fifoRun [] ops = some (l, outs)) :
    ∃ q m', queueRun queueInit m ops = .ok (q, m', outs) ∧ q.size = l.length := by
  obtain ⟨q, m', h1, h2⟩ := fifo_run_repr ops queueInit m [] (QRepr.init m) hm (by simpa using hlen) hr
  exact ⟨q, m', h1, h2.size⟩

/-- An allowed sequence: with the queue becoming empty in between, and a node used again. -/
example : fifoRun [] [.enq 1, .deq, .enq 2, .enq 1, .enq 3, .deq] = some ([1, 3], [1, 2]) := by decide

example : ∃ q m', queueRun queueInit (fun _ => some ⟨none, ()⟩) [.enq 1, .deq, .enq 2, .enq 1, .enq 3, .deq]
    = .ok (q, m', [1, 2]) ∧ q.size = 2 :=
  C35_fifo [.enq 1, .deq, .enq 2, .enq 1, .enq 3, .deq] (fun _ => some ⟨none, ()⟩) (by simp) (by decide)
    (l := [1, 3]) (outs := [1, 2]) (by decide)

end Sp
