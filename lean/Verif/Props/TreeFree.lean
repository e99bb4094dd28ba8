import Verif.Model.MapEvent
import Verif.Props.EventTree

/-!
# C109: freeing trees of events
-/

set_option linter.unusedSectionVars false

namespace Sp
variable {L D K W : Type}

/-- A tree of depth at most `d` whose groups have begun to play, that is, have been prepared, so that their free function is set.
The last argument is the list of all leaf events in it that have a free function. -/
inductive Begun (fuel : Nat) : Nat → Event (Tree L) → List (Event L) → Prop
  | leaf {d : Nat} {e : Event (Tree L)} {l : L} (he : e.data = .leaf l) :
      Begun fuel d e (if e.hasFree then [e.withData l] else [])
  | group {d : Nat} {e : Event (Tree L)} {heap : Heap (Event (Tree L))} {head : Option Addr} {l : List (Addr × Event (Tree L))}
      {leafs : Addr → List (Event L)} (he : e.data = .group heap head) (hwf : WellFormed heap head l) (hlen : l.length < fuel)
      (hfree : e.hasFree = true) (h : ∀ x ∈ l, Begun fuel d x.2 (leafs x.1)) :
      Begun fuel (d + 1) e (l.flatMap fun x => leafs x.1)

theorem freeList_trace {cb : Callbacks D (List W)} {l : List (Addr × Event D)} {f : Addr → List W}
    (h : ∀ x ∈ l, ∀ w, ∃ log, eventFree cb x.1 x.2 w = .ok (w ++ f x.1, log)) (w : List W) :
    ∃ log, freeList cb l w = .ok (w ++ l.flatMap (fun x => f x.1), log) := by
  induction l generalizing w with
  | nil => exact ⟨[], by simp [freeList]⟩
  | cons y rest ih =>
    obtain ⟨a, e⟩ := y
    obtain ⟨log0, e0⟩ := h (a, e) (by simp) w
    obtain ⟨log, e1⟩ := ih (fun x hx => h x (by simp [hx])) (w ++ f a)
    unfold freeList
    simp only at e0
    rw [e0, ok_bind']
    simp only
    rw [e1, ok_bind']
    refine ⟨log0 ++ [Call.release a] ++ log, ?_⟩
    simp only [List.flatMap_cons, List.append_assoc]
    rfl

theorem groupFree_trace {cb : Callbacks (Tree L) (List W)} {fuel : Nat}
    {l : List (Addr × Event (Tree L))} {heap : Heap (Event (Tree L))} {head : Option Addr} {f : Addr → List W}
    (hwf : WellFormed heap head l) (hf : l.length < fuel)
    (h : ∀ x ∈ l, ∀ w, ∃ log, eventFree cb x.1 x.2 w = .ok (w ++ f x.1, log)) (w : List W) :
    groupFree cb fuel heap head w = .ok (w ++ l.flatMap fun x => f x.1) := by
  obtain ⟨log, e⟩ := freeList_trace h w
  have hr := seqFreeLoop_refines cb l ⟨heap, head, w, []⟩ none head fuel hf hwf.1 hwf.2
  simp only at hr
  rw [e] at hr
  obtain ⟨heap', h1, _⟩ := hr
  unfold groupFree
  rw [h1]
  rfl

/-- **C109, partial.** Freeing an event that is a tree of any depth whose groups have begun calls the free functions of all its leaf
events, each once, in order. The world is the list of the free function calls of leaf events. Missing: groups that have not begun. -/
theorem C109_begun_freed_partial {leaf : Callbacks L (List (Event L))} (hleaf : ∀ e w, leaf.free e w = .ok (w ++ [e])) {fuel d : Nat}
    {e : Event (Tree L)} {leafs : List (Event L)} (h : Begun fuel d e leafs) (a : Addr) (w : List (Event L)) :
    ∃ log, eventFree (treeCb leaf fuel (d + 1)) a e w = .ok (w ++ leafs, log) := by
  induction h generalizing a w with
  | @leaf d e l he =>
    unfold eventFree
    split
    · refine ⟨[.free a], ?_⟩
      show (do
        let w ← (match e.data with
          | .leaf l => leaf.free (e.withData l) w
          | .group heap head => groupFree (treeCb leaf fuel d) fuel heap head w)
        return (w, [Call.free a])) = _
      rw [he]
      simp only [hleaf, ok_bind']
      rfl
    · exact ⟨[], by rw [List.append_nil]⟩
  | @group d e heap head l leafs he hwf hlen hfree h ih =>
    refine ⟨[.free a], ?_⟩
    unfold eventFree
    rw [if_pos hfree]
    show (do
      let w ← (match e.data with
        | .leaf l => leaf.free (e.withData l) w
        | .group heap head => groupFree (treeCb leaf fuel (d + 1)) fuel heap head w)
      return (w, [Call.free a])) = _
    rw [he]
    simp only
    rw [groupFree_trace hwf hlen (f := leafs) (fun x hx w => ih x hx x.1 w) w, ok_bind']
    rfl

/-- `sp_event_list_free` for lists of such trees. -/
theorem C109_list_freed_partial {leaf : Callbacks L (List (Event L))} (hleaf : ∀ e w, leaf.free e w = .ok (w ++ [e])) {fuel d : Nat}
    {heap : Heap (Event (Tree L))} {head : Option Addr} {l : List (Addr × Event (Tree L))} (hwf : WellFormed heap head l)
    (hlen : l.length < fuel) {leafs : Addr → List (Event L)} (h : ∀ x ∈ l, Begun fuel d x.2 (leafs x.1)) (w : List (Event L)) :
    ∃ s, seqFreeLoop (treeCb leaf fuel (d + 1)) fuel ⟨heap, head, w, []⟩ head = .ok s ∧ s.world = w ++ l.flatMap (fun x => leafs x.1) ∧
      ∀ x ∈ l, s.heap x.1 = none := by
  obtain ⟨log, e⟩ := freeList_trace (fun x hx w => C109_begun_freed_partial hleaf (h x hx) x.1 w) w
  have hr := seqFreeLoop_refines (treeCb leaf fuel (d + 1)) l ⟨heap, head, w, []⟩ none head fuel hlen hwf.1 hwf.2
  simp only at hr
  rw [e] at hr
  obtain ⟨heap', h1, h2, _⟩ := hr
  exact ⟨_, h1, rfl, fun x hx => h2 x.1 (List.mem_map.2 ⟨x, hx, rfl⟩)⟩

/-- Leaf events for the examples: events with data 0 fail to generate. -/
def traceCb : Callbacks Nat (List (Event Nat)) where
  prepare e w := .ok (0, e, w)
  generate _ _ _ e w := .ok (if e.data = 0 then 5 else 0, e, w)
  free e w := .ok (w ++ [e])

/-- A group at time 4 with two leaf events that have a free function, for example because `sp_event_memory_add` was called. -/
def traceGroup (prep hasFree : Bool) : Event (Tree Nat) where
  start := 4
  stop := 9
  prep := prep
  hasFree := hasFree
  data := .group (fun b => if b = 7 then some ⟨none, some 8, ⟨0, 2, true, true, .leaf 1⟩⟩
    else if b = 8 then some ⟨some 7, none, ⟨2, 5, true, true, .leaf 2⟩⟩ else none) (some 7)

theorem traceGroup_begun : Begun 9 1 (traceGroup false true) [⟨0, 2, true, true, 1⟩, ⟨2, 5, true, true, 2⟩] := by
  refine .group (l := [(7, ⟨0, 2, true, true, .leaf 1⟩), (8, ⟨2, 5, true, true, .leaf 2⟩)])
    (leafs := fun a => if a = 7 then [⟨0, 2, true, true, 1⟩] else [⟨2, 5, true, true, 2⟩]) rfl
    ⟨⟨rfl, some 8, rfl, rfl, none, rfl, rfl⟩, by simp⟩ (by simp) rfl ?_
  intro x hx
  simp only [List.mem_cons, List.not_mem_nil, or_false] at hx
  rcases hx with rfl | rfl
  · exact .leaf (e := ⟨0, 2, true, true, .leaf 1⟩) rfl
  · exact .leaf (e := ⟨2, 5, true, true, .leaf 2⟩) rfl

/-- Non-vacuity. -/
example : ∃ log, eventFree (treeCb traceCb 9 2) 3 (traceGroup false true) [] =
    .ok ([⟨0, 2, true, true, 1⟩, ⟨2, 5, true, true, 2⟩], log) :=
  C109_begun_freed_partial (leaf := traceCb) (fun _ _ => rfl) traceGroup_begun 3 []

/-- **C109 is false for groups that have not begun**: their free function is not yet set, so that freeing does nothing, whatever the
group contains. -/
theorem C109_not_begun_leak {leaf : Callbacks L W} {fuel d : Nat} {e : Event (Tree L)} (h : e.hasFree = false) (a : Addr) (w : W) :
    eventFree (treeCb leaf fuel d) a e w = .ok (w, []) := by
  unfold eventFree
  rw [if_neg (by simp [h])]

/-- The consequence for rendering: the first event fails, `sp_seq` returns the error and frees the list, but the free functions of the events in
the group, which was to begin later, are not called. If the group has begun they are. -/
theorem C109_render_failure_leak :
    (seq (treeCb traceCb 9 2) 9 0 3 0 ⟨fun b => if b = 1 then some ⟨none, some 2, ⟨0, 3, true, true, .leaf 0⟩⟩
      else if b = 2 then some ⟨some 1, none, traceGroup true false⟩ else none, some 1, [], []⟩).map
        (fun r => (r.1, r.2.world.map (·.data), r.2.head)) = .ok (5, [0], none) ∧
    (seq (treeCb traceCb 9 2) 9 0 3 0 ⟨fun b => if b = 1 then some ⟨none, some 2, ⟨0, 3, true, true, .leaf 0⟩⟩
      else if b = 2 then some ⟨some 1, none, traceGroup false true⟩ else none, some 1, [], []⟩).map
        (fun r => (r.1, r.2.world.map (·.data), r.2.head)) = .ok (5, [0, 1, 2], none) := by
  constructor <;> rfl

/-- **C109, map events.** After a successful `sp_map_event_prepare`, freeing the map event calls the free function of the wrapped event, once
and exactly if it has one. -/
theorem C109_map_freed {cb : Callbacks D W} {cb' : Callbacks (MapConfig D K) W} (hfree : cb'.free = mapFree cb)
    {e e' : Event (MapConfig D K)} {w w' : W} (hp : mapPrepare cb e w = .ok (0, e', w')) (a b : Addr) (v : W) :
    (eventFree cb' a e' v).map Prod.fst = (eventFree cb b e'.data.event v).map Prod.fst := by
  have hf : e'.hasFree = true := by
    unfold mapPrepare at hp
    split at hp
    · rw [bind_eq_ok] at hp
      obtain ⟨⟨st, i, w1⟩, _, hp⟩ := hp
      simp only at hp
      split at hp
      · next hst =>
        exact absurd (Prod.mk.inj (Except.ok.inj hp)).1 hst
      · have := (Prod.mk.inj (Prod.mk.inj (Except.ok.inj hp)).2).1
        rw [← this]
    · have := (Prod.mk.inj (Prod.mk.inj (Except.ok.inj hp)).2).1
      rw [← this]
  unfold eventFree
  rw [if_pos hf, hfree, mapFree]
  split
  · cases cb.free e'.data.event v <;> rfl
  · rfl

/-- Non-vacuity: a map event around a leaf. -/
example : mapPrepare traceCb (⟨0, 4, true, false, ⟨⟨0, 4, true, true, 6⟩, ()⟩⟩ : Event (MapConfig Nat Unit)) [] =
      .ok (0, ⟨0, 4, true, true, ⟨⟨0, 4, false, true, 6⟩, ()⟩⟩, []) ∧
    mapFree traceCb (⟨0, 4, true, true, ⟨⟨0, 4, false, true, 6⟩, ()⟩⟩ : Event (MapConfig Nat Unit)) [] = .ok [⟨0, 4, false, true, 6⟩] :=
  ⟨rfl, rfl⟩

/-- **C109 is false for map events that could not be prepared**: if the prepare function of the wrapped event fails, whatever that event has
registered before is not freed, as the map event has no free function. -/
theorem C109_map_failure_leak {cb : Callbacks D W} {cb' : Callbacks (MapConfig D K) W} (hprep : cb'.prepare = mapPrepare cb)
    {e : Event (MapConfig D K)} (he : e.prep = true) (hf : e.hasFree = false) (hi : e.data.event.prep = true) {w w' : W} {st : Nat}
    {i : Event D} (hst : st ≠ 0) (h : cb.prepare e.data.event w = .ok (st, i, w')) (a : Addr) :
    ∃ e' log, prepareOptional cb' a e w = .ok (st, e', w', log) ∧ ∀ e'', (e'' = e' ∨ e'' = { e with data := { e.data with event := i } }) →
      ∀ v, eventFree cb' a e'' v = .ok (v, []) := by
  refine ⟨e, [.prepare a st], ?_, ?_⟩
  · unfold prepareOptional
    rw [if_pos he, hprep, mapPrepare, if_pos hi, h, ok_bind']
    simp only
    rw [if_pos hst]
    simp only [pure_eq_ok, ok_bind']
    rw [if_pos hst]
  · rintro e'' (rfl | rfl) v
    · unfold eventFree
      rw [if_neg (by simp [hf])]
    · unfold eventFree
      simp only
      rw [if_neg (by simp [hf])]

end Sp
