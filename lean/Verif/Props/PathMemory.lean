import Verif.Model.PathMemory

/-!
# C130 The memory of paths inside of paths
-/

set_option linter.unusedSectionVars false

namespace Sp

/-- What a program wants to build: the segments of a path, some of which are paths. `ok` tells if the allocation for the segment succeeds. -/
inductive PathPlan
  | nil
  | plain (rest : PathPlan)
  | path (ok : Bool) (inner rest : PathPlan)

/-- A program that builds the paths: contained paths are built and set first, then a segment is made of each. The result has the segments, all
contained paths at any depth, and the memory. -/
def PathPlan.build : PathPlan → Live → C (MSegs × List MSegs × Live)
  | .nil, m => .ok (.nil, [], m)
  | .plain rest, m => do
    let (segs, paths, m) ← rest.build m
    pure (.plain segs, paths, m)
  | .path ok inner rest, m => do
    let (isegs, ipaths, m) ← inner.build m
    isegs.set m
    let (seg, m) := splinePathPath ok isegs m
    let (segs, paths, m) ← rest.build m
    pure (seg segs, isegs :: ipaths ++ paths, m)

/-- `spline_path_free` for each path of a list. -/
def freeAll (m : Live) : List MSegs → C Live
  | [] => .ok m
  | p :: rest => do
    let m ← p.free m
    freeAll m rest

/-- Addresses that have not been allocated yet are not live. -/
def Live.Unused (m : Live) : Prop := ∀ a, m.live a → a < m.next

/-- The data that the segments of a path own. -/
def MSegs.own : MSegs → List Nat
  | .nil => []
  | .plain rest => rest.own
  | .path data _ rest => data :: rest.own

/-- All data in a path, at any depth. -/
def MSegs.deep : MSegs → List Nat
  | .nil => []
  | .plain rest => rest.deep
  | .path data inner rest => data :: (inner.deep ++ rest.deep)

theorem MSegs.own_deep (s : MSegs) : ∀ a ∈ s.own, a ∈ s.deep := by
  induction s with
  | nil => intro a h; exact h
  | plain rest ih => exact ih
  | path d i r _ ih =>
    intro a h
    rw [own, List.mem_cons] at h
    rw [deep, List.mem_cons, List.mem_append]
    rcases h with h | h
    · exact .inl h
    · exact .inr (.inr (ih a h))

theorem MSegs.set_ok {m : Live} {s : MSegs} (h : ∀ a ∈ s.own, m.live a = true) : s.set m = .ok () := by
  induction s with
  | nil => rfl
  | plain rest ih => exact ih h
  | path d i r _ ih =>
    rw [set, if_pos (h d (by simp [own]))]
    exact ih fun a ha => h a (by simp [own, ha])

theorem MSegs.get_ok {m : Live} {s : MSegs} (h : ∀ a ∈ s.deep, m.live a = true) : s.get m = .ok () := by
  induction s with
  | nil => rfl
  | plain rest ih => exact ih h
  | path d i r ihi ih =>
    rw [get, if_pos (h d (by simp [deep])), ihi fun a ha => h a (by simp [deep, ha])]
    exact ih fun a ha => h a (by simp [deep, ha])

/-- `free` for each address of a list. -/
def freeAddrs (m : Live) : List Nat → C Live
  | [] => .ok m
  | a :: rest => do
    let m ← m.free (some a)
    freeAddrs m rest

theorem freeAddrs_append (m : Live) (a b : List Nat) : freeAddrs m (a ++ b) = (freeAddrs m a >>= fun m => freeAddrs m b) := by
  induction a generalizing m with
  | nil => rfl
  | cons x a ih =>
    rw [List.cons_append, freeAddrs, freeAddrs]
    cases h : m.free (some x) with
    | error e => rfl
    | ok m' => simp only [ok_bind']; exact ih m'

theorem MSegs.free_eq (m : Live) (s : MSegs) : s.free m = freeAddrs m s.own := by
  induction s generalizing m with
  | nil => rfl
  | plain rest ih => exact ih m
  | path d i r _ ih =>
    rw [free, own, freeAddrs]
    cases h : m.free (some d) with
    | error e => rfl
    | ok m' => simp only [ok_bind']; exact ih m'

theorem freeAll_eq (m : Live) (l : List MSegs) : freeAll m l = freeAddrs m (l.flatMap MSegs.own) := by
  induction l generalizing m with
  | nil => rfl
  | cons p l ih =>
    rw [freeAll, List.flatMap_cons, freeAddrs_append, MSegs.free_eq]
    simp only [ih]

theorem freeAddrs_ok {l : List Nat} (hn : l.Nodup) {m : Live} (h : ∀ a ∈ l, m.live a = true) :
    ∃ m', freeAddrs m l = .ok m' ∧ ∀ a, m'.live a = (m.live a && !decide (a ∈ l)) := by
  induction l generalizing m with
  | nil => exact ⟨m, rfl, fun a => by simp⟩
  | cons x l ih =>
    rw [List.nodup_cons] at hn
    obtain ⟨m', h1, h2⟩ := ih hn.2 (m := { m with live := fun b => if b = x then false else m.live b }) fun a ha => by
      have : a ≠ x := fun e => hn.1 (e ▸ ha)
      simp [this, h a (by simp [ha])]
    refine ⟨m', ?_, fun a => ?_⟩
    · rw [freeAddrs, Live.free, if_pos (h x (by simp))]
      exact h1
    · rw [h2]
      by_cases c : a = x
      · subst c; simp
      · simp [c]

theorem nodup_append_disjoint {a b : List Nat} : (a ++ b).Nodup ↔ a.Nodup ∧ b.Nodup ∧ ∀ x, x ∈ a → x ∈ b → False := by
  rw [List.nodup_append]
  exact ⟨fun ⟨h1, h2, h3⟩ => ⟨h1, h2, fun x ha hb => h3 x ha x hb rfl⟩, fun ⟨h1, h2, h3⟩ => ⟨h1, h2, fun x ha y hb e => h3 x ha (e ▸ hb)⟩⟩

/-- What building gives. -/
structure Built (m : Live) (segs : MSegs) (paths : List MSegs) (m' : Live) : Prop where
  fresh : m'.Unused
  next : m.next ≤ m'.next
  live : ∀ a, m'.live a = (m.live a || decide (a ∈ (segs :: paths).flatMap MSegs.own))
  bounds : ∀ a ∈ (segs :: paths).flatMap MSegs.own, m.next ≤ a ∧ a < m'.next
  nodup : ((segs :: paths).flatMap MSegs.own).Nodup
  deep : ∀ a ∈ segs.deep, a ∈ (segs :: paths).flatMap MSegs.own

theorem PathPlan.build_ok (t : PathPlan) {m : Live} (hm : m.Unused) :
    ∃ segs paths m', t.build m = .ok (segs, paths, m') ∧ Built m segs paths m' := by
  induction t generalizing m with
  | nil => exact ⟨.nil, [], m, rfl, hm, le_refl _, fun a => by simp [MSegs.own], by simp [MSegs.own], by simp [MSegs.own], by simp [MSegs.deep]⟩
  | plain rest ih =>
    obtain ⟨segs, paths, m', h1, h2⟩ := ih hm
    refine ⟨.plain segs, paths, m', ?_, h2.fresh, h2.next, h2.live, h2.bounds, h2.nodup, h2.deep⟩
    rw [build, h1]
    rfl
  | path ok inner rest ihi ih =>
    obtain ⟨isegs, ipaths, m1, h1, b1⟩ := ihi hm
    have hset : isegs.set m1 = .ok () := MSegs.set_ok fun a ha => by
      rw [b1.live]
      simp [ha]
    cases ok with
    | false =>
      obtain ⟨segs, paths, m2, h2, b2⟩ := ih b1.fresh
      refine ⟨.plain segs, isegs :: ipaths ++ paths, m2, ?_, b2.fresh, le_trans b1.next b2.next, fun a => ?_, fun a ha => ?_, ?_, fun a ha => ?_⟩
      · rw [build, h1]
        simp only [ok_bind', hset]
        rw [show splinePathPath false isegs m1 = (.plain, m1) from rfl]
        simp only [h2, ok_bind']
        rfl
      · rw [b2.live, b1.live]
        simp only [List.flatMap_cons, List.mem_append, List.cons_append, List.flatMap_append, MSegs.own]
        simp only [Bool.or_assoc, ← Bool.decide_or]
        congr 1
        apply decide_eq_decide.2
        tauto
      · simp only [List.flatMap_cons, List.mem_append, List.cons_append, List.flatMap_append, MSegs.own] at ha
        have n1 := b1.next
        have n2 := b2.next
        have c1 := b1.bounds a
        have c2 := b2.bounds a
        simp only [List.flatMap_cons, List.mem_append] at c1 c2
        rcases ha with ha | ha | ha | ha
        · have := c2 (.inl ha); omega
        · have := c1 (.inl ha); omega
        · have := c1 (.inr ha); omega
        · have := c2 (.inr ha); omega
      · have : (MSegs.plain segs :: (isegs :: ipaths ++ paths)).flatMap MSegs.own =
            segs.own ++ ((isegs :: ipaths).flatMap MSegs.own ++ paths.flatMap MSegs.own) := by
          simp [MSegs.own]
        rw [this]
        have n2 := b2.nodup
        rw [List.flatMap_cons, nodup_append_disjoint] at n2
        rw [nodup_append_disjoint, nodup_append_disjoint]
        refine ⟨n2.1, ⟨b1.nodup, n2.2.1, ?_⟩, ?_⟩
        · intro a h1 h2
          have := b1.bounds a h1
          have := b2.bounds a (by simp only [List.flatMap_cons, List.mem_append]; exact .inr h2)
          omega
        · intro a h1 h2
          rw [List.mem_append] at h2
          rcases h2 with h2 | h2
          · have := b1.bounds a h2
            have := b2.bounds a (by simp only [List.flatMap_cons, List.mem_append]; exact .inl h1)
            omega
          · exact n2.2.2 a h1 h2
      · have := b2.deep a ha
        simp only [List.flatMap_cons, List.mem_append, List.cons_append, List.flatMap_append, MSegs.own] at this ⊢
        tauto
    | true =>
      have hf : m1.malloc.2.Unused := by
        intro a ha
        simp only [Live.malloc] at ha ⊢
        by_cases c : a = m1.next
        · omega
        · rw [if_neg c] at ha
          have := b1.fresh a ha
          omega
      obtain ⟨segs, paths, m2, h2, b2⟩ := ih hf
      have hn : m1.malloc.2.next = m1.next + 1 := rfl
      have nn := b2.next
      rw [hn] at nn
      refine ⟨.path m1.next isegs segs, isegs :: ipaths ++ paths, m2, ?_, b2.fresh, by have := b1.next; omega, fun a => ?_, fun a ha => ?_, ?_,
        fun a ha => ?_⟩
      · rw [build, h1]
        simp only [ok_bind', hset]
        rw [show splinePathPath true isegs m1 = (.path m1.next isegs, m1.malloc.2) from rfl]
        simp only [h2, ok_bind']
        rfl
      · rw [b2.live]
        have : m1.malloc.2.live a = (m1.live a || decide (a = m1.next)) := by
          simp only [Live.malloc]
          by_cases c : a = m1.next <;> simp [c]
        rw [this, b1.live]
        simp only [List.flatMap_cons, List.mem_append, List.cons_append, List.flatMap_append, MSegs.own, List.mem_cons]
        simp only [Bool.or_assoc, ← Bool.decide_or]
        congr 1
        apply decide_eq_decide.2
        tauto
      · simp only [List.flatMap_cons, List.mem_append, List.cons_append, List.flatMap_append, MSegs.own, List.mem_cons] at ha
        have n1 := b1.next
        have c1 := b1.bounds a
        have c2 := b2.bounds a
        simp only [List.flatMap_cons, List.mem_append] at c1 c2
        rw [hn] at c2
        rcases ha with ha | ha | ha | ha | ha
        · omega
        · have := c2 (.inl ha); omega
        · have := c1 (.inl ha); omega
        · have := c1 (.inr ha); omega
        · have := c2 (.inr ha); omega
      · have : (MSegs.path m1.next isegs segs :: (isegs :: ipaths ++ paths)).flatMap MSegs.own =
            m1.next :: (segs.own ++ ((isegs :: ipaths).flatMap MSegs.own ++ paths.flatMap MSegs.own)) := by
          simp [MSegs.own]
        rw [this]
        have n2 := b2.nodup
        rw [List.flatMap_cons, nodup_append_disjoint] at n2
        rw [List.nodup_cons, nodup_append_disjoint, nodup_append_disjoint]
        have c2 := b2.bounds
        rw [hn] at c2
        refine ⟨?_, n2.1, ⟨b1.nodup, n2.2.1, ?_⟩, ?_⟩
        · intro h
          rw [List.mem_append, List.mem_append] at h
          rcases h with h | h | h
          · have := c2 m1.next (by simp only [List.flatMap_cons, List.mem_append]; exact .inl h); omega
          · have := b1.bounds m1.next h; omega
          · have := c2 m1.next (by simp only [List.flatMap_cons, List.mem_append]; exact .inr h); omega
        · intro a h1 h2
          have := b1.bounds a h1
          have := c2 a (by simp only [List.flatMap_cons, List.mem_append]; exact .inr h2)
          omega
        · intro a h1 h2
          rw [List.mem_append] at h2
          rcases h2 with h2 | h2
          · have := b1.bounds a h2
            have := c2 a (by simp only [List.flatMap_cons, List.mem_append]; exact .inl h1)
            omega
          · exact n2.2.2 a h1 h2
      · rw [MSegs.deep, List.mem_cons, List.mem_append] at ha
        have d1 := b1.deep a
        have d2 := b2.deep a
        simp only [List.flatMap_cons, List.mem_append, List.cons_append, List.flatMap_append, MSegs.own, List.mem_cons] at d1 d2 ⊢
        tauto

/-- **C130**: whatever paths a program builds inside of each other, to any depth and with any failed allocations, setting and reading the outermost
path is safe, and freeing each path once, in any order, releases all memory that was allocated for them, each allocation once. -/
theorem C130_free (t : PathPlan) {m : Live} (hm : m.Unused) :
    ∃ segs paths m1, t.build m = .ok (segs, paths, m1) ∧ segs.set m1 = .ok () ∧ segs.get m1 = .ok () ∧
      ∀ order, order.Perm (segs :: paths) → ∃ m2, freeAll m1 order = .ok m2 ∧ m2.live = m.live := by
  obtain ⟨segs, paths, m1, h1, b⟩ := t.build_ok hm
  have hl : ∀ a ∈ (segs :: paths).flatMap MSegs.own, m1.live a = true := fun a ha => by
    rw [b.live, decide_eq_true ha, Bool.or_true]
  refine ⟨segs, paths, m1, h1, MSegs.set_ok fun a ha => hl a ?_, MSegs.get_ok fun a ha => hl a (b.deep a ha), fun order ho => ?_⟩
  · rw [List.flatMap_cons, List.mem_append]
    exact .inl ha
  · have hp := ho.flatMap_right MSegs.own
    obtain ⟨m2, f1, f2⟩ := freeAddrs_ok (hp.nodup_iff.2 b.nodup) fun a ha => hl a (hp.mem_iff.1 ha)
    refine ⟨m2, by rw [freeAll_eq, f1], funext fun a => ?_⟩
    rw [f2, b.live]
    by_cases c : a ∈ (segs :: paths).flatMap MSegs.own
    · have := b.bounds a c
      have hnot : m.live a = false := by
        by_contra h
        have := hm a (by simpa using h)
        omega
      rw [hnot, decide_eq_true (hp.mem_iff.2 c), Bool.not_true, Bool.and_false]
    · rw [decide_eq_false c, decide_eq_false fun h => c (hp.mem_iff.1 h), Bool.or_false, Bool.not_false, Bool.and_true]

/-- **C130, `spline_path_segments_get`, partial**: the first call with new segments is safe and releases the memory of the segments, so that nothing
is left when the contained paths have been freed. Missing: further calls with the same segments (`C130_segments_get_twice_false`). -/
theorem C130_segments_get_partial (t : PathPlan) {m : Live} (hm : m.Unused) :
    ∃ segs paths m1, t.build m = .ok (segs, paths, m1) ∧ ∃ m2, segs.segmentsGet m1 = .ok m2 ∧
      ∃ m3, freeAll m2 paths = .ok m3 ∧ m3.live = m.live := by
  obtain ⟨segs, paths, m1, h1, h2, h3, h4⟩ := C130_free t hm
  obtain ⟨m3, h5, h6⟩ := h4 _ (List.Perm.refl _)
  rw [freeAll] at h5
  cases h7 : segs.free m1 with
  | error e => rw [h7] at h5; cases h5
  | ok m2 =>
    rw [h7] at h5
    refine ⟨segs, paths, m1, h1, m2, ?_, m3, h5, h6⟩
    rw [MSegs.segmentsGet, h2, h3]
    exact h7

/-- A path that contains a path that contains a path, and one whose allocation fails; with other memory that is live before. -/
example : Live.Unused ⟨3, fun a => a = 1⟩ ∧
    (match (PathPlan.plain (.path true (.path true (.plain .nil) .nil) (.path false (.plain .nil) .nil))).build ⟨3, fun a => a = 1⟩ with
      | .ok (segs, paths, m) => (segs.own, paths.map MSegs.own, (List.range 6).map m.live)
      | .error _ => ([], [], [])) = ([4], [[3], [], []], [false, true, false, true, true, false]) := by
  refine ⟨fun a h => ?_, by decide +kernel⟩
  simp only [decide_eq_true_eq] at h
  subst h
  decide

theorem MSegs.free_dead {data : Nat} (s : MSegs) {m m' : Live} (h : s.free m = .ok m') (hm : m.live data = false) : m'.live data = false := by
  induction s generalizing m with
  | nil => rw [← Except.ok.inj h]; exact hm
  | plain rest ih => exact ih h hm
  | path d i r _ ih =>
    rw [MSegs.free, Live.free] at h
    split at h
    · refine ih h ?_
      simp only [hm, ite_self]
    · cases h

theorem MSegs.free_first {data : Nat} {inner rest : MSegs} {m m' : Live} (h : (MSegs.path data inner rest).free m = .ok m') :
    m'.live data = false := by
  rw [MSegs.free, Live.free] at h
  split at h
  · exact rest.free_dead h (by simp)
  · cases h

/-- **C130 is false for further calls**: a second call of `spline_path_segments_get` with the same segments reads memory that the first call has freed,
for every path that begins with a contained path. -/
theorem C130_segments_get_twice_false (inner rest : MSegs) (data : Nat) {m m' : Live} (h : (MSegs.path data inner rest).segmentsGet m = .ok m') :
    (MSegs.path data inner rest).segmentsGet m' = .error .useAfterFree := by
  have hl : m'.live data = false := by
    rw [MSegs.segmentsGet] at h
    cases h1 : (MSegs.path data inner rest).set m with
    | error e => rw [h1] at h; cases h
    | ok _ =>
      rw [h1] at h
      simp only [ok_bind'] at h
      cases h2 : (MSegs.path data inner rest).get m with
      | error e => rw [h2] at h; cases h
      | ok _ =>
        rw [h2] at h
        exact MSegs.free_first (inner := inner) (rest := rest) h
  rw [MSegs.segmentsGet, MSegs.set, hl]
  rfl

/-- The first call succeeds in a concrete case. -/
example : ((MSegs.path 0 .nil .nil).segmentsGet ⟨1, fun a => a = 0⟩).isOk = true := by decide +kernel

/-- **C130 is false for copies**: a path set with `spline_path_set_copy` has the same data as the segments that it was copied from. Freeing a path with
the original segments and the one with the copied segments frees the data twice. -/
theorem C130_copy_false (inner rest : MSegs) (data : Nat) {m m' : Live} (h : (MSegs.path data inner rest).free m = .ok m') :
    (MSegs.path data inner rest).free m' = .error .doubleFree := by
  rw [MSegs.free, Live.free, MSegs.free_first h]
  rfl

end Sp
