import Verif.Lemmas.ThreadPoolInv

/-! # The workers can complete all tasks -/

set_option linter.unusedSectionVars false

namespace Sp
variable {V : Type} {n : Nat} {s s' : Pool V}

def Back.weight : Back → Nat
  | .inF _ _ => 5
  | _ => 0

/-- A bound of the steps of the thread until it waits, including steps of threads it wakes and tasks it enqueues. -/
def Th.weight : Th V → Nat
  | .getTask => 2
  | .woken => 2
  | .check => 1
  | .took _ _ => 7
  | .run _ _ => 6
  | .inF _ _ => 5
  | .ret _ _ _ => 4
  | .stored _ _ => 3
  | .enq .lock _ b => b.weight + 13
  | .enq .put _ b => b.weight + 12
  | .enq .signal _ b => b.weight + 4
  | .enq .unlock _ b => b.weight + 1
  | .touch _ b => b.weight + 3
  | .touchRead _ b => b.weight + 2
  | .touched _ _ b => b.weight + 1
  | _ => 0

def weightSum (n : Nat) (th : Nat → Th V) : Nat := ((List.range n).map fun i => (th i).weight).sum

theorem weightSum_upd (th : Nat → Th V) (i : Nat) (x : Th V) (hi : i < n) :
    weightSum n (upd th i x) + (th i).weight = weightSum n th + x.weight := by
  induction n with
  | zero => omega
  | succ n ih =>
    simp only [weightSum, List.range_succ, List.map_append, List.map_cons, List.map_nil, List.sum_append,
      List.sum_cons, List.sum_nil] at ih ⊢
    by_cases e : i = n
    · subst e
      have : (List.range i).map (fun j => (upd th i x j).weight) = (List.range i).map (fun j => (th j).weight) := by
        refine List.map_congr_left fun j hj => ?_
        rw [List.mem_range] at hj
        rw [upd_ne _ _ (by omega)]
      rw [this, upd_same]
      omega
    · have := ih (by omega)
      rw [upd_ne _ _ (show n ≠ i by omega)]
      omega

theorem weightSum_upd_ge (th : Nat → Th V) (i : Nat) (x : Th V) (hi : n ≤ i) :
    weightSum n (upd th i x) = weightSum n th := by
  rw [weightSum, weightSum]
  refine congrArg _ (List.map_congr_left fun j hj => ?_)
  rw [List.mem_range] at hj
  rw [upd_ne _ _ (by omega)]

theorem weightSum_le (th : Nat → Th V) (h : ∀ i, i < n → (th i).weight ≤ 18) : weightSum n th ≤ 18 * n := by
  induction n with
  | zero => simp [weightSum]
  | succ n ih =>
    simp only [weightSum, List.range_succ, List.map_append, List.map_cons, List.map_nil, List.sum_append,
      List.sum_cons, List.sum_nil] at ih ⊢
    have := ih fun i hi => h i (by omega)
    have := h n (by omega)
    omega

theorem weight_le (x : Th V) : x.weight ≤ 18 := by
  have : ∀ b : Back, b.weight ≤ 5 := fun b => by cases b <;> simp [Back.weight]
  cases x with
  | enq pc t b => cases pc <;> simp only [Th.weight] <;> have := this b <;> omega
  | touch t b => simp only [Th.weight]; have := this b; omega
  | touchRead t b => simp only [Th.weight]; have := this b; omega
  | touched t v b => simp only [Th.weight]; have := this b; omega
  | _ => simp [Th.weight]

theorem back_weight (b : Back) : (b.th : Th V).weight = b.weight := by cases b <;> rfl

/-- The weight of a client that owns the mutex. -/
def holderWeight (n : Nat) (s : Pool V) : Nat :=
  match s.mutex with
  | none => 0
  | some i => if i < n then 0 else (s.th i).weight

/-- A bound of the steps until all workers wait. -/
def Pool.weight (n : Nat) (s : Pool V) : Nat :=
  weightSum n s.th + 7 * (s.gEnqueued.length - s.gTaken.length) + holderWeight n s

theorem Pool.weight_le (s : Pool V) : s.weight n ≤ 18 * (n + 1) + 7 * (s.gEnqueued.length - s.gTaken.length) := by
  have h1 := weightSum_le (n := n) s.th fun i _ => Sp.weight_le _
  have h2 : holderWeight n s ≤ 18 := by
    rw [holderWeight]
    cases s.mutex with
    | none => simp
    | some i =>
      simp only
      split
      · omega
      · exact Sp.weight_le _
  rw [Pool.weight]
  omega

/-- A step of a worker, which does not take the mutex from others. -/
theorem weight_worker {i : Nat} {x : Th V} (hi : i < n) (hm : s.mutex = none ∨ s.mutex = some i)
    (hm' : s'.mutex = none ∨ s'.mutex = some i) (hth : s'.th = upd s.th i x) :
    s'.weight n + (s.th i).weight + 7 * (s.gEnqueued.length - s.gTaken.length) =
      s.weight n + x.weight + 7 * (s'.gEnqueued.length - s'.gTaken.length) := by
  have h1 : holderWeight n s = 0 := by
    rcases hm with h | h <;> simp [holderWeight, h]
    omega
  have h2 : holderWeight n s' = 0 := by
    rcases hm' with h | h <;> simp [holderWeight, h]
    omega
  have h3 := weightSum_upd s.th i x hi
  rw [Pool.weight, Pool.weight, h1, h2, hth]
  omega

/-- A step of a client with the mutex. -/
theorem weight_client {i : Nat} {x : Th V} (hi : n ≤ i) (hm : s.mutex = some i)
    (hm' : s'.mutex = some i ∨ s'.mutex = none ∧ x.weight = 0) (hth : s'.th = upd s.th i x) :
    s'.weight n + (s.th i).weight + 7 * (s.gEnqueued.length - s.gTaken.length) =
      s.weight n + x.weight + 7 * (s'.gEnqueued.length - s'.gTaken.length) := by
  have h1 : holderWeight n s = (s.th i).weight := by
    simp only [holderWeight, hm]
    rw [if_neg (by omega)]
  have h2 : holderWeight n s' = x.weight := by
    rcases hm' with h | ⟨h, h'⟩
    · simp only [holderWeight, h]
      rw [if_neg (by omega), hth, upd_same]
    · simp only [holderWeight, h]
      rw [h']
  have h3 := weightSum_upd_ge s.th i x hi
  rw [Pool.weight, Pool.weight, h1, h2, hth, h3]
  omega

/-- What a step towards completion achieves. -/
structure Towards (n : Nat) (s s' : Pool V) : Prop where
  step : Step n s (.ok s')
  fin : s'.gFinishAt = none
  noTouch : ∀ i, i < n → ∀ t b, s'.th i ≠ .touch t b
  weight : s'.weight n < s.weight n
  room : s'.gEnqueued.length + s'.weight n + s.gTaken.length ≤ s.gEnqueued.length + s.weight n + s'.gTaken.length
  pre : s.gEnqueued <+: s'.gEnqueued
  made : s'.gMade = s.gMade
  pend : ∀ t, (∀ i, s.gPlace t ≠ .pending i) → ∀ i, s'.gPlace t ≠ .pending i
  other : ∀ i, n ≤ i → s.mutex ≠ some i → s'.th i = s.th i

theorem noTouch_upd {th th' : Nat → Th V} (h : ∀ i, i < n → ∀ t b, th i ≠ .touch t b) {i : Nat} {x : Th V}
    (hx : ∀ t b, x ≠ .touch t b) (e : th' = upd th i x) : ∀ i, i < n → ∀ t b, th' i ≠ .touch t b := by
  intro j hj t b
  rw [e]
  by_cases e : j = i
  · subst e; rw [upd_same]; exact hx t b
  · rw [upd_ne _ _ e]; exact h j hj t b

/-- A step of thread `i` that leaves the queue as it is. -/
theorem towards_simple {i : Nat} {x : Th V} (hf : s.gFinishAt = none)
    (hnt : ∀ i, i < n → ∀ t b, s.th i ≠ .touch t b)
    (hs : Step n s (.ok s')) (hth : s'.th = upd s.th i x) (hx : ∀ t b, x ≠ .touch t b) (hlt : x.weight < (s.th i).weight)
    (hw : s'.weight n + (s.th i).weight + 7 * (s.gEnqueued.length - s.gTaken.length) =
      s.weight n + x.weight + 7 * (s'.gEnqueued.length - s'.gTaken.length))
    (he : s'.gEnqueued = s.gEnqueued) (ht : s'.gTaken = s.gTaken) (hff : s'.gFinishAt = s.gFinishAt)
    (hmd : s'.gMade = s.gMade) (hpl : ∀ t, s'.gPlace t = s.gPlace t ∨ s'.gPlace t = .idle)
    (hi : i < n ∨ s.mutex = some i) : Towards n s s' := by
  rw [he, ht] at hw
  refine ⟨hs, hff.trans hf, noTouch_upd hnt hx hth, by omega, by rw [he, ht]; omega, by rw [he]; exact List.prefix_refl _, hmd, ?_, ?_⟩
  · intro t h j
    rcases hpl t with e | e <;> rw [e]
    · exact h j
    · simp
  · intro j hj hm
    rw [hth, upd_ne]
    rintro rfl
    rcases hi with h | h
    · omega
    · exact hm h

/-- All enqueued tasks are completed. -/
def AllDone (s : Pool V) : Prop := ∀ k, k < s.gEnqueued.length → k ∈ s.gDone

theorem towards_holder (h : PoolInv n s) (hf : s.gFinishAt = none)
    (hnt : ∀ i, i < n → ∀ t b, s.th i ≠ .touch t b)
    (hroom : s.gEnqueued.length + s.weight n < s.gTaken.length + 4294967296) {i : Nat} (hm : s.mutex = some i) :
    ∃ s', Towards n s s' := by
  have hh := (h.mutex i).1 hm
  have hle := h.place.le
  cases hth : s.th i with
  | check =>
    have hin : i < n := (h.kind i).1 (by rw [hth]; rfl)
    by_cases hsz : s.queue.size = 0
    · refine ⟨_, towards_simple (i := i) (x := .waiting) hf hnt (.wait hth hsz) rfl (by simp)
        (by rw [hth]; simp [Th.weight]) (weight_worker hin (.inr hm) (.inl rfl) rfl) rfl rfl rfl rfl (fun _ => .inl rfl) (.inl hin)⟩
    · obtain ⟨t, q, e1, e2, _⟩ := h.place.take_ok hsz
      have hlt := (List.getElem?_eq_some_iff.1 e2).1
      have hw := weight_worker (s := s)
        (s' := { s with queue := q, th := upd s.th i (.took t s.gTaken.length), gTaken := s.gTaken ++ [(i, t)],
                        gPlace := upd s.gPlace t (.proc i) }) hin (.inr hm) (.inr hm) rfl
      rw [hth] at hw
      simp only [List.length_append, List.length_singleton, Th.weight] at hw
      refine ⟨_, .take hth hsz e1, hf, noTouch_upd hnt (i := i) (x := .took t s.gTaken.length) (by simp) rfl,
        (by omega), (by simp only [List.length_append, List.length_singleton]; omega), List.prefix_refl _, rfl, ?_, ?_⟩
      · intro u hu j
        by_cases e : u = t
        · subst e; simp [upd]
        · simp only [upd, e, if_false]; exact hu j
      · intro j hj _
        simp only
        rw [upd_ne _ _ (by omega)]
  | took t k =>
    have hin : i < n := (h.kind i).1 (by rw [hth]; rfl)
    refine ⟨_, towards_simple (i := i) (x := .run t k) hf hnt (.unlock hth) rfl (by simp)
      (by rw [hth]; simp [Th.weight]) (weight_worker hin (.inr hm) (.inl rfl) rfl) rfl rfl rfl rfl (fun _ => .inl rfl) (.inl hin)⟩
  | enq pc t b =>
    have hnf : ∀ j, b ≠ .fin j := by
      rintro j rfl
      have := h.fin.noFin hf i
      rw [hth] at this
      cases this
    have hbw : n ≤ i → b.weight = 0 := by
      intro hni
      cases b with
      | inF u k =>
        have := (h.kind i).1 (by rw [hth]; rfl)
        omega
      | _ => rfl
    have key : ∀ (s' : Pool V) (x : Th V), (s'.mutex = some i ∨ s'.mutex = none ∧ x = b.th) → s'.th = upd s.th i x →
        s'.weight n + (s.th i).weight + 7 * (s.gEnqueued.length - s.gTaken.length) =
          s.weight n + x.weight + 7 * (s'.gEnqueued.length - s'.gTaken.length) := by
      intro s' x h1 h2
      by_cases hin : i < n
      · exact weight_worker hin (.inr hm) (by rcases h1 with h | h; exact .inr h; exact .inl h.1) h2
      · refine weight_client (by omega) hm ?_ h2
        rcases h1 with h | ⟨h, h'⟩
        · exact .inl h
        · refine .inr ⟨h, ?_⟩
          rw [h', back_weight, hbw (by omega)]
    cases pc with
    | lock => rw [hth] at hh; cases hh
    | put =>
      have hw0 : 12 ≤ s.weight n := by
        have := key s (.enq .put t b) (.inl hm) (by funext j; simp [upd]; rintro rfl; exact hth)
        by_cases hin : i < n
        · have := weightSum_upd s.th i .client hin
          rw [hth] at this
          simp only [Th.weight] at this
          rw [Pool.weight]
          omega
        · rw [Pool.weight, holderWeight, hm]
          simp only
          rw [if_neg hin, hth]
          simp only [Th.weight]
          omega
      obtain ⟨q, m, e1, _⟩ := h.place.put_ok hth (by omega)
      have hw := key { s with queue := q, mem := m, th := upd s.th i (.enq .signal t b), gEnqueued := s.gEnqueued ++ [t],
                              gPlace := upd s.gPlace t .queued } _ (.inl hm) rfl
      rw [hth] at hw
      simp only [List.length_append, List.length_singleton, Th.weight] at hw
      refine ⟨_, .enqPut hth (by omega) e1, hf, noTouch_upd hnt (i := i) (x := .enq .signal t b) (by simp) rfl,
        (by omega), (by simp only [List.length_append, List.length_singleton]; omega), List.prefix_append _ _, rfl, ?_, ?_⟩
      · intro u hu j
        by_cases e : u = t
        · subst e; simp [upd]
        · simp only [upd, e, if_false]; exact hu j
      · intro j hj hmj
        simp only
        rw [upd_ne _ _ (by rintro rfl; exact hmj hm)]
    | signal =>
      by_cases hw : ∃ w, s.th w = .waiting
      · obtain ⟨w, hw⟩ := hw
        have hwn : w < n := (h.kind w).1 (by rw [hw]; rfl)
        have hwi : w ≠ i := by rintro rfl; rw [hth] at hw; cases hw
        have hw1 := weightSum_upd s.th w .woken hwn
        rw [hw] at hw1
        simp only [Th.weight] at hw1
        have hw2 : ({ s with th := upd (upd s.th w .woken) i (.enq .unlock t b) } : Pool V).weight n + 1 = s.weight n := by
          by_cases hin : i < n
          · have := weightSum_upd (upd s.th w .woken) i (.enq .unlock t b) hin
            rw [upd_ne _ _ (Ne.symm hwi), hth] at this
            simp only [Th.weight] at this
            simp only [Pool.weight, holderWeight, hm, if_pos hin]
            omega
          · have := weightSum_upd_ge (n := n) (upd s.th w .woken) i (.enq .unlock t b) (by omega)
            simp only [Pool.weight, holderWeight, hm, if_neg hin, upd_same, hth, this, Th.weight]
            omega
        refine ⟨_, .signal hth hw, hf,
          noTouch_upd (noTouch_upd hnt (i := w) (x := .woken) (by simp) rfl) (i := i) (x := .enq .unlock t b) (by simp) rfl,
          (by omega), (by simp only; omega), List.prefix_refl _, rfl, fun _ h => h, ?_⟩
        intro j hj hmj
        simp only
        rw [upd_ne _ _ (by rintro rfl; exact hmj hm), upd_ne _ _ (by omega)]
      · refine ⟨_, towards_simple (i := i) (x := .enq .unlock t b) hf hnt (.signalNone hth (fun w e => hw ⟨w, e⟩)) rfl (by simp)
          (by rw [hth]; simp [Th.weight]) (key _ _ (.inl hm) rfl) rfl rfl rfl rfl (fun _ => .inl rfl) (.inr hm)⟩
    | unlock =>
      refine ⟨_, towards_simple (i := i) (x := b.th) hf hnt (.enqUnlock hth hnf) rfl ?_
        (by rw [hth, back_weight]; simp [Th.weight]) (key _ _ (.inr ⟨rfl, rfl⟩) rfl) rfl rfl rfl rfl (fun _ => .inl rfl) (.inr hm)⟩
      intro u c e
      rcases back_cases (V := V) b with h1 | ⟨_, _, h1⟩ <;> rw [h1] at e <;> cases e
  | _ => rw [hth] at hh; cases hh

theorem towards_worker [Inhabited V] (h : PoolInv n s) (hf : s.gFinishAt = none)
    (hnt : ∀ i, i < n → ∀ t b, s.th i ≠ .touch t b) (hm : s.mutex = none) {i : Nat} (hin : i < n)
    (hwt : (s.th i).weight ≠ 0) : ∃ s', Towards n s s' := by
  have hd := (h.size.before hf).2
  have hnh : (s.th i).holds = false := by
    cases e : (s.th i).holds
    · rfl
    · rw [(h.mutex i).2 e] at hm; cases hm
  have halloc : ∀ t k, (s.th i).proc = some (t, k) → ∃ x, s.mem t = some x := fun t k e => by
    have := h.place.alloc t (by rw [h.place.proc i t k e]; simp)
    exact Option.ne_none_iff_exists'.1 this
  cases hth : s.th i with
  | getTask => exact ⟨_, towards_simple (i := i) (x := .check) hf hnt (.lock hth hd hm) rfl (by simp)
      (by rw [hth]; simp [Th.weight]) (weight_worker hin (.inl hm) (.inr rfl) rfl) rfl rfl rfl rfl (fun _ => .inl rfl) (.inl hin)⟩
  | woken => exact ⟨_, towards_simple (i := i) (x := .check) hf hnt (.relock hth hd hm) rfl (by simp)
      (by rw [hth]; simp [Th.weight]) (weight_worker hin (.inl hm) (.inr rfl) rfl) rfl rfl rfl rfl (fun _ => .inl rfl) (.inl hin)⟩
  | run t k =>
    obtain ⟨x, hx⟩ := halloc t k (by rw [hth]; rfl)
    have hpl := h.place.proc i t k (by rw [hth]; rfl)
    have he : x.rest.f = .eval :=
      (h.value.kind t x (by rw [hpl]; simp) hx).2 (h.fin.allMade hf t (by rw [hpl]; simp))
    exact ⟨_, towards_simple (i := i) (x := .inF t k) hf hnt (.eval hth hx he) rfl (by simp)
      (by rw [hth]; simp [Th.weight]) (weight_worker hin (.inl hm) (.inl hm) rfl) rfl rfl rfl rfl (fun _ => .inl rfl) (.inl hin)⟩
  | inF t k => exact ⟨_, towards_simple (i := i) (x := .ret t k default) hf hnt (.ret default hth) rfl (by simp)
      (by rw [hth]; simp [Th.weight]) (weight_worker hin (.inl hm) (.inl hm) rfl) rfl rfl rfl rfl (fun _ => .inl rfl) (.inl hin)⟩
  | ret t k r =>
    obtain ⟨x, hx⟩ := halloc t k (by rw [hth]; rfl)
    exact ⟨_, towards_simple (i := i) (x := .stored t k) hf hnt (.store hth hx) rfl (by simp)
      (by rw [hth]; simp [Th.weight]) (weight_worker hin (.inl hm) (.inl hm) rfl) rfl rfl rfl rfl (fun _ => .inl rfl) (.inl hin)⟩
  | stored t k =>
    obtain ⟨x, hx⟩ := halloc t k (by rw [hth]; rfl)
    refine ⟨_, towards_simple (i := i) (x := .getTask) hf hnt (.finished hth hx) rfl (by simp)
      (by rw [hth]; simp [Th.weight]) (weight_worker hin (.inl hm) (.inl hm) rfl) rfl rfl rfl rfl (fun u => ?_) (.inl hin)⟩
    by_cases e : u = t
    · subst e; right; simp [upd]
    · left; simp [upd, e]
  | enq pc t b =>
    cases pc with
    | lock => exact ⟨_, towards_simple (i := i) (x := .enq .put t b) hf hnt (.enqLock hth hd hm) rfl (by simp)
        (by rw [hth]; simp [Th.weight]) (weight_worker hin (.inl hm) (.inr rfl) rfl) rfl rfl rfl rfl (fun _ => .inl rfl) (.inl hin)⟩
    | _ => rw [hth] at hnh; cases hnh
  | touch t b => exact absurd hth (hnt i hin t b)
  | touchRead t b =>
    have := h.value.made t (h.value.touches i t (by rw [hth]; rfl))
    obtain ⟨x, hx⟩ := Option.ne_none_iff_exists'.1 this
    exact ⟨_, towards_simple (i := i) (x := .touched t x.rest.data b) hf hnt (.touchRead hth hx) rfl (by simp)
      (by rw [hth]; simp [Th.weight]) (weight_worker hin (.inl hm) (.inl hm) rfl) rfl rfl rfl rfl (fun _ => .inl rfl) (.inl hin)⟩
  | touched t v b =>
    refine ⟨_, towards_simple (i := i) (x := b.th) hf hnt (.touchRet hth) rfl ?_
      (by rw [hth, back_weight]; simp [Th.weight]) (weight_worker hin (.inl hm) (.inl hm) rfl) rfl rfl rfl rfl (fun _ => .inl rfl) (.inl hin)⟩
    intro u c e
    rcases back_cases (V := V) b with h1 | ⟨_, _, h1⟩ <;> rw [h1] at e <;> cases e
  | check => rw [hth] at hnh; cases hnh
  | took t k => rw [hth] at hnh; cases hnh
  | _ => rw [hth] at hwt; exact absurd rfl hwt

theorem allDone_of_idle (h : PoolInv n s) (hn : 0 < n) (hf : s.gFinishAt = none) (hm : s.mutex = none)
    (hw : ∀ i, i < n → (s.th i).weight = 0) : AllDone s := by
  have hwait : ∀ i, i < n → s.th i = .waiting := by
    intro i hi
    have h1 := hw i hi
    have h2 := (h.kind i).2 hi
    cases hth : s.th i with
    | waiting => rfl
    | ended => exact absurd hth (h.fin.noEnded hf i)
    | enq pc t b => rw [hth] at h1; cases pc <;> simp [Th.weight] at h1
    | client => rw [hth] at h2; cases h2
    | join _ => rw [hth] at h2; cases h2
    | joined => rw [hth] at h2; cases h2
    | _ => rw [hth] at h1; simp [Th.weight] at h1
  have hcount : awakeCount n s.th = 0 := by
    rw [awakeCount, List.countP_eq_zero]
    intro i hi
    rw [List.mem_range] at hi
    rw [hwait i hi]
    simp [Th.awake]
  have hlen : s.gEnqueued.length ≤ s.gTaken.length := by
    rcases h.wake ⟨0, hwait 0 hn⟩ with h1 | ⟨_, i, t, b, h1⟩
    · omega
    · rw [(h.mutex i).2 (by rw [h1]; rfl)] at hm
      cases hm
  intro k hk
  have hlt : k < s.gTaken.length := by omega
  obtain ⟨⟨i, t⟩, hp⟩ : ∃ p, s.gTaken[k]? = some p := ⟨_, List.getElem?_eq_getElem hlt⟩
  rcases h.serial.cover i t k hp with h1 | h1
  · exact h1
  · exfalso
    have hwk : i < n := (h.kind _).1 (by
      cases hth : s.th i <;> simp only [hth, Th.proc] at h1 <;> first | rfl | (cases h1; done) | skip
      all_goals (rename_i b; cases b <;> first | rfl | cases h1))
    simp only [hwait _ hwk] at h1
    cases h1

theorem Steps.head {s t u : Pool V} (h1 : Step n s (.ok t)) (h2 : Steps n t u) : Steps n s u := by
  induction h2 with
  | refl => exact .tail .refl h1
  | tail _ h3 ih => exact .tail ih h3

theorem completable [Inhabited V] (hn : 0 < n) (h : PoolInv n s) (hf : s.gFinishAt = none)
    (hnt : ∀ i, i < n → ∀ t b, s.th i ≠ .touch t b)
    (hroom : s.gEnqueued.length + s.weight n < s.gTaken.length + 4294967296) :
    ∃ s', Steps n s s' ∧ AllDone s' ∧ s.gEnqueued <+: s'.gEnqueued ∧ s'.gMade = s.gMade ∧
      (∀ t, (∀ i, s.gPlace t ≠ .pending i) → ∀ i, s'.gPlace t ≠ .pending i) ∧
      (∀ i, n ≤ i → s.mutex ≠ some i → s'.th i = s.th i) ∧ s'.mutex = none := by
  generalize hμ : s.weight n = μ
  induction μ using Nat.strong_induction_on generalizing s with
  | _ μ ih =>
    have hcase : (∃ s', Towards n s s') ∨ (s.mutex = none ∧ AllDone s) := by
      cases hm : s.mutex with
      | some i => exact .inl (towards_holder h hf hnt hroom hm)
      | none =>
        by_cases hw : ∃ i, i < n ∧ (s.th i).weight ≠ 0
        · obtain ⟨i, h1, h2⟩ := hw
          exact .inl (towards_worker h hf hnt hm h1 h2)
        · refine .inr ⟨rfl, allDone_of_idle h hn hf hm fun i hi => ?_⟩
          by_contra hc
          exact hw ⟨i, hi, hc⟩
    rcases hcase with ⟨s', ht⟩ | ⟨h1, h2⟩
    · have hr := ht.room
      obtain ⟨u, u1, u2, u3, u4, u5, u6, u7⟩ := ih (s'.weight n) (hμ ▸ ht.weight) (h.step ht.step) ht.fin ht.noTouch
        (by omega) rfl
      refine ⟨u, .head ht.step u1, u2, ht.pre.trans u3, u4.trans ht.made, fun t e => u5 t (ht.pend t e), ?_, u7⟩
      intro i hi hmi
      rw [u6 i hi ?_, ht.other i hi hmi]
      intro e
      have h1 := ht.other i hi hmi
      have h2 := ((h.step ht.step).mutex i).1 e
      rw [h1] at h2
      exact hmi ((h.mutex i).2 h2)
    · exact ⟨s, .refl, h2, List.prefix_refl _, rfl, fun _ h => h, fun _ _ _ => rfl, h1⟩

end Sp
