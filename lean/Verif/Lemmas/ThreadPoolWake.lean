import Verif.Lemmas.ThreadPoolFinish

/-! # Invariants of the thread pool: number of threads, destruction, wakeups -/

set_option linter.unusedSectionVars false

namespace Sp
variable {V : Type} {n : Nat} {s s' : Pool V}

/-- The number of joined threads and the destruction of the pool. -/
structure SizeInv (n : Nat) (s : Pool V) : Prop where
  pos : s.gFinishAt ≠ none → 0 < n
  isFin : s.gFinishAt ≠ none → (s.th s.gFinisher).isFin = true
  before : s.gFinishAt = none → s.size = n ∧ s.destroyed = 0
  enq : ∀ i pc t j, s.th i = .enq pc t (.fin j) → s.size = n ∧ s.destroyed = 0
  join : ∀ i j, s.th i = .join j → j ≤ n ∧ s.size = n - j ∧ (s.destroyed = if j = n then 1 else 0) ∧
    ∀ w, w < j → s.th w = .ended
  joined : ∀ i, s.th i = .joined → s.size = 0 ∧ s.destroyed = 1 ∧ ∀ w, w < n → s.th w = .ended

theorem sizeInv_first (hs : Step n s (.ok s')) (hF : FinInv s) (h : SizeInv n s) :
    (s'.gFinishAt ≠ none → 0 < n) ∧ (s'.gFinishAt ≠ none → (s'.th s'.gFinisher).isFin = true) := by
  have h0 := h.pos
  have h1 := h.isFin
  have h2 := hF.noFin
  clear h hF
  cases hs <;> constructor <;> simp only <;> grind [upd, Th.isFin, backIsFin_iff, canCall_isFin, canCall_isFin', back_isFin]

theorem ended_stays (hs : Step n s (.ok s')) {w : Nat} (h : s.th w = .ended) : s'.th w = .ended := by
  cases hs <;> simp only <;> grind [upd, canCall_iff, back_cases]

theorem sizeInv_rest (hs : Step n s (.ok s')) (hK : KindInv n s) (hF : FinInv s) (h : SizeInv n s) :
    (s'.gFinishAt = none → s'.size = n ∧ s'.destroyed = 0) ∧
    (∀ i pc t j, s'.th i = .enq pc t (.fin j) → s'.size = n ∧ s'.destroyed = 0) ∧
    (∀ i j, s'.th i = .join j → j ≤ n ∧ s'.size = n - j ∧ (s'.destroyed = if j = n then 1 else 0)) ∧
    (∀ i, s'.th i = .joined → s'.size = 0 ∧ s'.destroyed = 1) := by
  have h0 := h.before
  have h1 := h.enq
  have h2 : ∀ i j, s.th i = .join j → j ≤ n ∧ s.size = n - j ∧ (s.destroyed = if j = n then 1 else 0) := fun i j e =>
    ⟨(h.join i j e).1, (h.join i j e).2.1, (h.join i j e).2.2.1⟩
  have h3 : ∀ i, s.th i = .joined → s.size = 0 ∧ s.destroyed = 1 := fun i e => ⟨(h.joined i e).1, (h.joined i e).2.1⟩
  have f1 : ∀ i pc t j, s.th i = .enq pc t (.fin j) → 0 < n ∧ s.gFinishAt ≠ none := fun i pc t j e => by
    have : s.gFinishAt ≠ none := fun e' => by
      have := hF.noFin e' i
      rw [e] at this
      simp [Th.isFin, Back.isFin] at this
    exact ⟨h.pos this, this⟩
  have u1 : ∀ i pc t j, s.th i = .enq pc t (.fin j) → s.gFinisher = i :=
    fun i pc t j e => hF.finisher i (by rw [e]; rfl)
  have u2 : ∀ i j, s.th i = .join j → s.gFinisher = i := fun i j e => hF.finisher i (by rw [e]; rfl)
  have u3 : ∀ i, s.th i = .joined → s.gFinisher = i := fun i e => hF.finisher i (by rw [e]; rfl)
  have hnb : s.gFinishAt = none → (∀ i j, s.th i ≠ .join j) ∧ (∀ i, s.th i ≠ .joined) := fun e =>
    ⟨fun i j e' => (by have := hF.noFin e i; rw [e'] at this; cases this),
     fun i e' => (by have := hF.noFin e i; rw [e'] at this; cases this)⟩
  have hcc : ∀ i b, CanCall (s.th i) b → ∀ j, b ≠ .fin j := fun i b e => (canCall_iff.1 e).2
  clear h hF hK
  refine ⟨?_, ?_, ?_, ?_⟩
  · clear u1 u3
    cases hs <;> simp only <;> grind [upd]
  · cases hs <;> simp only <;> grind [upd, back_cases]
  · cases hs <;> simp only <;> grind [upd, back_cases]
  · cases hs <;> simp only <;> grind [upd, back_cases]

theorem sizeInv_step (hs : Step n s (.ok s')) (hK : KindInv n s) (hF : FinInv s) (h : SizeInv n s) : SizeInv n s' := by
  obtain ⟨a1, a2⟩ := sizeInv_first hs hF h
  obtain ⟨b1, b2, b3, b4⟩ := sizeInv_rest hs hK hF h
  have hst := fun w e => ended_stays (w := w) hs e
  refine ⟨a1, a2, b1, b2, fun i j e => ⟨(b3 i j e).1, (b3 i j e).2.1, (b3 i j e).2.2, ?_⟩,
    fun i e => ⟨(b4 i e).1, (b4 i e).2, ?_⟩⟩
  · have h2 : ∀ i j, s.th i = .join j → ∀ w, w < j → s'.th w = .ended := fun i j e w hw =>
      hst w ((h.join i j e).2.2.2 w hw)
    have h4 : ∀ i j, s.th i = .join j → ∀ w, w < j → s.th w = .ended := fun i j e => (h.join i j e).2.2.2
    clear a1 a2 b1 b2 b3 b4 h hF hK
    cases hs with
    | @join i' j' c1 c2 c3 =>
      simp only at e ⊢
      intro w hw
      by_cases hi : i = i'
      · subst hi
        rw [upd_same] at e
        cases e
        have hw' : s.th w = .ended := by
          by_cases hj : w = j'
          · rw [hj, c3]
          · exact h4 i j' c1 w (by omega)
        rw [upd_ne _ _ (by rintro rfl; rw [c1] at hw'; cases hw'), hw']
      · rw [upd_ne _ _ hi] at e
        exact h2 i j e w hw
    | _ => grind [upd, back_cases]
  · have h2 : ∀ i j, s.th i = .join j → j ≤ n ∧ ∀ w, w < j → s'.th w = .ended := fun i j e =>
      ⟨(h.join i j e).1, fun w hw => hst w ((h.join i j e).2.2.2 w hw)⟩
    have h3 : ∀ i, s.th i = .joined → ∀ w, w < n → s'.th w = .ended := fun i e w hw => hst w ((h.joined i e).2.2 w hw)
    clear a1 a2 b1 b2 b3 b4 h hF hK
    cases hs <;> grind [upd, back_cases]

/-- After the destruction of the mutex no thread uses it. -/
theorem SizeInv.dead (h : SizeInv n s) (hd : s.destroyed ≠ 0) :
    s.gFinishAt ≠ none ∧ (∀ w, w < n → s.th w = .ended) ∧ s.destroyed = 1 := by
  have h1 : s.gFinishAt ≠ none := fun e => hd (h.before e).2
  refine ⟨h1, ?_⟩
  have h2 := h.isFin h1
  cases e : s.th s.gFinisher <;> rw [e] at h2 <;> try (cases h2; done)
  · rename_i pc t b
    cases b with
    | fin j => exact absurd (h.enq _ _ _ _ e).2 hd
    | _ => cases h2
  · rename_i j
    obtain ⟨a1, a2, a3, a4⟩ := h.join _ _ e
    by_cases hj : j = n
    · subst hj
      rw [if_pos rfl] at a3
      exact ⟨a4, a3⟩
    · rw [if_neg hj] at a3
      exact absurd a3 hd
  · obtain ⟨a1, a2, a3⟩ := h.joined _ e
    exact ⟨a3, a2⟩

/-- The number of workers that will look at the queue without being woken. -/
def awakeCount (n : Nat) (th : Nat → Th V) : Nat := (List.range n).countP fun i => (th i).awake

theorem awakeCount_upd (th : Nat → Th V) (i : Nat) (x : Th V) (hi : i < n) :
    awakeCount n (upd th i x) + (if (th i).awake then 1 else 0) = awakeCount n th + (if x.awake then 1 else 0) := by
  induction n with
  | zero => omega
  | succ n ih =>
    simp only [awakeCount, List.range_succ, List.countP_append, List.countP_cons, List.countP_nil] at ih ⊢
    by_cases e : i = n
    · subst e
      have : (List.range i).countP (fun j => (upd th i x j).awake) = (List.range i).countP (fun j => (th j).awake) := by
        refine List.countP_congr fun j hj => ?_
        rw [List.mem_range] at hj
        rw [upd_ne _ _ (by omega)]
      rw [this, upd_same]
      omega
    · have := ih (by omega)
      rw [upd_ne _ _ (show n ≠ i by omega)]
      omega

theorem awakeCount_upd_ge (th : Nat → Th V) (i : Nat) (x : Th V) (hi : n ≤ i) :
    awakeCount n (upd th i x) = awakeCount n th := by
  refine List.countP_congr fun j hj => ?_
  rw [List.mem_range] at hj
  rw [upd_ne _ _ (by omega)]

/-- There are enough awake workers for the tasks in the queue, one more with a signal that is about to be given,
unless no worker is asleep. -/
def WakeInv (n : Nat) (s : Pool V) : Prop :=
  (∃ w, s.th w = .waiting) → s.gEnqueued.length ≤ s.gTaken.length + awakeCount n s.th ∨
    (s.gEnqueued.length ≤ s.gTaken.length + awakeCount n s.th + 1 ∧ ∃ i t b, s.th i = .enq .signal t b)

theorem wake_upd (h : WakeInv n s) {i : Nat} {x : Th V} (hi : (s.th i).awake = true → x.awake = true)
    (hw : x = .waiting → s.th i = .waiting) (hsig : ∀ t b, s.th i ≠ .enq .signal t b)
    (he : s'.gEnqueued = s.gEnqueued) (ht : s'.gTaken = s.gTaken) (hth : s'.th = upd s.th i x) : WakeInv n s' := by
  rintro ⟨w, h1⟩
  have hcount : awakeCount n s.th ≤ awakeCount n s'.th := by
    rw [hth]
    by_cases hin : i < n
    · have := awakeCount_upd s.th i x hin
      by_cases e : (s.th i).awake = true
      · simp [e, hi e] at this; omega
      · simp [e] at this; omega
    · rw [awakeCount_upd_ge _ _ _ (by omega)]
  have h2 : ∃ w, s.th w = .waiting := by
    rw [hth] at h1
    by_cases e : w = i
    · subst e; rw [upd_same] at h1; exact ⟨w, hw h1⟩
    · rw [upd_ne _ _ e] at h1; exact ⟨w, h1⟩
  rcases h h2 with h3 | ⟨h3, j, t, b, h4⟩
  · left; rw [he, ht]; omega
  · right
    rw [he, ht]
    refine ⟨by omega, j, t, b, ?_⟩
    have : j ≠ i := fun e => hsig t b (e ▸ h4)
    rw [hth, upd_ne _ _ this, h4]

theorem wakeInv_step (hs : Step n s (.ok s')) (hK : KindInv n s) (hM : MutexInv s) (hP : PlaceInv s) (h : WakeInv n s) :
    WakeInv n s' := by
  have hsz := hP.repr.size
  have hlen : s.waitingTasks.length = s.gEnqueued.length - s.gTaken.length := by simp [Pool.waitingTasks]
  cases hs with
  | @take i t q a1 a2 a3 =>
    have hin : i < n := (hK i).1 (by rw [a1]; rfl)
    have hc := awakeCount_upd s.th i (.took t s.gTaken.length) hin
    rw [a1] at hc
    simp only [Th.awake, if_true, if_false, Bool.false_eq_true] at hc
    rintro ⟨w, h1⟩
    simp only [List.length_append, List.length_singleton] at h1 ⊢
    have hwi : w ≠ i := by rintro rfl; rw [upd_same] at h1; cases h1
    rw [upd_ne _ _ hwi] at h1
    rcases h ⟨w, h1⟩ with h3 | ⟨h3, j, t', b, h4⟩
    · left; omega
    · right
      refine ⟨by omega, j, t', b, ?_⟩
      rw [upd_ne _ _ (by rintro rfl; rw [a1] at h4; cases h4), h4]
  | @wait i a1 a2 =>
    intro _
    left
    have := hP.le
    simp only
    omega
  | @enqPut i t b q m a1 a2 a3 =>
    rintro ⟨w, h1⟩
    simp only [List.length_append, List.length_singleton] at h1 ⊢
    have hwi : w ≠ i := by rintro rfl; rw [upd_same] at h1; cases h1
    rw [upd_ne _ _ hwi] at h1
    right
    have hc : awakeCount n s.th = awakeCount n (upd s.th i (.enq .signal t b)) := by
      by_cases hin : i < n
      · have := awakeCount_upd s.th i (.enq .signal t b) hin
        rw [a1] at this
        simpa [Th.awake] using this.symm
      · rw [awakeCount_upd_ge _ _ _ (by omega)]
    refine ⟨?_, i, t, b, upd_same _ _ _⟩
    rcases h ⟨w, h1⟩ with h3 | ⟨h3, j, t', b', h4⟩
    · omega
    · exfalso
      have m1 : s.mutex = some i := (hM i).2 (by rw [a1]; rfl)
      have m2 : s.mutex = some j := (hM j).2 (by rw [h4]; rfl)
      rw [m1] at m2
      simp only [Option.some.injEq] at m2
      rw [m2, h4] at a1
      cases a1
  | @signal i w t b a1 a2 =>
    intro _
    left
    have hwi : w ≠ i := by rintro rfl; rw [a1] at a2; cases a2
    have hwn : w < n := (hK w).1 (by rw [a2]; rfl)
    have hc1 := awakeCount_upd s.th w .woken hwn
    rw [a2] at hc1
    simp only [Th.awake, if_true, if_false, Bool.false_eq_true] at hc1
    have hc : awakeCount n (upd (upd s.th w .woken) i (.enq .unlock t b)) = awakeCount n (upd s.th w .woken) := by
      by_cases hin : i < n
      · have := awakeCount_upd (upd s.th w .woken) i (.enq .unlock t b) hin
        rw [upd_ne _ _ (Ne.symm hwi), a1] at this
        simpa [Th.awake] using this
      · rw [awakeCount_upd_ge _ _ _ (by omega)]
    simp only
    rcases h ⟨w, a2⟩ with h3 | ⟨h3, _⟩ <;> omega
  | @signalNone i t b a1 a2 =>
    rintro ⟨w, h1⟩
    exfalso
    simp only at h1
    by_cases e : w = i
    · subst e; rw [upd_same] at h1; cases h1
    · rw [upd_ne _ _ e] at h1; exact a2 w h1
  | alloc x _ => exact h
  | free _ _ => exact h
  | _ =>
    refine wake_upd h ?_ ?_ ?_ rfl rfl rfl <;> grind [Th.awake, canCall_iff, back_awake, back_cases]

end Sp
