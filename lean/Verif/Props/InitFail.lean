import Verif.Model.InitFail
import Verif.Props.Init

/-! # C155: initialisation when threads or memory are missing -/

set_option linter.unusedSectionVars false

namespace Sp

theorem finishTasks_ok {o : Resources} {i m : Nat} {s : LibTasks} (h : ∀ j, i ≤ j → j < i + m → o.task j = true) :
    finishTasks o i m s = ({ s with tasks := s.tasks + m }, 0) := by
  induction m generalizing i s with
  | zero => rfl
  | succ m ih =>
    rw [finishTasks, if_pos (h i le_rfl (by omega)), ih (fun j h1 h2 => h j (by omega) (by omega))]
    simp only [Nat.add_assoc, Nat.add_comm 1 m]

theorem finishTasks_fail {o : Resources} {i m k : Nat} {s : LibTasks} (h : ∀ j, i ≤ j → j < i + k → o.task j = true) (hk : k < m)
    (hf : o.task (i + k) = false) : finishTasks o i m s = ({ s with tasks := s.tasks + k }, 1) := by
  induction k generalizing i m s with
  | zero =>
    obtain ⟨m, rfl⟩ := Nat.exists_eq_succ_of_ne_zero (show m ≠ 0 by omega)
    rw [Nat.add_zero] at hf
    simp [finishTasks, hf]
  | succ k ih =>
    obtain ⟨m, rfl⟩ := Nat.exists_eq_succ_of_ne_zero (show m ≠ 0 by omega)
    rw [Nat.succ_eq_add_one, finishTasks, if_pos (h i le_rfl (by omega)),
      ih (fun j h1 h2 => h j (by omega) (by omega)) (by omega) (by rw [show i + 1 + k = i + (k + 1) by omega]; exact hf)]
    simp only [Nat.add_assoc, Nat.add_comm 1 k]

theorem poolCreate_ok {o : Resources} {i m : Nat} {s : LibTasks} (h : ∀ j, i ≤ j → j < i + m → o.create j = 0) (ht : s.threads.length = 128)
    (hm : i + m ≤ 128) :
    ∃ t, poolCreate o i m s = .ok ({ s with threads := t, workers := s.workers + m }, 0) ∧ t.length = 128 := by
  induction m generalizing i s with
  | zero => exact ⟨s.threads, rfl, ht⟩
  | succ m ih =>
    obtain ⟨t, e, h2⟩ := ih (i := i + 1) (s := { s with threads := s.threads.set i true, workers := s.workers + 1 })
      (fun j h1 h2 => h j (by omega) (by omega)) (by simp [ht]) (by omega)
    refine ⟨t, ?_, h2⟩
    rw [poolCreate, if_neg (by rw [h i le_rfl (by omega)]; decide), wr_eq_ok true (by omega), ok_bind', e]
    simp only [Nat.add_assoc, Nat.add_comm 1 m]

theorem poolCreate_fail {o : Resources} {i m k : Nat} {s : LibTasks} (h : ∀ j, i ≤ j → j < i + k → o.create j = 0) (ht : s.threads.length = 128)
    (hk : k < m) (hm : i + k ≤ 128) (hf : o.create (i + k) ≠ 0) :
    ∃ t, poolCreate o i m s = .ok (if 0 < i + k then (finishTasks o 0 (i + k) { s with threads := t, workers := s.workers + k, size := i + k }).1
        else { s with threads := t, workers := s.workers + k }, o.create (i + k)) ∧ t.length = 128 := by
  induction k generalizing i m s with
  | zero =>
    obtain ⟨m, rfl⟩ := Nat.exists_eq_succ_of_ne_zero (show m ≠ 0 by omega)
    rw [Nat.add_zero] at hf
    refine ⟨s.threads, ?_, ht⟩
    rw [Nat.succ_eq_add_one, poolCreate, if_pos hf]
    rfl
  | succ k ih =>
    obtain ⟨m, rfl⟩ := Nat.exists_eq_succ_of_ne_zero (show m ≠ 0 by omega)
    have e1 : i + 1 + k = i + (k + 1) := by omega
    obtain ⟨t, e, h2⟩ := ih (i := i + 1) (m := m) (s := { s with threads := s.threads.set i true, workers := s.workers + 1 })
      (fun j h1 h2 => h j (by omega) (by omega)) (by simp [ht]) (by omega) (by omega) (by rw [e1]; exact hf)
    refine ⟨t, ?_, h2⟩
    rw [Nat.succ_eq_add_one, poolCreate, if_neg (by rw [h i le_rfl (by omega)]; decide), wr_eq_ok true (by omega), ok_bind', e]
    simp only [e1, Nat.add_assoc, Nat.add_comm 1 k]

/-- The state of a process that has no pool of threads. -/
structure NoPool (s : LibTasks) : Prop where
  initialized : s.initialized = false
  threads : s.threads.length = 128
  workers : s.workers = 0

theorem NoPool.start : NoPool .start := ⟨rfl, by simp [LibTasks.start, Lib.start], rfl⟩

theorem tableFill_live (n : Nat) : tableFill n .live = .ok () := by rw [tableFill]; split <;> rfl

/-- The state after a successful start of threads. -/
theorem initializeFail_ok {o : Resources} {c : Nat} {s : LibTasks} (hs : s.initialized = false) (ht : s.threads.length = 128)
    (h0 : c ≠ 0) (hc : c ≤ 128) (rate : Nat) (ho : ∀ i, i < c → o.create i = 0) (h1 : o.sine = true) (h2 : o.sineLfo = true) :
    ∃ t, initializeFail o c rate s = .ok ({ s with threads := t, workers := s.workers + c, mutexInits := s.mutexInits + 1, tasks := 0, size := c, initialized := true, cpuCount := c, rate := rate, sine := .live, sineLfo := .live }, 0) := by
  obtain ⟨t, e, -⟩ := poolCreate_ok (o := o) (i := 0) (m := c) (s := { s with mutexInits := s.mutexInits + 1, tasks := 0 })
    (fun j _ h => ho j (by omega)) ht (by omega)
  refine ⟨t, ?_⟩
  rw [initializeFail, if_pos h0, futureInitFail, hs, Nat.mod_eq_of_lt (by omega : c < 256)]
  simp only [Bool.false_eq_true, if_false, poolNewFail, e, ok_bind', pure_eq_ok, if_true, ne_eq, not_true_eq_false, h1, h2, tableNew, tableFill_live]

/-- C155: with enough threads and memory the status is success, all threads run and both tables are there. -/
theorem C155_success {o : Resources} {c rate : Nat} {s : LibTasks} (hs : NoPool s) (hc : c ≤ 128) (ho : ∀ i, i < c → o.create i = 0)
    (h1 : o.sine = true) (h2 : o.sineLfo = true) :
    ∃ s', initializeFail o c rate s = .ok (s', 0) ∧ s'.workers = c ∧ (c ≠ 0 → s'.size = c ∧ s'.initialized = true ∧ s'.tasks = 0) ∧
      s'.sine = .live ∧ s'.sineLfo = .live := by
  by_cases h0 : c = 0
  · subst h0
    refine ⟨{ s with cpuCount := 0, rate := rate, sine := .live, sineLfo := .live }, ?_, hs.workers, fun h => absurd rfl h, rfl, rfl⟩
    simp only [initializeFail, h1, h2, tableNew, if_true, tableFill_live]
    rfl
  · obtain ⟨t, e⟩ := initializeFail_ok hs.initialized hs.threads h0 hc rate ho h1 h2
    exact ⟨_, e, by simp [hs.workers], fun _ => ⟨rfl, rfl, rfl⟩, rfl, rfl⟩

/-- The state after `pthread_create` has failed for thread `i`. -/
theorem initializeFail_thread {o : Resources} {c rate i : Nat} {s : LibTasks} (hs : NoPool s) (hc : c < 256) (hi : i < c) (hi2 : i ≤ 128)
    (ho : ∀ j, j < i → o.create j = 0) (hf : o.create i ≠ 0) :
    ∃ t, t.length = 128 ∧ initializeFail o c rate s = .ok (if 0 < i then
        (finishTasks o 0 i { s with threads := t, workers := i, size := i, mutexInits := s.mutexInits + 1, tasks := 0 }).1
        else { s with threads := t, workers := i, mutexInits := s.mutexInits + 1, tasks := 0 }, o.create i) := by
  obtain ⟨t, e, ht⟩ := poolCreate_fail (o := o) (i := 0) (m := c) (k := i) (s := { s with mutexInits := s.mutexInits + 1, tasks := 0 })
    (fun j _ h => ho j (by omega)) hs.threads hi (by omega) (by rw [Nat.zero_add]; exact hf)
  refine ⟨t, ht, ?_⟩
  rw [initializeFail, if_pos (by omega), futureInitFail, if_neg (by rw [hs.initialized]; decide), Nat.mod_eq_of_lt hc]
  simp only [Nat.zero_add, hs.workers] at e
  simp only [Bool.false_eq_true, if_false, poolNewFail, hs.workers, e, ok_bind', hf, pure_eq_ok, ne_eq, not_false_eq_true, if_true]

/-- C155: when a thread can not be created, the error number of `pthread_create` is returned, no pool is marked as initialised, and the number
of threads and the tables are as before, so that `sp_deinitialize` needs not be called. The threads that have been created get tasks that end
them. -/
theorem C155_thread_error {o : Resources} {c rate i : Nat} {s : LibTasks} (hs : NoPool s) (hc : c < 256) (hi : i < c) (hi2 : i ≤ 128)
    (ho : ∀ j, j < i → o.create j = 0) (hf : o.create i ≠ 0) (ht : ∀ j, j < i → o.task j = true) :
    ∃ s', initializeFail o c rate s = .ok (s', o.create i) ∧ s'.initialized = false ∧ s'.cpuCount = s.cpuCount ∧ s'.sine = s.sine ∧
      s'.sineLfo = s.sineLfo ∧ s'.workers = i ∧ s'.tasks = i := by
  obtain ⟨t, -, e⟩ := initializeFail_thread (rate := rate) hs hc hi hi2 ho hf
  refine ⟨_, e, ?_⟩
  split
  · rw [finishTasks_ok (fun j _ h => ht j (by omega))]
    exact ⟨hs.initialized, rfl, rfl, rfl, rfl, Nat.zero_add i⟩
  · exact ⟨hs.initialized, rfl, rfl, rfl, rfl, by simp only; omega⟩

theorem WorkersRun.inv {s t : LibTasks} (h : WorkersRun s t) :
    t.workers + s.tasks = s.workers + t.tasks ∧ t.workers ≤ s.workers ∧ t.initialized = s.initialized ∧ t.threads = s.threads ∧
      t.size = s.size ∧ t.mutexInits = s.mutexInits ∧ t.mutexDestroys = s.mutexDestroys := by
  induction h with
  | refl => exact ⟨rfl, le_rfl, rfl, rfl, rfl, rfl, rfl⟩
  | step h1 h2 ih =>
    cases h2 with
    | step h3 h4 =>
      obtain ⟨a1, a2, a3⟩ := ih
      exact ⟨by simp only; omega, by simp only; omega, a3⟩

/-- C155: these threads end: whatever has happened since, as long as threads run one of them can end, and each end leaves one less. -/
theorem C155_threads_end {s t : LibTasks} (hs : s.tasks = s.workers) (hr : WorkersRun s t) :
    (0 < t.workers → ∃ u, WorkerEnds t u) ∧ (∀ u, WorkerEnds t u → u.workers + 1 = t.workers) ∧ ∃ u, WorkersRun t u ∧ u.workers = 0 := by
  have hi := hr.inv
  have he : t.tasks = t.workers := by omega
  refine ⟨fun h => ⟨_, .step (by omega) h⟩, fun u hu => ?_, ?_⟩
  · cases hu with
    | step h1 h2 => simp only; omega
  · clear hi
    suffices H : ∀ k (t : LibTasks), t.workers = k → t.tasks = k → ∃ u, WorkersRun t u ∧ u.workers = 0 from H _ t rfl he
    intro k
    induction k with
    | zero => exact fun t h _ => ⟨t, .refl, h⟩
    | succ k ih =>
      intro t h1 h2
      obtain ⟨u, h3, h4⟩ := ih { t with tasks := t.tasks - 1, workers := t.workers - 1 } (by simp only; omega) (by simp only; omega)
      refine ⟨u, ?_, h4⟩
      have hst : WorkerEnds t { t with tasks := t.tasks - 1, workers := t.workers - 1 } := .step (by omega) (by omega)
      clear h4 ih
      induction h3 with
      | refl => exact .step .refl hst
      | step _ h5 ih => exact .step ih h5

/-- C155, for a second try after all threads of the first one have ended: it starts all threads and is successful. Missing for the full statement: the
mutex is initialised a second time without having been destroyed, which POSIX leaves undefined, see `C155_mutex_false`, and threads may not have ended,
see `C155_second_try_false`. -/
theorem C155_second_try_partial {o o' : Resources} {c c' rate i : Nat} {s : LibTasks} (hs : NoPool s) (hc : c < 256) (hi : i < c) (hi2 : i ≤ 128)
    (ho : ∀ j, j < i → o.create j = 0) (hf : o.create i ≠ 0) (ht : ∀ j, j < i → o.task j = true)
    (hc' : c' ≤ 128) (ho' : ∀ i, i < c' → o'.create i = 0) (h1 : o'.sine = true) (h2 : o'.sineLfo = true) :
    ∃ s1, initializeFail o c rate s = .ok (s1, o.create i) ∧ ∀ t, WorkersRun s1 t → t.workers = 0 →
      ∃ s2, initializeFail o' c' rate t = .ok (s2, 0) ∧ s2.workers = c' ∧ s2.sine = .live ∧ s2.sineLfo = .live := by
  obtain ⟨s1, e, a1, a2, a3, a4, a5, a6⟩ := C155_thread_error (rate := rate) hs hc hi hi2 ho hf ht
  refine ⟨s1, e, fun t hr h0 => ?_⟩
  have hth : s1.threads.length = 128 := by
    obtain ⟨t, ht', e'⟩ := initializeFail_thread (rate := rate) hs hc hi hi2 ho hf
    rw [e] at e'
    have := congrArg Prod.fst (Except.ok.inj e')
    simp only at this
    rw [this]
    split
    · rw [finishTasks_ok (fun j _ h => ht j (by omega))]; exact ht'
    · exact ht'
  have hi := hr.inv
  obtain ⟨s2, b1, b2, -, b3, b4⟩ := C155_success (o := o') (c := c') (rate := rate) (s := t)
    ⟨by rw [hi.2.2.1, a1], by rw [hi.2.2.2.1, hth], h0⟩ hc' ho' h1 h2
  exact ⟨s2, b1, b2, b3, b4⟩

/-- C155 is false: if threads of the first try are still there, a second try drops their tasks. More threads run than the pool has, and
they never end: the tasks that `sph_thread_pool_finish` adds, one for each thread of the pool, leave as many as there were. -/
theorem C155_second_try_false {o : Resources} {c : Nat} {s : LibTasks} (hs : s.initialized = false) (ht : s.threads.length = 128)
    (hc : 1 ≤ c) (hc2 : c ≤ 128) (rate : Nat) (ho : ∀ i, o.create i = 0) (h1 : o.sine = true) (h2 : o.sineLfo = true) :
    ∃ s', initializeFail o c rate s = .ok (s', 0) ∧ s'.size = c ∧ s'.workers = s.workers + c ∧
      ∀ t, WorkersRun { s' with tasks := s'.tasks + s'.size } t → s.workers ≤ t.workers := by
  obtain ⟨t, e⟩ := initializeFail_ok hs ht (by omega) hc2 rate (fun i _ => ho i) h1 h2
  refine ⟨_, e, rfl, rfl, fun t hr => ?_⟩
  have := hr.inv.1
  simp only at this
  omega

/-- C155 is false: a failed try leaves the mutex initialised; after a second try it has been initialised twice and not been destroyed. -/
theorem C155_mutex_false : ∃ s1 s2, initializeFail { Resources.enough with create := fun i => if i = 0 then 11 else 0 } 2 48000 .start = .ok (s1, 11) ∧
    s1.workers = 0 ∧ initializeFail .enough 2 48000 s1 = .ok (s2, 0) ∧ s2.mutexInits = 2 ∧ s2.mutexDestroys = 0 := by
  obtain ⟨t, e⟩ := initializeFail_ok (o := .enough) (c := 2) (s := { LibTasks.start with mutexInits := 1 }) rfl rfl (by decide) (by decide) 48000
    (fun _ _ => rfl) rfl rfl
  exact ⟨_, _, rfl, rfl, e, rfl, rfl⟩

/-- C155 is false: when a task to end a thread can not be allocated, the remaining threads never end. -/
theorem C155_no_task_false {o : Resources} {c rate i k : Nat} {s : LibTasks} (hs : NoPool s) (hc : c < 256) (hi : i < c) (hi2 : i ≤ 128)
    (ho : ∀ j, j < i → o.create j = 0) (hf : o.create i ≠ 0) (hk : k < i) (ht : ∀ j, j < k → o.task j = true) (hn : o.task k = false) :
    ∃ s', initializeFail o c rate s = .ok (s', o.create i) ∧ ∀ t, WorkersRun s' t → i - k ≤ t.workers := by
  obtain ⟨t, -, e⟩ := initializeFail_thread (rate := rate) hs hc hi hi2 ho hf
  refine ⟨_, e, fun t hr => ?_⟩
  rw [if_pos (by omega), finishTasks_fail (k := k) (fun j _ h => ht j (by omega)) hk (by rw [Nat.zero_add]; exact hn)] at hr
  have := hr.inv.1
  simp only at this
  omega

/-- C155 is false: the same while deinitialising; and the mutex is destroyed although threads use it. -/
theorem C155_deinit_false {o : Resources} {c k : Nat} {s : LibTasks} (hs : s.initialized = true) (hp : PoolWorks c s.toLib) (h0 : s.tasks = 0)
    (hk : k < c) (ht : ∀ j, j < k → o.task j = true) (hn : o.task k = false) :
    ∃ s', futureDeinitNoMemory o s = .ok s' ∧ s'.mutexDestroys = s'.mutexInits ∧ s'.workers = c ∧ ∀ t, WorkersRun s' t → c - k ≤ t.workers := by
  obtain ⟨p1, p2, p3⟩ := hp
  rw [futureDeinitNoMemory, if_pos hs, p2, finishTasks_fail (k := k) (fun j _ h => ht j (by omega)) hk (by rw [Nat.zero_add]; exact hn)]
  refine ⟨_, rfl, by simp only; omega, p1, fun t hr => ?_⟩
  have := hr.inv.1
  simp only at this
  omega

/-- C155 is false: when there is no memory for a sine table, no failure is returned; the null pointer is written to. -/
theorem C155_table_false {o : Resources} {rate : Nat} {s : LibTasks} (h0 : 0 < rate) (h2 : o.sine = false) :
    initializeFail o 0 rate s = .error .nullDeref := by
  simp only [initializeFail, h2, tableNew, tableFill, show rate ≠ 0 by omega]
  rfl

/-! ## Examples -/

/-- The third thread can not be created. -/
example : ∃ s', initializeFail { Resources.enough with create := fun i => if i = 2 then 11 else 0 } 4 48000 .start = .ok (s', 11) ∧
    s'.workers = 2 ∧ s'.tasks = 2 := by
  obtain ⟨s', h1, -, -, -, -, h2, h3⟩ := C155_thread_error (o := { Resources.enough with create := fun i => if i = 2 then 11 else 0 })
    (c := 4) (rate := 48000) (i := 2) NoPool.start (by decide) (by decide) (by decide) (by decide) (by decide) (fun _ _ => rfl)
  exact ⟨s', h1, h2, h3⟩

/-- The second try is made at once: six threads for a pool of four, and two that never end. -/
example : ∃ s1 s2, initializeFail { Resources.enough with create := fun i => if i = 2 then 11 else 0 } 4 48000 .start = .ok (s1, 11) ∧
    initializeFail .enough 4 48000 s1 = .ok (s2, 0) ∧ s2.size = 4 ∧ s2.workers = 6 ∧
    ∀ t, WorkersRun { s2 with tasks := s2.tasks + s2.size } t → 2 ≤ t.workers := by
  obtain ⟨t, ht, e⟩ := initializeFail_thread (o := { Resources.enough with create := fun i => if i = 2 then 11 else 0 })
    (c := 4) (rate := 48000) (i := 2) NoPool.start (by decide) (by decide) (by decide) (by decide) (by decide)
  rw [if_pos (by decide), finishTasks_ok (fun _ _ _ => rfl)] at e
  obtain ⟨s2, h1, h2, h3, h4⟩ := C155_second_try_false (o := .enough) (c := 4)
    (s := { LibTasks.start with threads := t, workers := 2, size := 2, mutexInits := 1, tasks := 2 })
    rfl ht (by decide) (by decide) 48000 (fun _ => rfl) rfl rfl
  exact ⟨_, s2, e, h1, h2, h3, h4⟩

/-- No memory for the second of three tasks: two threads stay and the mutex is destroyed. -/
example : ∃ s', futureDeinitNoMemory { Resources.enough with task := fun i => i != 1 }
      { LibTasks.start with initialized := true, workers := 3, size := 3, mutexInits := 1 } = .ok s' ∧ s'.workers = 3 ∧
    ∀ t, WorkersRun s' t → 2 ≤ t.workers := by
  obtain ⟨s', h1, -, h2, h3⟩ := C155_deinit_false (o := { Resources.enough with task := fun i => i != 1 }) (c := 3) (k := 1)
    (s := { LibTasks.start with initialized := true, workers := 3, size := 3, mutexInits := 1 })
    rfl ⟨rfl, rfl, rfl⟩ rfl (by decide) (by decide) rfl
  exact ⟨s', h1, h2, h3⟩

end Sp
