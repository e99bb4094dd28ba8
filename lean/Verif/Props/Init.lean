import Verif.Model.Init

/-! # C39, C88: initialisation -/

set_option linter.unusedSectionVars false

namespace Sp

/-- A working thread pool with `c` workers: the mutex has been initialised and not been destroyed since. -/
def PoolWorks (c : Nat) (s : Lib) : Prop := s.workers = c ∧ s.size = c ∧ s.mutexInits = s.mutexDestroys + 1

theorem poolNew_ok {size : Nat} {s : Lib} (hs : size ≤ 128) (ht : s.threads.length = 128) :
    ∃ t, poolNew size s = .ok { s with threads := t, workers := s.workers + size, size := size,
                                       mutexInits := s.mutexInits + 1 } ∧ t.length = 128 := by
  obtain ⟨r, e, t, h1, h2⟩ := forRange_rule (σ := Lib)
    (fun i r => ∃ t, t.length = 128 ∧ r = { s with threads := t, workers := s.workers + i, mutexInits := s.mutexInits + 1 })
    (Nat.zero_le size) (body := poolNewBody) (s := { s with mutexInits := s.mutexInits + 1 }) ⟨_, ht, rfl⟩
    (by
      rintro i r - h2 ⟨t, h3, rfl⟩
      refine ⟨{ s with threads := t.set i true, workers := s.workers + (i + 1), mutexInits := s.mutexInits + 1 }, ?_,
        t.set i true, by rw [List.length_set, h3], rfl⟩
      simp only [poolNewBody, wr_eq_ok true (show i < t.length by omega), ok_bind', pure_eq_ok]
      rfl)
  refine ⟨t, ?_, h1⟩
  rw [poolNew, e, h2]
  rfl

theorem poolNew_overflow {size : Nat} {s : Lib} (hs : 128 < size) (ht : s.threads.length = 128) :
    poolNew size s = .error .outOfBounds := by
  obtain ⟨r, e, t, h1, h2⟩ := forRange_rule (σ := Lib)
    (fun i r => ∃ t, t.length = 128 ∧ r = { s with threads := t, workers := s.workers + i, mutexInits := s.mutexInits + 1 })
    (Nat.zero_le 128) (body := poolNewBody) (s := { s with mutexInits := s.mutexInits + 1 }) ⟨_, ht, rfl⟩
    (by
      rintro i r - h2 ⟨t, h3, rfl⟩
      refine ⟨{ s with threads := t.set i true, workers := s.workers + (i + 1), mutexInits := s.mutexInits + 1 }, ?_,
        t.set i true, by rw [List.length_set, h3], rfl⟩
      simp only [poolNewBody, wr_eq_ok true (show i < t.length by omega), ok_bind', pure_eq_ok]
      rfl)
  have hw : wr t 128 true = .error .outOfBounds := by simp [wr, h1]
  have hb : poolNewBody 128 r = .error .outOfBounds := by
    rw [poolNewBody, h2]
    simp only [hw]
    rfl
  rw [poolNew, forRange_split (Nat.zero_le 128) (show 128 ≤ size by omega), e]
  simp only [Except.bind]
  rw [forRange_head hs, hb]
  rfl

theorem poolFinish_ok {s : Lib} (h0 : 0 < s.size) (hw : s.workers = s.size) :
    poolFinish s = .ok { s with workers := 0, size := 0, mutexDestroys := s.mutexDestroys + 1 } := by
  obtain ⟨r, e, h⟩ := forRange_rule (σ := Lib)
    (fun i r => r = { s with workers := s.size - i, size := s.size - i,
                             mutexDestroys := s.mutexDestroys + if i = s.size then 1 else 0 })
    (Nat.zero_le s.size) (body := poolFinishBody) (s := s)
    (by cases s; simp only at h0 hw; subst hw; simp only; rw [if_neg (by omega)]; rfl)
    (by
      rintro i r - h2 rfl
      refine ⟨_, ?_, rfl⟩
      rw [poolFinishBody]
      simp only [poolDestroy]
      rw [if_neg (show i ≠ s.size by omega)]
      by_cases e : s.size - i - 1 = 0
      · rw [if_pos e, if_pos (show i + 1 = s.size by omega)]
        simp only [show s.size - (i + 1) = s.size - i - 1 by omega, Nat.add_zero]
      · rw [if_neg e, if_neg (show i + 1 ≠ s.size by omega)]
        simp only [show s.size - (i + 1) = s.size - i - 1 by omega])
  rw [poolFinish, e, h]
  simp

/-- C88: up to 128 threads are started as requested. Missing for the full statement: higher numbers, see
`C88_thread_count_false`. -/
theorem C88_thread_count_partial {c : Nat} (hc : c ≤ 128) : ∃ s, spInitialize c Lib.start = .ok s ∧ s.workers = c := by
  obtain ⟨t, e, _⟩ := poolNew_ok (s := Lib.start) hc (by simp [Lib.start])
  by_cases h0 : c = 0
  · subst h0
    exact ⟨_, rfl, rfl⟩
  · rw [spInitialize, if_pos h0, futureInit, Nat.mod_eq_of_lt (by omega : c < 256), e]
    refine ⟨_, rfl, ?_⟩
    simp [Lib.start]

/-- C88 is false: more than 128 threads are written past the end of the array of threads, up to 255, and 256 of them
are none, though the call is successful. -/
theorem C88_thread_count_false :
    (∀ c, 128 < c → c < 256 → spInitialize c Lib.start = .error .outOfBounds) ∧
    ∃ s, spInitialize 256 Lib.start = .ok s ∧ s.cpuCount = 256 ∧ s.initialized = true ∧ s.workers = 0 := by
  constructor
  · intro c h1 h2
    have := poolNew_overflow (s := Lib.start) h1 (by simp [Lib.start])
    rw [spInitialize, if_pos (by omega), futureInit, Nat.mod_eq_of_lt h2, this]
    rfl
  · exact ⟨_, rfl, rfl, rfl, rfl⟩

/-- C39 is false: after initialisation with any number of threads and deinitialisation, another initialisation is
successful but there is no working pool: no worker runs, and the mutex, initialised once, has been destroyed twice. -/
theorem C39_reinitialize_false {c c' : Nat} (h1 : 1 ≤ c) (h2 : c ≤ 128) (h3 : 1 ≤ c') :
    ∃ s1 s2 s3, spInitialize c Lib.start = .ok s1 ∧ PoolWorks c s1 ∧ spDeinitialize s1 = .ok s2 ∧
      spInitialize c' s2 = .ok s3 ∧ s3.cpuCount = c' ∧ s3.workers = 0 ∧ s3.mutexInits = 1 ∧ s3.mutexDestroys = 2 := by
  obtain ⟨t, e, _⟩ := poolNew_ok (s := Lib.start) h2 (by simp [Lib.start])
  have e1 : spInitialize c Lib.start = .ok (⟨true, c, t, 1, 0, c, c, .live, .live⟩ : Lib) := by
    rw [spInitialize, if_pos (by omega), futureInit, Nat.mod_eq_of_lt (by omega : c < 256), e]
    simp [Lib.start]
  have e2 : spDeinitialize (⟨true, c, t, 1, 0, c, c, .live, .live⟩ : Lib) = .ok (⟨true, 0, t, 1, 2, 0, c, .freed, .freed⟩ : Lib) := by
    rw [spDeinitialize]
    simp only [if_pos (show c ≠ 0 by omega), futureDeinit, if_true]
    rw [poolFinish_ok (show 0 < c by omega) rfl]
    rfl
  refine ⟨_, _, (⟨true, 0, t, 1, 2, 0, c', .live, .live⟩ : Lib), e1, ⟨rfl, rfl, rfl⟩, e2, ?_, rfl, rfl, rfl, rfl⟩
  rw [spInitialize, if_pos (by omega)]
  rfl

/-- `k` times initialisation without threads and deinitialisation. -/
def initRounds : Nat → Lib → C Lib
  | 0, s => .ok s
  | k + 1, s => do
    let a ← spInitialize 0 s
    let b ← spDeinitialize a
    initRounds k b

theorem initRounds_ok (k : Nat) (s : Lib) :
    ∃ s', initRounds k s = .ok s' ∧ s'.initialized = s.initialized ∧ s'.threads = s.threads ∧ s'.workers = s.workers ∧
      s'.mutexInits = s.mutexInits ∧ s'.mutexDestroys = s.mutexDestroys := by
  induction k generalizing s with
  | zero => exact ⟨s, rfl, rfl, rfl, rfl, rfl, rfl⟩
  | succ k ih =>
    obtain ⟨s', h1, h2, h3, h4, h5, h6⟩ := ih { s with cpuCount := 0, sine := .freed, sineLfo := .freed }
    exact ⟨s', h1, h2, h3, h4, h5, h6⟩

/-- C39, for what has been initialised without threads: after any number of initialisations without threads and
deinitialisations, initialisation with up to 128 threads sets up a working pool, and a further initialisation keeps it.
Missing for the full statement: initialisation with threads before, see `C39_reinitialize_false`. -/
theorem C39_reinitialize_partial (k : Nat) {c c' : Nat} (h1 : 1 ≤ c) (h2 : c ≤ 128) :
    ∃ s s1 s2, initRounds k Lib.start = .ok s ∧ spInitialize c s = .ok s1 ∧ PoolWorks c s1 ∧
      spInitialize c' s1 = .ok s2 ∧ PoolWorks c s2 := by
  obtain ⟨s, e0, a1, a2, a3, a4, a5⟩ := initRounds_ok k Lib.start
  obtain ⟨t, e, _⟩ := poolNew_ok (s := s) h2 (by rw [a2]; simp [Lib.start])
  have e1 : spInitialize c s = .ok (⟨true, c, t, 1, 0, c, c, .live, .live⟩ : Lib) := by
    rw [spInitialize, if_pos (by omega), futureInit, a1]
    simp only [Lib.start, Bool.false_eq_true, if_false]
    rw [Nat.mod_eq_of_lt (by omega : c < 256), e, a3, a4, a5]
    simp [Lib.start]
  refine ⟨s, _, (⟨true, c, t, 1, 0, c, c', .live, .live⟩ : Lib), e0, e1, ⟨rfl, rfl, rfl⟩, ?_, rfl, rfl, rfl⟩
  rw [spInitialize]
  by_cases h : c' ≠ 0
  · rw [if_pos h]; rfl
  · rw [if_neg h]; rfl

/-- Deinitialisation twice frees the tables twice. -/
theorem C39_deinitialize_twice_false : ∃ s1 s2, spInitialize 0 Lib.start = .ok s1 ∧ spDeinitialize s1 = .ok s2 ∧
    spDeinitialize s2 = .error .doubleFree := ⟨_, _, rfl, rfl, rfl⟩

example : ∃ s1 s2 s3, spInitialize 4 Lib.start = .ok s1 ∧ s1.workers = 4 ∧ spDeinitialize s1 = .ok s2 ∧
    spInitialize 4 s2 = .ok s3 ∧ s3.workers = 0 := by
  obtain ⟨s1, s2, s3, h1, h2, h3, h4, _, h5, _⟩ := C39_reinitialize_false (c := 4) (c' := 4) (by omega) (by omega) (by omega)
  exact ⟨s1, s2, s3, h1, h2.1, h3, h4, h5⟩

end Sp
