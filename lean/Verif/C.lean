import Mathlib.Data.List.Basic
import Mathlib.Data.List.Range
import Mathlib.Tactic.Linarith
import Mathlib.Tactic.Ring

/-!
# A small semantics of C

Faults, bounds-checked buffers, counting loops and unsigned 32 bit arithmetic.
Nothing here is specific to sph-sp.
-/

namespace Sp

/-- What can go wrong in a C program: each is undefined behaviour (or, for `nonTermination`,
fuel exhausted in the model). `badFormat`: a format string of `printf` with an unknown conversion or without argument for it. -/
inductive Fault
  | outOfBounds
  | divByZero
  | uninitialized
  | useAfterFree
  | doubleFree
  | nullDeref
  | nonTermination
  | badFormat
  deriving DecidableEq, Repr

/-- A C computation: a result or undefined behaviour. -/
abbrev C := Except Fault

/-- An array in memory: its cells in order. Its length is the allocated length. -/
abbrev Buf (α : Type*) := List α

variable {α β σ : Type*}

/-- `b[i]` as an rvalue. -/
def rd (b : Buf α) (i : Nat) : C α :=
  match b[i]? with
  | some v => .ok v
  | none => .error .outOfBounds

/-- `b[i] = v`. -/
def wr (b : Buf α) (i : Nat) (v : α) : C (Buf α) :=
  if i < b.length then .ok (b.set i v) else .error .outOfBounds

/-- `n` iterations of `body`, the counter starting with `i`. -/
def iter (body : Nat → σ → C σ) : Nat → Nat → σ → C σ
  | 0, _, s => .ok s
  | n + 1, i, s => (body i s).bind (iter body n (i + 1))

/-- `for (i = lo; i < hi; i += 1) body`. For an unsigned counter with a bound of the same type the
counter cannot wrap, so a natural number counter is exact. -/
def forRange (lo hi : Nat) (body : Nat → σ → C σ) (s : σ) : C σ :=
  iter body (hi - lo) lo s

/-- `uint32_t` reduction. -/
def u32 (n : Nat) : Nat := n % 4294967296

/-- `a - b` on `uint32_t`. -/
def sub32 (a b : Nat) : Nat := (a + 4294967296 - b) % 4294967296

theorem u32_of_lt {n : Nat} (h : n < 4294967296) : u32 n = n := Nat.mod_eq_of_lt h

theorem u32_lt (n : Nat) : u32 n < 4294967296 := Nat.mod_lt _ (by norm_num)

theorem sub32_of_le {a b : Nat} (h : b ≤ a) (ha : a < 4294967296) : sub32 a b = a - b := by
  unfold sub32; omega

@[simp] theorem bind_ok {α β : Type*} (a : α) (f : α → C β) : (Except.ok a : C α).bind f = f a := rfl

@[simp] theorem bind_error {α β : Type*} (e : Fault) (f : α → C β) :
    (Except.error e : C α).bind f = .error e := rfl

theorem rd_eq_ok {b : Buf α} {i : Nat} (h : i < b.length) : rd b i = .ok b[i] := by
  simp [rd, List.getElem?_eq_getElem h]

theorem rd_ok_iff {b : Buf α} {i : Nat} {v : α} : rd b i = .ok v ↔ b[i]? = some v := by
  unfold rd
  cases h : b[i]? <;> simp

theorem wr_eq_ok {b : Buf α} {i : Nat} (v : α) (h : i < b.length) : wr b i v = .ok (b.set i v) := by
  simp [wr, h]

@[simp] theorem iter_zero (body : Nat → σ → C σ) (i : Nat) (s : σ) : iter body 0 i s = .ok s := rfl

theorem iter_succ (body : Nat → σ → C σ) (n i : Nat) (s : σ) :
    iter body (n + 1) i s = (body i s).bind (iter body n (i + 1)) := rfl

theorem iter_add (body : Nat → σ → C σ) (n m i : Nat) (s : σ) :
    iter body (n + m) i s = (iter body n i s).bind (iter body m (i + n)) := by
  induction n generalizing i s with
  | zero => simp
  | succ n ih =>
    rw [Nat.add_right_comm, iter_succ, iter_succ]
    cases body i s with
    | error e => rfl
    | ok s' => simp only [bind_ok]; rw [ih]; congr 2; omega

/-- The last iteration split off. -/
theorem iter_succ' (body : Nat → σ → C σ) (n i : Nat) (s : σ) :
    iter body (n + 1) i s = (iter body n i s).bind (body (i + n)) := by
  rw [iter_add]
  congr 1; funext s'
  rw [iter_succ]
  cases body (i + n) s' <;> rfl

@[simp] theorem forRange_self (lo : Nat) (body : Nat → σ → C σ) (s : σ) :
    forRange lo lo body s = .ok s := by simp [forRange]

theorem forRange_of_le {lo hi : Nat} (h : hi ≤ lo) (body : Nat → σ → C σ) (s : σ) :
    forRange lo hi body s = .ok s := by
  simp [forRange, Nat.sub_eq_zero_of_le h]

theorem forRange_split {lo mid hi : Nat} (h1 : lo ≤ mid) (h2 : mid ≤ hi) (body : Nat → σ → C σ)
    (s : σ) : forRange lo hi body s = (forRange lo mid body s).bind (forRange mid hi body) := by
  unfold forRange
  have : hi - lo = (mid - lo) + (hi - mid) := by omega
  rw [this, iter_add]
  congr 2; omega

theorem forRange_succ {lo hi : Nat} (h : lo ≤ hi) (body : Nat → σ → C σ) (s : σ) :
    forRange lo (hi + 1) body s = (forRange lo hi body s).bind (body hi) := by
  unfold forRange
  have : hi + 1 - lo = (hi - lo) + 1 := by omega
  rw [this, iter_succ']
  congr 2; omega

theorem forRange_head {lo hi : Nat} (h : lo < hi) (body : Nat → σ → C σ) (s : σ) :
    forRange lo hi body s = (body lo s).bind (forRange (lo + 1) hi body) := by
  unfold forRange
  have : hi - lo = (hi - (lo + 1)) + 1 := by omega
  rw [this, iter_succ]

/-- Total correctness rule: an invariant that holds at the start and is kept by each iteration
(which succeeds) holds at the end. -/
theorem forRange_rule (P : Nat → σ → Prop) {lo hi : Nat} (hle : lo ≤ hi) {body : Nat → σ → C σ} {s : σ}
    (h0 : P lo s)
    (hstep : ∀ i s, lo ≤ i → i < hi → P i s → ∃ s', body i s = .ok s' ∧ P (i + 1) s') :
    ∃ s', forRange lo hi body s = .ok s' ∧ P hi s' := by
  obtain ⟨n, rfl⟩ := Nat.exists_eq_add_of_le hle
  clear hle
  induction n with
  | zero => exact ⟨s, by simp, h0⟩
  | succ n ih =>
    obtain ⟨s1, e1, p1⟩ := ih (fun i s hlo hhi => hstep i s hlo (by omega))
    obtain ⟨s2, e2, p2⟩ := hstep (lo + n) s1 (by omega) (by omega) p1
    refine ⟨s2, ?_, p2⟩
    rw [← Nat.add_assoc, forRange_succ (by omega), e1]
    exact e2

/-- Two loops with related bodies give related results. -/
theorem forRange_congr {lo hi : Nat} {body body' : Nat → σ → C σ} {s : σ}
    (h : ∀ i s, lo ≤ i → i < hi → body i s = body' i s) :
    forRange lo hi body s = forRange lo hi body' s := by
  rcases Nat.le_total hi lo with hl | hl
  · simp [forRange_of_le hl]
  · obtain ⟨n, rfl⟩ := Nat.exists_eq_add_of_le hl
    clear hl
    induction n with
    | zero => simp
    | succ n ih =>
      rw [← Nat.add_assoc, forRange_succ (by omega), forRange_succ (by omega),
        ih (fun i s hlo hhi => h i s hlo (by omega))]
      cases forRange lo (lo + n) body' s with
      | error e => rfl
      | ok s' => exact h _ _ (by omega) (by omega)

/-- Shifting the counter. -/
theorem forRange_shift (k lo hi : Nat) (body : Nat → σ → C σ) (s : σ) :
    forRange (lo + k) (hi + k) body s = forRange lo hi (fun i => body (i + k)) s := by
  unfold forRange
  have : hi + k - (lo + k) = hi - lo := by omega
  rw [this]
  clear this
  generalize hi - lo = n
  induction n generalizing lo s with
  | zero => rfl
  | succ n ih =>
    rw [iter_succ, iter_succ]
    cases body (lo + k) s with
    | error e => rfl
    | ok s' =>
      simp only [bind_ok]
      have := ih (lo + 1) s'
      rw [show lo + k + 1 = lo + 1 + k by omega]
      exact this

/-- The C loop with an unsigned 32 bit counter, run with `fuel`: `i` wraps at 2^32. -/
def whileLt32 (body : Nat → σ → C σ) (hi : Nat) : Nat → Nat → σ → C σ
  | 0, _, _ => .error .nonTermination
  | fuel + 1, i, s =>
    if i < hi then (body i s).bind (whileLt32 body hi fuel (u32 (i + 1))) else .ok s

/-- Justification of `forRange`: the wrapping loop terminates and is the same as the loop with a
natural number counter, for any 32 bit bound. -/
theorem whileLt32_eq_forRange (body : Nat → σ → C σ) {lo hi : Nat} (hhi : hi < 4294967296)
    (hlo : lo ≤ hi) (fuel : Nat) (hf : hi - lo < fuel) (s : σ) :
    whileLt32 body hi fuel lo s = forRange lo hi body s := by
  induction fuel generalizing lo s with
  | zero => omega
  | succ fuel ih =>
    unfold whileLt32
    split
    · next h =>
      rw [forRange_head h]
      cases body lo s with
      | error e => rfl
      | ok s' =>
        simp only [bind_ok]
        rw [u32_of_lt (by omega)]
        exact ih (by omega) (by omega) s'
    · next h => rw [forRange_of_le (by omega)]

@[simp] theorem ok_bind' {α β : Type _} (a : α) (f : α → C β) :
    ((Except.ok a : C α) >>= f) = f a := rfl

@[simp] theorem error_bind' {α β : Type _} (e : Fault) (f : α → C β) :
    ((Except.error e : C α) >>= f) = .error e := rfl

@[simp] theorem pure_eq_ok {α : Type _} (a : α) : (pure a : C α) = .ok a := rfl

/-- `b[i] += v`. -/
def addAt {S : Type _} [Add S] (b : Buf S) (i : Nat) (v : S) : C (Buf S) := do
  let o ← rd b i
  wr b i (o + v)

/-- `memcpy(dst + d, src + s, n * sizeof(*dst))` for arrays that do not overlap. -/
def memcpy {S : Type _} (dst : Buf S) (d : Nat) (src : Buf S) (s n : Nat) : C (Buf S) :=
  if d + n ≤ dst.length ∧ s + n ≤ src.length then
    .ok (dst.take d ++ (src.drop s).take n ++ dst.drop (d + n))
  else .error .outOfBounds

/-- `memmove(b + d, b + s, n * sizeof(*b))`. -/
def memmove {S : Type _} (b : Buf S) (d s n : Nat) : C (Buf S) := memcpy b d b s n

/-- `memset(b + d, 0, n * sizeof(*b))`. -/
def memzero {S : Type _} [Zero S] (b : Buf S) (d n : Nat) : C (Buf S) :=
  if d + n ≤ b.length then
    .ok (b.take d ++ List.replicate n 0 ++ b.drop (d + n))
  else .error .outOfBounds

/-! ### Buffers as tables

Every buffer is `tab n f` for its length `n` and the function `f` from indices to cells. -/

/-- The buffer of length `n` with cell `i` being `f i`. -/
def tab {S : Type _} (n : Nat) (f : Nat → S) : Buf S := (List.range n).map f

section Tab
variable {S : Type _} {n m : Nat} {f g : Nat → S}

@[simp] theorem tab_length : (tab n f).length = n := by simp [tab]

theorem tab_getElem? (i : Nat) : (tab n f)[i]? = if i < n then some (f i) else none := by
  unfold tab
  by_cases h : i < n <;> simp [h]

@[simp] theorem tab_getElem (i : Nat) (h : i < (tab n f).length) : (tab n f)[i] = f i := by
  simp [tab]

theorem tab_congr (h : ∀ i, i < n → f i = g i) : tab n f = tab n g := by
  apply List.ext_getElem?
  intro i
  simp only [tab_getElem?]
  split
  · next hi => rw [h i hi]
  · rfl

theorem tab_inj (h : tab n f = tab n g) (i : Nat) (hi : i < n) : f i = g i := by
  have := congrArg (fun l : List S => l[i]?) h
  simpa [tab_getElem?, hi] using this

theorem eq_tab (b : Buf S) (d : S) : b = tab b.length (fun i => b.getD i d) := by
  apply List.ext_getElem?
  intro i
  rw [tab_getElem?]
  split
  · next h => simp [h]
  · next h => simp at h; simp [h]

theorem rd_tab {i : Nat} (h : i < n) : rd (tab n f) i = .ok (f i) := by
  simp [rd, h]

theorem rd_tab_oob {i : Nat} (h : n ≤ i) : rd (tab n f) i = .error .outOfBounds := by
  simp [rd, Nat.not_lt.2 h]

theorem wr_tab {i : Nat} (v : S) (h : i < n) :
    wr (tab n f) i v = .ok (tab n (fun k => if k = i then v else f k)) := by
  rw [wr_eq_ok v (by simpa using h)]
  congr 1
  apply List.ext_getElem?
  intro k
  rw [List.getElem?_set]
  simp only [tab_getElem?, tab_length]
  by_cases hk : i = k
  · subst hk; simp [h]
  · simp [hk, Ne.symm hk]

theorem addAt_tab [Add S] {i : Nat} (v : S) (h : i < n) :
    addAt (tab n f) i v = .ok (tab n (fun k => if k = i then f k + v else f k)) := by
  unfold addAt
  rw [rd_tab h, ok_bind', wr_tab _ h]
  congr 1
  apply tab_congr
  intro k _
  split
  · next h => rw [h]
  · rfl

theorem memcpy_tab {d s c : Nat} {k : Nat → S} (h1 : d + c ≤ n) (h2 : s + c ≤ m) :
    memcpy (tab n f) d (tab m k) s c =
      .ok (tab n (fun i => if d ≤ i ∧ i < d + c then k (i - d + s) else f i)) := by
  unfold memcpy
  rw [if_pos (by simpa using ⟨h1, h2⟩)]
  congr 1
  apply List.ext_getElem?
  intro i
  simp only [List.getElem?_append, List.length_append, List.length_take, tab_length,
    List.length_drop, List.getElem?_take, List.getElem?_drop, tab_getElem?]
  have e1 : min d n = d := by omega
  have e2 : min c (m - s) = c := by omega
  rw [e1, e2]
  by_cases a1 : i < d
  · simp only [show i < d + c by omega, a1, show ¬ d ≤ i by omega, if_true, if_false, false_and]
  · by_cases a2 : i < d + c
    · simp only [a2, a1, show d ≤ i by omega, show i - d < c by omega, show i < n by omega,
        show s + (i - d) < m by omega, if_true, if_false, and_self]
      congr 2; omega
    · simp only [a2, a1, if_false, and_false]
      rw [show d + c + (i - (d + c)) = i by omega]

theorem memmove_tab {d s c : Nat} (h1 : d + c ≤ n) (h2 : s + c ≤ n) :
    memmove (tab n f) d s c =
      .ok (tab n (fun i => if d ≤ i ∧ i < d + c then f (i - d + s) else f i)) :=
  memcpy_tab h1 h2

theorem memzero_tab [Zero S] {d c : Nat} (h1 : d + c ≤ n) :
    memzero (tab n f) d c = .ok (tab n (fun i => if d ≤ i ∧ i < d + c then 0 else f i)) := by
  unfold memzero
  rw [if_pos (by simpa using h1)]
  congr 1
  apply List.ext_getElem?
  intro i
  simp only [List.getElem?_append, List.length_append, List.length_take, tab_length,
    List.getElem?_replicate, List.getElem?_take, List.getElem?_drop, tab_getElem?,
    List.length_replicate]
  have e1 : min d n = d := by omega
  rw [e1]
  by_cases a1 : i < d
  · simp only [show i < d + c by omega, a1, show ¬ d ≤ i by omega, if_true, if_false, false_and]
  · by_cases a2 : i < d + c
    · simp only [a2, a1, show d ≤ i by omega, show i - d < c by omega, show i < n by omega,
        if_true, if_false, and_self]
    · simp only [a2, a1, if_false, and_false]
      rw [show d + c + (i - (d + c)) = i by omega]

theorem tab_append : tab n f ++ tab m g = tab (n + m) (fun i => if i < n then f i else g (i - n)) := by
  apply List.ext_getElem?
  intro i
  simp only [List.getElem?_append, tab_length, tab_getElem?]
  by_cases h : i < n
  · simp [h, show i < n + m by omega]
  · by_cases h2 : i < n + m
    · simp [h, h2, show i - n < m by omega]
    · simp [h, h2, show ¬ i - n < m by omega]

theorem tab_replicate (n : Nat) (d : S) : List.replicate n d = tab n (fun _ => d) := by
  apply List.ext_getElem?
  intro i
  simp [List.getElem?_replicate, tab_getElem?]

theorem getD_of_lt {b : Buf S} {i : Nat} {d : S} (h : i < b.length) : b.getD i d = b[i] := by
  simp [h]

end Tab

/-- Loop rule by symbolic execution: the state before iteration `i` is `St i`. -/
theorem forRange_states (St : Nat → σ) {lo hi : Nat} (hle : lo ≤ hi) {body : Nat → σ → C σ}
    (hstep : ∀ i, lo ≤ i → i < hi → body i (St i) = .ok (St (i + 1))) :
    forRange lo hi body (St lo) = .ok (St hi) := by
  obtain ⟨s', e, p⟩ := forRange_rule (fun i s => s = St i) hle (body := body) (s := St lo) rfl
    (fun i s h1 h2 hs => ⟨St (i + 1), by rw [hs]; exact hstep i h1 h2, rfl⟩)
  rw [e, p]

end Sp
