import Verif.Lemmas.Heap
import Verif.Props.Numbers
import Verif.Props.Arrays
import Verif.Props.RandomArrays
import Mathlib.Data.List.Permutation
import Mathlib.Data.List.Perm.Subperm

/-!
# C62: permutations
-/

set_option linter.unusedSectionVars false

namespace Sp
open Equiv
variable {α : Type}

/-- The elements in the order given by a permutation of the positions. -/
def per (f : Nat → α) (g : Perm Nat) : Nat → α := fun p => f (g p)

theorem per_per (f : Nat → α) (g h : Perm Nat) : per (per f g) h = per f (g * h) := rfl

@[simp] theorem per_one (f : Nat → α) : per f 1 = f := rfl

theorem timesSwap_tab {n : Nat} (f : Nat → α) {i j : Nat} (hi : i < n) (hj : j < n) (hn : n ≤ 2147483648) :
    timesSwap (tab n f) i j = .ok (tab n (per f (swap i j))) := by
  unfold timesSwap
  rw [if_neg (by omega)]
  simp only [pure_eq_ok, ok_bind']
  rw [rd_tab hi, ok_bind', rd_tab hj, ok_bind', wr_tab _ hi, ok_bind', wr_tab _ hj]
  congr 1
  apply tab_congr
  intro k _
  simp only [per, swap_apply_def]
  grind

/-- The loop gets from one state to another. -/
def Reach (size : Nat) (st st' : PermState α) : Prop :=
  ∃ k, ∀ fuel, permLoop size (k + fuel) st = permLoop size fuel st'

theorem Reach.trans {size : Nat} {a b c : PermState α} (h : Reach size a b) (h' : Reach size b c) :
    Reach size a c := by
  obtain ⟨k, hk⟩ := h
  obtain ⟨k', hk'⟩ := h'
  exact ⟨k + k', fun fuel => by rw [Nat.add_assoc, hk, hk']⟩

/-- The arrays for a list of permutations of the positions. -/
def arranged (size : Nat) (f : Nat → α) (gs : List (Perm Nat)) : List (Option (Buf α)) :=
  gs.map (fun g => some (tab size (per f g)))

/-- The exchange step of the loop. -/
theorem permLoop_exchange {size : Nat} (f : Nat → α) (c : Nat → Nat) (m j : Nat) (hm : m < size)
    (h32 : size ≤ 2147483648) (hc : c m = j) (hj : j < m) (pre : List (Option (Buf α))) (n : Nat)
    (hu : pre.length + 1 < 4294967296) :
    Reach size
      { a := tab size f, s := tab size c, i := m, out := pre ++ List.replicate (n + 1) none, used := pre.length }
      { a := tab size (per f (swap (heapIndex m j) m)), s := tab size (fun k => if k = m then j + 1 else c k), i := 0,
        out := (pre ++ [some (tab size (per f (swap (heapIndex m j) m)))]) ++ List.replicate n none,
        used := (pre ++ [some (tab size (per f (swap (heapIndex m j) m)))]).length } := by
  refine ⟨1, fun fuel => ?_⟩
  rw [Nat.add_comm 1, permLoop]
  simp only [if_pos hm]
  rw [rd_tab hm, ok_bind', hc, if_pos hj]
  have hidx : (if m &&& 1 ≠ 0 then j else 0) = heapIndex m j := by
    rw [Nat.and_one_is_mod, heapIndex]
    rcases Nat.mod_two_eq_zero_or_one m with h | h <;> simp [h]
  rw [hidx, timesSwap_tab f (show heapIndex m j < size by unfold heapIndex; split <;> omega) hm h32, ok_bind',
    wr_tab _ hm, ok_bind', List.replicate_succ, wr_append rfl, ok_bind', u32_of_lt (show j + 1 < _ by omega),
    u32_of_lt hu, List.take_of_length_le (by simp)]
  simp

/-- The step of the loop to the next index. -/
theorem permLoop_next {size : Nat} (a : Buf α) (c : Nat → Nat) (m : Nat) (hm : m < size)
    (h32 : size ≤ 2147483648) (hc : m ≤ c m) (out : Buf (Option (Buf α))) (used : Nat) :
    Reach size { a := a, s := tab size c, i := m, out := out, used := used }
      { a := a, s := tab size (fun k => if k = m then 0 else c k), i := m + 1, out := out, used := used } := by
  refine ⟨1, fun fuel => ?_⟩
  rw [Nat.add_comm 1, permLoop]
  simp only [if_pos hm]
  rw [rd_tab hm, ok_bind', if_neg (by omega), wr_tab _ hm, ok_bind', u32_of_lt (by omega)]

theorem arranged_comp (size : Nat) (f : Nat → α) (g : Perm Nat) (gs : List (Perm Nat)) :
    arranged size (per f g) gs = arranged size f (gs.map (fun h => g * h)) := by
  simp only [arranged, List.map_map]
  rfl

theorem length_arranged (size : Nat) (f : Nat → α) (gs : List (Perm Nat)) :
    (arranged size f gs).length = gs.length := by simp [arranged]

/-- The run of the loop for the first `m` positions. -/
theorem permLoop_run {size : Nat} (h32 : size ≤ 2147483648) (m : Nat) (hm : m ≤ size) :
    ∀ (f : Nat → α) (c : Nat → Nat) (pre : List (Option (Buf α))) (n : Nat), (∀ i, i < m → c i = 0) →
    pre.length + m.factorial ≤ 4294967296 →
    Reach size
      { a := tab size f, s := tab size c, i := 0,
        out := pre ++ List.replicate (n + (heapOuts m).tail.length) none, used := pre.length }
      { a := tab size (per f (heapEnd m)), s := tab size c, i := m,
        out := (pre ++ arranged size f (heapOuts m).tail) ++ List.replicate n none,
        used := (pre ++ arranged size f (heapOuts m).tail).length } := by
  induction m with
  | zero =>
    intro f c pre n _ _
    exact ⟨0, fun fuel => by simp [heapOuts, heapEnd, arranged]⟩
  | succ m ih =>
    intro f c pre n hc hu
    have hms : m < size := hm
    have ih := ih (by omega)
    have hml := heapOuts_length m
    obtain ⟨t, ht⟩ := heapOuts_head m
    have htl : (heapOuts m).tail = t := by rw [ht]; rfl
    have hfl : (heapOuts m).length = t.length + 1 := by rw [ht]; rfl
    -- the rounds from `j` on
    have rounds : ∀ (d j : Nat) (pre : List (Option (Buf α))) (n : Nat), j + d = m →
        pre.length + d * m.factorial < 4294967296 →
        Reach size
          { a := tab size (per f (heapStart m (heapEnd m) j * heapEnd m)),
            s := tab size (fun k => if k = m then j else c k), i := m,
            out := pre ++ List.replicate (n + d * m.factorial) none, used := pre.length }
          { a := tab size (per f (heapEnd (m + 1))), s := tab size c, i := m + 1,
            out := (pre ++ arranged size f ((List.range' (j + 1) d).flatMap (heapRound m (heapOuts m))))
              ++ List.replicate n none,
            used := (pre ++ arranged size f ((List.range' (j + 1) d).flatMap (heapRound m (heapOuts m)))).length } := by
      intro d
      induction d with
      | zero =>
        intro j pre n hj _
        obtain rfl : j = m := by omega
        have := permLoop_next (tab size (per f (heapStart j (heapEnd j) j * heapEnd j)))
          (fun k => if k = j then j else c k) j hms h32 (by simp) (pre ++ List.replicate (n + 0 * j.factorial) none)
          pre.length
        have hs : tab size (fun k => if k = j then 0 else if k = j then j else c k) = tab size c := by
          apply tab_congr
          intro k _
          by_cases hk : k = j
          · simp [hk, hc j (by omega)]
          · simp [hk]
        rw [hs] at this
        simpa [arranged, heapEnd] using this
      | succ d ihd =>
        intro j pre n hj hu
        set g := heapStart m (heapEnd m) (j + 1) with hg
        have hf : per (per f (heapStart m (heapEnd m) j * heapEnd m)) (swap (heapIndex m j) m) = per f g := by
          rw [hg, heapStart, per_per]
        rw [Nat.succ_mul] at hu
        have hpos := Nat.factorial_pos m
        have hn : n + (d + 1) * m.factorial = (n + d * m.factorial + t.length) + 1 := by
          rw [Nat.succ_mul, ← hml, hfl]; omega
        have s1 := permLoop_exchange (per f (heapStart m (heapEnd m) j * heapEnd m))
          (fun k => if k = m then j else c k) m j hms h32 (by simp) (by omega) pre (n + d * m.factorial + t.length)
          (by omega)
        rw [hf, ← hn] at s1
        have hs : tab size (fun k => if k = m then j + 1 else if k = m then j else c k)
            = tab size (fun k => if k = m then j + 1 else c k) := by
          apply tab_congr
          intro k _
          by_cases hk : k = m <;> simp [hk]
        rw [hs] at s1
        have s2 := ih (per f g) (fun k => if k = m then j + 1 else c k) (pre ++ [some (tab size (per f g))])
          (n + d * m.factorial) (by
            intro i hi
            simp only [show i ≠ m by omega, if_false]
            exact hc i (by omega)) (by simp; omega)
        rw [htl, arranged_comp] at s2
        have s3 := ihd (j + 1) (pre ++ [some (tab size (per f g))] ++ arranged size f (t.map (fun h => g * h))) n (by omega) (by
          simp only [List.length_append, length_arranged, List.length_map, List.length_cons, List.length_nil]
          omega)
        have := (s1.trans s2).trans s3
        have hout : pre ++ [some (tab size (per f g))] ++ arranged size f (t.map (fun h => g * h))
            ++ arranged size f ((List.range' (j + 1 + 1) d).flatMap (heapRound m (heapOuts m)))
            = pre ++ arranged size f ((List.range' (j + 1) (d + 1)).flatMap (heapRound m (heapOuts m))) := by
          rw [List.range'_succ, List.flatMap_cons]
          simp only [heapRound, ht, arranged, List.map_cons, List.map_append, List.map_map, List.append_assoc,
            List.cons_append, List.nil_append, mul_one, ← hg]
        rw [hout] at this
        exact this
    have htail : (heapOuts (m + 1)).tail = t ++ (List.range' 1 m).flatMap (heapRound m (heapOuts m)) := by
      rw [heapOuts, List.range_eq_range', List.range'_succ, List.flatMap_cons]
      simp [heapRound, ht, heapStart]
    have hlen : ((List.range' 1 m).flatMap (heapRound m (heapOuts m))).length = m * m.factorial := by
      rw [List.length_flatMap]; simp [heapRound, hml]
    have hfac : (m + 1).factorial = m * m.factorial + m.factorial := by rw [Nat.factorial_succ, Nat.succ_mul]
    have s1 := ih f c pre (n + m * m.factorial) (fun i hi => hc i (by omega)) (by omega)
    rw [htl] at s1
    have s2 := rounds m 0 (pre ++ arranged size f t) n (by omega) (by
      simp only [List.length_append, length_arranged]; omega)
    have hs : tab size (fun k => if k = m then 0 else c k) = tab size c := by
      apply tab_congr
      intro k _
      by_cases hk : k = m
      · simp [hk, hc m (by omega)]
      · simp [hk]
    have hst : heapStart m (heapEnd m) 0 * heapEnd m = heapEnd m := by simp [heapStart]
    rw [hs, hst] at s2
    have := s1.trans s2
    rw [htail]
    have h1 : n + (t ++ (List.range' 1 m).flatMap (heapRound m (heapOuts m))).length
        = n + m * m.factorial + t.length := by rw [List.length_append, hlen]; omega
    have h2 : pre ++ arranged size f t ++ arranged size f ((List.range' (0 + 1) m).flatMap (heapRound m (heapOuts m)))
        = pre ++ arranged size f (t ++ (List.range' 1 m).flatMap (heapRound m (heapOuts m))) := by
      simp [arranged]
    rw [h1, ← h2]
    exact this

theorem le_of_factorial_lt {n : Nat} (h : n.factorial < 4294967296) : n ≤ 2147483648 := by
  by_contra hn
  have h13 : (13 : Nat).factorial ≤ n.factorial := Nat.factorial_le (by omega)
  have : (13 : Nat).factorial = 6227020800 := by decide
  omega

/-- The whole loop, with the first array already in the result. -/
theorem permLoop_all (size : Nat) (h32 : size ≤ 2147483648) (hfit : size.factorial < 4294967296) (f : Nat → α) :
    ∃ k, ∀ fuel, k ≤ fuel →
      permLoop size fuel
        { a := tab size f, s := List.replicate size 0, i := 0,
          out := some (tab size f) :: List.replicate (size.factorial - 1) none, used := 1 }
      = .ok { a := tab size (per f (heapEnd size)), s := List.replicate size 0, i := size,
              out := arranged size f (heapOuts size), used := size.factorial } := by
  obtain ⟨t, ht⟩ := heapOuts_head size
  have hl := heapOuts_length size
  rw [ht] at hl
  simp only [List.length_cons] at hl
  obtain ⟨k, hk⟩ := permLoop_run h32 size (le_refl _) f (fun _ => 0) [some (tab size f)] 0 (fun _ _ => rfl)
    (by simp; omega)
  refine ⟨k + 1, fun fuel hf => ?_⟩
  obtain ⟨d, rfl⟩ : ∃ d, fuel = k + (d + 1) := ⟨fuel - k - 1, by omega⟩
  have := hk (d + 1)
  rw [ht] at this
  simp only [List.tail_cons, Nat.zero_add, List.singleton_append, List.length_cons, List.length_nil,
    length_arranged, List.replicate_zero, List.append_nil] at this
  rw [tab_replicate, ← hl, Nat.add_sub_cancel, this, permLoop]
  simp only [lt_irrefl, if_false]
  rw [ht]
  rfl

theorem tab_comp_perm (size : Nat) (f : Nat → α) (g : Perm Nat) (hg : ∀ p, size ≤ p → g p = p) :
    (tab size (per f g)).Perm (tab size f) := by
  have h1 : ((List.range size).map g).Perm (List.range size) := by
    rw [List.perm_ext_iff_of_nodup (List.nodup_range.map g.injective) List.nodup_range]
    have hlt : ∀ p, p < size → g p < size := by
      intro p hp
      by_contra h
      have := hg (g p) (by omega)
      have := g.injective this
      omega
    intro a
    simp only [List.mem_map, List.mem_range]
    constructor
    · rintro ⟨p, hp, rfl⟩
      exact hlt p hp
    · intro ha
      refine ⟨g.symm a, ?_, by simp⟩
      by_contra h
      have := hg (g.symm a) (by omega)
      rw [apply_symm_apply] at this
      omega
  have := h1.map f
  rw [List.map_map] at this
  exact this

/-- C62, partial: if the first array holds the elements of the set, as the loop expects and as is meant by the
two copies before it, then the loop ends with `size!` arrays, each a permutation of it, every permutation is among
them, and they are all different if the elements are. The function as a whole does not provide this, because
the copies are the wrong way around, see `C62_copies_zeros`. -/
theorem C62_loop_partial (a : List α) (hfit : a.length.factorial < 4294967296) :
    ∃ (outs : List (List α)) (k : Nat),
      (∀ fuel, k ≤ fuel → ∃ st,
        permLoop a.length fuel
          { a := a, s := List.replicate a.length 0, i := 0,
            out := some a :: List.replicate (a.length.factorial - 1) none, used := 1 } = .ok st ∧
        st.out = outs.map some ∧ st.used = outs.length) ∧
      outs.length = a.length.factorial ∧ (∀ l ∈ outs, l.Perm a) ∧
      (a.Nodup → outs.Nodup ∧ ∀ l, l ∈ outs ↔ l.Perm a) := by
  cases a with
  | nil =>
    refine ⟨[[]], 1, ?_, rfl, by simp, by simp⟩
    intro fuel hf
    obtain ⟨d, rfl⟩ : ∃ d, fuel = d + 1 := ⟨fuel - 1, by omega⟩
    exact ⟨_, by rw [permLoop]; simp; rfl, rfl, rfl⟩
  | cons x a =>
    set l := x :: a with hl
    set n := l.length with hn
    set f := fun i => l.getD i x with hf
    have htab : l = tab n f := eq_tab l x
    have hn32 : n ≤ 2147483648 := le_of_factorial_lt (by omega)
    obtain ⟨k, hk⟩ := permLoop_all n hn32 hfit f
    have hperm : ∀ m ∈ (heapOuts n).map (fun g => tab n (per f g)), m.Perm l := by
      intro m hm
      obtain ⟨g, hg, rfl⟩ := List.mem_map.1 hm
      have := tab_comp_perm n f g (heapOuts_fix n g hg)
      rwa [← htab] at this
    have hlen : ((heapOuts n).map (fun g => tab n (per f g))).length = n.factorial := by
      rw [List.length_map, heapOuts_length]
    refine ⟨(heapOuts n).map (fun g => tab n (per f g)), k, ?_, hlen, hperm, ?_⟩
    · intro fuel hfu
      have := hk fuel hfu
      rw [← htab] at this
      exact ⟨_, this, by simp [arranged], hlen.symm⟩
    · intro hnd
      have hinj : ∀ i j, i < n → j < n → f i = f j → i = j := by
        intro i j hi hj h
        have h1 : f i = l[i] := getD_of_lt hi
        have h2 : f j = l[j] := getD_of_lt hj
        rw [h1, h2] at h
        exact (hnd.getElem_inj_iff).1 h
      have hno : ((heapOuts n).map (fun g => tab n (per f g))).Nodup := by
        rw [List.nodup_map_iff_inj_on (heapOuts_nodup n)]
        intro g hg h hh he
        ext p
        by_cases hp : p < n
        · have hlt : ∀ g ∈ heapOuts n, g p < n := by
            intro g hg
            by_contra h
            have h1 := heapOuts_fix n g hg (g p) (by omega)
            have := g.injective h1
            omega
          exact hinj _ _ (hlt g hg) (hlt h hh) (tab_inj he p hp)
        · rw [heapOuts_fix n g hg p (by omega), heapOuts_fix n h hh p (by omega)]
      refine ⟨hno, fun m => ⟨hperm m, fun hm => ?_⟩⟩
      have hsub : ((heapOuts n).map (fun g => tab n (per f g))) ⊆ l.permutations := by
        intro m hm
        exact List.mem_permutations.2 (hperm m hm)
      have hp := (hno.subperm hsub).perm_of_length_le (by rw [hlen, List.length_permutations])
      exact hp.mem_iff.2 (List.mem_permutations.2 hm)

/-- `C62_loop_partial` on three elements. -/
example : (permLoop 3 30
      { a := [4, 5, 6], s := [0, 0, 0], i := 0, used := 1,
        out := some [4, 5, 6] :: List.replicate 5 none }).map (fun st => (st.out, st.used))
    = .ok ([some [4, 5, 6], some [5, 4, 6], some [6, 4, 5], some [4, 6, 5], some [5, 6, 4], some [6, 5, 4]], 6) := rfl

/-- C62 is false: `sp_times_permutations` overwrites the set with zeros, and returns `size!` arrays of
zeros, for each set of each size. -/
theorem C62_copies_zeros (size : Nat) (set : Buf Nat) (hset : size ≤ set.length)
    (hfit : size.factorial < 4294967296) :
    ∃ k, ∀ fuel, k ≤ fuel → timesPermutations size fuel set
      = .ok (List.replicate size 0 ++ set.drop size, List.replicate size.factorial (some (List.replicate size 0)),
          size.factorial) := by
  have h32 : size ≤ 2147483648 := le_of_factorial_lt (by omega)
  obtain ⟨k, hk⟩ := permLoop_all size h32 hfit (fun _ => 0)
  refine ⟨k, fun fuel hf => ?_⟩
  have hpos := Nat.factorial_pos size
  rw [← tab_replicate] at hk
  rw [timesPermutations]
  simp only [C65_factorial, Nat.mod_eq_of_lt (show size.factorial < 4294967296 by omega)]
  rw [C51_copy _ _ _ hset (by simp), ok_bind', C51_copy _ _ _ (by simp) (by simp), ok_bind']
  obtain ⟨d, hd⟩ : ∃ d, size.factorial = d + 1 := ⟨size.factorial - 1, by omega⟩
  have hw : wr (List.replicate size.factorial (none : Option (Buf Nat))) 0 (some (List.replicate size 0))
      = .ok (some (List.replicate size 0) :: List.replicate (size.factorial - 1) none) := by
    rw [hd, List.replicate_succ, wr_eq_ok _ (by simp)]
    rfl
  rw [hw, ok_bind']
  simp only [List.take_replicate, List.drop_replicate, Nat.min_self, Nat.sub_self, List.replicate_zero,
    List.append_nil]
  rw [hk fuel hf, ok_bind']
  simp only [arranged, pure_eq_ok]
  congr 3
  rw [List.eq_replicate_iff]
  refine ⟨by rw [List.length_map, heapOuts_length], ?_⟩
  intro b hb
  obtain ⟨g, _, rfl⟩ := List.mem_map.1 hb
  rw [tab_replicate]
  rfl

/-- `C62_copies_zeros` on three elements. -/
example : timesPermutations 3 30 [4, 5, 6] = .ok ([0, 0, 0], List.replicate 6 (some [0, 0, 0]), 6) := rfl

end Sp
