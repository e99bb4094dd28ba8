import Verif.Lemmas.ArrayHeap
import Verif.Props.Permutations
import Verif.Props.Compositions

/-!
# C142: ownership of arrays
-/

set_option linter.unusedSectionVars false

namespace Sp
variable {S : Type}

/-- The memory in the loop of `sp_times_permutations`, for the state `st` of the loop without addresses. -/
def PermHeap (h0 h : ArrayHeap S) (size n pa ps pout : Nat) (st : PermState Nat) (cells : List (Nat × Buf Nat)) : Prop :=
  Owns h0 h ((pa, .times st.a) :: (ps, .times st.s) :: (pout, .pointers (ptrs cells (n - cells.length))) :: asCells S cells) ∧
    st.out = contents cells (n - cells.length) ∧ st.used = cells.length ∧ st.a.length = size ∧ cells.length ≤ n

theorem permLoopHeap_follows {h0 : ArrayHeap S} {size n pa ps pout : Nat} (hn : n < 4294967296) : ∀ (fuel : Nat) {st st' : PermState Nat}
    {cells : List (Nat × Buf Nat)} {h : ArrayHeap S}, permLoop size fuel st = .ok st' → PermHeap h0 h size n pa ps pout st cells →
    ∃ h' cells', permLoopHeap size pa ps pout fuel st.i st.used h = .ok (st'.used, h') ∧ PermHeap h0 h' size n pa ps pout st' cells'
  | 0, st, st', cells, h, hr, _ => by simp [permLoop] at hr
  | fuel + 1, st, st', cells, h, hr, ⟨hh, ho, hu, hl, hc⟩ => by
    rw [permLoop] at hr
    rw [permLoopHeap]
    split at hr
    swap
    · rename_i hi
      rw [if_neg hi]
      simp only [Except.ok.injEq] at hr
      subst hr
      exact ⟨h, cells, rfl, hh, ho, hu, hl, hc⟩
    rename_i hi
    rw [if_pos hi]
    obtain ⟨c, hc1, hr⟩ := bind_eq_ok.1 hr
    rw [hh.times (p := ps) (b := st.s) (by simp), ok_bind', hc1, ok_bind']
    split at hr
    · rename_i hci
      rw [if_pos hci]
      obtain ⟨a, ha, hr⟩ := bind_eq_ok.1 hr
      obtain ⟨s, hs, hr⟩ := bind_eq_ok.1 hr
      obtain ⟨out, hout, hr⟩ := bind_eq_ok.1 hr
      have hal : a.length = size := by rw [timesSwap_length ha, hl]
      have hlt : cells.length < n := by
        have := wr_lt hout
        rw [ho, hu] at this
        simp [contents] at this
        omega
      obtain ⟨m, hm⟩ : ∃ m, n - cells.length = m + 1 := ⟨n - cells.length - 1, by omega⟩
      have hout' : ∀ b, out = contents (cells ++ [(b, a)]) m := by
        intro b
        rw [ho, hu, hm] at hout
        have e := wr_next (cells.map fun x => some x.2) m (a.take size)
        rw [List.length_map] at e
        rw [contents, e, Except.ok.injEq] at hout
        rw [← hout, contents, List.map_append, List.take_of_length_le (by omega)]
        rfl
      obtain ⟨h1, e1, hh1⟩ := Owns.setTimes [] hh a
      obtain ⟨h2, e2, hh2⟩ := Owns.setTimes [(pa, .times a)] hh1 s
      have hh3 := hh2.alloc (.times (List.replicate size 0))
      rcases hal3 : h2.alloc (.times (List.replicate size 0)) with ⟨b, h3⟩
      rw [hal3] at hh3
      obtain ⟨h4, e4, hh4⟩ := Owns.setTimes [] hh3 (a.take size)
      obtain ⟨h5, e5, hh5⟩ := Owns.setPointers [(b, .times (a.take size)), (pa, .times a), (ps, .times s)] hh4 (ptrs (cells ++ [(b, a)]) m)
      have hw : wr (ptrs cells (n - cells.length)) st.used (some b) = .ok (ptrs (cells ++ [(b, a)]) m) := by
        have e := wr_next (cells.map fun x => some x.1) m b
        rw [List.length_map] at e
        rw [hm, hu, ptrs, e, ptrs, List.map_append]
        rfl
      have hu1 : u32 (st.used + 1) = (cells ++ [(b, a)]).length := by
        rw [u32, Nat.mod_eq_of_lt (by omega), hu, List.length_append]
        rfl
      have hm' : n - (cells ++ [(b, a)]).length = m := by
        rw [List.length_append]
        simp only [List.length_cons, List.length_nil]
        omega
      rw [List.take_of_length_le (by omega)] at hh5
      obtain ⟨h', cells', e', r⟩ := permLoopHeap_follows (h0 := h0) (pa := pa) (ps := ps) (pout := pout) (h := h5) (cells := cells ++ [(b, a)]) hn fuel hr ⟨by
        rw [hm', show asCells S (cells ++ [(b, a)]) = asCells S cells ++ [(b, .times a)] by simp [asCells]]
        exact hh5.perm (List.perm_append_singleton _ _).symm, by rw [hm']; exact hout' b, hu1, hal, by
        rw [List.length_append]
        exact hlt⟩
      refine ⟨h', cells', ?_, r⟩
      rw [hh.times (p := pa) (b := st.a) (by simp), ok_bind', ha, ok_bind', e1, ok_bind', hs, ok_bind', e2, ok_bind', hal3]
      dsimp only
      rw [hh3.times (p := pa) (b := a) (by simp), ok_bind', memcpy_all (by simp) (by omega), ok_bind', e4, ok_bind',
        hh4.pointers (p := pout) (b := ptrs cells (n - cells.length)) (by simp), ok_bind', hw, ok_bind', e5, ok_bind']
      exact e'
    · rename_i hci
      rw [if_neg hci]
      obtain ⟨s, hs, hr⟩ := bind_eq_ok.1 hr
      obtain ⟨h1, e1, hh1⟩ := Owns.setTimes [(pa, .times st.a)] hh s
      rw [hs, ok_bind', e1, ok_bind']
      exact permLoopHeap_follows hn fuel (st := { st with s := s, i := u32 (st.i + 1) }) hr ⟨hh1, ho, hu, hl, hc⟩

theorem timesPermutationsHeap_follows {h : ArrayHeap S} (hf : h.Fresh) {size fuel pset n : Nat} {set set' : Buf Nat}
    {outs : Buf (Option (Buf Nat))} (hset : h.cell pset = some (.times set)) (hfact : timeFactorial size < 4294967296)
    (hr : timesPermutations size fuel set = .ok (set', outs, n)) :
    ∃ pout h' cells, timesPermutationsHeap size fuel pset h = .ok (pout, n, h') ∧
      Owns (h.put pset (some (.times set'))) h'
        ((pout, .pointers (ptrs cells (timeFactorial size - cells.length))) :: asCells S cells) ∧
      outs = contents cells (timeFactorial size - cells.length) ∧ n = cells.length := by
  unfold timesPermutations at hr
  obtain ⟨set1, hs1, hr⟩ := bind_eq_ok.1 hr
  obtain ⟨a, ha, hr⟩ := bind_eq_ok.1 hr
  obtain ⟨out, hout, hr⟩ := bind_eq_ok.1 hr
  obtain ⟨st, hst, hr⟩ := bind_eq_ok.1 hr
  simp only [pure_eq_ok, Except.ok.injEq, Prod.mk.injEq] at hr
  obtain ⟨rfl, rfl, rfl⟩ := hr
  have hp : h.cell pset ≠ none := by rw [hset]; simp
  have hpos : 0 < timeFactorial size := by
    have := wr_lt hout
    simpa using this
  obtain ⟨m, hm⟩ : ∃ m, timeFactorial size = m + 1 := ⟨timeFactorial size - 1, by omega⟩
  have haEq : a = List.replicate size 0 := by
    rw [C51_copy _ _ _ (by simp) (by simp), Except.ok.injEq] at ha
    rw [← ha]
    simp
  have g1 := (Owns.refl h).alloc (.times (List.replicate size 0))
  rcases f1 : h.alloc (.times (List.replicate size 0)) with ⟨pa, h1⟩
  rw [f1] at g1
  have g2 := g1.alloc (.times (List.replicate size 0))
  rcases f2 : h1.alloc (.times (List.replicate size 0)) with ⟨ps, h2⟩
  rw [f2] at g2
  have g3 := g2.alloc (.pointers (List.replicate (timeFactorial size) none))
  rcases f3 : h2.alloc (.pointers (List.replicate (timeFactorial size) none)) with ⟨pout, h3⟩
  rw [f3] at g3
  have g4 := g3.alloc (.times (List.replicate size 0))
  rcases f4 : h3.alloc (.times (List.replicate size 0)) with ⟨pb, h4⟩
  rw [f4] at g4
  have hw : ∀ {α : Type} (x : α), wr (List.replicate (timeFactorial size) none) 0 (some x) = .ok (some x :: List.replicate m none) := by
    intro α x
    have := wr_next ([] : List (Option α)) m x
    rw [hm]
    simpa using this
  rw [hw, Except.ok.injEq] at hout
  subst hout
  obtain ⟨h5, e5, g5⟩ := Owns.setPointers [(pb, .times (List.replicate size 0))] g4 (ptrs [(pb, List.replicate size 0)] m)
  have e6 : h5.setTimes pset set1 = .ok (h5.put pset (some (.times set1))) := by
    rw [ArrayHeap.setTimes, g5.old hf hp, hset]
  have g6 := g5.putOld hf hp (some (.times set1))
  obtain ⟨h7, e7, g7⟩ := Owns.setTimes [(pb, .times (List.replicate size 0)), (pout, .pointers (ptrs [(pb, List.replicate size 0)] m)),
    (ps, .times (List.replicate size 0))] g6 a
  obtain ⟨h8, cells, e8, g8, ho, hu, _, _⟩ := permLoopHeap_follows (h0 := h.put pset (some (.times set1))) (pa := pa) (ps := ps) (pout := pout)
    (h := h7) (n := timeFactorial size) (cells := [(pb, List.replicate size 0)]) hfact fuel hst ⟨by
      refine g7.perm ?_
      rw [show timeFactorial size - [(pb, List.replicate size 0)].length = m by simp [hm]]
      show List.Perm [(pb, ArrayCell.times (List.replicate size 0)), (pout, .pointers (ptrs [(pb, List.replicate size 0)] m)),
        (ps, .times (List.replicate size 0)), (pa, .times a)] [(pa, .times a), (ps, .times (List.replicate size 0)),
        (pout, .pointers (ptrs [(pb, List.replicate size 0)] m)), (pb, .times (List.replicate size 0))]
      exact (List.reverse_perm _).symm, by
      show _ = contents [(pb, List.replicate size 0)] (timeFactorial size - 1)
      rw [show timeFactorial size - 1 = m by omega]
      rfl, rfl, by rw [haEq]; simp, hpos⟩
  have hf' := hf.put hp (some (.times set1))
  obtain ⟨h9, e9, g9⟩ := Owns.free hf' (g8.perm (List.Perm.swap _ _ _))
  obtain ⟨h10, e10, g10⟩ := Owns.free hf' g9
  refine ⟨pout, h10, cells, ?_, g10, ho, hu⟩
  unfold timesPermutationsHeap
  simp only [f1, f2, f3, f4]
  rw [g4.pointers (p := pout) (b := List.replicate (timeFactorial size) none) (by simp), ok_bind', hw, ok_bind',
    show h4.setPointers pout (some pb :: List.replicate m none) = .ok h5 from e5, ok_bind',
    g5.times (p := pa) (b := List.replicate size 0) (by simp), ok_bind',
    show h5.times pset = .ok set by rw [ArrayHeap.times, g5.old hf hp, hset], ok_bind', hs1, ok_bind', e6, ok_bind',
    g6.times (p := pb) (b := List.replicate size 0) (by simp), ok_bind', g6.times (p := pa) (b := List.replicate size 0) (by simp), ok_bind',
    ha, ok_bind', e7, ok_bind', e8, ok_bind']
  dsimp only
  rw [e9, ok_bind', e10, ok_bind']
  rfl

/-- `pout` is a new array of pointers to new arrays at `addrs`, all different, with the contents `outs`. -/
def NewArrays (before after : ArrayHeap S) (pout : Nat) (addrs : List Nat) (outs : List (Buf Nat)) : Prop :=
  (pout :: addrs).Nodup ∧ (∀ p ∈ pout :: addrs, before.cell p = none) ∧ after.cell pout = some (.pointers (addrs.map some)) ∧
    addrs.map after.cell = outs.map fun b => some (.times b)

theorem Owns.newArrays {h0 h : ArrayHeap S} (hf : h0.Fresh) {pout : Nat} {cells : List (Nat × Buf Nat)} {rest : List (Nat × ArrayCell S)}
    (hh : Owns h0 h ((pout, .pointers (ptrs cells 0)) :: (asCells S cells ++ rest))) :
    NewArrays h0 h pout (cells.map Prod.fst) (cells.map Prod.snd) := by
  have hfst : (asCells S cells).map Prod.fst = cells.map Prod.fst := by
    rw [asCells, List.map_map]
    rfl
  refine ⟨?_, fun p hp => ?_, ?_, ?_⟩
  · have := hh.nodup
    rw [List.map_cons, List.map_append, hfst, ← List.cons_append] at this
    exact this.of_append_left
  · have : p ∈ ((pout, ArrayCell.pointers (ptrs cells 0)) :: (asCells S cells ++ rest)).map Prod.fst := by
      rw [List.map_cons, List.map_append, hfst]
      rcases List.mem_cons.1 hp with rfl | hp
      · simp
      · exact List.mem_cons_of_mem _ (List.mem_append_left _ hp)
    obtain ⟨x, hx, rfl⟩ := List.mem_map.1 this
    exact hf _ (hh.new x hx).1
  · rw [hh.here (pout, .pointers (ptrs cells 0)) (by simp)]
    simp [ptrs, List.map_map]
  · rw [List.map_map, List.map_map]
    refine List.map_congr_left fun x hx => ?_
    exact hh.here (x.1, .times x.2) (List.mem_cons_of_mem _ (List.mem_append_left _ (List.mem_map.2 ⟨x, hx, rfl⟩)))

/-- C142, `sp_times_permutations`: the arrays it returns are new and all different, no other memory stays allocated, no other array than the
given set is changed, and `sp_times_array_free` releases exactly what the call returned. -/
theorem C142_permutations {h : ArrayHeap S} (hf : h.Fresh) {size pset : Nat} {set : Buf Nat} (hset : h.cell pset = some (.times set))
    (hle : size ≤ set.length) (hfit : size.factorial < 4294967296) :
    ∃ k, ∀ fuel, k ≤ fuel → ∃ pout addrs h', timesPermutationsHeap size fuel pset h = .ok (pout, size.factorial, h') ∧
      addrs.length = size.factorial ∧ NewArrays h h' pout addrs (List.replicate size.factorial (List.replicate size 0)) ∧
      h'.cell pset = some (.times (List.replicate size 0 ++ set.drop size)) ∧
      (∀ p, p ≠ pset → p ∉ pout :: addrs → h'.cell p = h.cell p) ∧
      ∃ h'', arrayFreeHeap pout size.factorial h' = .ok h'' ∧ ∀ p, p ≠ pset → h''.cell p = h.cell p := by
  obtain ⟨k, hk⟩ := C62_copies_zeros size set hle hfit
  refine ⟨k, fun fuel hfu => ?_⟩
  have hfact : timeFactorial size = size.factorial := by rw [C65_factorial, Nat.mod_eq_of_lt hfit]
  obtain ⟨pout, h', cells, e, g, ho, hn⟩ := timesPermutationsHeap_follows hf hset (by rw [hfact]; exact hfit) (hk fuel hfu)
  have hp : h.cell pset ≠ none := by rw [hset]; simp
  rw [hfact, hn, Nat.sub_self] at g ho
  have hsnd : cells.map Prod.snd = List.replicate size.factorial (List.replicate size 0) := by
    have : (cells.map Prod.snd).map some = (List.replicate size.factorial (List.replicate size 0)).map some := by
      rw [List.map_replicate, hn, ho, contents, List.map_map]
      simp
    exact List.map_injective_iff.2 (Option.some_injective _) this
  have hf' := hf.put hp (some (.times (List.replicate size 0 ++ set.drop size)))
  rw [← List.append_nil (asCells S cells)] at g
  have hna := Owns.newArrays hf' g
  have hpne : pset ∉ pout :: cells.map Prod.fst := by
    intro hmem
    have := hna.2.1 pset hmem
    simp [ArrayHeap.put] at this
  obtain ⟨h'', e'', g''⟩ := arrayFreeHeap_holds hf' cells g
  rw [hsnd] at hna
  refine ⟨pout, cells.map Prod.fst, h', e, by rw [List.length_map, hn], ⟨hna.1, fun p hp' => ?_, hna.2.2⟩, ?_, fun p h1 h2 => ?_, h'', ?_,
    fun p h1 => ?_⟩
  · have := hna.2.1 p hp'
    simp only [ArrayHeap.put] at this
    rwa [if_neg fun e : p = pset => hpne (e ▸ hp')] at this
  · rw [g.old hf' (by simp [ArrayHeap.put])]
    simp [ArrayHeap.put]
  · rw [g.frame p (by simpa [asCells] using h2)]
    simp [ArrayHeap.put, h1]
  · rw [hn]
    exact e''
  · rw [g''.frame p (by simp)]
    simp [ArrayHeap.put, h1]

/-- Three elements beside another array; six arrays are returned. -/
example : ∃ k, ∀ fuel, k ≤ fuel → ∃ (pout : Nat) (addrs : List Nat) (h' : ArrayHeap ℚ), timesPermutationsHeap (S := ℚ) 3 fuel 0
      ⟨2, fun p => if p = 0 then some (.times [4, 5, 6]) else if p = 1 then some (.samples [1]) else none⟩ = .ok (pout, 6, h') ∧ addrs.length = 6 ∧
      h'.cell 1 = some (.samples [1]) := by
  obtain ⟨k, hk⟩ := C142_permutations (S := ℚ) (size := 3) (pset := 0) (set := [4, 5, 6])
    (h := ⟨2, fun p => if p = 0 then some (.times [4, 5, 6]) else if p = 1 then some (.samples [1]) else none⟩)
    (fun a ha => by
      have : 2 ≤ a := ha
      simp only
      rw [if_neg (by omega), if_neg (by omega)]) rfl (by simp) (by decide)
  refine ⟨k, fun fuel hf => ?_⟩
  obtain ⟨pout, addrs, h', e, hl, hna, _, hframe, _⟩ := hk fuel hf
  refine ⟨pout, addrs, h', e, hl, ?_⟩
  rw [hframe 1 (by decide) fun hm => by
    have := hna.2.1 1 hm
    simp at this]
  rfl

/-- The memory in the loop of `sp_times_compositions`. -/
def CompHeap (h0 h : ArrayHeap S) (n pa po psizes : Nat) (st : CompState) (cells : List (Nat × Buf Nat)) : Prop :=
  Owns h0 h ((pa, .times st.a) :: (po, .pointers (ptrs cells (n - cells.length))) :: (psizes, .times st.sizes) :: asCells S cells) ∧
    st.out = contents cells (n - cells.length) ∧ st.used = cells.length ∧ cells.length ≤ n

theorem compLoopHeap_follows {h0 : ArrayHeap S} {inner n pa po psizes : Nat} (hn : n < 4294967296) : ∀ (fuel : Nat) {st st' : CompState}
    {cells : List (Nat × Buf Nat)} {h : ArrayHeap S}, compLoop inner fuel st = .ok st' → CompHeap h0 h n pa po psizes st cells →
    ∃ h' cells', compLoopHeap inner pa po psizes fuel st.k st.used h = .ok (st'.used, h') ∧ CompHeap h0 h' n pa po psizes st' cells'
  | 0, st, st', cells, h, hr, _ => by simp [compLoop] at hr
  | fuel + 1, st, st', cells, h, hr, ⟨hh, ho, hu, hc⟩ => by
    rw [compLoop] at hr
    rw [compLoopHeap]
    split at hr
    · rename_i hk
      rw [if_pos hk]
      simp only [Except.ok.injEq] at hr
      subst hr
      exact ⟨h, cells, rfl, hh, ho, hu, hc⟩
    rename_i hk
    rw [if_neg hk]
    obtain ⟨st1, hb, hr⟩ := bind_eq_ok.1 hr
    unfold compBody at hb
    obtain ⟨p, hp, hb⟩ := bind_eq_ok.1 hb
    obtain ⟨q, hq, hb⟩ := bind_eq_ok.1 hb
    obtain ⟨⟨a, k, x, y⟩, hi, hb⟩ := bind_eq_ok.1 hb
    dsimp only at hb
    obtain ⟨a1, ha1, hb⟩ := bind_eq_ok.1 hb
    obtain ⟨content, hcont, hb⟩ := bind_eq_ok.1 hb
    obtain ⟨out, hout, hb⟩ := bind_eq_ok.1 hb
    obtain ⟨sizes, hsizes, hb⟩ := bind_eq_ok.1 hb
    simp only [pure_eq_ok, Except.ok.injEq] at hb
    have hlt : cells.length < n := by
      have := wr_lt hout
      rw [ho, hu] at this
      simp [contents] at this
      omega
    obtain ⟨m, hm⟩ : ∃ m, n - cells.length = m + 1 := ⟨n - cells.length - 1, by omega⟩
    have hout' : ∀ b, out = contents (cells ++ [(b, content)]) m := by
      intro b
      rw [ho, hu, hm] at hout
      have e := wr_next (cells.map fun x => some x.2) m content
      rw [List.length_map] at e
      rw [contents, e, Except.ok.injEq] at hout
      rw [← hout, contents, List.map_append]
      rfl
    obtain ⟨h1, e1, hh1⟩ := Owns.setTimes [] hh a1
    have hh3 := hh1.alloc (.times (List.replicate (u32 (k + 1)) 0))
    rcases hal3 : h1.alloc (.times (List.replicate (u32 (k + 1)) 0)) with ⟨b, h3⟩
    rw [hal3] at hh3
    obtain ⟨h4, e4, hh4⟩ := Owns.setTimes [] hh3 content
    obtain ⟨h5, e5, hh5⟩ := Owns.setPointers [(b, .times content), (pa, .times a1)] hh4 (ptrs (cells ++ [(b, content)]) m)
    obtain ⟨h6, e6, hh6⟩ := Owns.setTimes [(b, .times content), (pa, .times a1), (po, .pointers (ptrs (cells ++ [(b, content)]) m))] hh5 sizes
    have hw : wr (ptrs cells (n - cells.length)) st.used (some b) = .ok (ptrs (cells ++ [(b, content)]) m) := by
      have e := wr_next (cells.map fun x => some x.1) m b
      rw [List.length_map] at e
      rw [hm, hu, ptrs, e, ptrs, List.map_append]
      rfl
    have hu1 : u32 (st.used + 1) = (cells ++ [(b, content)]).length := by
      rw [u32, Nat.mod_eq_of_lt (by omega), hu, List.length_append]
      rfl
    have hm' : n - (cells ++ [(b, content)]).length = m := by
      rw [List.length_append]
      simp only [List.length_cons, List.length_nil]
      omega
    subst hb
    obtain ⟨h', cells', e', r⟩ := compLoopHeap_follows (h0 := h0) (pa := pa) (po := po) (psizes := psizes) (h := h6)
      (cells := cells ++ [(b, content)]) hn fuel hr ⟨by
        rw [hm', show asCells S (cells ++ [(b, content)]) = asCells S cells ++ [(b, .times content)] by simp [asCells]]
        exact hh6.perm (List.perm_append_singleton _ _).symm, by rw [hm']; exact hout' b, hu1, by
        rw [List.length_append]
        exact hlt⟩
    refine ⟨h', cells', ?_, r⟩
    rw [hh.times (p := pa) (b := st.a) (by simp), ok_bind', hp, ok_bind', hq, ok_bind', hi, ok_bind']
    dsimp only
    rw [ha1, ok_bind', e1, ok_bind', hal3]
    dsimp only
    rw [hh3.times (p := pa) (b := a1) (by simp), ok_bind', hcont, ok_bind', e4, ok_bind',
      hh4.pointers (p := po) (b := ptrs cells (n - cells.length)) (by simp), ok_bind', hw, ok_bind', e5, ok_bind',
      hh5.times (p := psizes) (b := st.sizes) (by simp), ok_bind', hsizes, ok_bind', e6, ok_bind']
    exact e'

theorem timesCompositionsHeap_follows {h : ArrayHeap S} (hf : h.Fresh) {sum inner fuel n : Nat} {sizes : Buf Nat}
    {outs : Buf (Option (Buf Nat))} (hr : timesCompositions sum inner fuel = .ok (outs, n, sizes)) (hsize : outs.length < 4294967296) :
    ∃ po psizes h' cells, timesCompositionsHeap sum inner fuel h = .ok (po, n, psizes, h') ∧
      Owns h h' ((po, .pointers (ptrs cells (outs.length - cells.length))) :: (psizes, .times sizes) :: asCells S cells) ∧
      outs = contents cells (outs.length - cells.length) ∧ n = cells.length := by
  unfold timesCompositions at hr
  obtain ⟨oSize, hsz, hr⟩ := bind_eq_ok.1 hr
  obtain ⟨a, ha, hr⟩ := bind_eq_ok.1 hr
  obtain ⟨st, hst, hr⟩ := bind_eq_ok.1 hr
  simp only [pure_eq_ok, Except.ok.injEq, Prod.mk.injEq] at hr
  obtain ⟨rfl, rfl, rfl⟩ := hr
  have hol : ∀ (fuel : Nat) {st st' : CompState}, compLoop inner fuel st = .ok st' → st'.out.length = st.out.length := by
    intro fuel
    induction fuel with
    | zero => intro st st' hr; simp [compLoop] at hr
    | succ fuel ih =>
      intro st st' hr
      rw [compLoop] at hr
      split at hr
      · simp only [Except.ok.injEq] at hr
        rw [hr]
      · obtain ⟨st1, hb, hr⟩ := bind_eq_ok.1 hr
        rw [ih hr]
        unfold compBody at hb
        obtain ⟨p, hp, hb⟩ := bind_eq_ok.1 hb
        obtain ⟨q, hq, hb⟩ := bind_eq_ok.1 hb
        obtain ⟨⟨a, k, x, y⟩, hi, hb⟩ := bind_eq_ok.1 hb
        dsimp only at hb
        obtain ⟨a1, ha1, hb⟩ := bind_eq_ok.1 hb
        obtain ⟨content, hcont, hb⟩ := bind_eq_ok.1 hb
        obtain ⟨out, hout, hb⟩ := bind_eq_ok.1 hb
        obtain ⟨sizes, hsizes, hb⟩ := bind_eq_ok.1 hb
        simp only [pure_eq_ok, Except.ok.injEq] at hb
        subst hb
        exact wr_length hout
  have hoS : st.out.length = oSize := by
    rw [hol fuel hst]
    simp
  rw [hoS] at hsize ⊢
  have g1 := (Owns.refl h).alloc (.times (List.replicate (u32 (1 + sum)) 0))
  rcases f1 : h.alloc (.times (List.replicate (u32 (1 + sum)) 0)) with ⟨pa, h1⟩
  rw [f1] at g1
  have g2 := g1.alloc (.pointers (List.replicate oSize none))
  rcases f2 : h1.alloc (.pointers (List.replicate oSize none)) with ⟨po, h2⟩
  rw [f2] at g2
  have g3 := g2.alloc (.times (List.replicate oSize 0))
  rcases f3 : h2.alloc (.times (List.replicate oSize 0)) with ⟨psizes, h3⟩
  rw [f3] at g3
  obtain ⟨h4, e4, g4⟩ := Owns.setTimes [(psizes, .times (List.replicate oSize 0)), (po, .pointers (List.replicate oSize none))] g3 a
  obtain ⟨h5, cells, e5, g5, ho, hu, _⟩ := compLoopHeap_follows (h0 := h) (pa := pa) (po := po) (psizes := psizes) (h := h4) (n := oSize)
    (cells := []) hsize fuel hst ⟨g4.perm (List.reverse_perm _).symm, rfl, rfl, Nat.zero_le _⟩
  obtain ⟨h6, e6, g6⟩ := Owns.free hf g5
  refine ⟨po, psizes, h6, cells, ?_, g6, ho, hu⟩
  unfold timesCompositionsHeap
  rw [hsz, ok_bind']
  simp only [f1, f2, f3]
  rw [g3.times (p := pa) (b := List.replicate (u32 (1 + sum)) 0) (by simp), ok_bind', ha, ok_bind', e4, ok_bind', e5, ok_bind']
  dsimp only
  rw [e6, ok_bind']
  rfl

/-- C142, `sp_times_compositions`: the array of pointers, the arrays it points to and the array of sizes are new and all different, they hold
the compositions and their lengths, no other memory stays allocated and no other array is changed; `sp_times_array_free` and `free` release exactly what the call
returned. -/
theorem C142_compositions {h : ArrayHeap S} (hf : h.Fresh) {n inner fuel : Nat} (hn : 1 ≤ n) (hfit : 2 ^ (n - 1) < 4294967296)
    (hin : n ≤ inner) (hfuel : 2 ^ (n - 1) < fuel) :
    ∃ po psizes addrs outs h', timesCompositionsHeap n inner fuel h = .ok (po, outs.length, psizes, h') ∧
      (outs.Nodup ∧ ∀ l : List Nat, l ∈ outs ↔ l.sum = n ∧ ∀ x ∈ l, 1 ≤ x) ∧
      NewArrays h h' po addrs outs ∧ h.cell psizes = none ∧ psizes ∉ po :: addrs ∧ h'.cell psizes = some (.times (outs.map List.length)) ∧
      (∀ p, p ∉ psizes :: po :: addrs → h'.cell p = h.cell p) ∧
      ∃ h1 h2, arrayFreeHeap po outs.length h' = .ok h1 ∧ h1.free psizes = .ok h2 ∧ h2.cell = h.cell := by
  obtain ⟨outs, hr, hlen, hnd, hmem⟩ := C64_compositions n inner fuel hn hfit hin hfuel
  obtain ⟨po, psizes, h', cells, e, g, ho, hu⟩ := timesCompositionsHeap_follows hf hr (by simp only [List.length_map]; omega)
  rw [List.length_map] at g ho
  rw [hu, Nat.sub_self] at g ho
  have hsnd : cells.map Prod.snd = outs := by
    have : (cells.map Prod.snd).map some = outs.map some := by
      rw [ho, contents, List.map_map]
      simp
    exact List.map_injective_iff.2 (Option.some_injective _) this
  have g' := g.perm (l' := (po, .pointers (ptrs cells 0)) :: (asCells S cells ++ [(psizes, .times (outs.map List.length))]))
    ((List.perm_append_singleton _ _).symm.cons _)
  have hna := Owns.newArrays hf g'
  rw [hsnd] at hna
  obtain ⟨h1, e1, g1⟩ := arrayFreeHeap_holds hf cells g'
  obtain ⟨h2, e2, g2⟩ := Owns.free hf g1
  refine ⟨po, psizes, cells.map Prod.fst, outs, h', e, ⟨hnd, hmem⟩, hna, hf _ (g.new (psizes, .times (outs.map List.length)) (by simp)).1, ?_,
    g.here (psizes, .times (outs.map List.length)) (by simp), fun p hp => ?_, h1, h2, by rw [hu]; exact e1, e2, ?_⟩
  · have := (g.perm (List.Perm.swap _ _ _)).nodup
    rw [List.map_cons, List.nodup_cons] at this
    have h3 := this.1
    simpa [asCells] using h3
  · refine g.frame p ?_
    intro hm
    apply hp
    simp [asCells] at hm ⊢
    tauto
  · funext p
    exact g2.frame p (by simp)

/-- The four compositions of three. -/
example : ∃ po psizes addrs outs h', timesCompositionsHeap (S := ℚ) 3 3 5 ⟨0, fun _ => none⟩ = .ok (po, outs.length, psizes, h') ∧
    NewArrays ⟨0, fun _ => none⟩ h' po addrs outs ∧ [2, 1] ∈ outs := by
  obtain ⟨po, psizes, addrs, outs, h', e, hm, hna, _⟩ := C142_compositions (S := ℚ) (h := ⟨0, fun _ => none⟩) (n := 3) (inner := 3) (fuel := 5)
    (fun _ _ => rfl) (by decide) (by decide) (by decide) (by decide)
  exact ⟨po, psizes, addrs, outs, h', e, hna, (hm.2 _).2 ⟨rfl, by decide⟩⟩

end Sp
