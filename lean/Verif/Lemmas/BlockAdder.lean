import Verif.Model.BlockAdder
import Verif.Lemmas.SeqParallel
import Verif.Spec.ParallelBlocks
import Verif.Lemmas.EventTree

set_option linter.unusedSectionVars false

namespace Sp
variable {D S L : Type} {ok : Nat → Prop}

section
variable [Add S]

theorem wfold_append (off : Nat) (ws vs : List (Write S)) (c j : Nat) (x : S) :
    wfold off (ws ++ vs) c j x = wfold off vs c j (wfold off ws c j x) := by
  induction ws generalizing x with
  | nil => rfl
  | cons w ws ih => rw [List.cons_append, wfold, wfold, ih]

theorem wfold_row (off c' n : Nat) (v : Nat → S) (c j : Nat) (x : S) :
    wfold off ((List.range n).map fun i => (⟨c', i, v i⟩ : Write S)) c j x =
      if c = c' ∧ off ≤ j ∧ j < off + n then x + v (j - off) else x := by
  induction n with
  | zero => rw [if_neg (by omega)]; rfl
  | succ n ih =>
    rw [List.range_succ, List.map_append, wfold_append, ih, List.map_cons, List.map_nil, wfold, wfold]
    simp only
    by_cases h : c = c' ∧ j = off + n
    · rw [if_pos h, if_neg (by omega), if_pos (by omega), h.2, Nat.add_sub_cancel_left]
    · rw [if_neg h]
      by_cases h2 : c = c' ∧ off ≤ j ∧ j < off + n
      · rw [if_pos h2, if_pos (by omega)]
      · rw [if_neg h2, if_neg (by omega)]

theorem wfold_block [Zero S] (off nch n : Nat) (w : Buf (Buf S)) (c j : Nat) (x : S) :
    wfold off (blockWrites nch n w) c j x =
      if c < nch ∧ off ≤ j ∧ j < off + n then x + (w.getD c []).getD (j - off) 0 else x := by
  unfold blockWrites
  induction nch with
  | zero => rw [if_neg (by omega)]; rfl
  | succ k ih =>
    rw [List.range_succ, List.flatMap_append, wfold_append, ih, List.flatMap_singleton, wfold_row off k n (fun i => (w.getD k []).getD i 0)]
    by_cases h : c = k ∧ off ≤ j ∧ j < off + n
    · rw [if_pos h, if_neg (by omega), if_pos (by omega), h.1]
    · rw [if_neg h]
      by_cases h2 : c < k ∧ off ≤ j ∧ j < off + n
      · rw [if_pos h2, if_pos (by omega)]
      · rw [if_neg h2, if_neg (by omega)]

end

theorem blockWrites_mem [Zero S] {nch n : Nat} {w : Buf (Buf S)} {v : Write S} (h : v ∈ blockWrites nch n w) :
    v.channel < nch ∧ v.index < n := by
  unfold blockWrites at h
  simp only [List.mem_flatMap, List.mem_range, List.mem_map] at h
  obtain ⟨c, hc, i, hi, rfl⟩ := h
  exact ⟨hc, hi⟩

theorem blockWrites_keys [Zero S] (nch n : Nat) (w : Buf (Buf S)) :
    ((blockWrites nch n w).map fun v => (v.channel, v.index)).Nodup := by
  unfold blockWrites
  rw [List.map_flatMap, List.nodup_flatMap]
  constructor
  · intro c _
    rw [List.map_map]
    exact List.nodup_range.map fun i j hij => by simpa using hij
  · refine List.nodup_range.imp ?_
    intro a b hab p h1 h2
    simp only [List.map_map, List.mem_map] at h1 h2
    obtain ⟨i, _, rfl⟩ := h1
    obtain ⟨j, _, h2⟩ := h2
    simp only [Function.comp_apply, Prod.mk.injEq] at h2
    exact hab h2.1.symm

theorem newBlock_blk [Zero S] (nch n : Nat) : newBlock nch n = blk nch n fun _ _ => (0 : S) := by
  unfold newBlock blk tab
  simp

theorem blk_get [Zero S] {nch n c i : Nat} (f : Nat → Nat → S) (hc : c < nch) (hi : i < n) :
    ((blk nch n f).getD c []).getD i 0 = f c i := by
  unfold blk tab
  simp [hc, hi]

theorem applyWrites_block [Add S] [Zero S] {nch m n off : Nat} (w : Buf (Buf S)) (f : Nat → Nat → S) (h : off + m ≤ n) :
    applyWrites off (blockWrites nch m w) (blk nch n f) = .ok (blk nch n fun c j =>
      if off ≤ j ∧ j < off + m then f c j + (w.getD c []).getD (j - off) 0 else f c j) := by
  have := applyWrites_tab2 (ch := nch) (n := n) (off := off) (blockWrites nch m w) f
    (fun v hv => ⟨(blockWrites_mem hv).1, by have := (blockWrites_mem hv).2; omega⟩)
  refine this.trans (congrArg Except.ok ?_)
  refine tab_congr fun c hc => ?_
  refine tab_congr fun j hj => ?_
  beta_reduce
  rw [wfold_block]
  by_cases hh : off ≤ j ∧ j < off + m
  · rw [if_pos hh, if_pos ⟨hc, hh⟩]
  · rw [if_neg hh, if_neg (fun h => hh h.2)]

section
variable [Add S] [Zero S]

theorem Seamless.adder {cb : Callbacks D (Buf (Buf S))} {nch dur : Nat} {G : Sound S} {e : Event D} {a : Nat}
    (h : Seamless ok cb nch dur G e a) (hd : dur < 4294967296) :
    Seamless ok (blockAdder cb nch).callbacks nch dur (addSound G) e a := by
  obtain ⟨R, hr, hR⟩ := h
  refine ⟨R, hr, fun e a hra => ⟨fun hf w => ?_, fun b off n f hab hb hok hoff => ?_⟩⟩
  · simp only [Adder.callbacks, blockAdder, (hR e a hra).1 hf, ok_bind', pure_eq_ok]
  · have hsub : sub32 b a = b - a := sub32_of_le hab (by omega)
    obtain ⟨e', h1, h2, h3, h4, h5⟩ := (hR e a hra).2 b 0 (b - a) (fun _ _ => 0) hab hb hok (by omega)
    refine ⟨e', ?_, h2, h3, h4, h5⟩
    have hg : (blockAdder cb nch).generate a b e =
        .ok (0, e', blockWrites nch (b - a) (blk nch (b - a) (applyRange G a 0 (b - a) fun _ _ => 0))) := by
      simp only [blockAdder, hsub, newBlock_blk, h1, ok_bind', pure_eq_ok]
    simp only [Adder.callbacks, hg, ok_bind', pure_eq_ok]
    rw [applyWrites_block _ _ (by omega), ok_bind']
    refine congrArg Except.ok (congrArg (Prod.mk 0) (congrArg (Prod.mk e') ?_))
    refine tab_congr fun c hc => tab_congr fun j hj => ?_
    unfold applyRange addSound
    beta_reduce
    by_cases hh : off ≤ j ∧ j < off + (b - a)
    · rw [if_pos hh, if_pos hh, blk_get _ hc (by omega), if_pos (by omega), Nat.sub_zero]
    · rw [if_neg hh, if_neg hh]

theorem Ready.adder {cb : Callbacks D (Buf (Buf S))} {nch dur : Nat} {G : Sound S} {e : Event D} {a : Nat}
    (h : Ready ok cb nch dur G e a) (hd : dur < 4294967296) :
    Ready ok (blockAdder cb nch).callbacks nch dur (addSound G) e a := by
  obtain ⟨h1, h2⟩ := h
  refine ⟨fun hf w => ?_, ?_⟩
  · simp only [Adder.callbacks, blockAdder, h1 hf, ok_bind', pure_eq_ok]
  · by_cases hp : e.prep = true
    · rw [if_pos hp] at h2 ⊢
      obtain ⟨e', k1, k2, k3, k4⟩ := h2
      refine ⟨e', fun w => ?_, k2, k3, k4.adder hd⟩
      simp only [Adder.callbacks, blockAdder, k1, ok_bind', pure_eq_ok]
    · rw [if_neg hp] at h2 ⊢
      exact h2.adder hd

/-- A part as it is added. -/
def Part.adder (p : Part S) : Part S := ⟨p.start, p.stop, addSound p.G⟩

theorem Chain.adder {cb : Callbacks D (Buf (Buf S))} {nch t : Nat} {ps : List (Part S)} {l : List (Addr × Event D)}
    (h : Chain ok cb nch t ps l) : Chain ok (blockAdder cb nch).callbacks nch t (ps.map Part.adder) l := by
  induction h with
  | nil => exact .nil
  | keep h1 h2 h3 h4 h0 h5 h6 _ ih =>
    refine .keep h1 h2 h3 h4 h0 (h5.adder (by omega)) ?_ ih
    intro q hq
    rw [List.mem_map] at hq
    obtain ⟨q, hq, rfl⟩ := hq
    exact h6 q hq
  | drop h1 _ ih => exact .drop h1 ih

theorem Chain.ordered {cb : Callbacks D (Buf (Buf S))} {nch t : Nat} {ps : List (Part S)} {l : List (Addr × Event D)}
    (h : Chain ok cb nch t ps l) : ∀ x ∈ l, x.2.start ≤ x.2.stop := by
  induction h with
  | nil => simp
  | keep _ _ h3 _ _ _ _ _ ih =>
    intro x hx
    rcases List.mem_cons.1 hx with rfl | hx
    · exact h3
    · exact ih x hx
  | drop _ _ ih => exact ih

theorem blockAdder_keepsTimes {cb : Callbacks D (Buf (Buf S))} (nch : Nat)
    (h : ∀ e st e', cb.prepare e [] = .ok (st, e') → e'.1.start = e.start ∧ e'.1.stop = e.stop) :
    AdderKeepsTimes (blockAdder cb nch) := by
  intro e r hr
  simp only [blockAdder] at hr
  obtain ⟨⟨st, e', w⟩, h1, hr⟩ := bind_eq_ok.1 hr
  simp only [pure_eq_ok, Except.ok.injEq] at hr
  subst hr
  exact h e st (e', w) h1

theorem blockAdder_inRange (cb : Callbacks D (Buf (Buf S))) (nch : Nat) : AdderInRange (blockAdder cb nch) nch := by
  intro x y e r hxy hy hr w hw
  simp only [blockAdder] at hr
  obtain ⟨⟨st, e', w'⟩, h1, hr⟩ := bind_eq_ok.1 hr
  simp only [pure_eq_ok, Except.ok.injEq] at hr
  subst hr
  have := blockWrites_mem hw
  rw [sub32_of_le hxy hy] at this
  exact this

end

/-- A future with the functions of `blockAdder` calls the generate function with its own block: if this gives a block of the same size, it
is the block of the future afterwards. sequencer.c:293-296 -/
theorem futGenerate_block [AddZeroClass S] (cb : Callbacks D (Buf (Buf S))) {nch k : Nat} {sf : Slot S} {s : Par D S}
    (hfr : s.freed = false) (hout : sf.out = newBlock nch (sub32 sf.stop sf.start)) {e e' : Event D} {st : Nat} {g : Nat → Nat → S}
    (hload : loadEvent s.events sf.event = .ok e)
    (hgen : cb.generate sf.start sf.stop 0 e sf.out = .ok (st, e', blk nch (sub32 sf.stop sf.start) g)) :
    futGenerate (blockAdder cb nch) k sf s = .ok { s with
      events := setEvent s.events sf.event e',
      slots := s.slots.set k (some { sf with out := blk nch (sub32 sf.stop sf.start) g, status := st, fut := .returned }) } := by
  have hg : (blockAdder cb nch).generate sf.start sf.stop e =
      .ok (st, e', blockWrites nch (sub32 sf.stop sf.start) (blk nch (sub32 sf.stop sf.start) g)) := by
    simp only [blockAdder, ← hout, hgen, ok_bind', pure_eq_ok]
  have ha : applyWrites 0 (blockWrites nch (sub32 sf.stop sf.start) (blk nch (sub32 sf.stop sf.start) g)) sf.out =
      .ok (blk nch (sub32 sf.stop sf.start) g) := by
    rw [hout, newBlock_blk, applyWrites_block _ _ (by omega)]
    refine congrArg Except.ok (tab_congr fun c hc => tab_congr fun j hj => ?_)
    beta_reduce
    rw [if_pos (by omega), Nat.sub_zero, blk_get _ hc hj, zero_add]
  unfold futGenerate
  rw [hfr, hload]
  simp only [ok_bind', hg, ha, pure_eq_ok, Bool.false_eq_true, if_false]

end Sp
