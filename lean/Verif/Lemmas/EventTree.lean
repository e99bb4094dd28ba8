import Verif.Spec.EventTree
import Verif.Lemmas.SeqTrace
import Verif.Lemmas.Wave

set_option linter.unusedSectionVars false

namespace Sp
variable {S D L : Type} {ok : Nat → Prop}

/-- What one event of a list plays. -/
structure Part (S : Type) where
  start : Nat
  stop : Nat
  G : Sound S

def mixParts (ps : List (Part S)) : Sound S := fun c t x =>
  ps.foldl (fun x p => if p.start ≤ t ∧ t < p.stop then p.G c (t - p.start) x else x) x

theorem mixParts_cons (p : Part S) (ps : List (Part S)) (c t : Nat) (x : S) :
    mixParts (p :: ps) c t x =
      mixParts ps c t (if p.start ≤ t ∧ t < p.stop then p.G c (t - p.start) x else x) := rfl

/-- The events of the list, at time `t`, are what is left of the parts. -/
inductive Chain (ok : Nat → Prop) (cb : Callbacks D (Buf (Buf S))) (nch t : Nat) :
    List (Part S) → List (Addr × Event D) → Prop
  | nil : Chain ok cb nch t [] []
  | keep {p ps} {a : Addr} {e : Event D} {l} : p.start = e.start → p.stop = e.stop → e.start ≤ e.stop →
      e.stop < 4294967296 → (ok 0 ∨ e.start < e.stop) → Ready ok cb nch (e.stop - e.start) p.G e (min t e.stop - e.start) →
      (∀ q ∈ ps, p.start ≤ q.start) →
      Chain ok cb nch t ps l → Chain ok cb nch t (p :: ps) ((a, e) :: l)
  | drop {p ps l} : p.stop ≤ t → Chain ok cb nch t ps l → Chain ok cb nch t (p :: ps) l

theorem Chain.free {cb : Callbacks D (Buf (Buf S))} {nch t : Nat} {ps : List (Part S)}
    {l : List (Addr × Event D)} (h : Chain ok cb nch t ps l) :
    ∀ x ∈ l, x.2.hasFree = true → ∀ w, cb.free x.2 w = .ok w := by
  induction h with
  | nil => simp
  | keep h1 h2 h3 h4 _ h5 _ _ ih =>
    intro x hx
    rcases List.mem_cons.1 hx with rfl | hx
    · exact h5.1
    · exact ih x hx
  | drop _ _ ih => exact ih

theorem Chain.length {cb : Callbacks D (Buf (Buf S))} {nch t : Nat} {ps : List (Part S)}
    {l : List (Addr × Event D)} (h : Chain ok cb nch t ps l) : l.length ≤ ps.length := by
  induction h with
  | nil => simp
  | keep _ _ _ _ _ _ _ _ ih => simp; exact ih
  | drop _ _ ih => simp; omega

theorem Chain.later {cb : Callbacks D (Buf (Buf S))} {nch t u : Nat} {ps : List (Part S)}
    {l : List (Addr × Event D)} (h : Chain ok cb nch t ps l) (htu : t ≤ u)
    (hs : ∀ p ∈ ps, u ≤ p.start) : Chain ok cb nch u ps l := by
  induction h with
  | nil => exact .nil
  | @keep p ps a e l h1 h2 h3 h4 h0 h5 h6 _ ih =>
    have := hs p (by simp)
    refine .keep h1 h2 h3 h4 h0 ?_ h6 (ih (fun q hq => hs q (by simp [hq])))
    rw [show min u e.stop - e.start = min t e.stop - e.start by omega]
    exact h5
  | drop h1 _ ih => exact .drop (by omega) (ih (fun q hq => hs q (by simp [hq])))

theorem mixParts_none {ps : List (Part S)} {u t : Nat} (hs : ∀ p ∈ ps, u ≤ p.start) (ht : t < u)
    (c : Nat) (x : S) : mixParts ps c t x = x := by
  induction ps with
  | nil => rfl
  | cons p ps ih =>
    rw [mixParts_cons, if_neg (by have := hs p (by simp); omega)]
    exact ih (fun q hq => hs q (by simp [hq]))

theorem applyRange_id {G : Sound S} {a off len : Nat} {f : Nat → Nat → S}
    (h : ∀ c i x, a ≤ i → i < a + len → G c i x = x) : applyRange G a off len f = f := by
  funext c k
  unfold applyRange
  split
  · exact h _ _ _ (by omega) (by omega)
  · rfl

theorem Ready.prepareOptional {cb : Callbacks D (Buf (Buf S))} {nch dur : Nat} {G : Sound S}
    {e : Event D} {p : Nat} (h : Ready ok cb nch dur G e p) (a : Addr) (w : Buf (Buf S)) :
    ∃ e' log, prepareOptional cb a e w = .ok (0, e', w, log) ∧ e'.start = e.start ∧ e'.stop = e.stop ∧
      e'.prep = false ∧ Seamless ok cb nch dur G e' p := by
  obtain ⟨_, h⟩ := h
  unfold Sp.prepareOptional
  by_cases hp : e.prep
  · rw [if_pos hp] at h ⊢
    obtain ⟨e', h1, h2, h3, h4⟩ := h
    rw [h1 w, ok_bind']
    exact ⟨_, _, rfl, h2, h3, rfl, h4⟩
  · rw [if_neg hp] at h ⊢
    exact ⟨_, _, rfl, rfl, rfl, by simpa using hp, h⟩

theorem Seamless.ready {cb : Callbacks D (Buf (Buf S))} {nch dur : Nat} {G : Sound S}
    {e : Event D} {p : Nat} (h : Seamless ok cb nch dur G e p) (hp : e.prep = false) :
    Ready ok cb nch dur G e p := by
  obtain ⟨R, hr, hR⟩ := id h
  exact ⟨(hR e p hr).1, by simpa [hp] using h⟩

theorem Seamless.step {cb : Callbacks D (Buf (Buf S))} {nch dur : Nat} {G : Sound S}
    {e : Event D} {a : Nat} (h : Seamless ok cb nch dur G e a) {b off n : Nat} (f : Nat → Nat → S)
    (hab : a ≤ b) (hb : b ≤ dur) (hok : ok (b - a)) (hoff : off + (b - a) ≤ n) :
    ∃ e', cb.generate a b off e (blk nch n f) =
        .ok (0, e', blk nch n (applyRange G a off (b - a) f)) ∧
      e'.start = e.start ∧ e'.stop = e.stop ∧ e'.prep = e.prep ∧ Seamless ok cb nch dur G e' b := by
  obtain ⟨R, hr, hR⟩ := h
  obtain ⟨e', h1, h2, h3, h4, h5⟩ := (hR e a hr).2 b off n f hab hb hok hoff
  exact ⟨e', h1, h2, h3, h4, R, h5, hR⟩

/-- One block of a list. -/
theorem seqList_mix {cb : Callbacks D (Buf (Buf S))} {nch t u off n : Nat} {ps : List (Part S)}
    {l : List (Addr × Event D)} (h : Chain ok cb nch t ps l) (htu : t ≤ u) (hu : u < 4294967296) (hsh : Shorter ok)
    (hut : ok (u - t))
    (hoff : off + (u - t) ≤ n) (f : Nat → Nat → S) :
    ∃ l' log, seqList cb t u off l (blk nch n f) =
        .ok (0, l', blk nch n (applyRange (mixParts ps) t off (u - t) f), log) ∧
      Chain ok cb nch u ps l' := by
  induction h generalizing f with
  | nil =>
    refine ⟨[], [], ?_, .nil⟩
    unfold seqList
    rw [applyRange_id (G := mixParts []) (fun _ _ _ _ _ => rfl)]
  | @drop p ps l h1 _ ih =>
    obtain ⟨l', log, e1, e2⟩ := ih f
    refine ⟨l', log, ?_, .drop (by omega) e2⟩
    rw [e1, applyRange_congr (H := mixParts (p :: ps))]
    intro c i x hi1 hi2
    rw [mixParts_cons, if_neg (by omega)]
  | @keep p ps a e l h1 h2 h3 h4 h0 h5 h6 hch ih =>
    unfold seqList
    by_cases hst : e.stop ≤ t
    · rw [if_pos hst]
      have hfree : ∃ log, eventFree cb a e (blk nch n f) = .ok (blk nch n f, log) := by
        unfold eventFree
        split
        · next hf => rw [h5.1 hf]; exact ⟨_, rfl⟩
        · exact ⟨_, rfl⟩
      obtain ⟨log0, e0⟩ := hfree
      obtain ⟨l', log, e1, e2⟩ := ih f
      refine ⟨l', log0 ++ [.release a] ++ log, ?_, .drop (by omega) e2⟩
      rw [e0, ok_bind']
      simp only
      rw [e1, ok_bind']
      simp only [pure_eq_ok]
      rw [applyRange_congr (H := mixParts (p :: ps))]
      intro c i x hi1 hi2
      rw [mixParts_cons, if_neg (by omega)]
    · rw [if_neg hst]
      by_cases hbr : u ≤ e.start
      · rw [if_pos hbr]
        have hall : ∀ q ∈ p :: ps, u ≤ q.start := by
          intro q hq
          rcases List.mem_cons.1 hq with rfl | hq
          · omega
          · have := h6 q hq; omega
        refine ⟨(a, e) :: l, [], ?_, (Chain.keep h1 h2 h3 h4 h0 h5 h6 hch).later htu hall⟩
        rw [applyRange_id]
        intro c i x hi1 hi2
        exact mixParts_none hall (by omega) c x
      · rw [if_neg hbr]
        rw [show min t e.stop = t by omega] at h5
        obtain ⟨e1, log1, hp, k1, k2, k3, hsl⟩ := h5.prepareOptional a (blk nch n f)
        have hx : relStart t e1.start = t - e.start := by
          unfold relStart
          rw [k1]
          split
          · rw [sub32_of_le (by omega) (by omega)]
          · omega
        have hy : relEnd u e1.start e1.stop = min u e.stop - e.start := by
          unfold relEnd
          rw [k1, k2, sub32_of_le (by omega) (by omega)]
        have ho : relOffset off t e1.start = off + (e.start - t) := by
          unfold relOffset
          rw [k1]
          split
          · rw [sub32_of_le (by omega) (by omega)]
          · omega
        obtain ⟨e2, hg, m1, m2, m3, hsl2⟩ := hsl.step (b := min u e.stop - e.start)
          (off := off + (e.start - t)) (n := n) f (by omega) (by omega) (by
            by_cases hz : min u e.stop - e.start - (t - e.start) = 0
            · rw [hz]
              rcases h0 with h0 | h0
              · exact h0
              · rw [show u - t = 0 by omega] at hut
                exact hut
            · exact hsh _ _ hut (by omega) (by omega)) (by omega)
        obtain ⟨l', log, e3, e4⟩ := ih (applyRange p.G (t - e.start) (off + (e.start - t))
          (min u e.stop - e.start - (t - e.start)) f)
        refine ⟨(a, e2) :: l', log1 ++ [.generate a (t - e.start) (min u e.stop - e.start)
          (off + (e.start - t)) 0] ++ log, ?_, .keep (h1.trans (k1.symm.trans m1.symm))
          (h2.trans (k2.symm.trans m2.symm)) (by rw [m1, m2, k1, k2]; exact h3) (by rw [m2, k2]; exact h4)
          (by rw [m1, m2, k1, k2]; exact h0)
          ?_ h6 e4⟩
        · unfold seqEvent
          simp only [hp, ok_bind', hx, hy, ho, hg, ne_eq, not_true_eq_false, if_false, pure_eq_ok, e3]
          congr 4
          congr 1
          funext c k
          unfold applyRange
          by_cases hk : off ≤ k ∧ k < off + (u - t)
          · rw [if_pos hk, if_pos hk, mixParts_cons]
            congr 1
            by_cases hin : p.start ≤ t + (k - off) ∧ t + (k - off) < p.stop
            · rw [if_pos hin, if_pos (by omega)]
              congr 1
              omega
            · rw [if_neg hin, if_neg (by omega)]
          · rw [if_neg hk, if_neg hk, if_neg (by omega)]
        · rw [m1, m2, k1, k2]
          exact hsl2.ready (m3.trans k3)

theorem freeList_ok {cb : Callbacks D (Buf (Buf S))} {l : List (Addr × Event D)}
    (h : ∀ x ∈ l, x.2.hasFree = true → ∀ w, cb.free x.2 w = .ok w) (w : Buf (Buf S)) :
    ∃ log, freeList cb l w = .ok (w, log) := by
  induction l with
  | nil => exact ⟨[], rfl⟩
  | cons y rest ih =>
    obtain ⟨a, e⟩ := y
    obtain ⟨log, e1⟩ := ih (fun x hx => h x (by simp [hx]))
    have hfree : ∃ log, eventFree cb a e w = .ok (w, log) := by
      unfold eventFree
      split
      · next hf => rw [h (a, e) (by simp) hf]; exact ⟨_, rfl⟩
      · exact ⟨_, rfl⟩
    obtain ⟨log0, e0⟩ := hfree
    unfold freeList
    rw [e0, ok_bind']
    simp only
    rw [e1, ok_bind']
    exact ⟨_, rfl⟩

/-- One block of a list in memory. -/
theorem seq_mix {cb : Callbacks D (Buf (Buf S))} {nch t u off n fuel : Nat} {ps : List (Part S)}
    {l : List (Addr × Event D)} {heap : Heap (Event D)} {head : Option Addr} {log0 : List Call}
    (hwf : WellFormed heap head l) (hf : l.length < fuel)
    (h : Chain ok cb nch t ps l) (htu : t ≤ u) (hu : u < 4294967296) (hsh : Shorter ok)
    (hut : ok (u - t))
    (hoff : off + (u - t) ≤ n) (f : Nat → Nat → S) :
    ∃ l' heap' head' log, seq cb fuel t u off ⟨heap, head, blk nch n f, log0⟩ =
        .ok (0, ⟨heap', head', blk nch n (applyRange (mixParts ps) t off (u - t) f), log⟩) ∧
      Chain ok cb nch u ps l' ∧ WellFormed heap' head' l' ∧ l'.length ≤ l.length := by
  obtain ⟨l', log, e1, e2⟩ := seqList_mix h htu hu hsh hut hoff f
  have hr := seq_refines cb t u off l ⟨heap, head, blk nch n f, log0⟩ fuel hf hwf
  have htop : seqListTop cb t u off l (blk nch n f) =
      .ok (0, l', blk nch n (applyRange (mixParts ps) t off (u - t) f), log) := by
    unfold seqListTop
    rw [e1, ok_bind']
    rfl
  rw [htop] at hr
  obtain ⟨heap', head', h1, h2, _, _⟩ := hr
  refine ⟨l', heap', head', _, h1, e2, h2, ?_⟩
  have := (seqList_addrs _ _ _ _ _ _ _ _ _ _ e1).length_le
  simpa using this

theorem groupFree_ok {cb : Callbacks (Tree L) (Buf (Buf S))} {fuel : Nat}
    {l : List (Addr × Event (Tree L))} {heap : Heap (Event (Tree L))} {head : Option Addr}
    (hwf : WellFormed heap head l) (hf : l.length < fuel)
    (h : ∀ x ∈ l, x.2.hasFree = true → ∀ w, cb.free x.2 w = .ok w) (w : Buf (Buf S)) :
    groupFree cb fuel heap head w = .ok w := by
  obtain ⟨log, e⟩ := freeList_ok h w
  have hr := seqFreeLoop_refines cb l ⟨heap, head, w, []⟩ none head fuel hf hwf.1 hwf.2
  simp only at hr
  rw [e] at hr
  obtain ⟨heap', h1, _⟩ := hr
  unfold groupFree
  rw [h1]
  rfl

/-- A group of seamless events is seamless. -/
theorem group_seamless {leaf : Callbacks L (Buf (Buf S))} {fuel nch d dur t : Nat}
    {ps : List (Part S)} {e : Event (Tree L)} {heap : Heap (Event (Tree L))} {head : Option Addr}
    {l : List (Addr × Event (Tree L))} (he : e.data = .group heap head)
    (hwf : WellFormed heap head l) (hf : l.length < fuel) (hdur : dur < 4294967296) (hsh : Shorter ok)
    (h : Chain ok (treeCb leaf fuel d) nch t ps l) :
    Seamless ok (treeCb leaf fuel (d + 1)) nch dur (mixParts ps) e t := by
  refine ⟨fun e t => ∃ heap head l, e.data = .group heap head ∧ WellFormed heap head l ∧
    l.length < fuel ∧ Chain ok (treeCb leaf fuel d) nch t ps l, ⟨heap, head, l, he, hwf, hf, h⟩, ?_⟩
  rintro e t ⟨heap, head, l, he, hwf, hf, h⟩
  constructor
  · intro _ w
    show (match e.data with
        | .leaf l => leaf.free (e.withData l) w
        | .group heap head => groupFree (treeCb leaf fuel d) fuel heap head w) = _
    rw [he]
    exact groupFree_ok hwf hf h.free w
  · intro b off n f hab hb hok hoff
    obtain ⟨l', heap', head', log, e1, e2, e3, e4⟩ := seq_mix (log0 := []) hwf hf h hab (by omega) hsh hok hoff f
    refine ⟨{ e with data := .group heap' head' }, ?_, rfl, rfl, rfl, heap', head', l', rfl, e3,
      by omega, e2⟩
    show (match e.data with
        | .leaf l => do
          let (st, e, w) ← leaf.generate t b off (e.withData l) (blk nch n f)
          return (st, e.withData (Tree.leaf e.data), w)
        | .group heap head => groupGenerate (treeCb leaf fuel d) fuel t b off e heap head (blk nch n f)) = _
    rw [he]
    simp only [groupGenerate, e1, ok_bind']
    rfl

/-- The chain at the beginning. -/
theorem chain_start {cb : Callbacks D (Buf (Buf S))} {nch p : Nat} {l : List (Addr × Event D)}
    {F : Addr → Nat → Sound S} (hs : SortedEvents l) (hem : ok 0 ∨ ∀ x ∈ l, x.2.start < x.2.stop)
    (h : ∀ x ∈ l, Plays ok cb nch x.2 (F x.1)) :
    Chain ok cb nch p (l.map fun x => ⟨x.2.start, x.2.stop, F x.1 (min p x.2.stop - x.2.start)⟩) l := by
  obtain ⟨h1, h2, h3⟩ := hs
  induction l with
  | nil => exact .nil
  | cons x l ih =>
    obtain ⟨a, e⟩ := x
    rw [List.map_cons]
    refine .keep rfl rfl (h2 (a, e) (by simp)) (h3 (a, e) (by simp)) (hem.imp id fun h => h (a, e) (by simp))
      (h (a, e) (by simp) _ (by simp; omega)) ?_
      (ih (hem.imp id fun h x hx => h x (by simp [hx])) (fun x hx => h x (by simp [hx])) (List.pairwise_cons.1 h1).2 (fun x hx => h2 x (by simp [hx]))
        (fun x hx => h3 x (by simp [hx])))
    intro q hq
    rw [List.mem_map] at hq
    obtain ⟨y, hy, rfl⟩ := hq
    exact (List.pairwise_cons.1 h1).1 y hy

/-- Its sound. -/
theorem mixParts_start (l : List (Addr × Event D)) (F : Addr → Nat → Sound S) (p c t : Nat) (x : S)
    (ht : p ≤ t) :
    mixParts (l.map fun x => ⟨x.2.start, x.2.stop, F x.1 (min p x.2.stop - x.2.start)⟩) c t x =
      mixEvents l F p c t x := by
  unfold mixParts mixEvents
  rw [List.foldl_map]
  congr 1
  funext x y
  simp only
  split
  · rw [show min p y.2.stop = p by omega]
  · rfl

theorem Seamless.congr {cb : Callbacks D (Buf (Buf S))} {nch dur : Nat} {G H : Sound S} {e : Event D}
    {p : Nat} (h : Seamless ok cb nch dur G e p) (hGH : ∀ c t x, p ≤ t → G c t x = H c t x) :
    Seamless ok cb nch dur H e p := by
  obtain ⟨R, hr, hR⟩ := h
  refine ⟨fun e a => R e a ∧ p ≤ a, ⟨hr, Nat.le_refl p⟩, ?_⟩
  rintro e a ⟨hr, hpa⟩
  refine ⟨(hR e a hr).1, ?_⟩
  intro b off n f hab hb hok hoff
  obtain ⟨e', h1, h2, h3, h4, h5⟩ := (hR e a hr).2 b off n f hab hb hok hoff
  refine ⟨e', ?_, h2, h3, h4, h5, by omega⟩
  rw [h1, applyRange_congr (fun c t x h _ => hGH c t x (by omega))]

/-- Leaf events in a tree. -/
theorem leaf_seamless {leaf : Callbacks L (Buf (Buf S))} {fuel nch d dur a : Nat} {G : Sound S}
    {e : Event (Tree L)} {l : L} (he : e.data = .leaf l)
    (h : Seamless ok leaf nch dur G (e.withData l) a) :
    Seamless ok (treeCb leaf fuel (d + 1)) nch dur G e a := by
  obtain ⟨R, hr, hR⟩ := h
  refine ⟨fun e a => ∃ l, e.data = .leaf l ∧ R (e.withData l) a, ⟨l, he, hr⟩, ?_⟩
  rintro e a ⟨l, he, hr⟩
  obtain ⟨h1, h2⟩ := hR _ _ hr
  constructor
  · intro hf w
    show (match e.data with
        | .leaf l => leaf.free (e.withData l) w
        | .group heap head => groupFree (treeCb leaf fuel d) fuel heap head w) = _
    rw [he]
    exact h1 hf w
  · intro b off n f hab hb hok hoff
    obtain ⟨e', k1, k2, k3, k4, k5⟩ := h2 b off n f hab hb hok hoff
    refine ⟨e'.withData (.leaf e'.data), ?_, k2, k3, k4, e'.data, rfl, k5⟩
    show (match e.data with
        | .leaf l => do
          let (st, e, w) ← leaf.generate a b off (e.withData l) (blk nch n f)
          return (st, e.withData (Tree.leaf e.data), w)
        | .group heap head => groupGenerate (treeCb leaf fuel d) fuel a b off e heap head (blk nch n f)) = _
    rw [he]
    simp only [k1, ok_bind']
    rfl

/-- Every playable tree plays. -/
theorem Playable.plays {leaf : Callbacks L (Buf (Buf S))} {fuel nch d : Nat} {e : Event (Tree L)}
    {F : Nat → Sound S} (hsh : Shorter ok) (h : Playable ok leaf fuel nch d e F) :
    Plays ok (treeCb leaf fuel (d + 1)) nch e F := by
  induction h with
  | @leaf d e l F he h =>
    intro p hp
    obtain ⟨h1, h2⟩ := h p hp
    refine ⟨?_, ?_⟩
    · intro hf w
      show (match e.data with
          | .leaf l => leaf.free (e.withData l) w
          | .group heap head => groupFree (treeCb leaf fuel d) fuel heap head w) = _
      rw [he]
      exact h1 hf w
    · have hpe : (e.withData l).prep = e.prep := rfl
      rw [hpe] at h2
      split
      · next hp =>
        rw [if_pos hp] at h2
        obtain ⟨e', k1, k2, k3, k4⟩ := h2
        refine ⟨e'.withData (.leaf e'.data), ?_, k2, k3, leaf_seamless (l := e'.data) rfl k4⟩
        intro w
        show (match e.data with
          | .leaf l => do
            let (st, e, w) ← leaf.prepare (e.withData l) w
            return (st, e.withData (Tree.leaf e.data), w)
          | .group heap head => do
            let e ← groupPrepare fuel e heap head
            return (0, e, w)) = _
        rw [he]
        simp only [k1, ok_bind']
        rfl
      · next hp =>
        rw [if_neg hp] at h2
        exact leaf_seamless he h2
  | @group d e heap head l F he hwf hlen hsort hdur hempty h ih =>
    intro p hp
    have hchain := fun p => chain_start (p := p) hsort hempty (fun x hx => ih x hx)
    have hsl : ∀ (e : Event (Tree L)) (heap : Heap (Event (Tree L))) (head : Option Addr),
        e.data = .group heap head → WellFormed heap head l →
        Seamless ok (treeCb leaf fuel (d + 1 + 1)) nch (e.stop - e.start) (mixEvents l F p) e p ∨
          ¬ e.stop - e.start < 4294967296 := by
      intro e heap head he hwf
      by_cases hd : e.stop - e.start < 4294967296
      · left
        exact (group_seamless he hwf hlen hd hsh (hchain p)).congr
          (fun c t x ht => mixParts_start l F p c t x ht)
      · right; exact hd
    refine ⟨?_, ?_⟩
    · intro _ w
      show (match e.data with
          | .leaf l => leaf.free (e.withData l) w
          | .group heap head => groupFree (treeCb leaf fuel (d + 1)) fuel heap head w) = _
      rw [he]
      simp only
      refine groupFree_ok hwf (by split <;> simp [hlen]) ?_ w
      intro x hx
      have hx' : x ∈ l := by
        split at hx
        · simpa using hx
        · exact hx
      exact (ih x hx' 0 (Nat.zero_le _)).1
    · split
      · next hpr =>
        rw [if_pos hpr] at hwf
        have hprep : ∃ heap' head', (∀ w, (treeCb leaf fuel (d + 1 + 1)).prepare e w =
            .ok (0, { e with data := .group heap' head', hasFree := true }, w)) ∧
            WellFormed heap' head' l := by
          by_cases hne : l = []
          · subst hne
            have hhead : head = none := hwf.1
            refine ⟨heap, none, ?_, by rw [← hhead]; exact hwf⟩
            intro w
            show (match e.data with
              | .leaf l => do
                let (st, e, w) ← leaf.prepare (e.withData l) w
                return (st, e.withData (Tree.leaf e.data), w)
              | .group heap head => do
                let e ← groupPrepare fuel e heap head
                return (0, e, w)) = _
            rw [he]
            simp only [hhead, groupPrepare, ok_bind']
            rfl
          · obtain ⟨heap', head', k1, k2, _⟩ := eventListReverse_spec l.reverse (by simpa using hne) heap
              head fuel (by simpa using hlen) hwf
            rw [List.reverse_reverse] at k2
            refine ⟨heap', head', ?_, k2⟩
            intro w
            show (match e.data with
              | .leaf l => do
                let (st, e, w) ← leaf.prepare (e.withData l) w
                return (st, e.withData (Tree.leaf e.data), w)
              | .group heap head => do
                let e ← groupPrepare fuel e heap head
                return (0, e, w)) = _
            rw [he]
            have hhead : ∃ a, head = some a := by
              cases hh : head with
              | none =>
                rw [hh] at k1
                unfold eventListReverse at k1
                cases fuel <;> simp [eventListReverseLoop] at k1
              | some a => exact ⟨a, rfl⟩
            obtain ⟨a, rfl⟩ := hhead
            simp only [groupPrepare, k1, ok_bind']
            rfl
        obtain ⟨heap', head', k1, k2⟩ := hprep
        refine ⟨_, k1, rfl, rfl, ?_⟩
        rcases hsl { e with data := .group heap' head', hasFree := true, prep := false } heap' head' rfl k2
          with h | h
        · exact h
        · exact absurd hdur h
      · next hpr =>
        rw [if_neg hpr] at hwf
        rcases hsl e heap head he hwf with h | h
        · exact h
        · exact absurd hdur h

end Sp
