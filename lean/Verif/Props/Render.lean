import Verif.Model.Render
import Verif.Spec.Render
import Verif.Props.EventTree
import Verif.Props.File
import Verif.Props.MovingAverage

/-!
# C33: rendering to files
-/

set_option linter.unusedSectionVars false

namespace Sp
variable {S D F : Type}

/-! ### bytes of blocks -/

theorem cellAt_blk {ch n c k : Nat} {f : Nat → Nat → S} (hc : c < ch) (hk : k < n) :
    cellAt (blk ch n f) c k = some (f c k) := by
  unfold cellAt blk
  rw [tab_getElem?, if_pos hc]
  simp [tab_getElem?, hk]

theorem hasCells_blk {ch n m : Nat} {f : Nat → Nat → S} (hm : m ≤ n) : HasCells (blk ch n f) ch m := by
  intro c hc k hk
  rw [cellAt_blk hc (by omega)]
  rfl

theorem frame_blk {ch n k : Nat} {f : Nat → Nat → S} (hk : k < n) :
    frame (blk ch n f) ch k = (List.range ch).map (fun c => f c k) := by
  unfold frame
  rw [← List.filterMap_eq_map]
  apply List.filterMap_congr
  intro c hc
  exact cellAt_blk (List.mem_range.1 hc) hk

theorem floatsIn_blk (fmt : FloatFmt S F) {ch n m : Nat} {f : Nat → Nat → S} (hm : m ≤ n) :
    (floatsIn fmt (blk ch n f) ch m).flatMap fmt.toBytes = frameBytes fmt ch m f := by
  unfold floatsIn frameBytes
  rw [List.flatMap_map, ← List.flatMap_def, List.flatMap_assoc]
  apply List.flatMap_congr
  intro k hk
  rw [frame_blk (by have := List.mem_range.1 hk; omega), List.flatMap_map]

theorem frameBytes_add (fmt : FloatFmt S F) (ch a b : Nat) (f : Nat → Nat → S) :
    frameBytes fmt ch (a + b) f = frameBytes fmt ch a f ++ frameBytes fmt ch b (fun c k => f c (a + k)) := by
  unfold frameBytes
  rw [List.range_add, List.flatMap_append, List.flatMap_map]

theorem frameBytes_length (fmt : FloatFmt S F) (ch n : Nat) (f : Nat → Nat → S) :
    (frameBytes fmt ch n f).length = 4 * (n * ch) := by
  unfold frameBytes
  simp [List.length_flatMap, fmt.length_toBytes]
  ring

theorem frameBytes_congr (fmt : FloatFmt S F) {ch n : Nat} {f g : Nat → Nat → S}
    (h : ∀ c < ch, ∀ k < n, f c k = g c k) : frameBytes fmt ch n f = frameBytes fmt ch n g := by
  unfold frameBytes
  apply List.flatMap_congr
  intro k hk
  apply List.flatMap_congr
  intro c hc
  rw [h c (List.mem_range.1 hc) k (List.mem_range.1 hk)]

theorem newSamples_eq [Zero S] (nch n : Nat) : newSamples nch n = blk nch n (fun _ _ => (0 : S)) := by
  unfold newSamples blk
  rw [tab_replicate, tab_replicate]

theorem zeroSamples_eq [Zero S] (nch n : Nat) (f : Nat → Nat → S) :
    zeroSamples nch n (blk nch n f) = .ok (blk nch n (fun _ _ => 0)) := by
  unfold zeroSamples blk
  have key := forRange_states (fun i => tab nch fun c => tab n fun k => if c < i then 0 else f c k)
    (Nat.zero_le nch) (body := fun i (w : Buf (Buf S)) => do
      let row ← rd w i
      let row ← memzero row 0 n
      wr w i row) (by
    intro i _ hi
    rw [rd_tab hi, ok_bind', memzero_tab (by omega), ok_bind', wr_tab _ hi]
    congr 1
    refine tab_congr fun c _ => ?_
    by_cases h : c = i
    · subst h
      rw [if_pos rfl]
      refine tab_congr fun k hk => ?_
      rw [if_pos (by omega), if_pos (by omega)]
    · rw [if_neg h]
      refine tab_congr fun k _ => ?_
      exact if_congr (by omega) rfl rfl)
  simp only [Nat.not_lt_zero, if_false] at key
  rw [key]
  congr 1
  refine tab_congr fun c hc => tab_congr fun k _ => ?_
  rw [if_pos hc]

/-! ### The loop over blocks -/

theorem renderLoop_eq {ok : Nat → Prop} [Zero S] {cb : Callbacks D (Buf (Buf S))} (fmt : FloatFmt S F) {fuel : Nat}
    {cf : RenderConfig} (hbs : 0 < cf.blockSize) (hch : 0 < cf.channelCount) (hsh : Shorter ok)
    (hok : ok cf.blockSize) {ps : List (Part S)}
    {hdr : List Nat} (hh : hdr.length = 40) (m : Nat) {n i blockEnd : Nat} (hn : m < n)
    (hend : blockEnd = i + m * cf.blockSize) (hlt : blockEnd < 4294967296)
    {l : List (Addr × Event D)} {heap : Heap (Event D)} {head : Option Addr} {log : List Call}
    (hwf : WellFormed heap head l) (hf : l.length < fuel) (h : Chain ok cb cf.channelCount i ps l)
    {data : List Nat} {file : SpFile} (hw : Writing hdr cf.channelCount data file)
    (hdata : data.length + 4 * (m * cf.blockSize * cf.channelCount) < 4294967296) :
    ∃ heap' head' log' file' l', renderLoop cb fmt fuel cf blockEnd n i
        ⟨heap, head, blk cf.channelCount cf.blockSize (fun _ _ => 0), log⟩ file =
          .ok (0, blockEnd, ⟨heap', head', blk cf.channelCount cf.blockSize (fun _ _ => 0), log'⟩, file') ∧
      WellFormed heap' head' l' ∧ l'.length < fuel ∧ Chain ok cb cf.channelCount blockEnd ps l' ∧
      Writing hdr cf.channelCount (data ++ frameBytes fmt cf.channelCount (m * cf.blockSize)
        (fun c k => mixParts ps c (i + k) 0)) file' := by
  induction m generalizing n i l heap head log data file with
  | zero =>
    obtain ⟨n, rfl⟩ : ∃ k, n = k + 1 := ⟨n - 1, by omega⟩
    have hi : i = blockEnd := by simpa using hend.symm
    subst hi
    refine ⟨heap, head, log, file, l, ?_, hwf, hf, h, ?_⟩
    · unfold renderLoop
      rw [if_neg (Nat.lt_irrefl _)]
      rfl
    · simpa [frameBytes] using hw
  | succ m ih =>
    obtain ⟨n, rfl⟩ : ∃ k, n = k + 1 := ⟨n - 1, by omega⟩
    have e0 : (m + 1) * cf.blockSize = m * cf.blockSize + cf.blockSize := Nat.succ_mul _ _
    have e1 : (m + 1) * cf.blockSize * cf.channelCount =
        m * cf.blockSize * cf.channelCount + cf.blockSize * cf.channelCount := by rw [e0, Nat.add_mul]
    have hu : u32 (i + cf.blockSize) = i + cf.blockSize := u32_of_lt (by omega)
    obtain ⟨l1, heap1, head1, log1, s1, s2, s3, s4⟩ := seq_mix (off := 0) (n := cf.blockSize) (u := i + cf.blockSize)
      (log0 := log) hwf hf h (by omega) (by omega) hsh (by rw [Nat.add_sub_cancel_left]; exact hok) (by omega) (fun _ _ => (0 : S))
    set g := applyRange (mixParts ps) i 0 (i + cf.blockSize - i) (fun _ _ => (0 : S)) with hg
    obtain ⟨file1, w1, w2⟩ := fileWrite_eq fmt hh hw (a := blk cf.channelCount cf.blockSize g) (n := cf.blockSize)
      (hasCells_blk (Nat.le_refl _)) (Nat.mul_pos hbs hch) (by omega)
    rw [floatsIn_blk fmt (Nat.le_refl _)] at w2
    obtain ⟨heap', head', log', file', l', r1, r2, r3, r4, r5⟩ := ih (n := n) (i := i + cf.blockSize) (by omega)
      (by omega) s3 (by omega) s2 w2 (by rw [List.length_append, frameBytes_length]; omega) (log := log1)
    refine ⟨heap', head', log', file', l', ?_, r2, r3, r4, ?_⟩
    · unfold renderLoop
      rw [if_pos (by omega), hu]
      refine bind_of s1 ?_
      simp only [ne_eq, not_true_eq_false, if_false]
      refine bind_of w1 ?_
      simp only [not_true_eq_false, if_false]
      refine bind_of (zeroSamples_eq _ _ _) ?_
      exact r1
    · rw [List.append_assoc] at r5
      rw [e0, Nat.add_comm (m * _), frameBytes_add]
      rw [frameBytes_congr fmt (n := cf.blockSize) (g := g)]
      · simpa only [Nat.add_assoc] using r5
      · intro c _ k hk
        simp only [hg, applyRange]
        rw [if_pos (by omega)]
        simp

/-! ### The whole function -/

theorem fileOpenWrite_eq {header : Buf Nat} (hh : header.length = 40) {ch rate : Nat}
    (hrate : rate * ch * 4 < 4294967296) :
    ∃ j f0, j.length = 4 ∧ fileOpenWrite header none ch rate = .ok (0, f0) ∧
      Writing (ascii "RIFF" ++ (j ++ (ascii "WAVE" ++ ascii "fmt " ++ le32 16 ++ le16 3 ++ le16 ch ++ le32 rate ++
        le32 (rate * ch * 4) ++ le16 (ch * 4) ++ le16 32 ++ ascii "data"))) ch [] f0 := by
  obtain ⟨j, hj, hw'⟩ := wavHeader_eq header hh ch rate
  rw [u32_of_lt (n := rate * ch) (by omega), u32_of_lt hrate] at hw'
  set hdr := ascii "RIFF" ++ j ++ ascii "WAVE" ++ ascii "fmt " ++ le32 16 ++ le16 3 ++ le16 ch ++ le32 rate ++
    le32 (rate * ch * 4) ++ le16 (ch * 4) ++ le16 32 ++ ascii "data" with hdr_def
  have hhdr : hdr.length = 40 := by simp [hdr_def, hj, ascii, le32, le16]
  refine ⟨j, ⟨some ((Stream.put { content := [], pos := 0, eof := false } hdr).seekCur 4), 0, some ch⟩, hj, ?_, false, ?_⟩
  · rw [fileOpenWrite, hw', ok_bind']
    simp [fwriteOne, hhdr]
  · rw [show ascii "RIFF" ++ (j ++ (ascii "WAVE" ++ ascii "fmt " ++ le32 16 ++ le16 3 ++ le16 ch ++ le32 rate ++
        le32 (rate * ch * 4) ++ le16 (ch * 4) ++ le16 32 ++ ascii "data")) = hdr by simp [hdr_def]]
    simp [Stream.put, Stream.seekCur, hhdr]

theorem wellFormed_single {D : Type} (fuel : Nat) (new : Addr) (e : Event D) :
    ∃ heap, eventListAdd Event.start fuel new e (fun _ => none) none = .ok (heap, some new) ∧
      WellFormed heap (some new) [(new, e)] := by
  refine ⟨_, rfl, ⟨rfl, none, ?_, rfl⟩, by simp⟩
  simp [Heap.alloc]

theorem seqFreeLoop_chain {ok : Nat → Prop} {cb : Callbacks D (Buf (Buf S))} {nch t fuel : Nat} {ps : List (Part S)}
    {l : List (Addr × Event D)} (h : Chain ok cb nch t ps l) {s : SeqState D (Buf (Buf S))}
    (hwf : WellFormed s.heap s.head l) (hf : l.length < fuel) :
    ∃ s', seqFreeLoop cb fuel s s.head = .ok s' ∧ s'.world = s.world := by
  obtain ⟨log, e⟩ := freeList_ok h.free s.world
  have hr := seqFreeLoop_refines cb l s none s.head fuel hf hwf.1 hwf.2
  rw [e] at hr
  obtain ⟨heap', h1, _⟩ := hr
  exact ⟨_, h1, rfl⟩

theorem sortedEvents_single {new : Addr} {e : Event D} (h1 : e.start ≤ e.stop) (h2 : e.stop < 4294967296) :
    SortedEvents [(new, e)] := ⟨by simp, by simpa using h1, by simpa using h2⟩

theorem mixParts_single [Zero S] (new : Addr) (e : Event D) (G : Nat → Sound S) (p : Nat) {c t : Nat} (ht : p ≤ t) :
    mixParts ([(new, e)].map fun (x : Addr × Event D) =>
      ⟨x.2.start, x.2.stop, (fun (_ : Addr) => G) x.1 (min p x.2.stop - x.2.start)⟩) c t 0 = soundAt e G p c t := by
  rw [mixParts_start _ (fun _ => G) p c t 0 ht]
  rfl

/-- **C33, what the code does.** For every event that plays a sound seamlessly (C22: wave events and
groups of such), every range and every block size, the file that `sp_render_range_file` writes is a wav
file with the samples of the times 0 to `stop - start`. -/
theorem C33_renders_from_zero {ok : Nat → Prop} [Zero S] {cb : Callbacks D (Buf (Buf S))} (fmt : FloatFmt S F) {fuel : Nat}
    (hfuel : 1 < fuel) {header : Buf Nat} (hh : header.length = 40) (new : Addr) {e : Event D}
    {G : Nat → Sound S} {cf : RenderConfig} (hsh : Shorter ok)
    (he : Plays ok cb cf.channelCount e G) (hem : ok 0 ∨ e.start < e.stop) (he1 : e.start ≤ e.stop)
    (he2 : e.stop < 4294967296) (hch : 0 < cf.channelCount) (hbs : 0 < cf.blockSize)
    (hok : ok cf.blockSize) (hrate : cf.rate * cf.channelCount * 4 < 4294967296) {start stop : Nat} (hle : start ≤ stop)
    (hstop : stop < 4294967296) (hsize : 36 + 4 * ((stop - start) * cf.channelCount) < 4294967296) :
    ∃ s, renderRangeFile cb fmt fuel header none new e start stop cf =
      .ok (0, wavFile cf.channelCount cf.rate
        (frameBytes fmt cf.channelCount (stop - start) (fun c k => soundAt e G 0 c k)), s) ∧ s.head = none := by
  obtain ⟨heap, a1, a2⟩ := wellFormed_single fuel new e
  obtain ⟨j, f0, hj, o1, o2⟩ := fileOpenWrite_eq hh hrate
  have hch0 := chain_start (cb := cb) (nch := cf.channelCount) (p := 0) (l := [(new, e)]) (F := fun _ => G)
    (sortedEvents_single he1 he2) (by simpa using hem) (by simpa using he)
  set ps := [(new, e)].map fun (x : Addr × Event D) =>
    (⟨x.2.start, x.2.stop, (fun (_ : Addr) => G) x.1 (min 0 x.2.stop - x.2.start)⟩ : Part S) with hps
  have hsound : ∀ c t, mixParts ps c t 0 = soundAt e G 0 c t := fun c t =>
    mixParts_single new e G 0 (Nat.zero_le t)
  set hdr := ascii "RIFF" ++ (j ++ (ascii "WAVE" ++ ascii "fmt " ++ le32 16 ++ le16 3 ++ le16 cf.channelCount ++
    le32 cf.rate ++ le32 (cf.rate * cf.channelCount * 4) ++ le16 (cf.channelCount * 4) ++ le16 32 ++ ascii "data"))
    with hhdr
  have hhdr40 : hdr.length = 40 := by simp [hhdr, hj, ascii, le32, le16]
  have hsub : sub32 stop start = stop - start := sub32_of_le hle hstop
  set n := stop - start with hn
  have hdiv := Nat.div_add_mod n cf.blockSize
  have hmod := Nat.mod_lt n hbs
  have hm : n / cf.blockSize ≤ n / cf.blockSize * cf.blockSize := Nat.le_mul_of_pos_right _ hbs
  have hcm : cf.blockSize * (n / cf.blockSize) = n / cf.blockSize * cf.blockSize := Nat.mul_comm _ _
  have hbytes : n / cf.blockSize * cf.blockSize * cf.channelCount + n % cf.blockSize * cf.channelCount =
      n * cf.channelCount := by rw [← Nat.add_mul]; congr 1; omega
  obtain ⟨heap1, head1, log1, file1, l1, r1, r2, r3, r4, r5⟩ := renderLoop_eq (cb := cb) (fuel := fuel) fmt hbs hch hsh hok
    hhdr40 (n / cf.blockSize) (n := n / cf.blockSize * cf.blockSize + 1) (i := 0)
    (blockEnd := n / cf.blockSize * cf.blockSize) (by omega) (by omega) (by omega) a2 (by simpa using hfuel)
    hch0 o2 (by simp; omega) (log := [])
  have hrange : ∃ s file2, renderRange cb fmt fuel start stop cf
      ⟨heap, some new, newSamples cf.channelCount cf.blockSize, []⟩ f0 = .ok (0, s, file2) ∧ s.head = none ∧
      Writing hdr cf.channelCount (frameBytes fmt cf.channelCount n (fun c k => soundAt e G 0 c k)) file2 := by
    unfold renderRange
    rw [if_neg (by omega), hsub, newSamples_eq, hcm, u32_of_lt (n := n / cf.blockSize * cf.blockSize) (by omega)]
    by_cases hr : n % cf.blockSize = 0
    · obtain ⟨s', q1, q2⟩ := seqFreeLoop_chain r4 (s := ⟨heap1, head1, _, log1⟩) r2 r3
      refine ⟨{ s' with head := none }, file1, ?_, rfl, ?_⟩
      · refine bind_of r1 ?_
        simp only [ne_eq, not_true_eq_false, if_false, hr]
        refine bind_of rfl ?_
        simp only [ne_eq, not_true_eq_false, if_false]
        refine bind_of q1 ?_
        rfl
      · rw [List.nil_append] at r5
        rw [show n = n / cf.blockSize * cf.blockSize by omega]
        simpa only [Nat.zero_add, hsound, ← show n = n / cf.blockSize * cf.blockSize by omega] using r5
    · obtain ⟨l2, heap2, head2, log2, s1, s2, s3, s4⟩ := seq_mix (off := 0) (n := cf.blockSize)
        (u := n / cf.blockSize * cf.blockSize + n % cf.blockSize)
        (log0 := log1) r2 r3 r4 (by omega) (by omega) hsh (by
          rw [Nat.add_sub_cancel_left]; exact hsh _ _ hok (by omega) (by omega)) (by omega) (fun _ _ => (0 : S))
      set w := blk cf.channelCount cf.blockSize (applyRange (mixParts ps) (n / cf.blockSize * cf.blockSize) 0
        (n / cf.blockSize * cf.blockSize + n % cf.blockSize - n / cf.blockSize * cf.blockSize) (fun _ _ => (0 : S)))
        with hw
      obtain ⟨file2, w1, w2⟩ := fileWrite_eq fmt hhdr40 r5 (a := w)
        (n := n % cf.blockSize) (hasCells_blk (by omega)) (Nat.mul_pos (by omega) hch) (by
          simp only [List.nil_append, frameBytes_length]; omega)
      rw [hw, floatsIn_blk fmt (by omega)] at w2
      obtain ⟨s', q1, q2⟩ := seqFreeLoop_chain (fuel := fuel) s2 (s := ⟨heap2, head2, w, log2⟩) s3 (by omega)
      refine ⟨{ s' with head := none }, file2, ?_, rfl, ?_⟩
      · refine bind_of r1 ?_
        simp only [ne_eq, not_true_eq_false, if_false, hr, not_false_eq_true, if_true]
        rw [u32_of_lt (n := n / cf.blockSize * cf.blockSize + n % cf.blockSize) (by omega)]
        refine bind_of (a := (0, ⟨heap2, head2, w, log2⟩, file2)) ?_ ?_
        · refine bind_of s1 ?_
          refine bind_of w1 ?_
          rfl
        · refine bind_of q1 ?_
          rfl
      · have hsplit := frameBytes_add fmt cf.channelCount (n / cf.blockSize * cf.blockSize) (n % cf.blockSize)
          (fun c k => soundAt e G 0 c k)
        rw [show n / cf.blockSize * cf.blockSize + n % cf.blockSize = n by omega] at hsplit
        rw [hsplit]
        rw [List.nil_append] at w2
        simp only [Nat.zero_add, hsound] at w2
        rw [frameBytes_congr fmt (n := n % cf.blockSize) (g := fun c k =>
          soundAt e G 0 c (n / cf.blockSize * cf.blockSize + k))] at w2
        · exact w2
        · intro c _ k hk
          simp only [applyRange]
          rw [if_pos (by omega), hsound]
          simp
  obtain ⟨s, file2, b1, b2, b3⟩ := hrange
  refine ⟨s, ?_, b2⟩
  unfold renderRangeFile
  refine bind_of a1 ?_
  simp only
  refine bind_of o1 ?_
  simp only [ne_eq, not_true_eq_false, if_false]
  refine bind_of b1 ?_
  simp only
  refine bind_of (fileCloseWrite_eq (by rfl) hj (by rfl) (by rw [frameBytes_length]; omega) b3) ?_
  simp only [wavFile, bytesLE_four, bytesLE_two, List.append_assoc, pure_eq_ok]

/-- **C33, sp_render_range_block** writes exactly the samples of the range. -/
theorem C33_range_block {ok : Nat → Prop} [Zero S] {cb : Callbacks D (Buf (Buf S))} {fuel : Nat}
    (hfuel : 1 < fuel) (new : Addr) {e : Event D}
    {G : Nat → Sound S} {cf : RenderConfig} (hsh : Shorter ok)
    (he : Plays ok cb cf.channelCount e G) (hem : ok 0 ∨ e.start < e.stop) (he1 : e.start ≤ e.stop)
    (he2 : e.stop < 4294967296) {start stop : Nat} (hle : start ≤ stop) (hstop : stop < 4294967296)
    (hok : ok (stop - start)) :
    ∃ s, renderRangeBlock cb fuel new e start stop cf =
      .ok (0, blk cf.channelCount (stop - start) (fun c k => soundAt e G start c (start + k)), s) ∧
      s.head = none := by
  obtain ⟨heap, a1, a2⟩ := wellFormed_single fuel new e
  have hch0 := chain_start (cb := cb) (nch := cf.channelCount) (p := start) (l := [(new, e)]) (F := fun _ => G)
    (sortedEvents_single he1 he2) (by simpa using hem) (by simpa using he)
  obtain ⟨l2, heap2, head2, log2, s1, s2, s3, s4⟩ := seq_mix (off := 0) (n := stop - start)
    (u := stop) (log0 := []) a2 (by simpa using hfuel) hch0 hle hstop hsh hok (by omega) (fun _ _ => (0 : S))
  obtain ⟨s', q1, q2⟩ := seqFreeLoop_chain (fuel := fuel) s2 (s := ⟨heap2, head2, _, log2⟩) s3 (by simp at s4; omega)
  refine ⟨{ s' with head := none }, ?_, rfl⟩
  unfold renderRangeBlock
  refine bind_of a1 ?_
  simp only
  rw [newSamples_eq, sub32_of_le hle hstop]
  refine bind_of s1 ?_
  simp only [ne_eq, not_true_eq_false, if_false]
  refine bind_of q1 ?_
  simp only [pure_eq_ok]
  rw [q2]
  congr 3
  unfold blk
  refine tab_congr fun c _ => tab_congr fun k hk => ?_
  simp only [applyRange]
  rw [if_pos (by omega), Nat.sub_zero, mixParts_single new e G start (by omega)]

/-- **C33**, the part that holds: for a range that begins at time 0, for every block size, the file is
the wav file of the samples that rendering the range at once with `sp_render_range_block` gives.
Missing: ranges that begin later, see `C33_range_false`. -/
theorem C33_range_file_partial {ok : Nat → Prop} [Zero S] {cb : Callbacks D (Buf (Buf S))} (fmt : FloatFmt S F) {fuel : Nat}
    (hfuel : 1 < fuel) {header : Buf Nat} (hh : header.length = 40) (new : Addr) {e : Event D}
    {G : Nat → Sound S} {cf : RenderConfig} (hsh : Shorter ok)
    (he : Plays ok cb cf.channelCount e G) (hem : ok 0 ∨ e.start < e.stop) (he1 : e.start ≤ e.stop)
    (he2 : e.stop < 4294967296) (hch : 0 < cf.channelCount) (hbs : 0 < cf.blockSize)
    (hok : ok cf.blockSize) (hrate : cf.rate * cf.channelCount * 4 < 4294967296) {stop : Nat} (hoks : ok stop)
    (hstop : stop < 4294967296) (hsize : 36 + 4 * (stop * cf.channelCount) < 4294967296) :
    ∃ s1 s2 f, renderRangeBlock cb fuel new e 0 stop cf = .ok (0, blk cf.channelCount stop f, s1) ∧
      renderRangeFile cb fmt fuel header none new e 0 stop cf =
        .ok (0, wavFile cf.channelCount cf.rate (frameBytes fmt cf.channelCount stop f), s2) ∧
      (∀ c k, k < stop → f c k = soundAt e G 0 c k) := by
  obtain ⟨s1, e1, _⟩ := C33_range_block hfuel new hsh he hem he1 he2 (Nat.zero_le stop) hstop (by simpa using hoks)
  obtain ⟨s2, e2, _⟩ := C33_renders_from_zero fmt hfuel hh new hsh he hem he1 he2 hch hbs hok hrate (Nat.zero_le stop) hstop
    (by simpa using hsize)
  refine ⟨s1, s2, fun c k => soundAt e G 0 c k, ?_, e2, fun _ _ _ => rfl⟩
  simpa using e1

/-- Floats that are their own first byte, for the examples. -/
def intFmt : FloatFmt Int Nat where
  narrow x := x.toNat % 256
  widen x := x
  toBytes x := [x, 0, 0, 0]
  ofBytes l := l.headD 0
  length_toBytes _ := rfl
  ofBytes_toBytes _ := rfl

/-- A wave event from time 0 to 4. -/
def exampleRenderEvent : Event (WaveConfig Int) := ⟨0, 4, true, false, exampleWave⟩

theorem exampleRenderEvent_plays : Plays (fun _ => True) waveCb 2 exampleRenderEvent (fun p => exampleWave2.mix 0 p) :=
  exampleWave_plays 0 4 (by omega)

/-- The hypotheses are met: a wave event of 4 samples is rendered from 0 to 5 in blocks of 2. -/
example : ∃ s1 s2 f, renderRangeBlock waveCb 2 1 exampleRenderEvent 0 5 ⟨2, 48000, 2⟩ = .ok (0, blk 2 5 f, s1) ∧
    renderRangeFile waveCb intFmt 2 (List.replicate 40 7) none 1 exampleRenderEvent 0 5 ⟨2, 48000, 2⟩ =
      .ok (0, wavFile 2 48000 (frameBytes intFmt 2 5 f), s2) ∧
    (∀ c k, k < 5 → f c k = soundAt exampleRenderEvent (fun p => exampleWave2.mix 0 p) 0 c k) :=
  C33_range_file_partial intFmt (by decide) (by rfl) 1 (cf := ⟨2, 48000, 2⟩) (fun _ _ _ _ _ => trivial) exampleRenderEvent_plays
    (.inl trivial) (by decide) (by decide) (by decide) (by decide) trivial (by decide) trivial (by decide) (by decide)

/-- **C33 fails for ranges that do not begin at 0**: rendering the times 1 to 3 of the wave event to a
file does not give the samples that `sp_render_range_block` gives for this range. -/
theorem C33_range_false : ∃ s1 s2 f content,
    renderRangeBlock waveCb 2 1 exampleRenderEvent 1 3 ⟨2, 48000, 2⟩ = .ok (0, blk 2 2 f, s1) ∧
    renderRangeFile waveCb intFmt 2 (List.replicate 40 7) none 1 exampleRenderEvent 1 3 ⟨2, 48000, 2⟩ =
      .ok (0, content, s2) ∧
    content ≠ wavFile 2 48000 (frameBytes intFmt 2 2 f) := by
  obtain ⟨s1, e1, _⟩ := C33_range_block (cb := waveCb) (fuel := 2) (by decide) 1 (cf := ⟨2, 48000, 2⟩)
    (fun _ _ _ _ _ => trivial) exampleRenderEvent_plays (.inl trivial) (by decide) (by decide) (start := 1) (stop := 3) (by decide) (by decide)
    trivial
  obtain ⟨s2, e2, _⟩ := C33_renders_from_zero (cb := waveCb) intFmt (fuel := 2) (by decide)
    (header := List.replicate 40 7) (by rfl) 1 (cf := ⟨2, 48000, 2⟩) (fun _ _ _ _ _ => trivial)
    exampleRenderEvent_plays (.inl trivial) (by decide) (by decide) (by decide) (by decide) trivial (by decide) (start := 1) (stop := 3) (by decide) (by decide) (by decide)
  exact ⟨s1, s2, _, _, e1, e2, by decide +kernel⟩

/-- **C33, sp_render_file**: the file has the samples of the full duration of the event, for an event
with an end time. -/
theorem C33_render_file {ok : Nat → Prop} [Zero S] {cb : Callbacks D (Buf (Buf S))} (fmt : FloatFmt S F) {fuel : Nat}
    (hfuel : 1 < fuel) {header : Buf Nat} (hh : header.length = 40) (new : Addr) {e : Event D}
    {G : Nat → Sound S} {ch rate : Nat} (hsh : Shorter ok)
    (hok : ok (4 * rate)) (he : Plays ok cb ch e G) (hem : ok 0 ∨ e.start < e.stop) (he1 : e.start ≤ e.stop) (he0 : 0 < e.stop)
    (he2 : e.stop < 4294967296) (hch : 0 < ch) (hr : 0 < rate)
    (hrate : rate * ch * 4 < 4294967296) (hsize : 36 + 4 * (e.stop * ch) < 4294967296) :
    renderFile cb fmt fuel header none new e ch rate =
      .ok (0, wavFile ch rate (frameBytes fmt ch e.stop (fun c k => soundAt e G 0 c k))) := by
  have h4 : 4 * rate < 4294967296 := by
    have := Nat.le_mul_of_pos_right (rate * 4) hch
    have e : rate * ch * 4 = rate * 4 * ch := Nat.mul_right_comm _ _ _
    omega
  obtain ⟨s, e2, _⟩ := C33_renders_from_zero fmt hfuel hh new (cf := ⟨ch, rate, 4 * rate⟩) hsh he hem he1 he2 hch
    (by simp; omega) hok hrate (Nat.zero_le e.stop) he2 (by simpa using hsize)
  unfold renderFile
  rw [if_neg (by omega), u32_of_lt h4]
  refine bind_of rfl ?_
  simp only [ne_eq, not_true_eq_false, if_false]
  refine bind_of e2 ?_
  rfl

example : renderFile waveCb intFmt 2 (List.replicate 40 7) none 1 exampleRenderEvent 2 48000 =
    .ok (0, wavFile 2 48000 (frameBytes intFmt 2 4
      (fun c k => soundAt exampleRenderEvent (fun p => exampleWave2.mix 0 p) 0 c k))) :=
  C33_render_file intFmt (by decide) (by rfl) 1 (fun _ _ _ _ _ => trivial) trivial exampleRenderEvent_plays (.inl trivial) (by decide) (by decide) (by decide)
    (by decide) (by decide) (by decide) (by decide)

/-- **C33, a file that can not be opened**: `sp_render_range_file` closes it nevertheless, a null pointer
access, instead of returning the status. -/
theorem C33_open_failure_undefined [Zero S] (cb : Callbacks D (Buf (Buf S))) (fmt : FloatFmt S F) (fuel : Nat)
    {header : Buf Nat} (hh : header.length = 40) {errno : Nat} (herr : errno ≠ 0) (new : Addr) (e : Event D)
    (start stop : Nat) (cf : RenderConfig) :
    renderRangeFile cb fmt fuel header (some errno) new e start stop cf = .error .nullDeref := by
  obtain ⟨heap, a1, _⟩ := wellFormed_single fuel new e
  obtain ⟨j, _, hw⟩ := wavHeader_eq header hh cf.channelCount cf.rate
  unfold renderRangeFile
  refine bind_of a1 ?_
  simp only
  rw [fileOpenWrite, hw, ok_bind']
  simp only [pure_eq_ok, ok_bind', ne_eq, herr, not_false_eq_true, if_true]
  rfl

end Sp
