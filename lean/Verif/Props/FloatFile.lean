import Verif.Props.FloatMix
import Verif.Props.Single
import Verif.Props.Render

/-!
# C163: pieces rendered to files in double precision

What is in the file that `sp_render_file` writes, from the tones to the bytes.
-/

set_option linter.unusedSectionVars false

namespace Sp
variable {rnd : ℚ → ℚ} {fmt : FloatFmt (Fl rnd) (Fin (2 ^ 32))}

private theorem single_big {q : ℚ} (h : |q| ≤ 2 ^ 25) : |q| ≤ singleMax := by
  refine h.trans ?_
  have h1 : (2 : ℚ) ^ (25 : ℤ) ≤ (2 : ℚ) ^ (104 : ℤ) := two_zpow_le (by norm_num)
  have h2 := two_zpow_pos 104
  have h3 : ((2 : ℚ) ^ (25 : ℤ)) = 2 ^ 25 := rfl
  rw [h3] at h1
  unfold singleMax
  nlinarith only [h1, h2]

/-- The number in the file that `k` tones at full scale give. -/
private theorem tones_single (h : RoundsToNearest rnd) (hfmt : IsSingleFmt fmt) {ts : List (Fl rnd × Fl rnd × Fl rnd)} (hf : FullScale ts)
    (hk : ts.length ≤ 2 ^ 24) :
    SingleFinite (fmt.narrow (addTones 0 ts)) ∧
      |singleValue (fmt.narrow (addTones 0 ts)) - exactMix ts| ≤ ts.length / 2 ^ 23 := by
  obtain ⟨r1, r2⟩ := fullScale_bound hf hk
  have he := (tones_error h ts r1).trans r2
  have hx : |exactMix ts| ≤ ts.length := by
    clear r1 r2 he hk
    induction ts with
    | nil => simp [exactMix]
    | cons t ts ih =>
      obtain ⟨a1, a2, a3⟩ := hf t (by simp)
      have b1 : |t.1.val * t.2.1.val * t.2.2.val| ≤ 1 := by
        rw [abs_mul, abs_mul]
        exact mul_le_one₀ (mul_le_one₀ a1 (abs_nonneg _) a2) (abs_nonneg _) a3
      have e : exactMix (t :: ts) = t.1.val * t.2.1.val * t.2.2.val + exactMix ts := by simp [exactMix]
      rw [e, List.length_cons]
      push_cast
      exact (abs_add_le _ _).trans (by linarith [ih fun t ht => hf t (by simp [ht])])
  generalize hX : addTones (0 : Fl rnd) ts = x at *
  have hkq : (ts.length : ℚ) ≤ 2 ^ 24 := by exact_mod_cast hk
  have hk0 : (0 : ℚ) ≤ ts.length := Nat.cast_nonneg _
  have he2 : |x.val - exactMix ts| ≤ ts.length / 2 ^ 28 := by
    refine he.trans ?_
    have : (ts.length : ℚ) * (ts.length + 3) ≤ ts.length * 2 ^ 25 := mul_le_mul_of_nonneg_left (by linarith only [hkq, show (2 : ℚ) ^ 24 + 3 ≤ 2 ^ 25 by norm_num]) hk0
    rw [div_le_div_iff₀ (by norm_num) (by norm_num)]
    norm_num at this ⊢
    linarith
  have hxk : |x.val| ≤ ts.length * (1 + 1 / 2 ^ 28) := by
    have e : x.val = (x.val - exactMix ts) + exactMix ts := by ring
    have := abs_add_le (x.val - exactMix ts) (exactMix ts)
    rw [← e] at this
    have e2 : (ts.length : ℚ) * (1 + 1 / 2 ^ 28) = ts.length + ts.length / 2 ^ 28 := by ring
    linarith
  have hb : |x.val| ≤ singleMax := single_big (by
    have := mul_le_mul_of_nonneg_right hkq (show (0 : ℚ) ≤ 1 + 1 / 2 ^ 28 by norm_num)
    norm_num at this ⊢
    linarith)
  have hn := hfmt.nearestSingle hb
  have hv := hfmt.value hb
  refine ⟨hfmt.finite x hb, ?_⟩
  rw [← hv]
  have hne := hn.error hb
  rcases Nat.eq_zero_or_pos ts.length with h0 | h0
  · have hx0 : x.val = 0 := by rw [h0] at hxk; simpa using hxk
    have hx1 : exactMix ts = 0 := by rw [h0] at hx; simpa using hx
    have := hn.2 0 ⟨0, 0, by norm_num, by norm_num, by norm_num, by norm_num⟩
    rw [hx0, sub_zero, abs_zero] at this
    rw [hx1, h0, abs_sub_comm]
    simpa using this
  · have h1 : (1 : ℚ) ≤ ts.length := by exact_mod_cast h0
    have hη : (2 : ℚ) ^ (-150 : ℤ) ≤ 1 / 2 ^ 60 := by
      rw [show (1 : ℚ) / 2 ^ 60 = (2 : ℚ) ^ (-60 : ℤ) by rw [zpow_neg, one_div]; rfl]
      exact two_zpow_le (by norm_num)
    generalize (fmt.widen (fmt.narrow x)).val = y at *
    have e : y - exactMix ts = (x.val - exactMix ts) - (x.val - y) := by ring
    rw [e]
    refine (abs_sub _ _).trans ?_
    generalize (ts.length : ℚ) = k at *
    generalize (2 : ℚ) ^ (-150 : ℤ) = η at *
    have g1 : |x.val| / 2 ^ 24 ≤ k * (1 + 1 / 2 ^ 28) / 2 ^ 24 := div_le_div_of_nonneg_right hxk (by norm_num)
    have g2 : 1 / 2 ^ 60 ≤ k / 2 ^ 60 := div_le_div_of_nonneg_right h1 (by norm_num)
    have g3 : k / 2 ^ 28 + (k * (1 + 1 / 2 ^ 28) / 2 ^ 24 + k / 2 ^ 60) ≤ k / 2 ^ 23 := by
      have e : k / 2 ^ 23 - (k / 2 ^ 28 + (k * (1 + 1 / 2 ^ 28) / 2 ^ 24 + k / 2 ^ 60)) =
        k * (1 / 2 ^ 23 - (1 / 2 ^ 28 + ((1 + 1 / 2 ^ 28) / 2 ^ 24 + 1 / 2 ^ 60))) := by ring
      have : 0 ≤ k * (1 / 2 ^ 23 - (1 / 2 ^ 28 + ((1 + 1 / 2 ^ 28) / 2 ^ 24 + 1 / 2 ^ 60))) := mul_nonneg hk0 (by norm_num)
      linarith only [e, this]
    linarith only [g1, g2, g3, hne, he2, hη]

/-- The samples of an event, as sums of tones. -/
private theorem soundAt_tones {fuel ch d : Nat} {e : Event (Tree (WaveConfig (Fl rnd)))} {G : Nat → Sound (Fl rnd)}
    {T : Nat → Nat → Nat → List (Fl rnd × Fl rnd × Fl rnd)} (ht : WaveTree 0 fuel ch d e G T) (new : Addr) (c t : Nat) :
    soundAt e G 0 c t = addTones 0 (eventTones [(new, e)] (fun _ => T) 0 c t) := by
  rw [soundAt, eventTones, List.flatMap_cons, List.flatMap_nil, List.append_nil]
  simp only
  split
  · exact ht.tones _ _ _ _
  · rfl

private theorem eventTones_full {e : Event (Tree (WaveConfig (Fl rnd)))}
    {T : Nat → Nat → Nat → List (Fl rnd × Fl rnd × Fl rnd)} {ch : Nat}
    (hf : ∀ c < ch, ∀ t, e.start ≤ t → t < e.stop → FullScale (T 0 c (t - e.start)) ∧ (T 0 c (t - e.start)).length ≤ 2 ^ 24)
    (new : Addr) {c : Nat} (hc : c < ch) (t : Nat) : FullScale (eventTones [(new, e)] (fun _ => T) 0 c t) ∧
      (eventTones [(new, e)] (fun _ => T) 0 c t).length ≤ 2 ^ 24 := by
  rw [eventTones, List.flatMap_cons, List.flatMap_nil, List.append_nil]
  simp only
  split
  · rename_i hi
    have := hf c hc t hi.1 hi.2
    rwa [Nat.zero_sub]
  · exact ⟨fun _ hu => (by cases hu), by simp⟩

/-- C163: a tree of wave events, groups in groups to any depth, is rendered with `sp_render_file`, with samples of type `double` and files of type `float`.
The amplitudes, modulation and waveforms are between -1 and 1 and at most 2^24 tones sound at a time. The call is successful and the file
is a wav file with one number of 32 bit per frame and channel, each finite, and where `k` tones sound the number differs from the exact sum of
the tones by no more than `k / 2^23`. In particular it is zero where nothing sounds. -/
theorem C163_file_error (h : RoundsToNearest rnd) (hfmt : IsSingleFmt fmt) {header : Buf Nat} (hh : header.length = 40) (new : Addr)
    {fuel ch rate d : Nat} (hfuel : 1 < fuel) {e : Event (Tree (WaveConfig (Fl rnd)))} {G : Nat → Sound (Fl rnd)}
    {T : Nat → Nat → Nat → List (Fl rnd × Fl rnd × Fl rnd)} (ht : WaveTree 0 fuel ch d e G T) (he1 : e.start ≤ e.stop) (he0 : 0 < e.stop)
    (hch : 0 < ch) (hr : 0 < rate) (hrate : rate * ch * 4 < 4294967296) (hsize : 36 + 4 * (e.stop * ch) < 4294967296)
    (hf : ∀ c < ch, ∀ t, e.start ≤ t → t < e.stop → FullScale (T 0 c (t - e.start)) ∧ (T 0 c (t - e.start)).length ≤ 2 ^ 24) :
    ∃ bits : Nat → Nat → Nat, renderFile (treeCb waveCb fuel (d + 1)) fmt fuel header none new e ch rate =
        .ok (0, wavFile ch rate ((List.range e.stop).flatMap fun t => (List.range ch).flatMap fun c => bytesLE 4 (bits c t))) ∧
      ∀ c < ch, ∀ t < e.stop, bits c t < 2 ^ 32 ∧ SingleFinite (bits c t) ∧
        |singleValue (bits c t) - exactMix (eventTones [(new, e)] (fun _ => T) 0 c t)| ≤
          (eventTones [(new, e)] (fun _ => T) 0 c t).length / 2 ^ 23 := by
  have hsh : Shorter fun _ : Nat => True := fun _ _ _ _ _ => trivial
  have hst : e.stop < 4294967296 := by
    have := Nat.le_mul_of_pos_right e.stop hch
    omega
  refine ⟨fun c t => (fmt.narrow (soundAt e G 0 c t)).val, ?_, fun c hc t htt => ?_⟩
  · rw [C33_render_file fmt hfuel hh new hsh trivial (ht.playable.plays hsh) (.inl trivial) he1 he0 hst hch hr hrate hsize, frameBytes]
    have : ∀ b : Fin (2 ^ 32), fmt.toBytes b = bytesLE 4 b.val := by
      intro b
      rw [hfmt.bytes]
      simp [bytesLE, List.range_succ]
    simp only [this]
  · have hT := eventTones_full hf new hc t
    have := tones_single h hfmt hT.1 hT.2
    beta_reduce
    rw [soundAt_tones ht new]
    exact ⟨(fmt.narrow _).2, this⟩

/-- C163: what is read from the file again with `sp_file_read`, in any division into blocks, differs from the exact sum of the tones by no
more than `k / 2^23`. -/
theorem C163_read_back (h : RoundsToNearest rnd) (hfmt : IsSingleFmt fmt) {header : Buf Nat} (hh : header.length = 40) (new : Addr)
    {fuel ch rate d : Nat} (hfuel : 1 < fuel) {e : Event (Tree (WaveConfig (Fl rnd)))} {G : Nat → Sound (Fl rnd)}
    {T : Nat → Nat → Nat → List (Fl rnd × Fl rnd × Fl rnd)} (ht : WaveTree 0 fuel ch d e G T) (he1 : e.start ≤ e.stop) (he0 : 0 < e.stop)
    (hch : 0 < ch) (hr : 0 < rate) (hrate : rate * ch * 4 < 4294967296) (hsize : 36 + 4 * (e.stop * ch) < 4294967296)
    (hf : ∀ c < ch, ∀ t, e.start ≤ t → t < e.stop → FullScale (T 0 c (t - e.start)) ∧ (T 0 c (t - e.start)).length ≤ 2 ^ 24)
    (file : SpFile) (hset : file.channelCount = some ch) (rs : List (Buf (Buf (Fl rnd)) × Nat)) (hrs : ∀ r ∈ rs, HasCells r.1 ch r.2)
    (hsum : (rs.map Prod.snd).sum ≤ e.stop) :
    ∃ content file' outs, renderFile (treeCb waveCb fuel (d + 1)) fmt fuel header none new e ch rate = .ok (0, content) ∧
      fileOpenRead (some content) file = .ok (0, file') ∧ readAll fmt file' rs = .ok outs ∧
      ∀ c < ch, List.Forall₂ (fun (x : Fl rnd) t => |x.val - exactMix (eventTones [(new, e)] (fun _ => T) 0 c t)| ≤
          (eventTones [(new, e)] (fun _ => T) 0 c t).length / 2 ^ 23)
        (channelOf c outs) (List.range (rs.map Prod.snd).sum) := by
  have hsh : Shorter fun _ : Nat => True := fun _ _ _ _ _ => trivial
  have hst : e.stop < 4294967296 := by
    have := Nat.le_mul_of_pos_right e.stop hch
    omega
  set frames : List (List (Fl rnd)) := (List.range e.stop).map fun t => (List.range ch).map fun c => soundAt e G 0 c t with hfr
  have hfl : ∀ f ∈ frames, f.length = ch := by
    intro f hfm
    obtain ⟨t, _, rfl⟩ := List.mem_map.1 hfm
    simp
  have hbytes : frameBytes fmt ch e.stop (fun c k => soundAt e G 0 c k) = frames.flatten.flatMap (fun x => fmt.toBytes (fmt.narrow x)) := by
    rw [frameBytes, hfr, List.flatten_eq_flatMap, List.flatMap_assoc, List.flatMap_map]
    simp only [id_eq, List.flatMap_map]
  have hrend := C33_render_file fmt hfuel hh new hsh trivial (ht.playable.plays hsh) (.inl trivial) he1 he0 hst hch hr hrate hsize
  rw [hbytes] at hrend
  have key : ∀ c < ch, ∃ outs, readAll fmt { file with file := some ⟨wavFile ch rate (frames.flatten.flatMap (fun x => fmt.toBytes (fmt.narrow x))), 44, false⟩ } rs = .ok outs ∧
      channelOf c outs = (((List.range e.stop).map (soundAt e G 0 c)).take (rs.map Prod.snd).sum).map (fun x => fmt.widen (fmt.narrow x)) := by
    intro c hc
    have := readAll_eq fmt (rate := rate) hch hfl hc ((List.range e.stop).map (soundAt e G 0 c)) (by simp [hfr]) (by
      intro i
      rw [hfr, List.getElem?_map, List.getElem?_map]
      cases hi : (List.range e.stop)[i]? with
      | none => rfl
      | some t => simp [hc]) rs (by
        intro r hrm
        refine ⟨hrs r hrm, ?_⟩
        have h1 : r.2 ≤ e.stop := le_trans (List.single_le_sum (by simp) _ (List.mem_map_of_mem hrm)) hsum
        have := Nat.mul_le_mul_right ch h1
        omega) (p := 0) (by simpa [hfr] using hsum)
      (file := { file with file := some ⟨wavFile ch rate (frames.flatten.flatMap (fun x => fmt.toBytes (fmt.narrow x))), 44, false⟩ }) ⟨false, file.dataSize, by rw [← hset]; simp⟩
    simpa only [List.drop_zero] using this
  obtain ⟨outs, o1, _⟩ := key 0 hch
  refine ⟨_, _, outs, hrend, openRead_wavFile ch rate _ file, o1, fun c hc => ?_⟩
  obtain ⟨outs', p1, p2⟩ := key c hc
  rw [o1, Except.ok.injEq] at p1
  rw [p1, p2, ← List.map_take, List.take_range, Nat.min_eq_left hsum, List.map_map, List.forall₂_map_left_iff, List.forall₂_same]
  intro t _
  have hT := eventTones_full hf new hc t
  simp only [Function.comp_apply]
  rw [soundAt_tones ht new]
  have := tones_single h hfmt hT.1 hT.2
  rw [hfmt.widen _ this.1]
  exact this.2

/-! ## A case -/

/-- A group of two events that overlap, with conversions that exist. -/
def twoHalves : Event (Tree (WaveConfig (Fl nearestDouble))) where
  start := 0
  stop := 5
  prep := true
  hasFree := false
  data := .group (fun b => if b = 5 then some ⟨none, some 6, halfEvent 2⟩ else if b = 6 then some ⟨some 5, none, halfEvent 0⟩ else none) (some 5)

/-- The events of the group. -/
def twoHalvesList : List (Addr × Event (Tree (WaveConfig (Fl nearestDouble)))) := [(6, halfEvent 0), (5, halfEvent 2)]

/-- The tones of the group. -/
def twoHalvesTones : Nat → Nat → Nat → List (Fl nearestDouble × Fl nearestDouble × Fl nearestDouble) :=
  eventTones twoHalvesList (fun _ => halfWave.tones 0)

theorem twoHalves_tree : WaveTree 0 9 1 1 twoHalves (mixEvents twoHalvesList (fun _ p => halfWave.mix 0 p)) twoHalvesTones := by
  refine .group (heap := fun b => if b = 5 then some ⟨none, some 6, halfEvent 2⟩ else if b = 6 then some ⟨some 5, none, halfEvent 0⟩ else none)
    (head := some 5) (l := twoHalvesList) (F := fun _ p => halfWave.mix 0 p) (T := fun _ => halfWave.tones 0)
    rfl ?_ (by simp [twoHalvesList]) ⟨by simp [halfEvent, twoHalvesList], by simp [halfEvent, twoHalvesList], by simp [halfEvent, twoHalvesList]⟩
    (by simp [twoHalves]) ?_
  · rw [if_pos (by rfl)]
    exact ⟨⟨rfl, some 6, rfl, rfl, none, rfl, rfl⟩, by simp [twoHalvesList]⟩
  · intro x hx
    simp only [twoHalvesList, List.mem_cons, List.not_mem_nil, or_false] at hx
    rcases hx with rfl | rfl
    · exact halfEvent_tree _ _ _
    · exact halfEvent_tree _ _ _

/-- At time 2 both sound. -/
example : (twoHalvesTones 0 0 2).length = 2 := by
  simp [twoHalvesTones, twoHalvesList, eventTones, halfEvent, WaveConfig.tones, halfWave]

/-- The group is written to a file. -/
example : ∃ (fmt : FloatFmt (Fl nearestDouble) (Fin (2 ^ 32))) (bits : Nat → Nat → Nat), IsSingleFmt fmt ∧
    renderFile (treeCb waveCb 9 2) fmt 9 (List.replicate 40 7) none 1 twoHalves 1 48000 =
      .ok (0, wavFile 1 48000 ((List.range 5).flatMap fun t => (List.range 1).flatMap fun c => bytesLE 4 (bits c t))) ∧
    |singleValue (bits 0 2) - exactMix (eventTones [(1, twoHalves)] (fun _ => twoHalvesTones) 0 0 2)| ≤ 1 / 2 ^ 22 := by
  obtain ⟨fmt, hfmt⟩ := exists_singleFmt nearestDouble
  have key : ∀ t, FullScale (rnd := nearestDouble) (halfWave.tones 0 0 0 t) ∧ (halfWave.tones (S := Fl nearestDouble) 0 0 0 t).length ≤ 1 := by
    intro t
    refine ⟨?_, by simp [WaveConfig.tones, halfWave]⟩
    intro u hu
    simp only [WaveConfig.tones, halfWave, List.filter_cons, List.filter_nil, decide_true, if_true, List.map_cons, List.map_nil,
      List.mem_singleton, optGet] at hu
    subst hu
    have key : ∀ (k : Nat) (v : List (Fl nearestDouble)), (∀ x ∈ v, |x.val| ≤ 1) → |(v.getD k 0).val| ≤ 1 := by
      intro k v hv
      rw [List.getD_eq_getElem?_getD]
      cases e : v[k]? with
      | none => simp
      | some x => exact hv x (List.mem_of_getElem? e)
    refine ⟨by norm_num [abs_of_pos], key _ _ ?_, key _ _ ?_⟩
    · simp only [List.mem_cons, List.not_mem_nil, or_false]
      rintro x (rfl | rfl | rfl) <;> norm_num [abs_of_pos]
    · simp only [List.mem_cons, List.not_mem_nil, or_false]
      rintro x (rfl | rfl) <;> norm_num [abs_of_pos]
  obtain ⟨bits, b1, b2⟩ := C163_file_error nearestDouble_rounds hfmt (header := List.replicate 40 7) (by rfl) 1 (rate := 48000) (by decide)
    twoHalves_tree (by decide) (by decide) (by decide) (by decide) (by decide) (by decide) (by
      intro c hc t _ _
      obtain rfl : c = 0 := by omega
      rw [twoHalvesTones, eventTones, twoHalvesList, List.flatMap_cons, List.flatMap_cons, List.flatMap_nil, List.append_nil]
      simp only [halfEvent, Nat.zero_sub]
      refine ⟨?_, ?_⟩
      · intro u hu
        rw [List.mem_append] at hu
        rcases hu with hu | hu
        · split at hu
          · exact (key _).1 u hu
          · cases hu
        · split at hu
          · exact (key _).1 u hu
          · cases hu
      · rw [List.length_append]
        have k1 := fun t => (key t).2
        have : ∀ (p : Prop) [Decidable p] (t : Nat), (if p then halfWave.tones (S := Fl nearestDouble) 0 0 0 t else []).length ≤ 1 := by
          intro p _ t
          split
          · exact k1 t
          · simp
        have := Nat.add_le_add (this (0 ≤ t - twoHalves.start ∧ t - twoHalves.start < 0 + 3) (t - twoHalves.start - 0))
          (this (2 ≤ t - twoHalves.start ∧ t - twoHalves.start < 2 + 3) (t - twoHalves.start - 2))
        exact this.trans (by norm_num))
  refine ⟨fmt, bits, hfmt, b1, ?_⟩
  refine (b2 0 (by decide) 2 (by decide)).2.2.trans ?_
  have : (eventTones [(1, twoHalves)] (fun _ => twoHalvesTones) 0 0 2).length = 2 := by
    simp [twoHalvesTones, twoHalvesList, eventTones, halfEvent, twoHalves, WaveConfig.tones, halfWave]
  rw [this]
  norm_num

end Sp
