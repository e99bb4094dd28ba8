import Verif.Props.File
import Verif.Lemmas.Single

/-!
# C134: files with single precision numbers

`C68` and `C69` leave open what the conversion of a sample to `float` and back does. Here it is the one of IEEE 754: what is read from a
written file is a nearest single precision number of each sample.
-/

set_option linter.unusedSectionVars false

namespace Sp

variable {rnd : ℚ → ℚ} {fmt : FloatFmt (Fl rnd) (Fin (2 ^ 32))}

/-- **C134**: what is in a written file are the bit patterns, with the lowest byte first, of nearest single precision numbers of the
samples, in the order of the frames. -/
theorem C134_written (hfmt : IsSingleFmt fmt) (header : Buf Nat) (hh : header.length = 40) (ch rate : Nat) (hch : 0 < ch)
    (hrate : rate * ch * 4 < 4294967296) (ws : List (Buf (Buf (Fl rnd)) × Nat)) (hw : ValidWrites ch ws)
    (hlt : 36 + 4 * ch * (ws.map Prod.snd).sum < 4294967296)
    (hx : ∀ x ∈ (writtenFrames ch ws).flatten, |x.val| ≤ singleMax) :
    ∃ bits : List Nat, writeFile fmt header ch rate ws
        = .ok (0, wavFile ch rate (bits.flatMap fun b => [b % 256, b / 256 % 256, b / 65536 % 256, b / 16777216 % 256])) ∧
      List.Forall₂ (fun (x : Fl rnd) b => b < 2 ^ 32 ∧ SingleFinite b ∧ NearestSingle x.val (singleValue b))
        (writtenFrames ch ws).flatten bits := by
  refine ⟨(writtenFrames ch ws).flatten.map (fun x => (fmt.narrow x).val), ?_, ?_⟩
  · rw [C68_write fmt header hh ch rate hch hrate ws hw hlt, List.flatMap_map]
    simp only [hfmt.bytes]
  · rw [List.forall₂_map_right_iff, List.forall₂_same]
    intro x hm
    have h := hx x hm
    exact ⟨(fmt.narrow x).2, hfmt.finite x h, hfmt.value h ▸ hfmt.nearestSingle h⟩

/-- **C134**: the samples that are read from a written file are nearest single precision numbers of the samples that were written: their
relative error is at most `2^(-24)`, for subnormal numbers the error is at most `2^(-150)`. -/
theorem C134_round_trip (hfmt : IsSingleFmt fmt) (header : Buf Nat) (hh : header.length = 40) (ch rate : Nat)
    (hch : 0 < ch) (hrate : rate * ch * 4 < 4294967296) (ws : List (Buf (Buf (Fl rnd)) × Nat)) (hw : ValidWrites ch ws)
    (hlt : 36 + 4 * ch * (ws.map Prod.snd).sum < 4294967296) (rs : List (Buf (Buf (Fl rnd)) × Nat))
    (hrs : ∀ r ∈ rs, HasCells r.1 ch r.2) (hsum : (rs.map Prod.snd).sum ≤ (ws.map Prod.snd).sum) (file : SpFile)
    (hset : file.channelCount = some ch) {c : Nat} (hc : c < ch) (hx : ∀ x ∈ channelOf c ws, |x.val| ≤ singleMax) :
    ∃ content file' outs, writeFile fmt header ch rate ws = .ok (0, content) ∧
      fileOpenRead (some content) file = .ok (0, file') ∧ readAll fmt file' rs = .ok outs ∧
      List.Forall₂ (fun x y : Fl rnd => NearestSingle x.val y.val ∧
          |x.val - y.val| ≤ |x.val| / 2 ^ 24 + (2 : ℚ) ^ (-150 : ℤ))
        ((channelOf c ws).take (rs.map Prod.snd).sum) (channelOf c outs) := by
  obtain ⟨content, file', outs, h1, h2, h3, h4⟩ := C69_roundtrip_partial fmt header hh ch rate hch hrate ws hw hlt rs hrs hsum file
    hset hc
  refine ⟨content, file', outs, h1, h2, h3, ?_⟩
  rw [h4, ← List.map_take, List.forall₂_map_right_iff, List.forall₂_same]
  intro x hm
  have h := hx x (List.mem_of_mem_take hm)
  exact ⟨hfmt.nearestSingle h, (hfmt.nearestSingle h).error h⟩

/-- **C134**: samples that are single precision numbers are read as they were written. In particular what was read from one file and is
written to another is read from there again. -/
theorem C134_exact (hfmt : IsSingleFmt fmt) (header : Buf Nat) (hh : header.length = 40) (ch rate : Nat)
    (hch : 0 < ch) (hrate : rate * ch * 4 < 4294967296) (ws : List (Buf (Buf (Fl rnd)) × Nat)) (hw : ValidWrites ch ws)
    (hlt : 36 + 4 * ch * (ws.map Prod.snd).sum < 4294967296) (rs : List (Buf (Buf (Fl rnd)) × Nat))
    (hrs : ∀ r ∈ rs, HasCells r.1 ch r.2) (hsum : (rs.map Prod.snd).sum ≤ (ws.map Prod.snd).sum) (file : SpFile)
    (hset : file.channelCount = some ch) {c : Nat} (hc : c < ch) (hx : ∀ x ∈ channelOf c ws, IsSingle x.val) :
    ∃ content file' outs, writeFile fmt header ch rate ws = .ok (0, content) ∧
      fileOpenRead (some content) file = .ok (0, file') ∧ readAll fmt file' rs = .ok outs ∧
      channelOf c outs = (channelOf c ws).take (rs.map Prod.snd).sum := by
  obtain ⟨content, file', outs, h1, h2, h3, h4⟩ := C69_roundtrip_partial fmt header hh ch rate hch hrate ws hw hlt rs hrs hsum file
    hset hc
  refine ⟨content, file', outs, h1, h2, h3, ?_⟩
  rw [h4]
  congr 1
  conv_rhs => rw [← List.map_id (channelOf c ws)]
  refine List.map_congr_left fun x hm => ?_
  have h := hx x hm
  exact Fl.ext ((hfmt.nearestSingle h.le_max).exact h)

/-- **C134**: the samples of sound with up to 24 bits and a sign, as numbers from -1 to 1, are single precision numbers. -/
theorem C134_integer (k : ℤ) (hk : |k| ≤ 2 ^ 24) (n : Nat) (hn : n ≤ 149) : IsSingle (k / 2 ^ n) := by
  rcases hk.lt_or_eq with h | h
  · refine ⟨k, -n, h, by omega, by omega, ?_⟩
    rw [zpow_neg, zpow_natCast, div_eq_mul_inv]
  · have hz : (2 : ℚ) ^ (-(n : ℤ) + 1) = 2 / 2 ^ n := by
      rw [two_zpow_add, zpow_neg, zpow_natCast, zpow_one]
      ring
    rcases (abs_eq (by norm_num)).1 h with h | h
    · refine ⟨2 ^ 23, -n + 1, by norm_num, by omega, by omega, ?_⟩
      rw [hz, h]
      push_cast
      ring
    · refine ⟨-2 ^ 23, -n + 1, by norm_num, by omega, by omega, ?_⟩
      rw [hz, h]
      push_cast
      ring

/-! ## Examples -/

example : singleValue 0x3f800000 = 1 := by unfold singleValue; norm_num
example : singleValue 0xc0490fdb = -13176795 / 4194304 := by unfold singleValue; norm_num
example : ¬SingleFinite 0x7f800000 := by decide
example : SingleFinite 0x7f7fffff := by decide

/-- The hypotheses hold, for conversions that exist: samples that are not and samples that are single precision numbers. -/
example : ∃ fmt : FloatFmt (Fl nearestDouble) (Fin (2 ^ 32)), IsSingleFmt fmt ∧
    ∃ content file' outs, writeFile fmt (List.replicate 40 99) 2 48000 [([[⟨1 / 4⟩, ⟨1 / 3⟩], [⟨-7 / 8388608⟩, ⟨1⟩]], 2)] = .ok (0, content) ∧
    fileOpenRead (some content) { file := none, dataSize := 0, channelCount := some 2 } = .ok (0, file') ∧
    readAll fmt file' [([[0], [0]], 1), ([[0, 0], [0, 0]], 1)] = .ok outs ∧ channelOf 1 outs = [⟨-7 / 8388608⟩, ⟨1⟩] := by
  obtain ⟨fmt, hfmt⟩ := exists_singleFmt nearestDouble
  refine ⟨fmt, hfmt, ?_⟩
  refine C134_exact hfmt (List.replicate 40 99) (by simp) 2 48000 (by decide) (by decide)
    [([[⟨1 / 4⟩, ⟨1 / 3⟩], [⟨-7 / 8388608⟩, ⟨1⟩]], 2)] ?_ (by decide) [([[0], [0]], 1), ([[0, 0], [0, 0]], 1)] ?_ (by decide) _ rfl
    (c := 1) (by decide) ?_
  · unfold ValidWrites HasCells; decide
  · unfold HasCells; decide
  · intro x hx
    have : x = ⟨-7 / 8388608⟩ ∨ x = ⟨1⟩ := by
      have h : channelOf 1 [([[⟨1 / 4⟩, ⟨1 / 3⟩], [⟨-7 / 8388608⟩, ⟨1⟩]], 2)] = [(⟨-7 / 8388608⟩ : Fl nearestDouble), ⟨1⟩] := rfl
      rw [h] at hx
      simpa using hx
    rcases this with rfl | rfl
    · have := C134_integer (-7) (by norm_num) 23 (by norm_num)
      norm_num at this ⊢
      exact this
    · have := C134_integer 1 (by norm_num) 0 (by norm_num)
      norm_num at this ⊢
      exact this

end Sp
