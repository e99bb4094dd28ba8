import Verif.Model.Plot
import Verif.Lemmas.Text
import Verif.Spec.Shell
import Verif.Props.Fft
import Verif.Props.Render

/-! # Plotting and display: C136 to C140 -/

set_option linter.unusedSectionVars false

namespace Sp
variable {S : Type}

/-- What the C library does on the platform: where a `uint32_t` was passed for `%lu` the number is found (the upper half of the slot is zero),
and a `double` is printed as a decimal number that differs from the value `val x` by at most half of the last decimal place. -/
structure PrintsNumbers (c : Libc S) (val : S → ℝ) : Prop where
  slot : ∀ n, c.slot n = .ok n
  fixed : ∀ p x, 0 < p → ∃ q : ℚ, readNumber (c.fixed p x) = some q ∧ |(q : ℝ) - val x| ≤ 1 / (2 * 10 ^ p)
  plain : ∀ p x, 0 < p → '\n' ∉ c.fixed p x ∧ ' ' ∉ c.fixed p x

/-- The text has one line for each of the first `n` samples, in order, and the number in the line differs from the sample by at most 0.0005. -/
def HoldsSamples (val : S → ℝ) (text : List Char) (a : List S) (n : Nat) : Prop :=
  ∃ ls, IsLines text ls ∧ ls.length = n ∧
    ∀ (i : Nat) (x : S), i < n → a[i]? = some x → ∃ l q, ls[i]? = some l ∧ readNumber l = some q ∧ |(q : ℝ) - val x| ≤ 0.0005

/-- The text has one line for each of the first `n` numbers, in order, with exactly the number. -/
def HoldsTimes (text : List Char) (a : List Nat) (n : Nat) : Prop :=
  ∃ ls, IsLines text ls ∧ ls.length = n ∧ ∀ i x : Nat, i < n → a[i]? = some x → ∃ l, ls[i]? = some l ∧ readNat l = some x

/-- Printing exact numbers. -/
def exactLibc (K : Type) [Field K] [LinearOrder K] [FloorRing K] : Libc K where
  slot n := .ok n
  fixed p x := fixedText (decide (x < 0)) ⌊|x| * 10 ^ p + 1 / 2⌋.toNat p

theorem rounded_near {y t : ℝ} (hy : 0 ≤ y) (ht : 0 < t) : abs ((⌊y * t + 1 / 2⌋.toNat : ℝ) / t - y) ≤ 1 / (2 * t) := by
  have e : ((⌊y * t + 1 / 2⌋.toNat : Nat) : ℝ) = ((⌊y * t + 1 / 2⌋ : ℤ) : ℝ) := by
    exact_mod_cast congrArg (fun z : ℤ => (z : ℝ)) (Int.toNat_of_nonneg (Int.floor_nonneg.2 (by positivity)))
  have f1 := Int.floor_le (y * t + 1 / 2)
  have f2 := Int.lt_floor_add_one (y * t + 1 / 2)
  rw [e]
  generalize ((⌊y * t + 1 / 2⌋ : ℤ) : ℝ) = r at f1 f2
  have h : r / t - y = (r - y * t) / t := by field_simp
  have h2 : 1 / (2 * t) = (1 / 2) / t := by field_simp
  rw [h, h2, abs_div, abs_of_pos ht]
  exact div_le_div_of_nonneg_right (abs_le.2 ⟨by linarith, by linarith⟩) ht.le

theorem exactLibc_prints : PrintsNumbers (exactLibc ℝ) (fun x => x) where
  slot _ := rfl
  fixed p x hp := by
    refine ⟨_, readNumber_fixedText _ hp, ?_⟩
    have h := rounded_near (abs_nonneg x) (show (0 : ℝ) < 10 ^ p by positivity)
    refine le_trans (le_of_eq ?_) h
    by_cases hx : x < 0
    · simp only [hx, decide_true, if_true]
      push_cast
      rw [abs_of_neg hx, ← abs_neg]
      congr 1
      ring
    · simp only [hx, decide_false, Bool.false_eq_true, if_false]
      push_cast
      rw [abs_of_nonneg (not_lt.1 hx), one_mul]
  plain p x _ := ⟨not_mem_fixedText _ _ _ (by decide), not_mem_fixedText _ _ _ (by decide)⟩

/-- With rational numbers it can be computed: three decimal places. -/
example : (exactLibc ℚ).fixed 3 (-5 / 4) = "-1.250".toList ∧ (exactLibc ℚ).fixed 3 (2 / 3) = "0.667".toList := by decide +kernel

theorem printf_f3 (c : Libc S) (x : S) : printf c "%.3f\n".toList [.f64 x] = .ok (c.fixed 3 x ++ ['\n']) := rfl

theorem printf_lu {c : Libc S} (h : ∀ n, c.slot n = .ok n) (n : Nat) : printf c "%lu\n".toList [.u32 n] = .ok (decimal n ++ ['\n']) := by
  show (do let n ← c.slot n; let t ← Except.ok ['\n']; pure (decimal n ++ t)) = _
  rw [h]
  rfl

theorem take_snoc {T : Type} {a : List T} {i : Nat} (h : i < a.length) : a.take (i + 1) = a.take i ++ [a[i]] := by
  rw [List.take_add_one, List.getElem?_eq_getElem h]
  rfl

theorem plotLines {c : Libc S} {T : Type} {fmt : List Char} {arg : T → PrintArg S} {g : T → List Char}
    (hfmt : ∀ x, printf c fmt [arg x] = .ok (g x ++ ['\n'])) {a : Buf T} {n : Nat} (ha : n ≤ a.length) :
    forRange 0 n (plotLine c fmt arg a) [] = .ok (((a.take n).map g).flatMap fun l => l ++ ['\n']) := by
  refine forRange_states (fun i => ((a.take i).map g).flatMap fun l => l ++ ['\n']) (Nat.zero_le n) (body := plotLine c fmt arg a) ?_
  intro i _ hi
  have hi' : i < a.length := by omega
  simp only [plotLine, rd_eq_ok hi', ok_bind', hfmt, pure_eq_ok, take_snoc hi', List.map_append, List.flatMap_append, List.map_cons,
    List.map_nil, List.flatMap_cons, List.flatMap_nil, List.append_nil]

theorem plotToFile_eq {c : Libc S} {T : Type} {fmt : List Char} {arg : T → PrintArg S} {g : T → List Char}
    (hfmt : ∀ x, printf c fmt [arg x] = .ok (g x ++ ['\n'])) {a : Buf T} {n : Nat} (ha : n ≤ a.length) {path : List Char} {w : PlotWorld}
    (hw : w.writable path = true) :
    plotToFile c fmt arg a n path w =
      .ok { w with files := fun p => if p = path then some (((a.take n).map g).flatMap fun l => l ++ ['\n']) else w.files p } := by
  rw [plotToFile, if_pos hw, plotLines hfmt ha]
  rfl

theorem holdsSamples_lines {c : Libc S} {val : S → ℝ} (hc : PrintsNumbers c val) {a : List S} {n : Nat} (ha : n ≤ a.length) :
    HoldsSamples val (((a.take n).map (c.fixed 3)).flatMap fun l => l ++ ['\n']) a n := by
  refine ⟨(a.take n).map (c.fixed 3), ⟨rfl, ?_⟩, by simpa using ha, ?_⟩
  · intro l hl
    obtain ⟨x, _, rfl⟩ := List.mem_map.1 hl
    exact (hc.plain 3 x (by decide)).1
  · intro i x hi hx
    obtain ⟨q, h1, h2⟩ := hc.fixed 3 x (by decide)
    refine ⟨_, q, ?_, h1, by norm_num at h2 ⊢; exact h2⟩
    rw [List.getElem?_map, List.getElem?_take, if_pos hi, hx]
    rfl

theorem holdsTimes_lines {a : List Nat} {n : Nat} (ha : n ≤ a.length) :
    HoldsTimes (((a.take n).map decimal).flatMap fun l => l ++ ['\n']) a n := by
  refine ⟨(a.take n).map decimal, ⟨rfl, ?_⟩, by simpa using ha, ?_⟩
  · intro l hl
    obtain ⟨x, _, rfl⟩ := List.mem_map.1 hl
    exact not_mem_decimal _ (by decide)
  · intro i x hi hx
    refine ⟨_, ?_, readNat_decimal x⟩
    rw [List.getElem?_map, List.getElem?_take, if_pos hi, hx]
    rfl

/-- **C136, samples.** After `sp_plot_samples_to_file` the file has one line for each sample, in order, that is a number at most 0.0005 away from
the sample, for arrays of any length. Previous content is replaced, other files are not changed, nothing is run. -/
theorem C136_samples {c : Libc S} {val : S → ℝ} (hc : PrintsNumbers c val) {a : Buf S} {n : Nat} (ha : n ≤ a.length) {path : List Char}
    {w : PlotWorld} (hw : w.writable path = true) :
    ∃ w' text, plotSamplesToFile c a n path w = .ok w' ∧ w'.files path = some text ∧ HoldsSamples val text a n ∧
      (∀ p, p ≠ path → w'.files p = w.files p) ∧ w'.commands = w.commands ∧ w'.index = w.index ∧ w'.writable = w.writable := by
  refine ⟨_, _, plotToFile_eq (printf_f3 c) ha hw, if_pos rfl, holdsSamples_lines hc ha, fun p hp => if_neg hp, rfl, rfl, rfl⟩

/-- A state for the examples: every path can be written. -/
def plotStart : PlotWorld := ⟨fun _ => none, fun _ => true, 0, [], []⟩

/-- Two samples. -/
example : (plotSamplesToFile (exactLibc ℚ) [1 / 3, -2] 2 "x".toList plotStart).map (fun w => w.files "x".toList) =
    .ok (some "0.333\n-2.000\n".toList) := by decide +kernel

/-- **C136, times**, the part that holds: if the platform finds a `uint32_t` where `%lu` reads an `unsigned long`, the file has one line for
each number, with exactly the number. -/
theorem C136_times_partial {c : Libc S} {val : S → ℝ} (hc : PrintsNumbers c val) {a : Buf Nat} {n : Nat} (ha : n ≤ a.length) {path : List Char}
    {w : PlotWorld} (hw : w.writable path = true) :
    ∃ w' text, plotTimesToFile c a n path w = .ok w' ∧ w'.files path = some text ∧ HoldsTimes text a n ∧
      (∀ p, p ≠ path → w'.files p = w.files p) ∧ w'.commands = w.commands ∧ w'.index = w.index ∧ w'.writable = w.writable := by
  refine ⟨_, _, plotToFile_eq (printf_lu hc.slot) ha hw, if_pos rfl, holdsTimes_lines ha, fun p hp => if_neg hp, rfl, rfl, rfl⟩

example : (plotTimesToFile (exactLibc ℚ) [7, 4294967295, 3] 2 "x".toList plotStart).map (fun w => w.files "x".toList) =
    .ok (some "7\n4294967295\n".toList) := by decide +kernel

/-- **C136, times, fails by the C standard**: `%lu` reads 64 bit where 32 bit were passed. If the other half is not set, every call with at least
one number reads it. -/
theorem C136_times_undefined {c : Libc S} (hc : ∀ n, c.slot n = .error .uninitialized) {a : Buf Nat} {n : Nat} (hn : 0 < n) (ha : n ≤ a.length)
    {path : List Char} {w : PlotWorld} (hw : w.writable path = true) : plotTimesToFile c a n path w = .error .uninitialized := by
  rw [plotTimesToFile, plotToFile, if_pos hw]
  obtain ⟨m, rfl⟩ : ∃ m, n = m + 1 := ⟨n - 1, by omega⟩
  have e : plotLine c "%lu\n".toList .u32 a 0 [] = .error .uninitialized := by
    rw [plotLine, rd_eq_ok (by omega), ok_bind']
    have : printf c "%lu\n".toList [.u32 a[0]] = .error .uninitialized := by
      show (do let n ← c.slot a[0]; let t ← Except.ok ['\n']; pure (decimal n ++ t)) = _
      rw [hc]
      rfl
    rw [this]
    rfl
  rw [forRange_head (by omega), e]
  rfl

/-- **C136, a file that can not be opened** is a null pointer that is used. -/
theorem C136_unwritable_undefined {c : Libc S} {a : Buf S} {b : Buf Nat} {n : Nat} {path : List Char} {w : PlotWorld}
    (hw : w.writable path = false) :
    plotSamplesToFile c a n path w = .error .nullDeref ∧ plotTimesToFile c b n path w = .error .nullDeref := by
  constructor <;> simp [plotSamplesToFile, plotTimesToFile, plotToFile, hw]

example : plotSamplesToFile (exactLibc ℚ) [1] 1 "x".toList { plotStart with writable := fun _ => false } = .error .nullDeref :=
  (C136_unwritable_undefined (b := []) rfl).1

theorem spectrumLines {c : Libc ℝ} {re im : Buf ℝ} {n : Nat} (h1 : n ≤ re.length) (h2 : n ≤ im.length) :
    forRange 0 n (spectrumLine c re im n) [] =
      .ok (((List.range n).map fun i => c.fixed 3 (2 * (Real.sqrt (re.getD i 0 * re.getD i 0 + im.getD i 0 * im.getD i 0) / n))).flatMap
        fun l => l ++ ['\n']) := by
  refine forRange_states (fun m => ((List.range m).map fun i => c.fixed 3
    (2 * (Real.sqrt (re.getD i 0 * re.getD i 0 + im.getD i 0 * im.getD i 0) / n))).flatMap fun l => l ++ ['\n']) (Nat.zero_le n)
    (body := spectrumLine c re im n) ?_
  intro i _ hi
  have e1 : re.getD i 0 = re[i]'(by omega) := by rw [List.getD, List.getElem?_eq_getElem (by omega)]; rfl
  have e2 : im.getD i 0 = im[i]'(by omega) := by rw [List.getD, List.getElem?_eq_getElem (by omega)]; rfl
  simp only [spectrumLine, rd_eq_ok (show i < re.length by omega), rd_eq_ok (show i < im.length by omega), ok_bind', printf_f3, pure_eq_ok,
    List.range_succ, List.map_append, List.flatMap_append, List.map_cons, List.map_nil, List.flatMap_cons, List.flatMap_nil, List.append_nil,
    e1, e2]

/-- **C136, spectrum.** After `sp_plot_spectrum_to_file` the file has one line for each of the `n` frequencies, in order, that is a number at most
0.0005 away from the absolute value of the discrete Fourier transform of the samples, scaled by `2 / n`, for any length. -/
theorem C136_spectrum {c : Libc ℝ} (hc : PrintsNumbers c (fun x => x)) {a : Buf ℝ} {n : Nat} (ha : n ≤ a.length) (hn : n < 4294967296)
    {path : List Char} {w : PlotWorld} (hw : w.writable path = true) (junk : ℝ) :
    ∃ w' text, plotSpectrumToFile c true true spFft junk a n path w = .ok (w', 0) ∧ w'.files path = some text ∧
      HoldsSamples (fun x => x) text ((List.range n).map fun k => 2 / n * ‖dft n (fun t => (a.getD t 0 : ℂ)) k‖) n ∧
      (∀ p, p ≠ path → w'.files p = w.files p) ∧ w'.commands = w.commands ∧ w'.index = w.index ∧ w'.writable = w.writable := by
  have hm : memcpy (List.replicate n junk) 0 a 0 n = .ok (a.take n) := by
    rw [memcpy, if_pos ⟨by simp, by omega⟩]
    simp
  obtain ⟨re, im, e, l1, l2, hd, _⟩ := C71_dft (n := n) (re := a.take n) (im := List.replicate n 0) hn (by simpa using ha) (by simpa using ha)
  have l1' : n ≤ re.length := by rw [l1]; simpa using ha
  have l2' : n ≤ im.length := by rw [l2]; simp
  have hv : ∀ k, k < n → 2 * (Real.sqrt (re.getD k 0 * re.getD k 0 + im.getD k 0 * im.getD k 0) / n) =
      2 / n * ‖dft n (fun t => (a.getD t 0 : ℂ)) k‖ := by
    intro k hk
    have h1 : dft n (fun t => (a.getD t 0 : ℂ)) k = complexAt re im k := by
      rw [hd k hk, dft, dft]
      refine Finset.sum_congr rfl fun t ht => ?_
      have ht' := Finset.mem_range.1 ht
      congr 1
      rw [complexAt]
      apply Complex.ext
      · simp [List.getD, List.getElem?_take, ht']
      · simp [List.getD, List.getElem?_replicate, ht']
    rw [h1, Complex.norm_def, Complex.normSq_apply, complexAt]
    ring
  refine ⟨{ w with files := fun p => if p = path then some (((List.range n).map fun i => c.fixed 3 (2 * (Real.sqrt (re.getD i 0 * re.getD i 0 +
    im.getD i 0 * im.getD i 0) / n))).flatMap fun l => l ++ ['\n']) else w.files p }, _, ?_, if_pos rfl, ?_, fun p hp => if_neg hp, rfl, rfl, rfl⟩
  · simp only [plotSpectrumToFile, Bool.not_true, Bool.false_eq_true, if_false, hm, ok_bind', e, ne_eq, not_true_eq_false, hw, if_true,
      spectrumLines l1' l2', pure_eq_ok]
  · have e2 : ((List.range n).map fun i => c.fixed 3 (2 * (Real.sqrt (re.getD i 0 * re.getD i 0 + im.getD i 0 * im.getD i 0) / n))) =
        (((List.range n).map fun k => 2 / n * ‖dft n (fun t => (a.getD t 0 : ℂ)) k‖).take n).map (c.fixed 3) := by
      rw [List.take_of_length_le (by simp), List.map_map]
      refine List.map_congr_left fun k hk => ?_
      rw [hv k (List.mem_range.1 hk)]
      rfl
    rw [e2]
    exact holdsSamples_lines hc (by simp)

/-- The spectrum of twelve samples. -/
example : ∃ w' text, plotSpectrumToFile (exactLibc ℝ) true true spFft 7 (List.replicate 12 1) 12 "x".toList plotStart = .ok (w', 0) ∧
    w'.files "x".toList = some text ∧ HoldsSamples (fun x => x) text
      ((List.range 12).map fun k => 2 / (12 : Nat) * ‖dft 12 (fun t => ((List.replicate 12 (1 : ℝ)).getD t 0 : ℂ)) k‖) 12 := by
  obtain ⟨w', text, h1, h2, h3, _⟩ := C136_spectrum exactLibc_prints (a := List.replicate 12 1) (n := 12) (by simp) (by decide)
    (path := "x".toList) (w := plotStart) rfl 7
  exact ⟨w', text, h1, h2, h3⟩

/-- **C136, failures of `sp_plot_spectrum_to_file` leak**: if the second allocation fails the first array is not freed, if the Fourier transform
fails both are not freed. -/
theorem C136_spectrum_leaks (c : Libc ℝ) (junk : ℝ) (a : Buf ℝ) (n : Nat) (ha : n ≤ a.length) (path : List Char) (w : PlotWorld)
    {fft : Nat → Buf ℝ → Buf ℝ → C (Nat × Buf ℝ × Buf ℝ)} {st : Nat} {re im : Buf ℝ}
    (hf : fft n (a.take n) (List.replicate n 0) = .ok (st, re, im)) (hst : st ≠ 0) :
    plotSpectrumToFile c true false fft junk a n path w = .ok (w, 1) ∧ plotSpectrumToFile c true true fft junk a n path w = .ok (w, 2) := by
  have hm : memcpy (List.replicate n junk) 0 a 0 n = .ok (a.take n) := by
    rw [memcpy, if_pos ⟨by simp, by omega⟩]
    simp
  constructor
  · rfl
  · simp only [plotSpectrumToFile, Bool.not_true, Bool.false_eq_true, if_false, hm, ok_bind', hf, ne_eq, hst, not_false_eq_true, if_true,
      pure_eq_ok]

example (c : Libc ℝ) : plotSpectrumToFile c true true (fun _ x y => .ok (1, x, y)) 0 [1, 2] 2 [] plotStart = .ok (plotStart, 2) :=
  (C136_spectrum_leaks c 0 [1, 2] 2 (by simp) [] plotStart (fft := fun _ x y => .ok (1, x, y)) rfl (by decide)).2

end Sp
