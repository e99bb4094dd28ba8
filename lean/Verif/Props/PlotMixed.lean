import Verif.Props.PlotNames

/-! # Plots of all kinds one after the other: C137 -/

set_option linter.unusedSectionVars false

namespace Sp

/-- A call of one of the three functions that plot an array. -/
inductive PlotCall where
  | samples (a : Buf ℝ)
  | times (a : Buf Nat)
  | spectrum (a : Buf ℝ)

/-- Calling `sp_plot_samples`, `sp_plot_times` and `sp_plot_spectrum` one after the other. -/
noncomputable def plotCalls (c : Libc ℝ) (junkc : Char) (junk : ℝ) : List PlotCall → PlotWorld → C PlotWorld
  | [], w => .ok w
  | .samples a :: r, w => do
    let w ← plotSamples c junkc a a.length w
    plotCalls c junkc junk r w
  | .times a :: r, w => do
    let w ← plotTimes c junkc a a.length w
    plotCalls c junkc junk r w
  | .spectrum a :: r, w => do
    let w ← plotSpectrum c junkc junk a a.length w
    plotCalls c junkc junk r w

/-- The content of the file of a plot: the samples, the numbers, or the scaled absolute values of the discrete Fourier transform. -/
def HoldsPlot (text : List Char) : PlotCall → Prop
  | .samples a => HoldsSamples (fun x => x) text a a.length
  | .times a => HoldsTimes text a a.length
  | .spectrum a => HoldsSamples (fun x => x) text
      ((List.range a.length).map fun k => 2 / a.length * ‖dft a.length (fun t => (a.getD t 0 : ℂ)) k‖) a.length

/-- How the data is drawn: samples with lines, the others with steps. -/
def PlotCall.style : PlotCall → List Char
  | .samples _ => " with lines ".toList
  | .times _ => " with histeps ".toList
  | .spectrum _ => " with histeps ".toList

/-- The size of an array fits in `sp_time_t`. -/
def PlotCall.Fits : PlotCall → Prop
  | .samples a => a.length < 4294967296
  | .times a => a.length < 4294967296
  | .spectrum a => a.length < 4294967296

/-- The command plots the file with the given path in the given style: it runs gnuplot with a script that names the path in its first string,
followed by the style. -/
def Plots (command path style : List Char) : Prop := ∃ before after,
  shellCommands command =
    some [["gnuplot".toList, "--persist".toList, "-e".toList, before ++ (['"'] ++ (path ++ (['"'] ++ (style ++ after))))]] ∧
  firstString (before ++ (['"'] ++ (path ++ (['"'] ++ (style ++ after))))) = some path

/-- The command for a plot. -/
def PlotCall.command (k : Nat) : PlotCall → List Char
  | .samples _ => "gnuplot --persist -e 'set key off; set size ratio 0.618; plot \"".toList ++ (tmpName k ++ "\" with lines lc rgb \"blue\"'".toList)
  | .times _ => "gnuplot --persist -e 'set key off; set size ratio 0.618; plot \"".toList ++ (tmpName k ++ "\" with histeps lc rgb \"blue\"'".toList)
  | .spectrum _ => "gnuplot --persist -e 'set key off; set size ratio 0.618; plot \"".toList ++ (tmpName k ++ "\" with histeps lc rgb \"blue\"'".toList)

theorem tmpName_without (k : Nat) {ch : Char} (h1 : ch.toNat < 48 ∨ 57 < ch.toNat) (h2 : ch ∉ "/tmp/sp-plot-".toList) : ch ∉ tmpName k := by
  rw [tmpName_def, List.mem_append, not_or]
  exact ⟨h2, not_mem_decimal _ h1⟩

theorem plots_command (k : Nat) {style after : List Char} (h1 : '\'' ∉ style) (h2 : '\'' ∉ after) :
    Plots ("gnuplot --persist -e 'set key off; set size ratio 0.618; plot \"".toList ++ (tmpName k ++ ((['"'] ++ (style ++ after)) ++ ['\''])))
      (tmpName k) style := by
  have q1 : "gnuplot --persist -e 'set key off; set size ratio 0.618; plot \"".toList =
      "gnuplot --persist -e '".toList ++ ("set key off; set size ratio 0.618; plot ".toList ++ ['"']) := by decide +kernel
  refine ⟨"set key off; set size ratio 0.618; plot ".toList, after, ?_, ?_⟩
  · rw [q1, List.append_assoc, shell_plot (by decide +kernel) (by simp [h1, h2]) (tmpName_without k (by decide) (by decide +kernel)), List.append_assoc]
  · exact firstString_plot (by decide +kernel) (tmpName_without k (by decide) (by decide +kernel)) (tmpName_without k (by decide) (by decide +kernel))
      (tmpName_without k (by decide) (by decide +kernel))

theorem PlotCall.plots (p : PlotCall) (k : Nat) : Plots (p.command k) (tmpName k) p.style := by
  have r1 : "\" with lines lc rgb \"blue\"'".toList = (['"'] ++ (" with lines ".toList ++ "lc rgb \"blue\"".toList)) ++ ['\''] := by decide +kernel
  have r2 : "\" with histeps lc rgb \"blue\"'".toList = (['"'] ++ (" with histeps ".toList ++ "lc rgb \"blue\"".toList)) ++ ['\''] := by decide +kernel
  have k1 := plots_command k (style := " with lines ".toList) (after := "lc rgb \"blue\"".toList) (by decide +kernel) (by decide +kernel)
  have k2 := plots_command k (style := " with histeps ".toList) (after := "lc rgb \"blue\"".toList) (by decide +kernel) (by decide +kernel)
  rw [← r1] at k1
  rw [← r2] at k2
  cases p with
  | samples a => exact k1
  | times a => exact k2
  | spectrum a => exact k2

/-- One plot. -/
theorem plotCalls_cons {c : Libc ℝ} (hc : PrintsNumbers c (fun x => x)) (junkc : Char) (junk : ℝ) {p : PlotCall} (hp : p.Fits) {w : PlotWorld}
    (hi : w.index < 1000000000) (hw : w.writable (tmpName w.index) = true) (r : List PlotCall) :
    ∃ w' text, plotCalls c junkc junk (p :: r) w = plotCalls c junkc junk r w' ∧ w'.files (tmpName w.index) = some text ∧ HoldsPlot text p ∧
      (∀ q, q ≠ tmpName w.index → w'.files q = w.files q) ∧ w'.commands = w.commands ++ [p.command w.index] ∧
      w'.index = w.index + 1 ∧ w'.writable = w.writable := by
  have e := plotPath_eq hc.slot w
  rw [tmpName_take hi] at e
  have hu : u32 (1 + w.index) = w.index + 1 := (u32_of_lt (by omega)).trans (Nat.add_comm _ _)
  have hn := nul_not_mem_tmpName w.index
  cases p with
  | samples a =>
    obtain ⟨w', text, h1, h2, h3, h4, h5, h6, h7, _⟩ := plotSamples_eq hc junkc (Nat.le_refl a.length) hi hw
    exact ⟨w', text, by rw [plotCalls, h1, ok_bind'], h2, h3, h4, h5, h6, h7⟩
  | times a =>
    obtain ⟨w1, text, h1, h2, h3, h4, h5, h6, h7⟩ := C136_times_partial hc (Nat.le_refl a.length) (path := tmpName w.index)
      (w := { w with index := u32 (1 + w.index) }) hw
    obtain ⟨_, _, _, h8, _⟩ := C138_whole_command c junkc hn w1
    refine ⟨{ w1 with commands := w1.commands ++ [(PlotCall.times a).command w.index] }, text, ?_, h2, h3, h4, ?_, h6.trans hu, h7⟩
    · rw [plotCalls, plotTimes, e, ok_bind']
      simp only
      rw [h1, ok_bind', h8, ok_bind']
      rfl
    · show w1.commands ++ _ = _
      rw [h5]
  | spectrum a =>
    obtain ⟨w1, text, h1, h2, h3, h4, h5, h6, h7⟩ := C136_spectrum hc (Nat.le_refl a.length) hp (path := tmpName w.index)
      (w := { w with index := u32 (1 + w.index) }) hw junk
    obtain ⟨_, h8, _, _, h9⟩ := C138_whole_command c junkc hn w1
    refine ⟨{ w1 with commands := w1.commands ++ [(PlotCall.spectrum a).command w.index] }, text, ?_, h2, h3, h4, ?_, h6.trans hu, h7⟩
    · rw [plotCalls, plotSpectrum, e, ok_bind']
      simp only
      rw [h1, ok_bind']
      simp only
      rw [h9, h8, ok_bind']
      rfl
    · show w1.commands ++ _ = _
      rw [h5]

/-- **C137**, the part that holds, for calls of all three functions in any order: as long as the running number stays below 10^9 each plot gets a
file of its own, at the end all data files hold the data of their plot, no other files are changed, and one command is run for each plot, in
order, that plots its file in its style. -/
theorem C137_mixed_partial {c : Libc ℝ} (hc : PrintsNumbers c (fun x => x)) (junkc : Char) (junk : ℝ) {ps : List PlotCall} (hp : ∀ p ∈ ps, p.Fits)
    {w : PlotWorld} (hi : w.index + ps.length ≤ 1000000000) (hw : ∀ k, w.writable (tmpName k) = true) :
    ∃ w' cs, plotCalls c junkc junk ps w = .ok w' ∧ w'.commands = w.commands ++ cs ∧ cs.length = ps.length ∧
      (∀ (j : Nat) (p : PlotCall), ps[j]? = some p →
        (∃ text, w'.files (tmpName (w.index + j)) = some text ∧ HoldsPlot text p) ∧
        ∃ command, cs[j]? = some command ∧ Plots command (tmpName (w.index + j)) p.style) ∧
      ∀ q, (∀ j, j < ps.length → q ≠ tmpName (w.index + j)) → w'.files q = w.files q := by
  induction ps generalizing w with
  | nil => exact ⟨w, [], rfl, by simp, rfl, by simp, fun _ _ => rfl⟩
  | cons p r ih =>
    simp only [List.length_cons] at hi
    obtain ⟨w1, text, e1, f1, f2, f3, c1, i1, wr1⟩ := plotCalls_cons hc junkc junk (hp p (by simp)) (w := w) (by omega) (hw _) r
    obtain ⟨w', cs, e2, n2, l2, g1, g2⟩ := ih (fun q hq => hp q (by simp [hq])) (w := w1) (by omega) (by rw [wr1]; exact hw)
    refine ⟨w', p.command w.index :: cs, by rw [e1, e2], by rw [n2, c1]; simp, by simp [l2], ?_, ?_⟩
    · intro j b hj
      cases j with
      | zero =>
        simp only [List.getElem?_cons_zero, Option.some.injEq] at hj
        subst hj
        refine ⟨⟨text, ?_, f2⟩, _, rfl, p.plots w.index⟩
        rw [Nat.add_zero, g2 _ (fun j _ h => by have := tmpName_inj h; omega), f1]
      | succ j =>
        have := g1 j b (by simpa using hj)
        rw [i1] at this
        rwa [show w.index + (j + 1) = w.index + 1 + j by omega]
    · intro q hq
      rw [g2 q (fun j hj h => hq (j + 1) (by simpa using hj) (by rw [h, i1]; congr 1; omega)), f3 q (by simpa using hq 0 (by simp))]

/-- A plot of samples, of times and of a spectrum. -/
example : ∃ w', plotCalls (exactLibc ℝ) 'x' 7 [.samples [1, 2], .times [3, 4, 5], .spectrum [1, 0, 0]] plotStart = .ok w' ∧
    w'.commands.length = 3 ∧ ∃ text, w'.files (tmpName 1) = some text ∧ HoldsTimes text [3, 4, 5] 3 := by
  obtain ⟨w', cs, h1, h2, h3, h4, _⟩ := C137_mixed_partial exactLibc_prints 'x' 7
    (ps := [.samples [1, 2], .times [3, 4, 5], .spectrum [1, 0, 0]]) (by simp [PlotCall.Fits]) (w := plotStart) (by decide) (fun _ => rfl)
  obtain ⟨⟨text, h5, h6⟩, _⟩ := h4 1 (.times [3, 4, 5]) rfl
  exact ⟨w', h1, by rw [h2]; simpa [plotStart] using h3, text, by simpa [plotStart] using h5, h6⟩

end Sp
