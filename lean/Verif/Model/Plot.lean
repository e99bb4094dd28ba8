import Verif.Model.Printf
import Verif.Model.Render
import Verif.Model.Fft
import Mathlib.Analysis.SpecialFunctions.Sqrt

/-!
# Model of plotting

Line numbers without a file are for /repo/source/c-precompiled/sph-sp/plot.c. The files are a map from paths to texts. `system` is modelled by
the list of commands it has been called with; what the commands do is not modelled. Allocation succeeds, except in `sp_plot_spectrum_to_file`.
-/

namespace Sp
variable {S : Type}

/-- What the functions can change: the content of files, the global variable `sp_plot_temp_file_index` (1), the commands that were passed to
`system`, and what was printed to standard output. `writable` are the paths for which `fopen(path, "w")` succeeds. -/
structure PlotWorld where
  files : List Char → Option (List Char)
  writable : List Char → Bool
  index : Nat
  commands : List (List Char)
  out : List Char

/-- The loop bodies of `sp_plot_samples_to_file` and `sp_plot_times_to_file`. 13, 22 -/
def plotLine (c : Libc S) {T : Type} (fmt : List Char) (arg : T → PrintArg S) (a : Buf T) (i : Nat) (text : List Char) : C (List Char) := do
  let x ← rd a i
  let l ← printf c fmt [arg x]
  pure (text ++ l)

/-- `fopen` with "w", a loop that prints lines, `fclose`. A file that can not be opened is a null pointer, which is used without check. -/
def plotToFile (c : Libc S) {T : Type} (fmt : List Char) (arg : T → PrintArg S) (a : Buf T) (n : Nat) (path : List Char) (w : PlotWorld) :
    C PlotWorld :=
  if w.writable path then do
    let text ← forRange 0 n (plotLine c fmt arg a) []
    pure { w with files := fun p => if p = path then some text else w.files p }
  else .error .nullDeref

/-- `sp_plot_samples_to_file`. 8-16 -/
def plotSamplesToFile (c : Libc S) (a : Buf S) (n : Nat) (path : List Char) (w : PlotWorld) : C PlotWorld :=
  plotToFile c "%.3f\n".toList .f64 a n path w

/-- `sp_plot_times_to_file`. 17-25 -/
def plotTimesToFile (c : Libc S) (a : Buf Nat) (n : Nat) (path : List Char) (w : PlotWorld) : C PlotWorld :=
  plotToFile c "%lu\n".toList .u32 a n path w

/-- `sp_plot_command_pattern_lines`. 5 -/
def patternLines : List Char :=
  "gnuplot --persist -e 'set key off; set size ratio 0.618; plot \"%s\" with lines lc rgb \"blue\"'".toList

/-- `sp_plot_command_pattern_steps`. 6 -/
def patternSteps : List Char :=
  "gnuplot --persist -e 'set key off; set size ratio 0.618; plot \"%s\" with histeps lc rgb \"blue\"'".toList

/-- `sp_plot_command_pattern_bars`. 7 -/
def patternBars : List Char :=
  "gnuplot --persist -e 'set key off; set size ratio 0.618; set grid; plot \"%s\" with steps lc rgb \"red\"'".toList

/-- The common part of `sp_plot_samples_file` and `sp_plot_times_file`. `junk` is the content of allocated memory. 31-38, 45-52 -/
def plotCommand (c : Libc S) (junk : Char) (pattern path : List Char) (w : PlotWorld) : C PlotWorld := do
  let size := path.length + pattern.length
  let text ← printf c pattern [.str path]
  let command ← snprintf (List.replicate size junk) size text
  let s ← cString command
  pure { w with commands := w.commands ++ [s] }

/-- `sp_plot_samples_file`. 26-39 -/
def plotSamplesFile (c : Libc S) (junk : Char) (path : List Char) (useSteps : Bool) (w : PlotWorld) : C PlotWorld :=
  plotCommand c junk (if useSteps then patternSteps else patternLines) path w

/-- `sp_plot_times_file`. 40-53 -/
def plotTimesFile (c : Libc S) (junk : Char) (path : List Char) (useSteps : Bool) (w : PlotWorld) : C PlotWorld :=
  plotCommand c junk (if useSteps then patternSteps else patternBars) path w

/-- `sp_plot_spectrum_file`. 105 -/
def plotSpectrumFile (c : Libc S) (junk : Char) (path : List Char) (w : PlotWorld) : C PlotWorld := plotSamplesFile c junk path true w

/-- The path for temporary data and the update of the index: the first statements of `sp_plot_samples`, `sp_plot_times` and
`sp_plot_spectrum`. `sp_plot_temp_path` is "/tmp/sp-plot", `sp_plot_temp_file_index_maxlength` is 10. 2-3, 55-61, 67-73, 107-113 -/
def plotPath (c : Libc S) (w : PlotWorld) : C (List Char × PlotWorld) := do
  let size := (1 + 10 + "/tmp/sp-plot".toList.length) % 256
  let text ← printf c "%s-%lu".toList [.str "/tmp/sp-plot".toList, .u32 w.index]
  let buf ← snprintf (List.replicate size '\x00') size text
  let path ← cString buf
  pure (path, { w with index := u32 (1 + w.index) })

/-- `sp_plot_samples`. 54-65 -/
def plotSamples (c : Libc S) (junk : Char) (a : Buf S) (n : Nat) (w : PlotWorld) : C PlotWorld := do
  let (path, w) ← plotPath c w
  let w ← plotSamplesToFile c a n path w
  plotSamplesFile c junk path false w

/-- `sp_plot_times`. 66-77 -/
def plotTimes (c : Libc S) (junk : Char) (a : Buf Nat) (n : Nat) (w : PlotWorld) : C PlotWorld := do
  let (path, w) ← plotPath c w
  let w ← plotTimesToFile c a n path w
  plotTimesFile c junk path true w

/-- The loop body of `sp_plot_spectrum_to_file`. 99 -/
noncomputable def spectrumLine (c : Libc ℝ) (re im : Buf ℝ) (n : Nat) (i : Nat) (text : List Char) : C (List Char) := do
  let x ← rd re i
  let y ← rd im i
  let l ← printf c "%.3f\n".toList [.f64 (2 * (Real.sqrt (x * x + y * y) / n))]
  pure (text ++ l)

/-- `sp_plot_spectrum_to_file`: the state and the number of arrays that stay allocated. `okImag` and `okReal` tell if the two allocations
succeed, `fft` is `sp_fft`. `junk` is the content of allocated memory. 80-104 -/
noncomputable def plotSpectrumToFile (c : Libc ℝ) (okImag okReal : Bool) (fft : Nat → Buf ℝ → Buf ℝ → C (Nat × Buf ℝ × Buf ℝ)) (junk : ℝ)
    (a : Buf ℝ) (n : Nat) (path : List Char) (w : PlotWorld) : C (PlotWorld × Nat) :=
  if !okImag then .ok (w, 0)
  else if !okReal then .ok (w, 1)
  else do
    let real ← memcpy (List.replicate n junk) 0 a 0 n
    let (st, re, im) ← fft n real (List.replicate n 0)
    if st ≠ 0 then return (w, 2)
    else if w.writable path then do
      let text ← forRange 0 n (spectrumLine c re im n) []
      return ({ w with files := fun p => if p = path then some text else w.files p }, 0)
    else .error .nullDeref

/-- `sp_plot_spectrum`. 106-117 -/
noncomputable def plotSpectrum (c : Libc ℝ) (junkc : Char) (junk : ℝ) (a : Buf ℝ) (n : Nat) (w : PlotWorld) : C PlotWorld := do
  let (path, w) ← plotPath c w
  let (w, _) ← plotSpectrumToFile c true true spFft junk a n path w
  plotSpectrumFile c junkc path w

/-- `sp_render_plot`: the status and the state. `channelCount` and `rate` are global variables. The block is not freed.
/repo/source/c-precompiled/sph-sp/main.c:397-412 -/
def renderPlot {D : Type} [Zero S] (c : Libc S) (junk : Char) (cb : Callbacks D (Buf (Buf S))) (fuel : Nat) (new : Addr) (e : Event D)
    (channelCount rate : Nat) (w : PlotWorld) : C (Nat × PlotWorld) := do
  let (st, e, _, _) ← (if e.stop = 0 then prepareOptional cb new e [] else .ok (0, e, [], []))
  if st ≠ 0 then return (st, w)
  else if rate = 0 then .error .divByZero
  else
    let text ← (if e.stop ≠ 0 ∧ e.stop < rate then
        printf c "rendering %lu milliseconds to plot\n".toList [.u32 (e.stop / rate / 1000)]
      else printf c "rendering %lu seconds to plot\n".toList [.u32 (e.stop / rate)])
    let w := { w with out := w.out ++ text }
    let (st, samples, _) ← renderRangeBlock cb fuel new e 0 e.stop ⟨channelCount, rate, u32 (4 * rate)⟩
    if st ≠ 0 then return (st, w)
    else
      let row ← rd samples 0
      let w ← plotSamples c junk row e.stop w
      return (0, w)

/-- The line that `sp_render_range_file` prints before each block if `display_progress` is set; `percent` is the number.
/repo/source/c-precompiled/sph-sp/main.c:349 -/
def progressLine (c : Libc S) (percent : S) : C (List Char) := printf c "%.1f%\n".toList [.f64 percent]

/-- The loop body of the display functions. /repo/source/c-precompiled/sph-sp/arrays.c:25, 489 -/
def displayBody (c : Libc S) {T : Type} (fmt : List Char) (arg : T → PrintArg S) (a : Buf T) (i : Nat) (text : List Char) : C (List Char) := do
  let x ← rd a i
  let l ← printf c fmt [arg x]
  pure (text ++ l)

/-- `sp_times_display`: what is printed. /repo/source/c-precompiled/sph-sp/arrays.c:22-28 -/
def timesDisplay (c : Libc S) (a : Buf Nat) (count : Nat) : C (List Char) := do
  let x ← rd a 0
  let text ← printf c "%lu".toList [.u32 x]
  let text ← forRange 1 count (displayBody c " %lu".toList .u32 a) text
  pure (text ++ "\n".toList)

/-- `sp_samples_display`: what is printed. /repo/source/c-precompiled/sph-sp/arrays.c:486-492 -/
def samplesDisplay (c : Libc S) (a : Buf S) (count : Nat) : C (List Char) := do
  let x ← rd a 0
  let text ← printf c "%.5f".toList [.f64 x]
  let text ← forRange 1 count (displayBody c " %.5f".toList .f64 a) text
  pure (text ++ "\n".toList)

/-- `sp_event_list_display_element`. The null pointer prints as 0. /repo/source/c-precompiled/sph-sp/sequencer.c:8 -/
def eventListDisplayElement {D : Type} (c : Libc S) (a : Addr) (n : ListNode (Event D)) : C (List Char) :=
  printf c "%lu %lu %lu event %lu %lu\n".toList
    [.ptr (n.prev.getD 0), .ptr a, .ptr (n.next.getD 0), .u32 n.event.start, .u32 n.event.stop]

/-- `sp_event_list_display`. The number bounds the iterations. /repo/source/c-precompiled/sph-sp/sequencer.c:9-14 -/
def eventListDisplay {D : Type} (c : Libc S) (heap : Heap (Event D)) : Nat → Option Addr → C (List Char)
  | _, none => .ok []
  | 0, some _ => .error .nonTermination
  | fuel + 1, some a => do
    let n ← heap.load a
    let l ← eventListDisplayElement c a n
    let r ← eventListDisplay c heap fuel n.next
    pure (l ++ r)

end Sp
