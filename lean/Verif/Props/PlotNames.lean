import Verif.Props.Plot

/-! # Files and commands of plots: C137, C138 -/

set_option linter.unusedSectionVars false

namespace Sp
variable {S : Type}

/-- The name of the file for the plot with a number. -/
def tmpName (k : Nat) : List Char := "/tmp/sp-plot-".toList ++ decimal k

theorem tmpName_def (k : Nat) : tmpName k = "/tmp/sp-plot-".toList ++ decimal k := rfl

theorem tmpName_inj {j k : Nat} (h : tmpName j = tmpName k) : j = k := decimal_inj (List.append_cancel_left h)

theorem cString_text {t r : List Char} (h : '\x00' ∉ t) : cString (t ++ '\x00' :: r) = .ok t := by
  rw [cString, if_pos (by simp), takeWhile_no h]

theorem printf_path {c : Libc S} (hs : ∀ n, c.slot n = .ok n) (n : Nat) :
    printf c "%s-%lu".toList [.str "/tmp/sp-plot".toList, .u32 n] = .ok (tmpName n) := by
  show (do
    let t ← (do
      let t ← (do
        let n ← c.slot n
        let t ← Except.ok []
        pure (decimal n ++ t))
      pure ('-' :: t))
    pure ("/tmp/sp-plot".toList ++ t)) = _
  rw [hs]
  simp only [ok_bind', pure_eq_ok, List.append_nil]
  rw [tmpName_def, show "/tmp/sp-plot-".toList = "/tmp/sp-plot".toList ++ ['-'] by decide +kernel, List.append_assoc, List.singleton_append]

theorem nul_not_mem_tmpName (k : Nat) : '\x00' ∉ tmpName k := by
  rw [tmpName_def, List.mem_append, not_or]
  exact ⟨by decide +kernel, not_mem_decimal _ (by decide)⟩

theorem take_full {t : List Char} {n : Nat} (h : t.length ≤ n) : t.take n = t := List.take_of_length_le h

theorem path_string {t : List Char} (h : '\x00' ∉ t) :
    (do let buf ← snprintf (List.replicate 23 '\x00') 23 t
        cString buf : C (List Char)) = .ok (t.take 22) := by
  have hl : (t.take 22 ++ ['\x00']).length ≤ (List.replicate 23 '\x00').length := by simp
  rw [snprintf, if_neg (by decide), writeText, if_pos hl, ok_bind', List.append_assoc, List.singleton_append, cString_text]
  exact fun hm => h (List.mem_of_mem_take hm)

theorem plotPath_eq {c : Libc S} (hs : ∀ n, c.slot n = .ok n) (w : PlotWorld) :
    plotPath c w = .ok ((tmpName w.index).take 22, { w with index := u32 (1 + w.index) }) := by
  have h := path_string (nul_not_mem_tmpName w.index)
  unfold plotPath
  rw [printf_path hs, ok_bind']
  have e : (1 + 10 + "/tmp/sp-plot".toList.length) % 256 = 23 := by decide +kernel
  rw [e]
  rw [snprintf, if_neg (by decide)] at h ⊢
  cases hb : writeText (List.replicate 23 '\x00') (List.take (23 - 1) (tmpName w.index) ++ ['\x00']) with
  | error f => rw [hb] at h; cases h
  | ok buf =>
    rw [hb] at h
    simp only [ok_bind'] at h ⊢
    rw [h]
    rfl

theorem tmpName_take {k : Nat} (h : k < 1000000000) : (tmpName k).take 22 = tmpName k := by
  refine take_full ?_
  have := decimal_length_le (n := k) (k := 8) (by omega)
  have e : "/tmp/sp-plot-".toList.length = 13 := by decide +kernel
  rw [tmpName_def, List.length_append, e]
  omega

theorem decimal_length_ge {n k : Nat} (h : 10 ^ k ≤ n) : k + 1 ≤ (decimal n).length := by
  induction k generalizing n with
  | zero =>
    have := decimal_ne_nil n
    have := List.length_pos_iff.2 this
    omega
  | succ k ih =>
    rw [pow_succ] at h
    have h10 : 0 < 10 ^ k := by positivity
    rw [decimal, dif_neg (by omega), List.length_append]
    have := ih (n := n / 10) (by omega)
    simp only [List.length_singleton]
    omega

theorem tmpName_cut {k : Nat} (h : 1000000000 ≤ k) (h2 : k < 10000000000) : (tmpName k).take 22 = tmpName (k / 10) := by
  have e : "/tmp/sp-plot-".toList.length = 13 := by decide +kernel
  have l1 := decimal_length_le (n := k / 10) (k := 8) (by omega)
  have l2 := decimal_length_ge (n := k / 10) (k := 8) (by omega)
  have hd : decimal k = decimal (k / 10) ++ [digitChar (k % 10)] := by
    conv_lhs => rw [decimal, dif_neg (by omega)]
  rw [tmpName_def, hd, ← List.append_assoc]
  have hl : ("/tmp/sp-plot-".toList ++ decimal (k / 10)).length = 22 := by rw [List.length_append, e]; omega
  rw [← hl, List.take_left]
  rfl

/-- Plotting several sample arrays one after the other. -/
def plotAll (c : Libc S) (junk : Char) : List (Buf S) → PlotWorld → C PlotWorld
  | [], w => .ok w
  | a :: r, w => do
    let w ← plotSamples c junk a a.length w
    plotAll c junk r w

set_option maxRecDepth 10000 in
theorem printf_pattern (c : Libc S) (path : List Char) :
    printf c patternLines [.str path] = .ok ("gnuplot --persist -e 'set key off; set size ratio 0.618; plot \"".toList ++
      (path ++ "\" with lines lc rgb \"blue\"'".toList)) ∧
    printf c patternSteps [.str path] = .ok ("gnuplot --persist -e 'set key off; set size ratio 0.618; plot \"".toList ++
      (path ++ "\" with histeps lc rgb \"blue\"'".toList)) ∧
    printf c patternBars [.str path] = .ok ("gnuplot --persist -e 'set key off; set size ratio 0.618; set grid; plot \"".toList ++
      (path ++ "\" with steps lc rgb \"red\"'".toList)) := ⟨rfl, rfl, rfl⟩

theorem plotCommand_eq {c : Libc S} {junk : Char} {pattern path a b : List Char} {w : PlotWorld}
    (h : printf c pattern [.str path] = .ok (a ++ (path ++ b))) (hl : a.length + b.length + 1 ≤ pattern.length) (ha : '\x00' ∉ a) (hb : '\x00' ∉ b)
    (hp : '\x00' ∉ path) :
    plotCommand c junk pattern path w = .ok { w with commands := w.commands ++ [a ++ (path ++ b)] } := by
  have hlen : (a ++ (path ++ b)).length = a.length + (path.length + b.length) := by simp
  unfold plotCommand
  rw [h, ok_bind', snprintf, if_neg (by omega), take_full (by omega), writeText, if_pos (by rw [List.length_append, List.length_replicate, hlen]; simp; omega), ok_bind',
    List.append_assoc (a ++ (path ++ b)), List.singleton_append, cString_text]
  · rfl
  · simp [ha, hb, hp]

/-- **C138, the whole command** is passed to `system`, for every path, however long. -/
theorem C138_whole_command (c : Libc S) (junk : Char) {path : List Char} (hp : '\x00' ∉ path) (w : PlotWorld) :
    plotSamplesFile c junk path false w = .ok { w with commands := w.commands ++
      ["gnuplot --persist -e 'set key off; set size ratio 0.618; plot \"".toList ++ (path ++ "\" with lines lc rgb \"blue\"'".toList)] } ∧
    plotSamplesFile c junk path true w = .ok { w with commands := w.commands ++
      ["gnuplot --persist -e 'set key off; set size ratio 0.618; plot \"".toList ++ (path ++ "\" with histeps lc rgb \"blue\"'".toList)] } ∧
    plotTimesFile c junk path false w = .ok { w with commands := w.commands ++
      ["gnuplot --persist -e 'set key off; set size ratio 0.618; set grid; plot \"".toList ++ (path ++ "\" with steps lc rgb \"red\"'".toList)] } ∧
    plotTimesFile c junk path true w = .ok { w with commands := w.commands ++
      ["gnuplot --persist -e 'set key off; set size ratio 0.618; plot \"".toList ++ (path ++ "\" with histeps lc rgb \"blue\"'".toList)] } ∧
    plotSpectrumFile c junk path w = plotSamplesFile c junk path true w := by
  obtain ⟨h1, h2, h3⟩ := printf_pattern c path
  exact ⟨plotCommand_eq h1 (by decide +kernel) (by decide +kernel) (by decide +kernel) hp, plotCommand_eq h2 (by decide +kernel) (by decide +kernel) (by decide +kernel) hp,
    plotCommand_eq h3 (by decide +kernel) (by decide +kernel) (by decide +kernel) hp, plotCommand_eq h2 (by decide +kernel) (by decide +kernel) (by decide +kernel) hp, rfl⟩

theorem shell_quoted {p : List Char} (hp : '\'' ∉ p) (u : List Char) (ws : List (List Char)) (r : List Char) :
    shell true (some u) ws (p ++ r) = shell true (some (u ++ p)) ws r := by
  induction p generalizing u with
  | nil => simp
  | cons x p ih =>
    simp only [List.mem_cons, not_or] at hp
    rw [List.cons_append, shell, if_neg (fun e => hp.1 e.symm), Option.getD_some, ih hp.2]
    simp

theorem shell_plot {a b path : List Char} (ha : '\'' ∉ a) (hb : '\'' ∉ b) (hp : '\'' ∉ path) :
    shellCommands ("gnuplot --persist -e '".toList ++ (a ++ (path ++ (b ++ ['\''])))) =
      some [["gnuplot".toList, "--persist".toList, "-e".toList, a ++ (path ++ b)]] := by
  have h : shellCommands ("gnuplot --persist -e '".toList ++ (a ++ (path ++ (b ++ ['\''])))) =
      shell true (some []) ["gnuplot".toList, "--persist".toList, "-e".toList] (a ++ (path ++ (b ++ ['\'']))) := rfl
  rw [h, shell_quoted ha, shell_quoted hp, shell_quoted hb]
  simp [shell]

theorem firstString_plot {a b path : List Char} (ha : '"' ∉ a) (hp : '"' ∉ path) (h1 : '\\' ∉ path) (h2 : '`' ∉ path) :
    firstString (a ++ '"' :: (path ++ '"' :: b)) = some path := by
  rw [firstString, dropWhile_no ha]
  simp only
  rw [takeWhile_no hp, if_pos]
  refine ⟨by simp, ?_⟩
  simp only [List.any_eq_true, decide_eq_true_eq, not_exists, not_and]
  rintro x hx (rfl | rfl)
  · exact h1 hx
  · exact h2 hx

/-- **C138**, the part that holds: for a path without quotes, backslash and backquote, however long, the command that is run is gnuplot with a
script that plots the file with exactly this path. -/
theorem C138_runs_gnuplot_partial (c : Libc S) (junk : Char) {path : List Char} (h0 : '\x00' ∉ path) (h1 : '\'' ∉ path) (h2 : '"' ∉ path)
    (h3 : '\\' ∉ path) (h4 : '`' ∉ path) (useSteps : Bool) (w : PlotWorld) :
    (∃ command script, plotSamplesFile c junk path useSteps w = .ok { w with commands := w.commands ++ [command] } ∧
      shellCommands command = some [["gnuplot".toList, "--persist".toList, "-e".toList, script]] ∧ firstString script = some path) ∧
    (∃ command script, plotTimesFile c junk path useSteps w = .ok { w with commands := w.commands ++ [command] } ∧
      shellCommands command = some [["gnuplot".toList, "--persist".toList, "-e".toList, script]] ∧ firstString script = some path) := by
  obtain ⟨e1, e2, e3, e4, _⟩ := C138_whole_command c junk h0 w
  have key : ∀ a b : List Char, '\'' ∉ a → '\'' ∉ b → '"' ∉ a →
      shellCommands ("gnuplot --persist -e '".toList ++ ((a ++ ['"']) ++ (path ++ (('"' :: b) ++ ['\''])))) =
        some [["gnuplot".toList, "--persist".toList, "-e".toList, (a ++ ['"']) ++ (path ++ ('"' :: b))]] ∧
      firstString ((a ++ ['"']) ++ (path ++ ('"' :: b))) = some path := by
    intro a b ha hb hq
    refine ⟨shell_plot (by simp [ha]) (by simp [hb]) h1, ?_⟩
    rw [List.append_assoc]
    exact firstString_plot hq h2 h3 h4
  have k1 := key "set key off; set size ratio 0.618; plot ".toList " with lines lc rgb \"blue\"".toList (by decide +kernel) (by decide +kernel) (by decide +kernel)
  have k2 := key "set key off; set size ratio 0.618; plot ".toList " with histeps lc rgb \"blue\"".toList (by decide +kernel) (by decide +kernel) (by decide +kernel)
  have k3 := key "set key off; set size ratio 0.618; set grid; plot ".toList " with steps lc rgb \"red\"".toList (by decide +kernel) (by decide +kernel) (by decide +kernel)
  have q1 : "gnuplot --persist -e 'set key off; set size ratio 0.618; plot \"".toList =
      "gnuplot --persist -e '".toList ++ ("set key off; set size ratio 0.618; plot ".toList ++ ['"']) := by decide +kernel
  have q2 : "gnuplot --persist -e 'set key off; set size ratio 0.618; set grid; plot \"".toList =
      "gnuplot --persist -e '".toList ++ ("set key off; set size ratio 0.618; set grid; plot ".toList ++ ['"']) := by decide +kernel
  have r1 : "\" with lines lc rgb \"blue\"'".toList = ('"' :: " with lines lc rgb \"blue\"".toList) ++ ['\''] := by decide +kernel
  have r2 : "\" with histeps lc rgb \"blue\"'".toList = ('"' :: " with histeps lc rgb \"blue\"".toList) ++ ['\''] := by decide +kernel
  have r3 : "\" with steps lc rgb \"red\"'".toList = ('"' :: " with steps lc rgb \"red\"".toList) ++ ['\''] := by decide +kernel
  rw [q1, r1, List.append_assoc] at e1
  rw [q1, r2, List.append_assoc] at e2
  rw [q2, r3, List.append_assoc] at e3
  rw [q1, r2, List.append_assoc] at e4
  constructor
  · cases useSteps
    · exact ⟨_, _, e1, k1.1, k1.2⟩
    · exact ⟨_, _, e2, k2.1, k2.2⟩
  · cases useSteps
    · exact ⟨_, _, e3, k3.1, k3.2⟩
    · exact ⟨_, _, e4, k2.1, k2.2⟩

example : ∃ command script, plotSamplesFile (exactLibc ℚ) 'x' "my data; 1".toList false plotStart =
      .ok { plotStart with commands := plotStart.commands ++ [command] } ∧
    shellCommands command = some [["gnuplot".toList, "--persist".toList, "-e".toList, script]] ∧ firstString script = some "my data; 1".toList :=
  (C138_runs_gnuplot_partial (exactLibc ℚ) 'x' (by decide) (by decide) (by decide) (by decide) (by decide) false plotStart).1

/-- **C138 fails for paths with quotes**: with this path the shell runs gnuplot with a script that plots no file, and then the command `reboot`. -/
theorem C138_quote_false (c : Libc S) (junk : Char) (w : PlotWorld) : ∃ command script rest,
    plotSamplesFile c junk "';reboot;'".toList false w = .ok { w with commands := w.commands ++ [command] } ∧
    shellCommands command = some (["gnuplot".toList, "--persist".toList, "-e".toList, script] :: ["reboot".toList] :: rest) ∧
    firstString script = none := by
  obtain ⟨e1, _⟩ := C138_whole_command c junk (path := "';reboot;'".toList) (by decide) w
  refine ⟨_, "set key off; set size ratio 0.618; plot \"".toList, [["\" with lines lc rgb \"blue\"".toList]], e1, ?_, ?_⟩
  · decide +kernel
  · decide +kernel

/-- The command for a plot of samples. -/
def samplesCommand (k : Nat) : List Char :=
  "gnuplot --persist -e 'set key off; set size ratio 0.618; plot \"".toList ++ (tmpName k ++ "\" with lines lc rgb \"blue\"'".toList)

/-- One plot of samples. -/
theorem plotSamples_eq {c : Libc S} {val : S → ℝ} (hc : PrintsNumbers c val) (junk : Char) {a : Buf S} {n : Nat} (ha : n ≤ a.length)
    {w : PlotWorld} (hi : w.index < 1000000000) (hw : w.writable (tmpName w.index) = true) :
    ∃ w' text, plotSamples c junk a n w = .ok w' ∧ w'.files (tmpName w.index) = some text ∧ HoldsSamples val text a n ∧
      (∀ p, p ≠ tmpName w.index → w'.files p = w.files p) ∧ w'.commands = w.commands ++ [samplesCommand w.index] ∧
      w'.index = w.index + 1 ∧ w'.writable = w.writable ∧ w'.out = w.out := by
  have e := plotPath_eq hc.slot w
  rw [tmpName_take hi] at e
  have e2 := plotToFile_eq (printf_f3 c) ha (path := tmpName w.index) (w := { w with index := u32 (1 + w.index) }) hw
  unfold plotSamples
  rw [e, ok_bind']
  simp only [plotSamplesToFile]
  rw [e2, ok_bind', (C138_whole_command c junk (nul_not_mem_tmpName w.index) _).1]
  refine ⟨_, _, rfl, if_pos rfl, holdsSamples_lines hc ha, fun p hp => if_neg hp, rfl, ?_, rfl, rfl⟩
  exact (u32_of_lt (by omega)).trans (Nat.add_comm _ _)

theorem plotAll_eq {c : Libc S} {val : S → ℝ} (hc : PrintsNumbers c val) (junk : Char) (as : List (Buf S)) {w : PlotWorld}
    (hi : w.index + as.length ≤ 1000000000) (hw : ∀ k, w.writable (tmpName k) = true) :
    ∃ w', plotAll c junk as w = .ok w' ∧ w'.index = w.index + as.length ∧
      w'.commands = w.commands ++ (List.range as.length).map (fun j => samplesCommand (w.index + j)) ∧
      (∀ (j : Nat) (a : Buf S), as[j]? = some a → ∃ text, w'.files (tmpName (w.index + j)) = some text ∧ HoldsSamples val text a a.length) ∧
      ∀ p, (∀ j, j < as.length → p ≠ tmpName (w.index + j)) → w'.files p = w.files p := by
  induction as generalizing w with
  | nil => exact ⟨w, rfl, rfl, by simp, by simp, fun _ _ => rfl⟩
  | cons a r ih =>
    simp only [List.length_cons] at hi
    obtain ⟨w1, text, e1, f1, f2, f3, c1, i1, wr1, _⟩ := plotSamples_eq hc junk (Nat.le_refl a.length) (w := w) (by omega) (hw _)
    obtain ⟨w', e2, i2, n2, g1, g2⟩ := ih (w := w1) (by omega) (by rw [wr1]; exact hw)
    refine ⟨w', by rw [plotAll, e1, ok_bind', e2], by rw [i2, i1, List.length_cons]; omega, ?_, ?_, ?_⟩
    · rw [n2, c1, List.length_cons, List.range_succ_eq_map, List.map_cons, List.map_map, List.append_assoc]
      refine congrArg (fun x => w.commands ++ (samplesCommand w.index :: x)) ?_
      refine List.map_congr_left fun j _ => ?_
      show samplesCommand (w1.index + j) = samplesCommand (w.index + (j + 1))
      rw [i1]
      congr 1
      omega
    · intro j b hj
      cases j with
      | zero =>
        simp only [List.getElem?_cons_zero, Option.some.injEq] at hj
        subst hj
        refine ⟨text, ?_, f2⟩
        rw [Nat.add_zero, g2 _ (fun j _ h => by have := tmpName_inj h; omega), f1]
      | succ j =>
        have := g1 j b (by simpa using hj)
        rw [i1] at this
        rwa [show w.index + (j + 1) = w.index + 1 + j by omega]
    · intro p hp
      rw [g2 p (fun j hj h => hp (j + 1) (by simpa using hj) (by rw [h, i1]; congr 1; omega)), f3 p (by simpa using hp 0 (by simp))]

theorem samplesCommand_plots (k : Nat) : ∃ script,
    shellCommands (samplesCommand k) = some [["gnuplot".toList, "--persist".toList, "-e".toList, script]] ∧ firstString script = some (tmpName k) := by
  have hn : ∀ ch : Char, (ch.toNat < 48 ∨ 57 < ch.toNat) → ch ∉ "/tmp/sp-plot-".toList → ch ∉ tmpName k := fun ch h1 h2 => by
    rw [tmpName_def, List.mem_append, not_or]
    exact ⟨h2, not_mem_decimal _ h1⟩
  obtain ⟨⟨command, script, h1, h2, h3⟩, _⟩ := C138_runs_gnuplot_partial (exactLibc ℚ) 'x' (path := tmpName k) (nul_not_mem_tmpName k)
    (hn _ (by decide) (by decide +kernel)) (hn _ (by decide) (by decide +kernel)) (hn _ (by decide) (by decide +kernel))
    (hn _ (by decide) (by decide +kernel)) false plotStart
  have e := (C138_whole_command (exactLibc ℚ) 'x' (nul_not_mem_tmpName k) plotStart).1
  rw [e] at h1
  have h4 := congrArg PlotWorld.commands (Except.ok.inj h1)
  have hc : samplesCommand k = command := List.singleton_inj.1 (List.append_cancel_left h4)
  exact ⟨script, by rw [hc]; exact h2, h3⟩

/-- **C137**, the part that holds: plotting any number of sample arrays one after the other, as long as the running number stays below 10^9:
each plot gets a file of its own, all data files hold the samples of their plot at the end, no other files are changed, and one command is run
for each plot, in order, that plots its file. -/
theorem C137_own_files_partial {c : Libc S} {val : S → ℝ} (hc : PrintsNumbers c val) (junk : Char) (as : List (Buf S)) {w : PlotWorld}
    (hi : w.index + as.length ≤ 1000000000) (hw : ∀ k, w.writable (tmpName k) = true) :
    ∃ w', plotAll c junk as w = .ok w' ∧ w'.commands.length = w.commands.length + as.length ∧
      (∀ (j : Nat) (a : Buf S), as[j]? = some a → (∃ text, w'.files (tmpName (w.index + j)) = some text ∧ HoldsSamples val text a a.length) ∧
        ∃ command script, w'.commands[w.commands.length + j]? = some command ∧
          shellCommands command = some [["gnuplot".toList, "--persist".toList, "-e".toList, script]] ∧
          firstString script = some (tmpName (w.index + j))) ∧
      ∀ p, (∀ j, j < as.length → p ≠ tmpName (w.index + j)) → w'.files p = w.files p := by
  obtain ⟨w', h1, _, h3, h4, h5⟩ := plotAll_eq hc junk as hi hw
  refine ⟨w', h1, by rw [h3]; simp, fun j a hj => ⟨h4 j a hj, ?_⟩, h5⟩
  obtain ⟨script, s1, s2⟩ := samplesCommand_plots (w.index + j)
  refine ⟨samplesCommand (w.index + j), script, ?_, s1, s2⟩
  have hl : j < as.length := (List.getElem?_eq_some_iff.1 hj).1
  rw [h3, List.getElem?_append_right (by omega), Nat.add_sub_cancel_left, List.getElem?_map, List.getElem?_range hl]
  rfl

/-- Two plots. -/
example : (plotAll (exactLibc ℚ) 'x' [[1], [2, 3]] plotStart).map (fun w => (w.files "/tmp/sp-plot-0".toList, w.files "/tmp/sp-plot-1".toList)) =
    .ok (some "1.000\n".toList, some "2.000\n3.000\n".toList) := by decide +kernel

/-- **C137 fails from 10^9 on**: the number is cut off, so that the name is that of an earlier plot; its data is replaced. -/
theorem C137_names_false {c : Libc S} {val : S → ℝ} (hc : PrintsNumbers c val) {w : PlotWorld} (h1 : 1000000000 ≤ w.index)
    (h2 : w.index < 4294967296) : ∃ w', plotPath c w = .ok (tmpName (w.index / 10), w') := by
  have e := plotPath_eq hc.slot w
  rw [tmpName_cut h1 (by omega)] at e
  exact ⟨_, e⟩

example : ∃ w', plotPath (exactLibc ℝ) { plotStart with index := 1000000007 } = .ok ("/tmp/sp-plot-100000000".toList, w') := by
  obtain ⟨w', h⟩ := C137_names_false exactLibc_prints (w := { plotStart with index := 1000000007 }) (by decide) (by decide)
  exact ⟨w', h.trans (by congr 2; decide +kernel)⟩

end Sp
