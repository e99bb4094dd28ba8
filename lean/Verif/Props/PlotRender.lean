import Verif.Props.PlotNames

/-! # Rendering to a plot, display of arrays and lists: C139, C140 -/

set_option linter.unusedSectionVars false

namespace Sp
variable {S D : Type}

theorem printf_seconds {c : Libc S} (hs : ∀ n, c.slot n = .ok n) (n : Nat) :
    printf c "rendering %lu seconds to plot\n".toList [.u32 n] = .ok ("rendering ".toList ++ (decimal n ++ " seconds to plot\n".toList)) := by
  show (do
    let t ← (do
      let t ← (do
        let t ← (do
          let t ← (do
            let t ← (do
              let t ← (do
                let t ← (do
                  let t ← (do
                    let t ← (do
                      let t ← (do
                        let n ← c.slot n
                        let t ← Except.ok " seconds to plot\n".toList
                        pure (decimal n ++ t))
                      pure (' ' :: t))
                    pure ('g' :: t))
                  pure ('n' :: t))
                pure ('i' :: t))
              pure ('r' :: t))
            pure ('e' :: t))
          pure ('d' :: t))
        pure ('n' :: t))
      pure ('e' :: t))
    pure ('r' :: t)) = _
  rw [hs]
  rfl

theorem printf_milliseconds {c : Libc S} (hs : ∀ n, c.slot n = .ok n) (n : Nat) :
    printf c "rendering %lu milliseconds to plot\n".toList [.u32 n] =
      .ok ("rendering ".toList ++ (decimal n ++ " milliseconds to plot\n".toList)) := by
  show (do
    let t ← (do
      let t ← (do
        let t ← (do
          let t ← (do
            let t ← (do
              let t ← (do
                let t ← (do
                  let t ← (do
                    let t ← (do
                      let t ← (do
                        let n ← c.slot n
                        let t ← Except.ok " milliseconds to plot\n".toList
                        pure (decimal n ++ t))
                      pure (' ' :: t))
                    pure ('g' :: t))
                  pure ('n' :: t))
                pure ('i' :: t))
              pure ('r' :: t))
            pure ('e' :: t))
          pure ('d' :: t))
        pure ('n' :: t))
      pure ('e' :: t))
    pure ('r' :: t)) = _
  rw [hs]
  rfl

/-- **C139.** `sp_render_plot` for an event with an end time: the data of the plot are the samples of the first channel of the event over its
full duration, rounded to three decimal places, whatever was plotted before. The message has the duration in seconds, for events of a second or
more. -/
theorem C139_render_plot {ok : Nat → Prop} [Zero S] {c : Libc S} {val : S → ℝ} (hc : PrintsNumbers c val) (junk : Char)
    {cb : Callbacks D (Buf (Buf S))} {fuel : Nat} (hfuel : 1 < fuel) (new : Addr) {e : Event D} {G : Nat → Sound S} {ch rate : Nat}
    (hsh : Shorter ok) (hok : ok e.stop) (he : Plays ok cb ch e G) (hem : ok 0 ∨ e.start < e.stop) (he1 : e.start ≤ e.stop) (he0 : 0 < e.stop)
    (he2 : e.stop < 4294967296) (hch : 0 < ch) (hr : 0 < rate) {w : PlotWorld} (hi : w.index < 1000000000)
    (hw : w.writable (tmpName w.index) = true) :
    ∃ w' text, renderPlot c junk cb fuel new e ch rate w = .ok (0, w') ∧ w'.files (tmpName w.index) = some text ∧
      HoldsSamples val text ((List.range e.stop).map fun t => soundAt e G 0 0 t) e.stop ∧
      (∀ p, p ≠ tmpName w.index → w'.files p = w.files p) ∧
      w'.out = w.out ++ (if e.stop < rate then "rendering 0 milliseconds to plot\n".toList
        else "rendering ".toList ++ (decimal (e.stop / rate) ++ " seconds to plot\n".toList)) := by
  obtain ⟨s, e1, _⟩ := C33_range_block (cf := ⟨ch, rate, u32 (4 * rate)⟩) hfuel new hsh he hem he1 he2 (Nat.zero_le e.stop) he2 (by simpa using hok)
  have hrow : (tab e.stop fun k => soundAt e G 0 0 (0 + k)) = (List.range e.stop).map fun t => soundAt e G 0 0 t := by
    rw [tab]
    exact List.map_congr_left fun k _ => by rw [Nat.zero_add]
  have hmsg : (if e.stop ≠ 0 ∧ e.stop < rate then
        printf c "rendering %lu milliseconds to plot\n".toList [.u32 (e.stop / rate / 1000)]
      else printf c "rendering %lu seconds to plot\n".toList [.u32 (e.stop / rate)]) =
      .ok (if e.stop < rate then "rendering 0 milliseconds to plot\n".toList
        else "rendering ".toList ++ (decimal (e.stop / rate) ++ " seconds to plot\n".toList)) := by
    by_cases h : e.stop < rate
    · rw [if_pos ⟨by omega, h⟩, if_pos h, printf_milliseconds hc.slot, Nat.div_eq_of_lt h]
      have : "rendering ".toList ++ (decimal (0 / 1000) ++ " milliseconds to plot\n".toList) = "rendering 0 milliseconds to plot\n".toList := by
        decide +kernel
      rw [this]
    · rw [if_neg (fun hh => h hh.2), if_neg h, printf_seconds hc.slot]
  obtain ⟨w', text, p1, p2, p3, p4, _, _, _, p8⟩ := plotSamples_eq hc junk (a := (List.range e.stop).map fun t => soundAt e G 0 0 t)
    (n := e.stop) (by simp) (w := { w with out := w.out ++ (if e.stop < rate then "rendering 0 milliseconds to plot\n".toList
        else "rendering ".toList ++ (decimal (e.stop / rate) ++ " seconds to plot\n".toList)) }) hi hw
  refine ⟨w', text, ?_, p2, p3, p4, p8⟩
  unfold renderPlot
  rw [if_neg (by omega), ok_bind']
  simp only [ne_eq, not_true_eq_false, if_false]
  rw [if_neg (by omega)]
  refine bind_of hmsg ?_
  refine bind_of e1 ?_
  simp only [ne_eq, not_true_eq_false, if_false]
  refine bind_of (a := (List.range e.stop).map fun t => soundAt e G 0 0 t) ?_ ?_
  · rw [blk, rd_tab hch, Nat.sub_zero, hrow]
  · refine bind_of p1 ?_
    rfl

/-- Printing integers as samples. -/
noncomputable def intLibc : Libc Int := ⟨fun n => .ok n, fun p x => (exactLibc ℝ).fixed p (x : ℝ)⟩

theorem intLibc_prints : PrintsNumbers intLibc (fun x => (x : ℝ)) :=
  ⟨fun _ => rfl, fun p x h => exactLibc_prints.fixed p x h, fun p x h => exactLibc_prints.plain p x h⟩

/-- The wave event of four samples at a rate of 3. -/
example : ∃ w' text, renderPlot intLibc 'x' waveCb 2 1 exampleRenderEvent 2 3 plotStart = .ok (0, w') ∧
    w'.files (tmpName 0) = some text ∧
    HoldsSamples (fun x : Int => (x : ℝ)) text ((List.range 4).map fun t => soundAt exampleRenderEvent (fun p => exampleWave2.mix 0 p) 0 0 t) 4 := by
  obtain ⟨w', text, h1, h2, h3, _⟩ := C139_render_plot (rate := 3) intLibc_prints 'x' (fuel := 2) (by decide) 1 (fun _ _ _ _ _ => trivial) trivial
    exampleRenderEvent_plays (.inl trivial) (by decide) (by decide) (by decide) (by decide) (by decide) (w := plotStart) (by decide) rfl
  exact ⟨w', text, h1, h2, h3⟩

/-- **C139, the message fails for short events**: for every event from a millisecond to less than a second it says that the duration is 0
milliseconds. -/
theorem C139_milliseconds_false {ok : Nat → Prop} [Zero S] {c : Libc S} {val : S → ℝ} (hc : PrintsNumbers c val) (junk : Char)
    {cb : Callbacks D (Buf (Buf S))} {fuel : Nat} (hfuel : 1 < fuel) (new : Addr) {e : Event D} {G : Nat → Sound S} {ch rate : Nat}
    (hsh : Shorter ok) (hok : ok e.stop) (he : Plays ok cb ch e G) (hem : ok 0 ∨ e.start < e.stop) (he1 : e.start ≤ e.stop)
    (hms : rate ≤ 1000 * e.stop) (hs : e.stop < rate)
    (he2 : e.stop < 4294967296) (hch : 0 < ch) {w : PlotWorld} (hi : w.index < 1000000000)
    (hw : w.writable (tmpName w.index) = true) :
    ∃ w', renderPlot c junk cb fuel new e ch rate w = .ok (0, w') ∧ w'.out = w.out ++ "rendering 0 milliseconds to plot\n".toList := by
  obtain ⟨w', _, h1, _, _, _, h2⟩ := C139_render_plot (rate := rate) hc junk hfuel new hsh hok he hem he1 (by omega) he2 hch (by omega) hi hw
  exact ⟨w', h1, by rw [h2, if_pos hs]⟩

/-- **C139, the display of progress** of `sp_render_range_file` has undefined behaviour: the format string contains a percent sign that begins no
conversion. -/
theorem C139_progress_undefined (c : Libc S) (percent : S) : progressLine c percent = .error .badFormat := rfl

theorem intercalate_snoc {ws : List (List Char)} (h : ws ≠ []) (x : List Char) :
    [' '].intercalate (ws ++ [x]) = [' '].intercalate ws ++ ' ' :: x := by
  induction ws with
  | nil => exact absurd rfl h
  | cons y ws ih =>
    cases ws with
    | nil => simp [List.intercalate, List.intersperse]
    | cons z ws =>
      have := ih (by simp)
      simp only [List.intercalate, List.cons_append, List.intersperse_cons₂, List.flatten_cons, List.append_assoc] at this ⊢
      rw [this]

theorem displayLoop {c : Libc S} {T : Type} {fmt : List Char} {arg : T → PrintArg S} {g : T → List Char}
    (hfmt : ∀ x, printf c fmt [arg x] = .ok (' ' :: g x)) {a : Buf T} {n : Nat} (hn : 0 < n) (ha : n ≤ a.length) :
    forRange 1 n (displayBody c fmt arg a) (g (a[0]'(by omega))) = .ok ([' '].intercalate ((a.take n).map g)) := by
  have h1 : g (a[0]'(by omega)) = [' '].intercalate ((a.take 1).map g) := by
    rw [show (1 : Nat) = 0 + 1 from rfl, take_snoc (show 0 < a.length by omega)]
    simp [List.intercalate]
  rw [h1]
  refine forRange_states (fun i => [' '].intercalate ((a.take i).map g)) hn (body := displayBody c fmt arg a) ?_
  intro i h1 hi
  have hi' : i < a.length := by omega
  rw [displayBody, rd_eq_ok hi', ok_bind', hfmt, ok_bind', take_snoc hi', List.map_append, List.map_cons, List.map_nil, intercalate_snoc]
  · rfl
  · intro h
    have h2 := congrArg List.length h
    rw [List.length_map, List.length_take, List.length_nil] at h2
    omega

theorem words_of {T : Type} {g : T → List Char} (hg : ∀ x, '\n' ∉ g x ∧ ' ' ∉ g x) (l : List T) :
    IsLineOf ([' '].intercalate (l.map g) ++ ['\n']) (l.map g) := by
  refine ⟨rfl, fun s hs => ?_⟩
  obtain ⟨x, _, rfl⟩ := List.mem_map.1 hs
  exact hg x

/-- **C140, times**, the part that holds (see C136 for `%lu`): `sp_times_display` prints the numbers in order in one line, for one or more. -/
theorem C140_times_display_partial {c : Libc S} {val : S → ℝ} (hc : PrintsNumbers c val) {a : Buf Nat} {n : Nat} (hn : 0 < n) (ha : n ≤ a.length) :
    ∃ text ws, timesDisplay c a n = .ok text ∧ IsLineOf text ws ∧ ws.length = n ∧
      ∀ i x : Nat, i < n → a[i]? = some x → ∃ s, ws[i]? = some s ∧ readNat s = some x := by
  have p1 : ∀ x, printf c "%lu".toList [.u32 x] = .ok (decimal x) := by
    intro x
    show (do let n ← c.slot x; let t ← Except.ok []; pure (decimal n ++ t)) = _
    rw [hc.slot]
    simp
  have p2 : ∀ x, printf c " %lu".toList [.u32 x] = .ok (' ' :: decimal x) := by
    intro x
    show (do let t ← (do let n ← c.slot x; let t ← Except.ok []; pure (decimal n ++ t)); pure (' ' :: t)) = _
    rw [hc.slot]
    simp
  refine ⟨_, (a.take n).map decimal, ?_,
    words_of (fun x => ⟨not_mem_decimal x (by decide), not_mem_decimal x (by decide)⟩) (a.take n), by simpa using ha, ?_⟩
  · unfold timesDisplay
    refine bind_of (rd_eq_ok (by omega)) (bind_of (p1 _) (bind_of (displayLoop p2 hn ha) ?_))
    rfl
  · intro i x hi hx
    refine ⟨_, ?_, readNat_decimal x⟩
    rw [List.getElem?_map, List.getElem?_take, if_pos hi, hx]
    rfl

example : timesDisplay (exactLibc ℚ) [3, 20, 100] 3 = .ok "3 20 100\n".toList := by decide +kernel

/-- **C140, samples**: `sp_samples_display` prints the samples in order in one line, rounded to five decimal places, for one or more. -/
theorem C140_samples_display {c : Libc S} {val : S → ℝ} (hc : PrintsNumbers c val) {a : Buf S} {n : Nat} (hn : 0 < n) (ha : n ≤ a.length) :
    ∃ text ws, samplesDisplay c a n = .ok text ∧ IsLineOf text ws ∧ ws.length = n ∧
      ∀ (i : Nat) (x : S), i < n → a[i]? = some x → ∃ s q, ws[i]? = some s ∧ readNumber s = some q ∧ |(q : ℝ) - val x| ≤ 0.000005 := by
  have p1 : ∀ x, printf c "%.5f".toList [.f64 x] = .ok (c.fixed 5 x) := fun x => by
    show (do let t ← Except.ok []; pure (c.fixed 5 x ++ t)) = _
    simp
  have p2 : ∀ x, printf c " %.5f".toList [.f64 x] = .ok (' ' :: c.fixed 5 x) := fun x => by
    show (do let t ← (do let t ← Except.ok []; pure (c.fixed 5 x ++ t)); pure (' ' :: t)) = _
    simp
  refine ⟨_, (a.take n).map (c.fixed 5), ?_, words_of (fun x => hc.plain 5 x (by decide)) (a.take n), by simpa using ha, ?_⟩
  · unfold samplesDisplay
    refine bind_of (rd_eq_ok (by omega)) (bind_of (p1 _) (bind_of (displayLoop p2 hn ha) ?_))
    rfl
  · intro i x hi hx
    obtain ⟨q, h1, h2⟩ := hc.fixed 5 x (by decide)
    refine ⟨_, q, ?_, h1, by norm_num at h2 ⊢; exact h2⟩
    rw [List.getElem?_map, List.getElem?_take, if_pos hi, hx]
    rfl

example : samplesDisplay (exactLibc ℚ) [1 / 3, -2] 2 = .ok "0.33333 -2.00000\n".toList := by decide +kernel

/-- **C140 fails for no elements**: the first element is read also if there is none. -/
theorem C140_empty_out_of_bounds (c : Libc S) : timesDisplay c [] 0 = .error .outOfBounds ∧ samplesDisplay c [] 0 = .error .outOfBounds :=
  ⟨rfl, rfl⟩

/-- The line for a list element: the addresses of the previous element, of the element and of the next, 0 for none, then start and end. -/
def elementLine (prev a next : Nat) (e : Event D) : List Char :=
  [' '].intercalate [decimal prev, decimal a, decimal next, "event".toList, decimal e.start, decimal e.stop]

theorem displayElement_eq {c : Libc S} (hs : ∀ n, c.slot n = .ok n) (a : Addr) (n : ListNode (Event D)) :
    eventListDisplayElement c a n = .ok (elementLine (n.prev.getD 0) a (n.next.getD 0) n.event ++ ['\n']) := by
  simp [eventListDisplayElement, elementLine, printf, hs, List.intercalate, List.intersperse]

/-- The lines for the elements of a list that follows the element `prev`. -/
def elementLines : Option Addr → List (Addr × Event D) → List (List Char)
  | _, [] => []
  | prev, (a, e) :: r => elementLine (prev.getD 0) a ((r.head?.map Prod.fst).getD 0) e :: elementLines (some a) r

theorem isList_head {heap : Heap (Event D)} {prev head : Option Addr} {l : List (Addr × Event D)} (h : IsList heap prev head l) :
    head = l.head?.map Prod.fst := by
  cases l with
  | nil => exact h
  | cons x l => exact h.1

theorem eventListDisplay_eq {c : Libc S} (hs : ∀ n, c.slot n = .ok n) {heap : Heap (Event D)} {prev head : Option Addr}
    {l : List (Addr × Event D)} (hl : IsList heap prev head l) {fuel : Nat} (hf : l.length ≤ fuel) :
    eventListDisplay c heap fuel head = .ok ((elementLines prev l).flatMap fun s => s ++ ['\n']) := by
  induction l generalizing prev head fuel with
  | nil =>
    rw [show head = none from hl]
    cases fuel <;> rfl
  | cons x l ih =>
    obtain ⟨a, e⟩ := x
    obtain ⟨rfl, next, h1, h2⟩ := hl
    obtain ⟨fuel, rfl⟩ : ∃ m, fuel = m + 1 := ⟨fuel - 1, by simp at hf; omega⟩
    rw [eventListDisplay]
    refine bind_of (a := ⟨prev, next, e⟩) (by rw [Heap.load, h1]) ?_
    refine bind_of (displayElement_eq hs a _) ?_
    refine bind_of (ih h2 (by simpa using hf)) ?_
    rw [elementLines, List.flatMap_cons, isList_head h2]
    rfl

theorem elementLines_get (prev : Option Addr) (l : List (Addr × Event D)) (i : Nat) (a : Addr) (e : Event D) (h : l[i]? = some (a, e)) :
    (elementLines prev l)[i]? = some (elementLine (if i = 0 then prev.getD 0 else ((l[i - 1]?).map Prod.fst).getD 0) a
      (((l[i + 1]?).map Prod.fst).getD 0) e) := by
  induction l generalizing prev i with
  | nil => simp at h
  | cons x l ih =>
    obtain ⟨b, f⟩ := x
    cases i with
    | zero =>
      simp only [List.getElem?_cons_zero, Option.some.injEq, Prod.mk.injEq] at h
      obtain ⟨rfl, rfl⟩ := h
      simp [elementLines, List.head?_eq_getElem?]
    | succ i =>
      rw [elementLines, List.getElem?_cons_succ, ih (some b) i (by simpa using h)]
      cases i with
      | zero => simp
      | succ i => simp

theorem elementLines_plain (prev : Option Addr) (l : List (Addr × Event D)) : ∀ s ∈ elementLines prev l, '\n' ∉ s := by
  induction l generalizing prev with
  | nil => simp [elementLines]
  | cons x l ih =>
    obtain ⟨b, f⟩ := x
    intro s hs
    rw [elementLines, List.mem_cons] at hs
    rcases hs with rfl | hs
    · have hd : ∀ n, '\n' ∉ decimal n := fun n => not_mem_decimal n (by decide)
      simp [elementLine, List.intercalate, List.intersperse, hd]
    · exact ih _ s hs

theorem elementLines_length (prev : Option Addr) (l : List (Addr × Event D)) : (elementLines prev l).length = l.length := by
  induction l generalizing prev with
  | nil => rfl
  | cons x l ih => obtain ⟨b, f⟩ := x; rw [elementLines, List.length_cons, ih, List.length_cons]

/-- **C140, event lists**: `sp_event_list_display` prints one line for each element of a well-formed list, in order, and stops. -/
theorem C140_event_list_display {c : Libc S} {val : S → ℝ} (hc : PrintsNumbers c val) {heap : Heap (Event D)} {head : Option Addr}
    {l : List (Addr × Event D)} (hl : WellFormed heap head l) {fuel : Nat} (hf : l.length ≤ fuel) :
    ∃ text ls, eventListDisplay c heap fuel head = .ok text ∧ IsLines text ls ∧ ls.length = l.length ∧
      ∀ (i : Nat) (a : Addr) (e : Event D), l[i]? = some (a, e) →
        ls[i]? = some (elementLine (if i = 0 then 0 else ((l[i - 1]?).map Prod.fst).getD 0) a (((l[i + 1]?).map Prod.fst).getD 0) e) :=
  ⟨_, elementLines none l, eventListDisplay_eq hc.slot hl.1 hf, ⟨rfl, elementLines_plain none l⟩, elementLines_length none l,
    fun i a e h => elementLines_get none l i a e h⟩

/-- Two elements at the addresses 5 and 9. -/
example : eventListDisplay (D := Unit) (exactLibc ℚ)
    (fun a => if a = 5 then some ⟨none, some 9, ⟨0, 4, false, false, ()⟩⟩ else if a = 9 then some ⟨some 5, none, ⟨3, 7, false, false, ()⟩⟩ else none)
    2 (some 5) = .ok "0 5 9 event 0 4\n5 9 0 event 3 7\n".toList := by decide +kernel

end Sp
