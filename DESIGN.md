# Formal model of sph-sp

Subject: the C sources of sph-sp under /repo (`source/c-precompiled/sph-sp`, the vendored
`source/c/foreign/sph-sc-lib/sph-sp` and `source/c/foreign/nayuki-fft`).
Language of the proofs: Lean 4.33.0 with Mathlib. Project: `lean/`, build with `lake build`.

## Layout

* `lean/Verif/C.lean` - the little C semantics everything else uses: faults, bounds-checked
  buffers, `for` loops, 32 bit wrap-around, and the lemmas about them.
* `lean/Verif/Model/*.lean` - the model, function by function; each definition cites file and lines and
  says where it is simpler than the code.
* `lean/Verif/Spec/*.lean` - specifications that are used by more than one property file: plain
  mathematical definitions that do not use the model functions they specify.
* `lean/Verif/Lemmas/*.lean` - helper lemmas.
* `lean/Verif/Props/*.lean` - the property theorems (`Cnn_...`), the small specifications they are stated
  against, and a concrete non-trivial instance (`example`) beside each.
* `properties.jsonl` - the properties in English. `MANIFEST.json` maps their ids to theorem names.
* `seeded/LOG.jsonl` - the log of mutation tests: edits of the model like realistic bugs, made in a copy,
  with the theorems that failed and those that were tightened because they did not.

Suffixes of theorem names: `_partial` - the property restricted to the case named in the theorem;
`_false`, `_refuted`, `_undefined`, `_leak(s)`, `_out_of_bounds`, `_overflow` and the like - the property, or the part
of it named, does not hold of the code. These are theorems too: about a concrete witness or, where possible,
about all inputs.

## Modelling decisions

* **Undefined behaviour is an outcome.** Model functions run in `Except Fault`. A read or write
  outside a buffer, division by zero, use of an uninitialised value, a null pointer access, use after free, double
  free and endless loops are the error values. A theorem `f args = .ok r` therefore also says that the call is
  memory safe and returns.
* **Loops.** A `for` loop whose unsigned counter counts up to a bound by one cannot wrap and is the
  structural loop `forRange`. Other loops take fuel, a number of steps after which the result is the fault
  `nonTermination`; theorems show a sufficient amount or hold for every run that returns, as stated.
* **Integers.** `sp_time_t` and `sp_size_t` are `uint32_t` in this configuration. They are `Nat` with an
  explicit reduction (`u32`, `sub32`) at each place where the C arithmetic can wrap, or `BitVec 64` where the
  bits matter (random generator). `size_t` is 64 bit.
* **Samples.** `sp_sample_t` is `double`. Two kinds of theorems:
  (a) *law-free*: samples are an arbitrary type with arbitrary operations and no laws at all. Such equalities
  hold bit for bit for IEEE arithmetic (assuming that the compiler evaluates each C expression the same way at
  each execution, in particular the same choice of fused multiply-add);
  (b) *exact*: samples are elements of a commutative ring, an ordered field, the reals or the complex numbers.
  Rounding errors, overflow to infinity and NaN are not modelled there. The note of each property says which;
  (c) *floating point* (from C118 on, and parts of C107): samples are of type `Fl rnd` (Spec/Float.lean), the operations are the exact ones followed by `rnd`, which is
  any function that maps to a nearest binary64 number (with subnormal numbers, any choice in the middle between two). Lemmas/Float.lean
  constructs such a function. Overflow is excluded by hypotheses, there is one zero and no NaN; each operation rounds once
  (exe/compile-c uses gcc with -std=c17 and -O3, which implies no fused operations and no reordering; on x86-64 no extended precision). Law-free models are used at this type as they are.
* **Memory of pointer structures** (event list, queue) is a heap: a partial map from addresses to
  nodes. Allocation returns a fresh address (or fails, where the property is about failure), freed addresses are
  unmapped; access to an unmapped address is a fault. Resource properties use a set of live allocations. Elsewhere
  allocation succeeds.
* **Aliasing.** Where the documentation allows the same pointer for two arguments the model has both cases.
* **Callbacks** (event prepare, generate and free, map functions, impulse response functions, comparison) are
  arbitrary functions; assumptions on them are explicit hypotheses.
* **Concurrency** is a labelled transition system with sequentially consistent memory. In the thread pool each action on
  shared memory (locking, each access to the queue, signalling, unlocking) is one step, and condition variables have spurious
  wakeups; in parallel sequencing each call of an event function is one step. Theorems quantify over all reachable states or all
  schedules. Obligations of callers (a future is not freed or made anew while it is in use, only futures that have been made
  are touched, no futures are made by clients during and after `sph_thread_pool_finish`) are guards of the steps. Futures made by
  running tasks after the finish tasks are enqueued may never run. Fewer than 2^32 tasks are in the queue.
* **Files** are lists of bytes with a position. Input and output errors are not modelled except where a property is
  about them (opening a missing file, failed writes of C151, failed reads and seeks of C161). The machine is little-endian.

## Trusted base

* Lean's kernel, and the standard axioms `propext`, `Classical.choice`, `Quot.sound`; the section "Axioms"
  has the list per theorem. No own axioms, no `sorry`, no `native_decide` or `bv_decide`.
* The hand translation from C to the model. The code was read as text; nothing was compiled or run.
* Not modelled: the C compiler, floating point rounding (except where theorems are of kind (a) or (c)), libc
  internals (`malloc`, `fwrite`, pthread primitives are modelled by their specification). The thread pool is modelled with
  sequentially consistent memory; C154 adds store buffers and data races, other effects of weak memory are not modelled.

## What is modelled

| source | modelled | not modelled |
| --- | --- | --- |
| main.c | blocks, convolution, waves, square, triangle, sine period, phases, interleaving, spectral inversion and reversal, pan, rounding, counting functions, rendering, initialisation, random numbers, status names, rendering to plots, progress display | |
| arrays-template.c, arrays.c | all functions | |
| statistics.c | all functions (the temporary array of the median in C143 only) | |
| filter.c | all functions | |
| file.c | all functions, failing writes (C151), failing reads and seeks (C161), large files (C160) | |
| path.c, spline-path.c | all functions except those at the right | generate functions of users that change the segment |
| sequencer.c | all functions | |
| quicksort.h, queue.h, thread-pool.c, futures.c, random.c, float.h, helper.c, memreg, array3 | what the above use | |
| fft.c (nayuki) | all functions used by sp_fft and sp_ffti | |
| plot.c | all functions: files written and commands run; printf by the conversions that occur | what gnuplot does; failing allocations, except in sp_plot_spectrum_to_file |

Where the model is simpler than the code, for example because allocation succeeds, the comment of the definition says so.

## Disagreements between the code and its documentation

These were found while proving; each has a theorem that shows it (see the notes below).

* Memory: reading outside of arrays in `sp_times_reverse`, `quicksort` (scan from the right), the median of one element,
  `sp_times_make_seamless_left`, `sp_path_samples` with more than 24 points, `sp_initialize` with more than 128 threads, noise events
  with narrow transitions or large blocks, curves with steep descents, `sp_event_memory_ensure` with zero,
  blocks with offset (the size is not reduced), default wave events for fewer output channels than the limit.
* Uninitialised values: `sp_event_list_reverse` of an empty list, `sp_envelope_zero` and `sp_envelope_scaled`, blocks of curved paths,
  `sp_file_open_read` (channel count), the description of a failed allocation (`sph_helper_status_description`), event macros after a failed allocation, missing return statements in `sp_file_read` and the envelope functions.
* Double free: the macros for events after an allocation that failed without notice; `sp_convolution_filter_state_free` after a failed change of the impulse response; paths set with `spline_path_set_copy`
  from segments that contain a path. Use after free: a second `spline_path_segments_get` with such segments.
* Endless loop: `sp_event_list_validate` for a ring that does not contain the first element.
* Leaks: groups and map events that have not been prepared when a list is freed, noise events, memory of a failing prepare function, blocks of size zero, temporary arrays of band-pass kernels, an allocation with the macros for events whose registration fails.
* Concurrency: noise events in `sp_seq_parallel` take their seeds from a variable of the library without a mutex (events can get the same noise, and which noise depends on the schedule), a data race on `finished` of futures (on machines that reorder stores the result is wrong), nested parallel groups can deadlock, a failing parallel event frees memory that others use, the thread pool cannot be
  started again after `sp_deinitialize`.
* Wrong results: `sp_wave` without amplitude modulation (amplitude applied twice), `sp_moving_average` without `next`,
  `sp_render_range_file` with a start other than 0, `sp_samples_shuffle`, the median of an odd number of elements, `sp_stat_times_center`,
  the limit function `and`, `sp_times_extract_in_range`, `sp_samples_absolute_max` and gain, `sp_times_permutations`, `sp_permutations_max`,
  `sp_time_harmonize`, `sp_time_round_to_multiple`, `sp_times_scale_sum`, `sp_times_scale_y`, `sp_samples_scale_y`, `sp_samples_scale_to_times`,
  `sp_sine_period` with odd sizes, `sp_square` from 2^31 on, negative curvature, pan of more than two channels, filters after a change of the
  impulse response function or a shorter impulse response, `sp_normal_random` for large ranges,
  `sp_time_random_discrete_bounded` (end of the range, one element), `sp_rate_duration` and `sp_duration` (division first), `sp_rad_to_hz`,
  `sp_factor_to_hz` (rounding down), `sp_event_schedule` for events with an end, `sp_status_name` (two numbers with one name, one without), `spline_path_path` (contained paths are not drawn),
  `sph_f64_sum` (the correction compares numbers instead of absolute values), rounding to integers (one double), blending (rounding can leave the range),
  the moving average after a large value (rounding stays in the running sum), the peak of `sp_triangle` (can be below 1), the mean of equal samples (can be another value),
  `sph_random_f64_bounded` with ranges near the smallest double (can be the range itself),
  arcs in segments that are used a second time (the curvature is overwritten; the second use can also write outside of the output).
* Printing: a `uint32_t` is passed for `%lu`, which reads 64 bit (plots and display of times); an invalid format in the progress display of `sp_render_range_file`; plots from
  number 10^9 on get the name of an earlier plot; a quote in the path of a plot ends the quoting of the shell command; `sp_render_plot` shows 0 milliseconds for all events below a second;
  `sp_times_display` and `sp_samples_display` without elements; plot files that can not be opened are a null pointer access; `sp_plot_spectrum_to_file` leaks on failures.
* Dependence on the division into blocks: noise events in groups (the order of seeds), noise events with modulated filter parameters.
* Errors that are not reported: recordings of four gigabytes and more (the header has the remainder of the size; a single block writes outside of memory), a failed `fseek` in `sp_file_open_read` (with pipes the samples are looked for at every eighth byte; the file also stays open on failures), the status of a failed allocation is 0, which is success (`sp_initialize` without memory for a table is a null pointer write).
* A failed start of threads: another call of `sp_initialize` initialises the mutex twice and loses the tasks that end the threads of the first call.

## Properties

Per property: what is modelled (`Model/`), how it is proved, where (`Props/`), and what holds. A property marked partial is either false of the code, then the negation is proved with a witness or in general and the partial theorem says where it holds, or a named case is missing.

* **C01** sp_convolve_one is discrete linear convolution (proved). Modelled: sp_convolve_one, in Convolve. Proof: invariant of the two nested loops, giving for each output index the left-to-right accumulation; Convolution.lean. sp_convolve_one over any sample type without laws (operation order included); exact linear convolution over commutative semirings; samples after a_len+b_len-1 unchanged.
* **C02** Block-wise convolution equals one-shot convolution, bit for bit (proved). Modelled: sp_convolve, sp_convolve_one, in Convolve. Proof: each output and carryover cell is the accumulation of the incoming carryover with the new terms in input order; induction over blocks; Convolution.lean. block by block convolution with carryover equals one convolution of the whole input, with law-free samples in the operation order of the code; plus the exact version.
* **C03** sp_convolve stays inside its arrays (proved). Modelled: sp_convolve, in Convolve. Proof: the model checks every access, success is the claim; Convolution.lean. no access outside the buffers of the documented sizes; a carryover of one element less is an out of bounds access.
* **C04** The convolution filter is seamless while its parameters stay the same (proved). Modelled: sp_convolution_filter, sp_convolution_filter_state_set, in ConvolutionFilter. Proof: C02 lifted through the state machine of the filter; induction over calls; ConvolutionFilter.lean. sp_convolution_filter over any block sizes, state initialised by the first call, allocation cannot fail.
* **C05** Each filter call uses the impulse response of its own arguments (partial). Modelled: sp_convolution_filter_state_set, in ConvolutionFilter. Proof: witness histories; invariant of the state for the partial theorem; ConvolutionFilter.lean. False in general: the arguments comparison only compares memory of the given length, and a failed update leaves a dangling pointer. Partial: holds when argument equality implies the same impulse response and nothing fails.
* **C06** Changing the impulse response between blocks loses no carried over samples (partial). Modelled: sp_convolution_filter, sp_convolution_filter_state_set, sp_convolve, in ConvolutionFilter. Proof: witness; accumulation of terms with a changing impulse response; ConvolutionFilter.lean. False in general: when the new impulse response is shorter the carried samples that no longer fit are lost. Partial: holds when the carryover capacity is kept (growing responses).
* **C07** Spectral inversion and reversal do what they say to the frequency response (proved). Modelled: sp_spectral_inversion_ir, sp_spectral_reversal_ir, in Filter. Proof: sum manipulation over the complex numbers for an arbitrary frequency; Filter.lean. Exact reals. The response is the sum over the kernel times complex exponentials, for every frequency.
* **C08** Windowed sinc kernels: odd length, symmetry, and gain at frequency zero (proved). Modelled: sp_window_blackman, sp_windowed_sinc_bp_br_ir, sp_windowed_sinc_lp_hp_ir, sp_windowed_sinc_lp_hp_ir_length, in Filter. Proof: loop invariants, symmetry of the window and the sinc function, sum of the normalised kernel; Filter.lean. Exact reals. Holds for every kernel that is created; the band-pass statements need lengths below 2^30. C08_defined shows kernels exist for a range of parameters, C168 for all cutoffs up to half of the sampling rate, and C08_band_edges covers cutoffs outside of the range.
* **C09** sp_moving_average is the centered window mean with the documented extension (partial). Modelled: sp_moving_average, in Extra. Proof: case analysis of the three phases of the code; sums over windows of the extended signal; MovingAverage.lean. Proved for all widths up to the size, all prev, and present next. Missing: a missing next, where the last radius values are wrong (C09_missing_next_false); the documented preservation of the first value is also false (C09_first_value_false).
* **C10** Oscillator phase never leaves the waveform (proved). Modelled: sp_phase, sp_phase_float, sp_wave, in Wave. Proof: invariant of the sample loop with 32 bit wrap-around; Wave.lean. Law-free model of sp_wave with 32 bit phase; sp_phase_float enters by truncation and fractional flag.
* **C11** sp_wave over consecutive blocks equals one call (proved). Modelled: sp_wave, in Wave. Proof: splitting of the loop at an arbitrary index; Wave.lean. For every split, no laws of sample arithmetic used.
* **C12** sp_wave adds amp times the waveform when no amplitude modulation is given (partial). Modelled: other/documentation/c-manual.md, sp_wave, in Wave. Proof: value of each sample from the loop; witness; Wave.lean. False without amod (amplitude applied twice, C12_no_amod_refuted). Partial: with amod, and without amod for amp*amp = amp.
* **C13** Wave events are seamless over blocks and stay inside the waveform (proved). Modelled: sp_wave_event_generate, in Wave. Proof: channel loop over sample loops; splitting and frame lemmas; Wave.lean. For every division into ranges; law-free.
* **C14** Wave event channel defaults are inherited from the first channel (proved). Modelled: sp_wave_event_prepare, in Wave. Proof: induction over channels; Wave.lean. For every number of channels.
* **C15** sp_square and sp_triangle are periodic and bounded (partial). Modelled: sp_square, sp_triangle, in Wave. Proof: case analysis over 32 bit arithmetic and over an ordered field; Wave.lean. sp_square is false from t = 2^31 on (C15_square_refuted); partial below. sp_triangle holds in exact arithmetic.
* **C16** The event list is sorted and stable (partial). Modelled: sp_event_list_add, sp_event_list_reverse, in EventList. Proof: refinement of the heap list to a list; insertion is stable sorted insertion; induction over additions; EventList.lean. Partial because preparing an empty list stores an uninitialised pointer (C16_prepare_empty_undefined); proved for every nonempty sequence of additions.
* **C17** Removing a list element unlinks exactly that element and frees it once (proved). Modelled: sp_event_list_remove, in EventList. Proof: separation of the list around the removed element; EventList.lean. heap model with dangling pointers as faults; the free function of the event is a log entry.
* **C18** Freeing an event list frees every event and element exactly once (proved). Modelled: sp_event_list_free, in EventList. Proof: induction over the list with the set of live nodes and the log of calls; EventList.lean. heap model; every free call logged once, every node deallocated once.
* **C19** Sequencing over consecutive blocks covers each event exactly (proved). Modelled: sp_seq, in Seq. Proof: refinement of the heap loop to a list model, trace of calls, induction over blocks; Seq.lean. Heap model of sp_seq refined to a list model; for every list sorted by start, event functions and division into consecutive blocks. Event functions must not change the event's start and end.
* **C20** Each event is prepared exactly once, before it is first generated (proved). Modelled: sp_event_prepare_optional_srq, sp_seq, in Seq. Proof: same trace; Seq.lean. Same model as C19; the prepare calls of every event over any number of blocks.
* **C21** sp_seq frees finished events, and all of them on error (proved). Modelled: sp_event_list_free, sp_seq, in Seq. Proof: same trace with the heap, including failure paths; Seq.lean. Same model; includes absence of use after free and double free, the freeing of finished events, and the error path.
* **C22** Rendering does not depend on how time is divided into blocks (proved). Modelled: sp_group_generate, sp_seq, in EventTree. Proof: the predicate Playable (seamless events) is preserved by groups; induction over the tree; EventTree.lean, NoiseEvents.lean. Playable trees of any depth: leaf events are assumed seamless, which is proved for wave events (C22_wave_events) and, with conditions, for noise events (C102); C22_mixed_left and C22_mixed_right are for trees with events of two kinds. Each list has its own address space.
* **C23** sp_seq writes only inside the requested block (proved). Modelled: sp_block_with_offset, sp_seq, in EventTree. Proof: frame property of the same loop; EventTree.lean. For event functions that write only their own range; both success and failure of sp_seq.
* **C24** Groups last until their last event ends; appending plays one after the other (proved). Modelled: sp_group_add, sp_group_append, in Group. Proof: direct model; induction over additions; Group.lean. Events whose end is zero are prepared first as in the code. Allocation of list nodes is assumed to succeed.
* **C25** Memory registered by a failing prepare function is freed (partial). Modelled: sp_event_memory_add_with_handler, sp_seq, in Seq, EventMemory. Proof: witness with the heap of allocations; invariant for the partial theorem; SeqExamples.lean. False: sp_event_prepare_optional_srq works on a local copy that is dropped when prepare fails (C25_failing_prepare_leaks). Partial: all memory registered before the call is freed on any failure.
* **C26** Parallel sequencing gives the result of sequential sequencing under every schedule (proved). Modelled: sp_seq_parallel, sp_seq_parallel_future_f, in SeqParallel. Proof: transition system of the calling thread and the futures; inductive invariant, termination measure, commutation of additions; SeqParallel.lean. Proved over a transition system of the calling thread and the futures with any interleaving, for samples in a commutative monoid (the order of additions differs). Events are independent and add to their own part of the output, prepare leaves the times unchanged (the parallel version computes times before prepare, the sequential one after), and no event fails. Termination and freedom from deadlock are separate theorems.
* **C27** sp_seq_parallel starts as many futures as it made room for (partial). Modelled: sp_seq_parallel, in SeqParallel. Proof: same loops; counting argument; witness; SeqParallel.lean. False for events that end before they start: the counting loop stops at them and the distributing loop removes them, and the next event is written past the array (C27_malformed_false). Proved for all events with start at most end, whatever their functions do.
* **C28** When one parallel event fails, no running event loses its memory (partial). Modelled: sp_seq_parallel, in SeqParallel. Proof: same transition system; witness schedule; SeqParallel.lean. False: the merge loop leaves at the first failed future and everything is freed while later futures may still run (C28_failing_event_false). Proved when no event fails.
* **C29** Rendering nested parallel groups terminates (partial). Modelled: sp_group_generate_parallel, sph_future_touch, sph_thread_pool_worker, in ThreadPool. Proof: construction of a reachable deadlock for every number of workers; progress measure for flat futures; with fewer waiting functions than workers every touch returns in every fair execution (`C29_enough_workers_partial`: of the workers that would wait for ever, the one with the largest task number waits for a future that a worker which does not wait takes); ThreadPool.lean, ThreadPoolNested.lean. False: for every number of workers there is a reachable state in which all workers wait for futures in the queue for ever. Partial: futures that do not wait for futures; futures of any nesting if fewer functions wait than there are workers and each waits only for futures enqueued after it, in every fair execution.
* **C30** Sub-block generation tiles the requested range (partial). Modelled: sp_event_block_generate, in BlockGenerate. Proof: induction over the sub-blocks; BlockGenerate.lean. Proved for nonempty ranges; for an empty range the code divides by zero (C30_zero_duration_undefined).
* **C31** Event memory handlers run exactly once (partial). Modelled: source/c/foreign/sph-sc-lib/sph-sp/array3.h, sp_event_memory_add_with_handler, sp_event_memory_ensure, sp_event_memory_fixed_add_with_handler, sp_event_memory_free, in EventMemory. Proof: invariant of the growing array over all sequences of operations; EventMemory.lean. Proved when at least one element is ensured where something is ensured; ensuring zero elements makes the next registration write out of bounds (C31_ensure_zero_undefined).
* **C32** Isolated map events do not touch the main output (partial). Modelled: sp_map_event_generate, sp_map_event_isolated_generate, in Block. Proof: model with abstract functions of the wrapped event and the map; Block.lean. Proved for blocks of nonzero size; with size zero the temporary block is leaked (C32_zero_size_leaks).
* **C33** Rendering a time range to a file writes that range (partial). Modelled: sp_render_range_file, in Render. Proof: induction over the blocks of the rendering loop using C22 and the file model; Render.lean. The file written always holds the sound from time 0 on, with as many frames as stop minus start; for start 0 this is the requested range, for every block size. For a later start the requested range is not what is written: negation C33_range_false with a concrete event. C33_open_failure_undefined: when the file cannot be opened the code goes on with a null pointer.
* **C34** Noise events release what they allocate (partial). Modelled: sp_noise_event, sp_noise_event_free, sp_noise_event_prepare, in Noise. Proof: resource model of prepare and free: invariant over the loops of allocations; Noise.lean. Prepare succeeds for valid configurations and the callback releases every registered allocation (partial), but the event has no free callback set by prepare, so the sequencer never calls it: negation C34_leak. C34_narrow_overflow: an impulse response longer than the buffer is written past its end.
* **C35** The queue is first in first out (proved). Modelled: sph_queue_deq, sph_queue_enq, in Queue. Proof: refinement of the linked queue to a list over all operation sequences; Queue.lean. Queue in a heap model with next pointers; every sequence of enqueue and dequeue operations whose use is legal behaves as a first in first out list, including re-enqueueing removed elements.
* **C36** Every enqueued task is run exactly once, in order of enqueueing (proved). Modelled: sph_thread_pool_enqueue, sph_thread_pool_worker, in ThreadPool. Proof: transition system with any number of threads; inductive invariants; reachability for completion; ThreadPool.lean. Transition system with any number of client threads, tasks that make further futures, spurious wakeups, deallocation. Safety for all schedules; completion as reachability from every state in which no worker waits for a future.
* **C37** Finishing the pool waits for all tasks and ends all workers (proved). Modelled: sph_thread_finish, sph_thread_pool_finish, in ThreadPool. Proof: same; ThreadPool.lean. For sph_thread_pool_finish(pool, 0, 0), the form used by sph_future_deinit. Tasks enqueued by running tasks after the call are not covered by the property and may not be run.
* **C38** Futures return the value of their function (proved). Modelled: sph_future_eval, sph_future_new, sph_future_touch, in ThreadPool. Proof: same, with values of futures in the state; ThreadPool.lean. Sequentially consistent memory is assumed; the code reads the field finished without synchronisation.
* **C39** The library can be initialised again after deinitialisation (partial). Modelled: sp_deinitialize, sp_initialize, sph_future_deinit, sph_future_init, in Init. Proof: state machine of the init flag; witness; Init.lean. False: sph_future_deinit does not reset the flag and destroys the mutex twice. Partial: initialisations without threads before.
* **C40** The random generator never degenerates (proved). Modelled: sph_random_f64_bounded, sph_random_state_new, sph_random_u64, in Random. Proof: explicit inverse of the transition on 64 bit words; Random.lean. xoshiro256 transition, splitmix seeding and the states made by sp_random_state_new, on 64 bit words as BitVec 64.
* **C41** Bounded random integers are in range and exactly uniform (proved). Modelled: sph_random_u64_bounded, in Random. Proof: counting of the raw numbers per result; Random.lean. For an arbitrary source of 64 bit numbers: first raw number that is not redrawn decides, result below the range, and exactly 2^64/range raw numbers lead to each result. Termination only under the stated condition that a number that is not redrawn appears.
* **C42** Random floats lie in their documented half-open ranges (proved). Modelled: sph_random_f64, sph_random_f64_0to1, sph_random_f64_1to1, sph_random_f64_bounded, in Random. Proof: exactness of every operation for representable numbers; Random.lean. Floating point operations are modelled as an arbitrary rounding that leaves representable numbers unchanged; all operations are shown to be exact.
* **C43** Shuffling permutes, and reaches every permutation equally often (partial). Modelled: sp_shuffle, sp_times_shuffle_swap, in RandomArrays. Proof: bijection of draw sequences and permutations; witness for samples; RandomArrays.lean. Proved for sp_times_shuffle up to 2^31 elements: permutes for every random source, each permutation from exactly one draw sequence, rearrangement independent of the elements. With more elements every call leaves the array because sp_times_swap takes signed 32 bit indices (C43_long_array_out_of_bounds). False for sp_samples_shuffle, which exchanges 32 bit words: refuted with a concrete run, and the second half of the array never moves. sp_times_shuffle_swap is right for arrays of pointers of all lengths (C43_pointer_shuffle) and leaves every array of times (C43_pointer_swap_on_times).
* **C44** Discrete random numbers follow the given distribution (proved). Modelled: sp_time_random_discrete, sp_times_random_discrete, in RandomArrays. Proof: invariant of the search; counting; RandomArrays.lean. For every source of bounded random numbers in range.
* **C45** Unique discrete random numbers are unique (proved). Modelled: sp_times_random_discrete_unique, in RandomArrays. Proof: invariant over the loop for every stream of outcomes; RandomArrays.lean. For every random source and every returning run; if more numbers than indices are asked for, unset elements of out are read (C45_more_than_available_reads_unset).
* **C46** quicksort sorts (partial). Modelled: quicksort, in Quicksort. Proof: partition invariants over signed indices, induction over the recursion depth; general refutation; Quicksort.lean. False as stated: the scan from the right can leave the array (C46_reads_before_array holds for every strict weak order and each pair in ascending order). C46_sorts_partial: whenever a run has no undefined behaviour the result is a sorted permutation. C46_with_guard_partial: total correctness, with bounds, when an element not greater than the part stands before it.
* **C47** Median (partial). Modelled: define_sp_stat_median, in Statistics. Proof: from C46 and counting of order; witness; Statistics.lean. Even sizes proved (given that the sort returns; for times the sum must fit). The code is wrong for odd sizes (it returns the larger neighbour of the middle index) and reads out of bounds for size 1: C47_odd_false, C47_one_false.
* **C48** Mean, deviation, skewness, kurtosis and center follow their formulas (partial). Modelled: define_sp_stat_deviation, define_sp_stat_kurtosis, define_sp_stat_skewness, sp_stat_samples_center, sp_stat_times_center, sp_stat_times_mean, in Statistics. Proof: sum lemmas over the reals; Statistics.lean. Mean, deviation, skewness, kurtosis and the samples center proved over exact reals. sp_stat_times_center adds the first element twice: value and witness given, correct value only when the first element is zero.
* **C49** Range, minimum and maximum (proved). Modelled: define_sp_stat_range, in Statistics. Proof: loop invariants; Statistics.lean. Both bounds are elements and bound all elements.
* **C50** The compensated sum sums (proved). Modelled: sph_define_float_sum, in Statistics. Proof: loop invariant: the compensation is zero in exact arithmetic; Statistics.lean. Over exact numbers the compensated sum is the sum; reads exactly the elements.
* **C51** Element-wise array functions change exactly count elements (proved). Modelled: arrays_template, in Arrays. Proof: one rule for all loops that map or zip; Arrays.lean. All element-wise functions of both instances of the template, also with the second array being the first; samples with arbitrary arithmetic.
* **C52** sp_times_reverse and sp_samples_reverse reverse (partial). Modelled: , in Arrays. Proof: general refutation by the first access; Arrays.lean. False: C52_reverse_out_of_bounds holds for every input of every size. C52_reverse_shifted_partial gives the actual effect with one element more.
* **C53** and/or/xor combine by the limit as documented (partial). Modelled: , in Arrays. Proof: rule for zip loops; Arrays.lean. or and xor proved; and is false (C53_and_ignores_b, C53_and_false), C53_and_partial is the case where it is right.
* **C54** Cumulative sums, additions and multiplications (proved). Modelled: sp_times_multiplications, in Arrays. Proof: loop invariants modulo 2^32 and over the sample operations; Arrays.lean. All functions; a count of zero is outside of the contract of cusum (C54_cusum_zero_count).
* **C55** Removing, inserting space and subdividing (proved). Modelled: sp_times_insert_space, sp_times_remove, sp_times_subdivide_difference, in Arrays. Proof: index arithmetic on tables; ArraysSelect.lean. All three functions, for all indices and counts inside the array.
* **C56** Selecting by index and by threshold, also in place (proved). Modelled: sp_times_gt_indices, sp_times_select, sp_times_select_random, in Arrays. Proof: one-array and two-array models, invariant of the write position; ArraysSelect.lean. All three functions, with the aliasing the documentation allows.
* **C57** sp_times_bits_to_times writes the bits (proved). Modelled: sp_times_bits_to_times, sp_times_random_binary, in Arrays. Proof: bit arithmetic over the naturals; ArraysSelect.lean. Proved. C57_same_pointer_wrong: the same pointer for both arrays, allowed by the comment in the source, does not work.
* **C58** sp_times_extract_in_range extracts the values in range (partial). Modelled: sp_times_extract_in_range, in Arrays. Proof: general refutation; ArraysSelect.lean. False: with min <= max everything is extracted (C58_extract_takes_all, C58_extract_false); C58_extract_all_in_range_partial is the case where it is right.
* **C59** Absolute maximum and gain (partial). Modelled: sp_samples_set_gain, sp_samples_set_unity_gain, in Arrays. Proof: loop invariants with the truncation to integers; ArraysSelect.lean, WaveDefaults.lean. times proved. samples false: values are truncated to integers (C59_samples_below_one for every signal below 1). Partial: signals whose largest absolute value is an integer.
* **C60** Limiting (proved). Modelled: sp_samples_limit, sp_samples_limit_abs, sp_times_limit, in Arrays. Proof: rule for map loops over an ordered ring; Arrays.lean. Proved in exact arithmetic; comparisons and negation are exact in floating point too.
* **C61** Blending stays between its inputs (proved). Modelled: sp_samples_blend, sp_time_interpolate_linear, sp_times_blend, sp_times_mask, in Arrays. Proof: ordered field arithmetic; ArraysSelect.lean. Proved in exact rational arithmetic.
* **C62** sp_times_permutations returns all permutations of the set (partial). Modelled: sp_times_permutations, in Combinatorics. Proof: Heap's algorithm: invariant over the counter array by induction on the size; general refutation of the function; Permutations.lean. False of the code: the copies before the loop are the wrong way around, so the set is overwritten with zeros and all size! results are zeros (C62_copies_zeros, for all sets and sizes). C62_loop_partial proves the loop itself (Heap's algorithm) correct for every array: each permutation exactly once.
* **C63** Sequence increment counts (proved). Modelled: sp_times_sequence_increment, sp_times_sequences, in Combinatorics. Proof: value function of digit lists; Sequences.lean. For all bases from 1, digit counts and first sequences.
* **C64** sp_times_compositions returns all compositions (proved). Modelled: sp_times_compositions, in Combinatorics. Proof: successor function on compositions, induction over the recursive enumeration; Compositions.lean. For all sums from 1 whose number of compositions fits in 32 bits. The sum 0 is an access outside of the array (C64_sum_zero).
* **C65** Integer power and factorial (proved). Modelled: sp_time_expt, sp_time_factorial, in Combinatorics. Proof: loop invariants modulo 2^32; Numbers.lean. All 32 bit arguments.
* **C66** Counting functions for sequences, permutations and compositions (partial). Modelled: sp_compositions_max, sp_permutations_max, sp_set_sequence_max, in Combinatorics. Proof: from C65; witness; Numbers.lean. Sequences: true except for empty sequences of an empty set (C66_sequences_empty). Compositions: proved for sums from 1. sp_permutations_max divides by n-k and not by (n-k)!: right for k = n-1 and k = n-2, a division by zero for k = n (C66_permutations_all), wrong otherwise (C66_permutations_false).
* **C67** sp_modulo_match (proved). Modelled: sp_modulo_match, in Combinatorics. Proof: induction over the divisors; Numbers.lean. All numbers and non-empty arrays of divisors other than zero.
* **C68** Written files are well-formed wav files (proved). Modelled: sp_file_close_write, sp_file_open_write, sp_file_write, in File. Proof: file as a list of bytes with a position; induction over writes; File.lean. All sequences of non-empty writes; header, sizes and data bytes exactly. A write of zero samples is reported as a failure (C68_empty_write). I/O errors are not modelled.
* **C69** Reading a written file returns the written samples (partial). Modelled: sp_file_open_read, sp_file_read, in File. Proof: same, reading back; witnesses; File.lean. Round trip over any division into calls, given that the caller sets file.channel_count. False as stated: open_read leaves channel_count unset (C69_channel_count_false), read returns no status (C69_status_false), a missing file is a null pointer access (C69_missing_file_false).
* **C70** Interleaving and deinterleaving are inverse (proved). Modelled: sp_deinterleave, sp_interleave, in File. Proof: nested loops on tables; division and remainder; Interleave.lean. Both directions, bounds, frame, and both round trips.
* **C71** sp_fft computes the discrete Fourier transform for every length (proved). Modelled: Fft_transform, Fft_transformBluestein, Fft_transformRadix2, sp_fft, in Fft. Proof: radix-2 loop invariant with bit reversal, Bluestein identity with the recursive convolution; Fft.lean. Exact complex arithmetic over the reals, both algorithms (radix 2 and Bluestein with the recursive convolution). Arrays of equal length at least n, n in the range of the parameter type. Floating point rounding is not modelled.
* **C72** sp_ffti inverts sp_fft up to the length (proved). Modelled: Fft_inverseTransform, sp_ffti, in Fft. Proof: from C71 and orthogonality of the roots of unity; Fft.lean. Exact complex arithmetic over the reals; same assumptions as C71.
* **C73** Linear paths interpolate their points (proved). Modelled: sp_path_samples, spline_path_get, spline_path_line_generate, spline_path_prepare_segments, in Path. Proof: segment model over an ordered field; interpolation per segment; Path.lean. For all point counts from 2 to 24, all strictly increasing integer x and all y: all samples are written, follow the straight line through neighbouring points, start at the first point and stay within the range of y. Exact (rational) arithmetic. A second theorem: more than 24 points write outside of the segment array.
* **C74** Reading a path block by block equals reading it at once (partial). Modelled: spline_path_get, in Path. Proof: cursor invariant over histories of reads; witnesses; Path.lean. Proved for paths of moves, lines and constants with integer x and all histories of reads where each read begins at or after the end of the last one or before its beginning. False for re-reading a range and for points at fractional x, with witnesses.
* **C75** Curved paths can be read block by block (partial). Modelled: spline_path_beziern_generate, in Path. Proof: value of the unset variable as a fault; invariants of the curve loop for the whole segment, with one and with two control points (gaps are filled); PathCurve.lean. False: a later block of a curve either uses an unset variable (general theorem for blocks at least twice their size into the segment) or writes before the output. Proved for curves with one and with two control points drawn as a whole.
* **C76** Envelopes begin and end at zero (partial). Modelled: sp_define_envelope_zero_n, sp_envelope_zero, in Envelope. Proof: cells that are not set are faults; reduction to C73; EnvelopeTwo.lean, Path.lean. sp_envelope_zero has undefined behaviour for all inputs with three or more points (theorem). The fixed-size variants 3, 4 and 5 are proved to follow their points; the status they return is indeterminate because the functions they call have no return statement.
* **C77** Allocation failure is reported (partial). Modelled: sp_block_new, sph_helper_primitive_malloc, sph_helper_status_id_memory, in Block, EventMemory. Proof: status ids as in the code; allocation with failure; Block.lean. False of the code: the helper status id for memory errors is zero, which is success. Holds of the event memory register only.
* **C78** Blocks own their channels (partial). Modelled: sp_block_copy, sp_block_free, sp_block_new, sp_block_zero, in Block. Proof: allocation model; Block.lean. sp_block_free does not release blocks of size zero (C78_zero_size_leaks); the rest is proved.
* **C79** Pan values split the amplitude between channels (partial). Modelled: sp_pan_to_amp, in Extra. Proof: ordered field arithmetic; Extra.lean. Proved for the first pair of channels (the default channel limit is two). False for every further pair (C79_further_channels_false).
* **C80** Little-endian number from bytes (proved). Modelled: sp_u64_from_array, in Extra. Proof: sum over bytes; Extra.lean. All byte arrays and counts 1 to 8; unaligned little-endian loads as on the supported machines.
* **C81** sp_sine_period writes exactly one period (partial). Modelled: sp_sine_period, in Extra. Proof: values of the loop; witness; Extra.lean, FloatScore.lean. Proved for even sizes, for exact reals and in double precision (error at most 2^-48 with an accurate sin). False for odd sizes because of the integer division (C81_odd_false); the tables of the library have the size of the sampling rate, which is usually even.
* **C82** Rounding to multiples (partial). Modelled: sp_time_harmonize, in Extra. Proof: rounding in exact arithmetic; witnesses; Extra.lean. sp_time_harmonize rounds up to the next multiple, not to the nearest (C82_harmonize_false); sp_time_round_to_multiple returns its argument (C82_round_returns_argument, C82_round_false). Exact arithmetic, values with a + base at most 2^32.
* **C83** Counting unique subsequences (proved). Modelled: sp_stat_repetition_all_max, sp_stat_repetition_max, sp_stat_unique_all_max, sp_stat_unique_max, in Statistics. Proof: closed forms by induction; Statistics.lean. Closed forms for all sizes within uint32.
* **C84** sp_times_scale and sp_times_scale_sum (partial). Modelled: sp_times_scale, sp_times_scale_sum, in Extra. Proof: loop invariants; witness; Scaling.lean. sp_times_scale is proved in full. sp_times_scale_sum holds with the same pointer for both arrays and is false otherwise (C84_scale_sum_false).
* **C85** Inharmonicity (proved). Modelled: sp_stat_samples_inharmonicity, sp_stat_times_inharmonicity, in Statistics. Proof: loop invariants over pairs; Statistics.lean. Exact reals; quotients below 2^32 so that the conversion to sp_time_t is defined.
* **C86** sp_samples_scale_to_times maps the range of the samples to 0..max (partial). Modelled: sp_samples_scale_to_times, in Statistics. Proof: ordered field arithmetic; witnesses; Statistics.lean. Proved when the smallest sample is not positive and not all samples are equal. False otherwise: C86_positive_false, C86_constant_false.
* **C87** Opening any file for reading ends and finds the data (proved). Modelled: sp_file_open_read, in File. Proof: termination measure: bytes left in the file; File.lean. Termination and exact success condition for every content.
* **C88** The requested number of threads is started (partial). Modelled: sp_initialize, sph_future_init, sph_thread_pool_new, in Init. Proof: loop over the array of threads; witness; Init.lean. False above 128 threads (write past the array) and for 256 (no threads). Partial: up to 128.
* **C89** Negative curvature (proved). Modelled: sp_path_samples, in Path. Proof: comparison of the two segment lists; witness; Path.lean. All curvatures less than 1e-5, so all negative ones, give exactly the path without curvature; a witness shows that the curvature 1/2 does bend the path. This disagrees with the documented range -1 to 1.
* **C90** Scaled envelopes (partial). Modelled: sp_define_envelope_scaled_n, sp_envelope_scaled, sp_path_times, in Envelope. Proof: as C76; EnvelopeTwo.lean, Path.lean. As C76: sp_envelope_scaled has undefined behaviour for three or more points; the fixed-size variants are proved, with an indeterminate status.
* **C91** The control point of an arc is in the rectangle (partial). Modelled: spline_path_perpendicular_point, in Path. Proof: ordered field arithmetic; witnesses; PathCurve.lean. Proved for lines that are not horizontal and do not descend more than their width; false otherwise, with witnesses.
* **C92** Paths with curvature are well-defined (partial). Modelled: sp_path_samples, spline_path_bezier_arc_prepare, spline_path_beziern_generate, in Path. Proof: invariant of the curve loop inside the rectangle; witnesses; PathCurve.lean. Proved for segments whose control point is in the rectangle; false otherwise: a steep descent writes outside of the output, a horizontal segment leaves the range of y.
* **C93** Band kernels combine the responses of their parts (proved). Modelled: sp_convolve_one, sp_windowed_sinc_bp_br_ir, in Filter. Proof: sums over the complex numbers using C01; Filter.lean. Exact reals; band-pass with lengths below 2^30.
* **C94** Creating a band kernel leaves only the kernel allocated (partial). Modelled: sp_windowed_sinc_bp_br_ir, in Filter. Proof: count of live allocations on every path; Filter.lean. False for band-pass with both cutoffs inside of the range, where two arrays leak (C94_band_pass_leak_false). Proved for all other cases.
* **C95** Seamless transitions (partial). Modelled: sp_times_make_seamless_left, sp_times_make_seamless_right, in Extra. Proof: index arithmetic; general refutations; Scaling.lean. sp_times_make_seamless_right: only copying, the last element and memory safety hold (C95_right_false); sp_times_make_seamless_left always reads outside of a (C95_left_out_of_bounds) or copies nothing (C95_left_not_copied).
* **C96** Scaling to a maximum or a sum (partial). Modelled: sp_samples_scale_sum, sp_samples_scale_y, sp_times_scale_y, in Extra. Proof: loop invariants; witnesses; Scaling.lean. The functions write to in instead of out; sp_times_scale_y holds when the maximum divides the target (C96_times_scale_y_false), sp_samples_scale_y ignores the target (C96_samples_scale_y_false), sp_samples_scale_sum holds with one array.
* **C97** Conversions between arrays (proved). Modelled: sp_samples_differences, sp_samples_to_times, sp_samples_to_units, sp_times_constant, sp_times_to_samples, in Extra. Proof: rule for map loops; Scaling.lean, WaveDefaults.lean. Exact samples.
* **C98** sp_time_deharmonize moves at most half a base (proved). Modelled: sp_time_deharmonize, in Extra. Proof: exact arithmetic for all random numbers; ExtraRandom.lean. For bases from 2 and values with a + base at most 2^32; exact arithmetic.
* **C99** sp_normal_random stays in its range (partial). Modelled: sp_normal_random, in Extra. Proof: bounds of the sum for all random numbers; witness; ExtraRandom.lean. Proved for maxima up to 2^27; false above, because the sum overflows (C99_normal_random_false).
* **C100** A noise event adds limited values to the requested range only (partial). Modelled: sp_noise_event_generate_block, in Noise. Proof: invariant over channels with the content of the temporary buffers; NoiseGenerate.lean. For durations up to the length of the temporary buffers. C100_large_block_overflow: a longer duration, for example more than four seconds of an event without filter modulation requested at once, is written past the buffers. Random numbers and filters are arbitrary functions.
* **C101** Noise event channels take missing settings from the first channel (proved). Modelled: sp_noise_event_config_defaults, sp_noise_event_prepare, in Noise, NoiseRun. Proof: exact invariant of the loop over channels; NoiseEvents.lean. Exact settings of each channel after prepare.
* **C102** Noise events sound the same for every division into blocks (partial). Modelled: sp_noise_event_generate, sp_noise_event_generate_block, sp_noise_event_prepare, in NoiseRun, NoiseSeed. Proof: invariant of filters and random state (NoiseReady); seeds: simulation by a list that has its seeds already; witnesses; NoiseEvents.lean, NoiseSeed.lean. With given seeds, for events without modulated filter parameters, in trees of any depth (C102_noise_events_partial with C22_blocks); with the seeds taken from the library, for lists without groups (C102_seeds_partial). The rest does not hold: C102_group_seeds_false for noise events in groups, C102_modulation_false for modulated filter parameters.
* **C103** sp_event_list_validate accepts exactly the valid lists (partial). Modelled: sp_event_list_find_duplicate, sp_event_list_validate, in EventListValidate. Proof: induction over the list and over the steps of both loops; a ring that does not contain the first element as infinite sequence of addresses; EventListValidate.lean. valid lists are accepted, accepted lists are valid, ending lists with wrong links and rings through the first element are reported. False part: a ring that does not contain the first element makes it loop forever.
* **C104** Windowed sinc filters follow their parameters (partial). Modelled: sp_convolution_filter_state_set, sp_windowed_sinc_bp_br, sp_windowed_sinc_bp_br_ir_f, sp_windowed_sinc_lp_hp, sp_windowed_sinc_lp_hp_ir_f, in SincFilter, ConvolutionFilter. Proof: refines the general filter theorem (C06) with the packed argument bytes; witness; SincFilter.lean. law-free, bit for bit. Partial: the condition KeepsAll of C06 (a block is at least as long as the carry-over when the kernel gets shorter), and one of the two filters per state; with both on one state a stale kernel is used (C104_mixed_false), because the function pointer in the state is never updated.
* **C105** Filter states release all their memory once (partial). Modelled: sp_convolution_filter_state_free, sp_convolution_filter_state_set, in FilterMemory. Proof: invariant: the live allocations are those of the state (Own); the failing case for all states; FilterMemory.lean. all histories where no call fails after one has succeeded. False otherwise: the freed impulse response stays in the state and is freed again (for all states). Allocation succeeds; impulse responses are not empty.
* **C106** Bounded random numbers with a custom distribution stay in the range (partial). Modelled: sp_sample_random_discrete_bounded, sp_time_random_discrete_bounded, in Units, RandomArrays. Proof: bounds for all random numbers from the distribution theorem; witness for the end of the range; Units.lean. The sample version stays in the range. The time version is bounded by the range including its end, which is reached (C106_time_range_end), and is undefined for a distribution with one element (0/0).
* **C107** Conversions between units are consistent (partial). Modelled: sp_duration, sp_factor_to_hz, sp_hz_to_factor, sp_hz_to_rad, sp_hz_to_samples, sp_rad_to_hz, sp_rate_duration, sp_samples_to_hz, in Units. Proof: integer arithmetic; rounding to the nearest double specified and bounded for all arguments; witnesses; Units.lean. sp_rate_duration divides first and so loses up to n samples (bound proved; witness). sp_rad_to_hz is not the inverse of sp_hz_to_rad for any value except 0. sp_factor_to_hz rounds down: x or x - 1, 27 Hz at 48000 gives 26. For frequencies above the rate sp_hz_to_samples followed by sp_samples_to_hz divides by zero.
* **C108** Map events apply a function to what the wrapped event plays (proved). Modelled: sp_map_event_free, sp_map_event_generate, sp_map_event_isolated_generate, sp_map_event_prepare, in MapEvent, EventTree. Proof: callback transformers; simulation: the map state together with the state of the wrapped event (Seamless); MapEvent.lean. For any wrapped event that plays seamlessly, including trees, and any map function that processes streams.
* **C109** Freeing an event frees all events inside of it (partial). Modelled: sp_event_list_free, sp_group_free, sp_map_event_free, sp_seq, in EventTree, MapEvent. Proof: induction over trees that have begun; freeing does nothing otherwise; witness for a failing sp_seq; TreeFree.lean. Holds for trees whose groups have begun. Groups that have not begun when sp_seq fails, and map events whose wrapped event fails in prepare, are leaked: proved.
* **C110** A block with offset covers the rest of the block (partial). Modelled: sp_block_copy, sp_block_with_offset, sp_block_zero, in Block. Proof: exact result of the loop; the write at size - offset is outside for all blocks; BlockOffset.lean. The pointers are right but the size is not reduced, so that sp_block_zero and sp_block_copy write outside for every offset above zero.
* **C111** sp_event_schedule places an event in time (partial). Modelled: sp_event_schedule, in WaveDefaults. Proof: arithmetic; witness; WaveDefaults.lean. Holds for events whose end is zero; for others the duration is added to the end (exact result proved).
* **C112** A wave event with default configuration plays a sine tone (partial). Modelled: sp_initialize, sp_render_file, sp_wave_event_config_defaults, sp_wave_event_config_new_n, sp_wave_event_generate, sp_wave_event_prepare, in WaveDefaults, Wave, EventTree, Render, Extra. Proof: composition (over the reals, and with error bounds over doubles) of the theorems about the table, defaults, phases, sequencer and file; closed form of the phase; the failing case for all channel counts; FloatSine.lean, WaveDefaults.lean. For even sampling rates (see C81) and as many output channels as the channel limit; with fewer output channels the default configuration writes to channels that do not exist (C112_fewer_channels_undefined). Proved over the reals, and in double precision with an error of at most 2^-47 for envelopes within [-1, 1] (C112_double_tone, C112_double_tone_file), given a sine function with an error of at most 2^-52.
* **C113** sp_sine and sp_sine_lfo add sine waves (partial). Modelled: sp_initialize, sp_sine, sp_sine_lfo, sp_sine_period, in WaveDefaults, Wave, Extra. Proof: closed form of the phase and periodicity of the sine; for doubles the error of the table (C81) and the exact phase; FloatSine.lean, WaveDefaults.lean. Even sampling rates for sp_sine, all for sp_sine_lfo; exact reals and double precision (error at most 2^-47 plus one rounding per sample). Without amod the amplitude is squared (C113_no_amod, see C12).
* **C114** Paths with curves, read at once (proved). Modelled: spline_path_bezier1, spline_path_bezier2, spline_path_beziern_generate, spline_path_get, spline_path_set, in Path. Proof: the loop of curves as an invariant over abstract steps with rounded x that grow by at most two; chain of segments; PathWhole.lean. Proved for all numbers of segments; C75 shows that the same is false for curves that are read in blocks.
* **C115** Paths inside of paths (partial). Modelled: spline_path_path, spline_path_path_generate, spline_path_path_prepare, spline_path_prepare_segments, in PathNest. Proof: mutual induction over nested paths: a read from 0 to 0 changes nothing; simulation of the loop with and without contained paths; witnesses; PathNest.lean. False: a contained path has points_count 1 and therefore no length. Proved for all nestings of moves, lines and constants: the samples are those of the path without the contained paths. A contained curve reads an unset variable.
* **C116** Start, end and size of a path (proved). Modelled: spline_path_constant_prepare, spline_path_end, spline_path_size, spline_path_start, in PathNest. Proof: induction over the steps; PathNest.lean. Proved; without segments the end is undefined.
* **C117** Path functions with a fixed number of points (partial). Modelled: sp_define_envelope_zero_n, sp_define_path_n, sp_path_times, in PathN, Envelope, Path. Proof: instances of the theorems about paths with and without curvature, stated for the list of points; C117_fraction_false: with a curve that starts at a fraction of one half or more a sample is never written and stays zero; PathN.lean. The values are proved for all lengths: straight paths for all points from left to right, curves for integer x and curvatures for which the control point is inside of the rectangle of the part. The returned status is indeterminate for all of these functions because the return statement is missing, so success does not hold. False for curves that start at a fraction of one half or more: a sample is left zero (C117_fraction_false). Missing: curves with smaller fractions.
* **C118** The compensated sum is accurate in floating point arithmetic (partial). Modelled: sp_stat_samples_mean, sph_define_float_sum, in Statistics, Spec/Float. Proof: invariant of the loop with error-free transformation of each addition (fast two sum), error analysis with rational numbers; witness for the negation; FloatSum.lean, FloatSumAny.lean. Holds if no running sum is negative, in particular for numbers that are not negative (C118_running_sums_partial, C118_nonnegative_partial). False otherwise (C118_negative_false): the code compares numbers and not absolute values, so that 2^60, -2^60, 1 gives 0. For any signs the error is at most 6 n / 2^53 times the sum of the absolute values (C118_any_signs_partial).
* **C119** The accuracy of convolution in double precision (proved). Modelled: sp_convolve, sp_convolve_one, in Convolution, Spec/Float. Proof: law-free closed form of C02 at the type of rounded doubles; induction over the terms with the error of each rounding; FloatConvolution.lean. Doubles with any rounding to nearest, without fused operations; no overflow as hypothesis.
* **C120** Lines of paths keep their end points and range in double precision (proved). Modelled: sp_path_samples, spline_path_get, spline_path_line_generate, in PathRounded, Path, Spec/Float. Proof: the model of path reading with rounding of each operation, equal to Path for the identity; closed form of the reads as for C70; monotonicity and error of rounded linear interpolation, negative slopes by duality; FloatPath.lean. Rounding of each operation to a nearest double is modelled. Integer x, no curvature, the y up to a quarter of the largest double.
* **C121** Blending in double precision (partial). Modelled: sp_samples_blend, sp_time_interpolate_linear, sp_times_blend, in Rounded, Spec/Float. Proof: model of blending with rounding of each operation, equal to Arrays for the identity; error analysis with rational numbers; tie-free witness for the negation; FloatBlend.lean. Rounding of each operation is modelled. False: blending 0.625 with itself by 0.08 gives a larger number, for every rounding to nearest. Proved: accuracy, both ends exact, and for times that results stay between the inputs.
* **C122** Conversions between samples and times in double precision (partial). Modelled: sp_cheap_round_positive, sp_samples_to_times, sp_samples_to_units, sp_times_to_samples, in Rounded, Spec/Float. Proof: analysis of the rounding of 1/2 + x by cases of the position of x relative to the nearest integer; witness for the negation; FloatBlend.lean. Rounding of each operation is modelled. False for a single number, the largest double below 1/2 (0.49999999999999994), which is converted to 1; proved for all others.
* **C123** The moving average in double precision (partial). Modelled: sp_moving_average, in Filter, Spec/Float. Proof: law-free closed form of the running sum; induction over the windows with the error of each rounding; for the negation a family of inputs of every length; FloatAverage.lean. Each mean is within (8 (radius + i) + 2) M / 2^53 of the exact one, M the largest absolute value of the input, for inputs of any length with next given. The claim relative to the values in the window is false: after a value of 2^60 all following ones come out as zero.
* **C124** Triangle waves and pan in double precision (partial). Modelled: sp_pan_to_amp, sp_triangle, in Rounded, Spec/Float. Proof: case analysis of the two sides with the rounded reciprocal; monotonicity of rounding; exactness of the pan by Sterbenz; witness for the peak; FloatWave.lean. Triangle: doubles from 0 to 1, periodic, monotone on both sides, within 3 / 2^53, 0 at the start. The peak can be 1 - 2^-53 (proved for b = 49). Pan: exact for every double.
* **C125** Means in double precision (partial). Modelled: sp_stat_samples_mean, sp_stat_times_mean, in Rounded, Statistics, Spec/Float. Proof: C118 and one more rounding; monotonicity of rounding for integers; for the negation the loop evaluated with eleven steps, all without ties; FloatMean.lean. Times: nearest double, between least and greatest value. Samples that are not negative: about two roundings. The mean of eleven equal samples can be greater than all of them.
* **C126** Comparing arrays with a value (proved). Modelled: sp_times_contains, in Arrays, RandomArrays. Proof: induction over the rest of the array; Compare.lean. proved for all sizes
* **C127** Bounded random floats stay below their range in double precision (partial). Modelled: sph_random_f64_bounded, in Random, Spec/Float. Proof: the double below the range is at most half as far away as the distance to the range allows; witness with the smallest range for the negation; FloatRandom.lean. proved for ranges from 2^-1021 on; for the smallest double the negation is proved
* **C128** Segments with own functions (proved). Modelled: spline_path_get, spline_path_prepare_segments, spline_path_segment_t, spline_path_set, in PathCustom. Proof: the functions are parameters, constrained only by a contract for calls inside of the segment; induction over the segments and the reads; the model of the library's segments is an instance (customGet_eq); PathCustom.lean. proved for functions that fulfil the contract, any segments and forward reads
* **C129** Segments can be used again (partial). Modelled: spline_path_bezier_arc_prepare, spline_path_constant_prepare, spline_path_segments_get, spline_path_set, in PathReuse. Proof: prepare functions other than that of arcs are idempotent; induction over the segments and the calls; witnesses with arcs; PathReuse.lean. proved for segments other than arcs; false for arcs, whose curvature is overwritten on first use
* **C130** The memory of paths inside of paths (partial). Modelled: spline_path_free, spline_path_path, spline_path_segments_get, spline_path_set_copy, in PathMemory. Proof: induction over the nesting with the invariant that the owned addresses are distinct, live and new; permutations; the negations for every path with a contained path; PathMemory.lean. freeing proved; false for a second spline_path_segments_get with the same segments and for copies
* **C131** Memory allocated with the macros for events is released with the event (partial). Modelled: sp_event_alloc_srq, sp_event_malloc_srq, sp_event_memory_add_with_handler, sp_event_memory_ensure, in EventAlloc, EventMemory. Proof: induction over the allocations with the invariant that registered addresses are distinct and live; the leak for every failing call; witnesses for the rest; EventAlloc.lean. The memory operations are those of C105; allocation of the memory and of the register can each fail. False if allocations fail: a failed register leaks one allocation, a failed allocation is not noticed and registers the old address a second time or an unset variable.
* **C132** Failures can be told apart by name and description (partial). Modelled: sp_status_description, sp_status_name, sph_helper_status_description, in Status. Proof: case analysis over the numbers; the negations are about the numbers defined in main.h and all numbers of the other groups; Status.lean. False for numbers that share a name and for the group sph, whose description function has no return statement; names of other groups are unknown.
* **C133** The accuracy of the Fourier transform in double precision (proved). Modelled: Fft_transformBluestein, Fft_transformRadix2, sp_fft, sp_ffti, in Fft, Spec/FloatFft. Proof: the model of the transform is used at doubles; an invariant over the stages with the error of each element relative to the elements it depends on (Lemmas/FftError.lean); one butterfly has an error of at most 2^-46; for other lengths the errors of tables, products and the three transforms of the Bluestein algorithm are added up (Lemmas/FftBluesteinError.lean); the accuracy of cos and sin is a hypothesis; FloatFft.lean. All lengths below 2^32. cos, sin and pi are hypotheses of the theorem, satisfied by an instance in the example. Overflow is excluded by a hypothesis. The underflow term is below 2^-946. The bound for lengths that are no power of two is not sharp.
* **C134** Files store nearest single precision numbers (proved). Modelled: sp_file_read, sp_file_write, in File, Spec/Single. Proof: C68 and C69 are about any conversion between samples and float; Spec/Single.lean says what the one of IEEE 754 binary32 does (patterns, nearest, exact widening), and every finite number has a pattern; the error bound is from the grid of the size of the number; conversions that meet the specification are shown to exist; Single.lean. C134_written: the bytes of the file are those of nearest single precision numbers. C134_round_trip: error of what is read. C134_exact, C134_integer: single precision numbers come back unchanged. The conversions between double and float are specified as those of IEEE 754 (Spec/Single.lean), numbers above the largest single precision number are outside.
* **C135** Windowed sinc kernels are the documented kernels and delay all frequencies alike (proved). Modelled: sp_sinc, sp_window_blackman, sp_windowed_sinc_bp_br_ir, sp_windowed_sinc_lp_hp_ir, sp_windowed_sinc_lp_hp_ir_length, in Filter. Proof: real arithmetic; the kernel is given by a formula in Spec/Filter.lean that is independent of the loops; linear phase by pairing the elements around the middle of a symmetric kernel; FilterFormula.lean. Proved in exact arithmetic; that a kernel is created for every cutoff is C168.
* **C136** Files with plot data hold the data (partial). Modelled: sp_plot_samples_to_file, sp_plot_spectrum_to_file, sp_plot_times_to_file, in Plot, Printf, Spec/Text. Proof: printf is modelled for the conversions that occur; files are a map from paths to texts; Spec/Text.lean says how a reader understands lines and decimal numbers, independent of how they are printed; loops by an explicit state; the spectrum with C71. What the C library prints for a double is a hypothesis with an instance; that a uint32_t can be read as unsigned long is one too (undefined by the standard: C136_times_undefined); Plot.lean. samples and spectrum proved; times hold on platforms where a uint32_t argument can be read with lu, which the standard does not define (C136_times_undefined); unwritable files are a null pointer access, failures of the spectrum function leak
* **C137** Each plot has its own data file (partial). Modelled: sp_plot_samples, sp_plot_spectrum, sp_plot_times, in Plot, Printf. Proof: snprintf with the sizes of the code; induction over the calls; names are different because decimal numbers can be read back; from 10^9 on the last digit is cut off (C137_names_false); PlotMixed.lean, PlotNames.lean. holds below 10^9 plots, for every sequence of calls of the three plot functions (C137_mixed_partial) and in more detail for sp_plot_samples (C137_own_files_partial); from then on the name of an earlier plot is used (C137_names_false)
* **C138** The plot command names the given file (partial). Modelled: sp_plot_samples_file, sp_plot_spectrum_file, sp_plot_times_file, in Plot, Spec/Shell. Proof: Spec/Shell.lean is the part of the shell language that the commands use; induction over the path inside of quotes; a path with a quote runs other commands (C138_quote_false); PlotNames.lean. the whole command is passed for all paths; it plots the path if it has no quotes, backslash and backquote; with quotes other commands can run (C138_quote_false)
* **C139** Rendering to a plot (partial). Modelled: sp_render_plot, sp_render_range_block, sp_render_range_file, in Plot, Render. Proof: C33 for the samples and C137 for the file; the message for short events is wrong (C139_milliseconds_false) and the format of the progress display is undefined (C139_progress_undefined); PlotRender.lean. the plotted data is proved; the message is wrong below one second, the progress format is undefined
* **C140** Display functions print the data (partial). Modelled: sp_event_list_display, sp_samples_display, sp_times_display, in Plot, Spec/Text. Proof: loops by an explicit state, induction over the list; without elements the first one is read nevertheless (C140_empty_out_of_bounds); PlotRender.lean. samples and lists proved; times as in C136; without elements memory outside is read
* **C141** Fourier transforms release their memory and leave the data alone if an allocation fails (proved). Modelled: Fft_convolveComplex, Fft_transformBluestein, Fft_transformRadix2, sp_fft, sp_ffti, in FftMemory, Fft. Proof: the calls with memory follow those without, by cases over which allocations fail and induction over the recursion depth; the allocations that are live are compared with those before; FftMemory.lean. Transforms with memory: temporary arrays as allocations that are live or not, double free is a fault; contents of arrays are values, so that access to freed arrays is not part of this model. For lengths below 2^32 and arrays with at least that many elements. C141_any_arithmetic is the same for rounded arithmetic (C133).
* **C142** Functions of arrays own and release memory as documented (proved). Modelled: sp_samples_to_times_replace, sp_times_compositions, sp_times_constant, sp_times_permutations, sp_times_random_binary, sp_times_scale, sp_times_to_samples_replace, in ArrayHeap, Combinatorics. Proof: memory with addresses, compared with the memory before the call by a list of the new arrays (Owns, Lemmas/ArrayHeap); the loops follow those without addresses (C62, C64) by induction over the fuel, with the pointers returned so far as invariant; ArrayHeap.lean, ArrayHeapMore.lean. Arrays at addresses; use after free, double free and access outside of arrays are faults of the model and excluded by the theorems. Allocations succeed. Permutations for size! < 2^32 (the contents are zeros, see C62), compositions for 2^(n-1) < 2^32. C142_to_times_replace is stated for values for which sp_samples_to_times is defined (C97_conversion).
* **C143** Medians leave no memory allocated (partial). Modelled: sp_stat_times_median, in ArrayHeap, Statistics. Proof: as C142; the copy that is sorted is never freed (C143_median_leak); ArrayHeapMore.lean. False (C143_median_leak): every successful call leaves the sorted copy allocated. Partial: the value is that of C47 and no array changes. sp_stat_samples_median is the same macro.
* **C144** String functions (partial). Modelled: ensure_trailing_slash, string_append, string_clone, string_join, in Strings. Proof: symbolic execution with the copied part as prefix, induction over the list of strings; ensure_trailing_slash sets the first byte to zero instead of the last (C144_trailing_slash_false); Strings.lean. append, clone and join as stated. ensure_trailing_slash is wrong: for each string without slash at the end the new string is empty (its first byte is set to zero) and its last byte is unset (C144_trailing_slash_false); the other cases are right (C144_trailing_slash_partial)
* **C145** Display of bits (proved). Modelled: sph_helper_display_bits, sph_helper_display_bits_u8, in Strings. Proof: loop with explicit state, bits by division; Strings.lean. as stated
* **C146** Arrays with used length (partial). Modelled: array3_add, array3_data_last, array3_declare_stack, array3_remove, in Array3. Proof: refinement: each call on the array follows the call on a list, by induction over the program; array3_data_last is wrong unless full, array3_declare_stack leaves the used length unset, adding is unchecked (the theorems with suffix _false); Array3.lean. the list behaviour is as stated for all programs (C146_array). False in three respects: adding to a full array writes behind it (C146_add_full_false), array3_data_last reads an unset cell unless the array is full (C146_data_last_false, right if full: C146_data_last_partial), array3_declare_stack leaves used unset (C146_declare_stack_false)
* **C147** Registers of memory free what was registered (proved). Modelled: memreg_add, memreg_free, in Array3. Proof: induction over the addresses from the end, with the memory before and after compared as in C105; Array3.lean. as stated; adding more than the register has room for writes behind it (C147_overflow_false)
* **C148** A score of tones renders to the sum of its tones (proved). Modelled: sp_event_schedule, sp_group_add, sp_group_append, sp_group_prepare, sp_render_file, sp_wave_event_config_defaults, in Score (with EventTree, Group, WaveDefaults, Render). Proof: The specification (Spec/Score) gives length and samples of a score by recursion on the score alone. Mutual induction over scores and lists of scores: the event of each score is playable (C22), also when it is moved as sp_group_append does, ends where the score ends, and adds the samples of the score. Groups: the list that sp_group_add leaves is in descending order of start and a permutation of the events; sums of reals do not depend on the order. Then C33.; Score.lean. Scores without empty groups; even sampling rates (for odd ones the sine table is wrong, C81); real arithmetic here, floats narrowed by the format; C166 is the same with rounding
* **C149** Steady tones through the windowed sinc filters (proved). Modelled: sp_convolution_filter, sp_convolve, sp_windowed_sinc_bp_br_ir, sp_windowed_sinc_lp_hp_ir, in ConvolutionFilter, Filter. Proof: C04 gives the output as the convolution with the kernel; for settled samples this is the sum over the kernel, which is the real part of a complex exponential times the frequency response; C08 and C135 give symmetry, odd length and the sum, so that the response is a delay times a real gain. In real arithmetic. The bytes of the arguments are not interpreted here (C104 is about them); SteadyTone.lean. Real arithmetic; kernels for cutoffs inside of the range (at the edges of the range band kernels are low-pass, high-pass, passthrough or silence, C08_band_edges)
* **C150** Creating directories (partial). Modelled: dirname_2, ensure_directory_structure, in Filesystem. Proof: induction over the names of the path, with the file system and the live allocations before and after compared; for relative paths whose first name is missing the code gives a constant string to free (C150_relative_undefined). Concurrent changes of the file system are not modelled; Filesystem.lean. Absolute paths, and relative ones whose first directory exists; for the others the code frees a constant string (proved: C150_relative_undefined)
* **C151** Failed writes while rendering are reported (partial). Modelled: sp_file_close_write, sp_file_open_write, sp_file_write, sp_render_range_file, in FileErrors. Proof: The model of C33 with an `fwrite` that can write less than asked for, chosen by a function of the number of the call, and a file that is open or closed. Induction over the blocks with two outcomes, all blocks written or a first block that failed; the state of the file after a failed write is the data and a rest; a lemma on writes inside of the header shows that closing leaves the samples alone. False: a failure of the header leads to the use of a closed file, failures of the sizes are not reported, and the events are not released after failed writes; each with a theorem.; FileErrors.lean. The status is success exactly if all samples were written, otherwise the file has the samples of the blocks before and is closed once, for every event that plays seamlessly and every behaviour of the disk. Not so for the rest of the claim: if the header can not be written a closed file is used (C151_header_failure_undefined), failures of the sizes in the header are not reported (C151_sizes_unreported), the events are not released (C151_events_left). Simplified: no buffering in the C library.
* **C152** The random numbers repeat after 2^256 - 1 draws and not before, and are equally distributed (proved). Modelled: sp_random_state_new, sph_random_f64_bounded, sph_random_state_new, sph_random_u64, in Random. Proof: The state transition is linear over the field with two elements. The states are made an additive group by exclusive or, the transition an endomorphism, and polynomials with coefficients 0 and 1 (the bits of a number below 2^257) are evaluated at it. A polynomial of degree 256 is shown to give zero by evaluation at the 256 unit states; powers of the transition are computed as polynomials modulo it, all in the kernel. 2^256 - 1 is factored into eleven primes (proved prime with Lucas certificates), the transition to the power 2^256 - 1 is the identity and to the power (2^256 - 1)/q is not, for each prime q, so its order is 2^256 - 1. By counting, all polynomials that are not zero are powers, so no power but the identity fixes a state other than zero. The distribution follows by counting states: the words seen by four successive draws determine the state, and the scrambler 9 * rotl(5 * x, 7) is a bijection.; RandomPeriod.lean. All states other than zero; the two raw generators and the noise samples. Bounded draws (C41) take several raw numbers at times and are not counted here.
* **C153** Under every fair schedule enqueued tasks are run and waiting returns (proved). Modelled: sph_future_new, sph_future_touch, sph_thread_pool_enqueue, sph_thread_pool_finish, sph_thread_pool_worker, in ThreadPool. Proof: Infinite executions as sequences of states (Spec/Fair); fairness: a thread that stays at one place for ever can from some time on not go on. Leads-to lemmas for each place of a thread (`leave`), the mutex is free again and again, `progress`: while tasks are queued one is taken or all workers have ended, by contradiction with the wakeup invariant of C36; finish tasks are taken by different workers, so by counting all end. The negation for functions that wait is a fair execution through the state of `C29_nested_false`. Concrete fair executions as examples.; ThreadPoolFair.lean, ThreadPoolNested.lean. All fair executions; false for functions of futures that wait for futures when all workers wait (C153_waiting_false); C153_nested_return: they return if there is always a worker that does not wait.
* **C154** Data races and store buffers of futures (partial). Modelled: sph_future_eval, sph_future_new, sph_future_touch, sph_thread_pool_enqueue, sph_thread_pool_worker, in StoreBuffers. Proof: Each thread gets a buffer of stores to futures; the two stores of `sph_future_eval` go into it, a step takes a store out of it to the memory, either always the oldest one or any that has no older one to the same location; locking and unlocking a mutex waits for an empty buffer. For buffers in order a simulation: the state in which a thread with stores in its buffer is still at the place before these stores is reachable in the model of C36; so its invariants carry over. For buffers out of order a concrete execution with a wrong result. Races (Spec/Race): which thread accesses which field at which place, two threads at such places at once; with the places of tasks and the mutex of the invariant only the race on `finished` is left, and it is reachable.; StoreBuffers.lean. The property is false. C154_race_false: the flag finished is written by the worker and read by sph_future_touch without a mutex or atomic access, a data race. C154_reordered_stores_false: if stores are reordered the touch can return the argument instead of the result. Proved: the only race is this one (C154_races_partial), making futures races with nothing (C154_new_races_not), and for total store order all executions are ones of the model without buffers (C154_total_store_order), so touch returns the result (C154_touch_partial), nothing freed is used, order and at most once hold (C154_no_fault, C154_pool, C154_buffers). Reordering by the compiler is covered only as far as it is a reordering of these two stores.
* **C155** Initialisation when threads or memory are missing (partial). Modelled: sp_deinitialize, sp_initialize, sph_future_deinit, sph_future_init, sph_thread_pool_finish, sph_thread_pool_new, in InitFail. Proof: The model of C39 with oracles for pthread_create and the allocations, and the number of tasks in the queue that end threads. Induction over the loops up to the first failure; the workers are a transition system whose invariant is that the difference of threads and tasks is constant. False: a table without memory is a null pointer write, a second try drops the tasks of the first one so that threads stay for ever, the mutex is initialised twice, missing memory for tasks leaves threads that use a destroyed mutex; each with a theorem for all numbers of threads.; InitFail.lean. The property is false in four places, each with a theorem: C155_table_false (null pointer write instead of a failure), C155_second_try_false (a second call while threads of the first one are there drops their tasks; more threads run than the pool has and never end), C155_mutex_false (the mutex is initialised twice without having been destroyed), C155_no_task_false and C155_deinit_false (missing memory for tasks leaves threads, and the mutex is destroyed while they use it). Proved: the error number is returned, nothing else changed and the threads end (C155_thread_error, C155_threads_end), a second try after they have ended starts all threads (C155_second_try_partial), and success with enough resources (C155_success).
* **C156** Parallel rendering in double precision (partial). Modelled: sp_seq, sp_seq_parallel, sp_seq_parallel_future_f, sp_wave_event_generate, in SeqParallel, WaveAdder. Proof: The invariant of C26 for samples with any addition: the output of a future is what its writes make of zero, and the output of the call is the fold of adding these in the order of the list, which has no trace of the schedule; so any two schedules that return agree. It is the output of sp_seq if adding the writes one by one is adding what they make of zero: with exact addition (C26), or if zero is neutral and each sample is written at most once. The finite numbers of type double with rounded addition are such a type (Spec/DoubleAdd; the sign of zero is left out). Wave events are such events: a simulation of the loops of `sp_wave_event_generate` by loops that collect what is added, so that a successful `sp_seq` of wave events is one of the collected additions. False: an event that adds 3/4 twice to 2^53, under every rounding to nearest.; SeqParallelFloat.lean. Independence of the schedule holds for all additions. The output is that of sp_seq if no event adds more than once to a sample, in particular for wave events with at most one configuration for each channel; with exact additions for all. False for an event that adds twice to a sample, because the parallel version adds the sum: C156_bit_for_bit_false. The sign of zero is not represented.
* **C157** Mixing in double precision (proved). Modelled: sp_group_generate, sp_group_prepare, sp_seq, sp_wave_event_generate, in EventTree, Wave. Proof: Trees of wave events with the list of tones (amplitude, modulation, waveform value) that sound at a time (Spec/Mix), by induction over the tree: the sound of C22 adds the tones in order, for any addition and multiplication. With C22 at samples that are rounded numbers each sample is a rounded sum of products, whose first factors are rounded products themselves; the bound for sums of products of C119 and the error of the amplitudes add up. The bound for values between -1 and 1 follows by arithmetic.; FloatMix.lean. The general bound is mixErrorBound, in terms of the number of tones, the sum of absolute values and the waveforms; C157_full_scale is the case of values between -1 and 1. Infinities are excluded by the range conditions.
* **C158** Rendering block by block in parallel (proved). Modelled: sp_group_generate_parallel, sp_seq, sp_seq_parallel, sp_seq_parallel_future_f, in BlockAdder, SeqParallel, EventTree. Proof: The transition system of C26 with functions that generate into a block of zeros, as the futures do (futGenerate_block); the invariant of seamless events (Chain, from C22) holds for these functions with the sound that adds what is played into zeros. Each call keeps the invariant whatever the schedule is, by C28 and C156; induction over the calls. Existence of runs from progress and the measure of C26.; ParallelBlocks.lean. Any addition with a neutral zero for independence of division and schedule, in particular that of doubles; equality with sp_seq for sounds that add, with exact additions. Noise events with given seeds; for how they get their seeds see C159. sp_group_generate_parallel at the top of a piece is the same call; for parallel groups in parallel groups see C29.
* **C159** Noise events rendered in parallel are reproducible (partial). Modelled: sp_noise_event_prepare, sp_random_state, sp_random_state_new, sp_seq_parallel_future_f, in SeedRace, BlockAdder, NoiseRun. Proof: Futures that read and write the random state of the library as two steps each: schedules are constructed by induction over the number of events or over the order; the set of futures with seeds as invariant for what holds. What is heard: the output for given seeds by C156, compared for two assignments of seeds that schedules give.; SeedRace.lean. The property is false: for any number of noise events there is a schedule with which all get the same seed (C159_same_seed_false) and, without interruptions, one for each order of seeds (C159_any_order_false); there is a data race (C159_race_false), and the output differs (C159_output_false). What holds: seeds are among the first draws (C159_seeds_partial). With a mutex they would be different ones (C159_locked_partial).
* **C160** Recordings of any length (partial). Modelled: sp_file_close_write, sp_file_read, sp_file_write, in File, LongFile. Proof: C68 and C69 again with the counter reduced to 32 bits: induction over the calls with the remainder as invariant; for a single large block the first index outside of the allocated memory is reached, with the length of the array as loop invariant.; LongFile.lean. The property is false: from four gigabytes on the header has the remainder of the size and no call reports it (C160_stated_size_false), and a single block of 2^30 values or more is written and read outside of memory (C160_block_undefined, C160_read_undefined). What holds: all samples are in the file and are read again by this library, which does not use the stated size, for any number of blocks below four gigabytes each (C160_round_trip_partial).
* **C161** Opening and reading from devices that fail (partial). Modelled: sp_file_close_read, sp_file_open_read, sp_file_read, in ReadErrors, File. Proof: Devices that read up to some byte and seek at some positions. What the loop over chunks finds is an inductive relation; it is the chain of chunks if seeking works (induction), and every eighth place if it never does; lemmas as for C87.; ReadErrors.lean. The property is false: the result of fseek is not used, so that with pipes success is reported at wrong places (C161_pipe, C161_wrong_place_false); the file stays open on failures (C161_left_open_false); sp_file_read returns no status. What holds: with devices that seek, opening succeeds exactly if all up to the samples can be read, with the right position (C161_open_partial), a read that fails in the middle writes no samples (C161_read_partial), and without failures it is the one of C69 (C161_healthy_read_partial).
* **C162** The accuracy of parallel rendering in double precision (proved). Modelled: sp_seq, sp_seq_parallel, sp_seq_parallel_future_f, sp_wave_event_generate, in BlockAdder, WaveAdder, SeqParallel. Proof: The samples are numbers of type double or not finite, zero is neutral, so that C158 applies. Induction over the tones and then over the events: everything stays finite and the sum of k tones at most k; the error of each sum from C157, that of each addition of a sum from the rounding lemma, none for silent events.; FloatParallel.lean. For finite values at full scale; the sign of zero is not modelled.
* **C163** Pieces rendered to files, from tones to bytes (proved). Modelled: sp_file_read, sp_file_write, sp_render_file, sp_render_range_file, sp_seq, sp_wave_event_generate, in Render, EventTree, Wave, File. Proof: C33 gives the file for any samples, C157 the error of each sample and C134 that of the conversion; both errors are bounded by multiples of the number of tones. Reading uses the lemma of C69 for each channel.; FloatFile.lean. For finite values at full scale; reading with the channel count set by the caller (see C69).
* **C164** The gain of filter kernels in double precision (proved). Modelled: sp_windowed_sinc_lp_hp_ir, sph_define_float_sum, in Filter, Spec/Float. Proof: any-sign bound of the compensated sum (C118_any_signs_partial), rounding of each division, sums over the kernel; FloatKernel.lean. The windowed sinc values are any doubles; finite values whose sum is not lost in rounding.
* **C165** Parallel groups inside of pieces (proved). Modelled: sp_block_with_offset, sp_group_free, sp_group_generate_parallel, sp_group_prepare, sp_seq_parallel, in ParallelGroup, SeqParallel, EventTree. Proof: What can come of a call is a relation over all schedules, and each call may have its own. The invariant is the one of groups (what is left of each event is ready at the time reached), for the events as sp_seq_parallel uses them; one call by C156 and C28 for any content of the block; then C22 applies to the piece.; ParallelGroup.lean. Blocks must not be empty. Equality with ordinary groups needs exact additions, as for C158.
* **C166** Scores in double precision, from tones to bytes (proved). Modelled: sp_event_schedule, sp_file_write, sp_group_add, sp_group_append, sp_render_file, sp_seq, sp_sine_period, sp_wave_event_generate, sp_wave_event_prepare, in Score, Extra (sinePeriod), WaveDefaults, EventTree, Render, File. Proof: The events of a score are built as in C148, now for samples of any type: mutual induction over the score gives a tree of wave events whose tones at each time are a permutation of the tones that sound according to the specification (Spec/Score, sounding). The sum of products of the specification does not depend on the order; C163 gives the error from the tones to the bytes, and the tones differ from those of the score by the error of the table (C81_double_partial: two roundings of the angle, the constant for pi, and the accuracy of sin) and of the envelope.; FloatScore.lean. Even sampling rates (C81). The accuracy of sin, its range and rounding to nearest are hypotheses about the platform, met by a library in the example. Envelopes between -1 and 1.
* **C167** Windowed sinc kernels in double precision (proved). Modelled: sp_sinc, sp_spectral_inversion_ir, sp_window_blackman, sp_windowed_sinc_lp_hp_ir, sp_windowed_sinc_lp_hp_ir_length, in Filter, Spec/FloatSinc. Proof: The model of the kernels is for any type of samples and is used with doubles. The error of each operation is followed to the values of window and sinc (the argument of sin has a relative error, and the sinc of it at most twice that); C164 gives the error of the compensated sum and of the division; the rest compares the scaled values with the exactly scaled exact values. The response differs at most by the sum of the differences of the elements.; FloatLowPass.lean, FloatSinc.lean. Accuracy of sin (relative) and cos is a hypothesis, shown to be satisfiable. That the sum of the exact values is not near zero is a hypothesis of the general theorems, which C167_same_sign shows for wide filters and C167_every_cutoff for all cutoffs that are not below the transition. C167_length_rounded is a case in which the rounded division changes the length.
* **C168** Filter kernels exist for every cutoff frequency (proved). Modelled: sp_sinc, sp_window_blackman, sp_windowed_sinc_bp_br_ir, sp_windowed_sinc_lp_hp_ir, in Filter. Proof: With the angle x = 2 pi cutoff, the sum times x is x + 2 sum w_d sin(d x) / d, where w_d are the values of the window at distance d from the center. The partial sums of sin(d x) / d are not negative between 0 and pi (inequality of Fejer and Jackson, proved in Lemmas/LowPass by looking at a minimum), and w_d decreases, so by partial summation the sum is at least 1.; LowPass.lean. Exact arithmetic; in double precision see C167_every_cutoff. Strengthens C08_defined.
* **C169** What filters pass and what they stop (proved). Modelled: sp_filter, sp_windowed_sinc_bp_br_ir, sp_windowed_sinc_lp_hp, sp_windowed_sinc_lp_hp_ir, sp_windowed_sinc_lp_hp_ir_length, in Filter, Spec/FloatSinc. Proof: The gain is (P(phi + x) - P(phi - x)) / (2 P(x)) with P(x) = x + 2 sum w_d sin(d x) / d, the integral of the transform of the window. The transform is a quotient with known numerator (Lemmas/LowPass windowW_mul); outside of the main lobe it is bounded by a function with a known integral, so P is within 0.02 of pi there (stepP_near). 4 / transition elements make the main lobe narrower than the transition. Band filters by C93, tones by C149, doubles by C167, with a bound for the cancellation from the harmonic sum; band kernels in doubles by the error of convolutions (C119) and sums (Lemmas/FloatBand).; FloatBand.lean, FloatLowPass.lean, FloatTone.lean, LowPass.lean. The bounds are about 43 dB; the usual figure of 74 dB for this window is not proved. Nothing is claimed inside of the transition, or for cutoff frequencies below the transition. All four kinds of kernels in exact arithmetic and in double precision; tones in exact arithmetic and in double precision, with every kernel (C169_double_tone) and from the arguments of all four kinds of filters to the output (C169_double_tone_low_pass, high_pass, band_pass, band_reject).
* **C170** Arrays of random numbers and noise (proved). Modelled: sph_random_f64_array_0to1, sph_random_f64_array_1to1, sph_random_f64_bounded_array, sph_random_u32_array, sph_random_u32_bounded_array, sph_random_u64_bounded, in RandomArray, Random. Proof: the loop for any way to draw numbers as an inductive relation, then the single functions (C42, C127, C152); an accepted number comes in every period, so drawing ends; sums over a period by counting values; RandomArray.lean. Doubles with any rounding that leaves doubles unchanged (bounded samples: to nearest). Bounded samples for ranges from 2^-1021 on (see C127). The bounded functions need enough fuel for the loop that draws again, the amount is proved to exist. sp_units_random_bounded expands to a function that does not exist.
* **C171** Approximate comparison (partial). Modelled: sph_define_float_array_nearly_equal, sph_f64_nearly_equal, in Nearly. Proof: rounding to nearest keeps the order with doubles; relative error of subtraction; witnesses; induction over the array; Nearly.lean. Numbers reported as nearly equal differ by less than the margin (exactly); those whose difference is less by more than one part in 2^53 are reported. False: in between, differences just less than the margin are rounded to it (C171_margin_false), and the margin is not a factor (C171_factor_false). Arrays as stated.
* **C172** Paths and envelopes made for events (partial). Modelled: sp_define_path_n, sp_event_envelope_zero_srq, sp_event_memory_add, sp_event_memory_free, sp_event_path_samples_srq, sp_path_times, in EventPath, EventAlloc, PathN, Envelope. Proof: invariant of the register (C131) along the list of uses, with the blocks written so far; the times paths allocate twice and free the first array. For the fixed numbers of points the status is indeterminate, so every use is undefined. Failing allocations: not noticed, because the error id is zero (C77), so the path is written through an unset variable, or over the path made before.; EventPath.lean. Proved for the macros for any number of points, when allocating the path succeeds. False for the macros for three to five points: sp_define_path_n functions have no return statement, so the status that is tested is indeterminate (C172_fixed_false). False for the envelopes with three or more points (C172_envelopes_false). False when an allocation fails, which is not noticed: the path is written through an unset variable or over an earlier path, which is then freed twice (C172_allocation_false, C172_double_free). sp_event_envelope_scaled_c3 to c5 use functions that do not exist.
* **C173** Scores rendered in parallel with numbers of type double (proved). Modelled: sp_group_add, sp_seq_parallel, sp_sine_period, sp_wave_event_generate, in Score, Wave, SeqParallel, EventTree. Proof: tones of the events are a permutation of the tones that sound in the score (C148), C162 bounds the rounding of the sums of every schedule, C81_double_partial the sine table; the table has the same numbers in the type that knows about infinities.; FloatParallelScore.lean. The math library is assumed accurate to 2^-52 with results of type double between -1 and 1 (TrigAccurate); the table of sp_sine_period is computed in rounded arithmetic and used as numbers that may also be infinite.
* **C174** Tones of the library through filters of the library (proved). Modelled: sp_convolution_filter, sp_initialize, sp_sine, sp_windowed_sinc_bp_br, sp_windowed_sinc_lp_hp, in ToneProgram, WaveDefaults, Filter, ConvolutionFilter. Proof: C113_double_sine_partial by induction over the blocks with the phase modulo the sampling rate: the samples are within 2^-47 of the sine; then the theorems of C169 about tones in double precision.; FloatToneProgram.lean. All four kinds of filters. The amplitude modulation of sp_sine is constantly one, because without one the amplitude is squared (C12).
* **C175** Several tones together through filters of the library (proved). Modelled: sp_convolution_filter, sp_initialize, sp_sine, sp_windowed_sinc_bp_br, sp_windowed_sinc_lp_hp, in ToneProgram, WaveDefaults, Filter, ConvolutionFilter. Proof: induction over the tones of a block and over the blocks, with an error bound that grows with the square of the number of tones; convolution with the kernel is linear, so that the responses of C169 add up; rounding of the convolution as in C169_double_tone (signal_through).; FloatChord.lean. All four kinds of filters. Nothing is claimed about tones inside of the transitions.
* **C176** Failing allocations in filters are reported (partial). Modelled: sp_convolution_filter_state_set, sph_helper_primitive_realloc, in FilterAlloc. Proof: false because failing allocations have the status of success (C77): the exact condition under which a call has a result, by cases over states with an invariant of the sizes; that the sizes suffice, by induction over the calls; FilterAlloc.lean. False of the code: a failing allocation has the status of success, and the call goes on with a pointer that was not set or a block that is too small (C176_reported_false, C176_new_defined_iff, C176_update_defined_iff). Proved: sizes of blocks for all histories, no access outside of blocks if all allocations succeed, same result as with succeeding allocations whenever there is one, agreement with the model of C105.
* **C177** The spectrum of tones shows their amplitudes (proved). Modelled: Fft_transform, sp_fft, sp_plot_spectrum_to_file, sp_sine, sp_sine_period, in ToneProgram, WaveDefaults, Fft. Proof: the discrete Fourier transform of a sine with whole periods by orthogonality of the exponentials; the samples of sp_sine as in C175; the transform in double precision by C133.; FloatSpectrum.lean. exact and in double precision; the bound for lengths that are not powers of two comes from C133
* **C178** Energy and convolution in the frequency domain (proved). Modelled: Fft_transform, sp_convolve_one, sp_fft, sp_ffti, in Fft, Convolution. Proof: C71 says that sp_fft is the discrete Fourier transform; energy from the inverse transform, convolution by writing the signals as polynomials and evaluating at the roots of unity; back with C72.; FftUse.lean. energy for every length, exact and in double precision; convolution with real numbers
* **C179** Blocks when allocations fail (partial). Modelled: sp_block_free, sp_block_new, sp_map_event_isolated_generate, sph_helper_primitive_calloc, in Block. Proof: false because failing allocations have the status of success (C77): invariant of the loop over the channels with the last array allocated; a block with an array twice cannot be freed, by an invariant of the loop that frees.; BlockAlloc.lean. False of the code: a failing allocation has the status of success. If the first fails an unset pointer is stored (C179_new_defined_iff); if a later one fails the channel is the same array as the one before (C179_channels_partial) and freeing the block frees it twice (C179_free_iff, C179_isolated_false). Proved: blocks for which no allocation failed are freed and the memory is as before.
* **C180** The spectrum of filtered tones (proved). Modelled: sp_fft, sp_filter, sp_sine, sp_windowed_sinc_bp_br, sp_windowed_sinc_lp_hp, in ToneProgram, SincFilter, ConvolutionFilter, Fft. Proof: C175 gives the samples of the output as those of the passed tones delayed, up to an error; the transform is Lipschitz in the samples, and C177's orthogonality gives the spectrum of the passed tones; rounding of the transform by C133.; FilterSpectrum.lean. Bounds: three times the error of C175 plus the rounding of the transform.
* **C181** Seeds and the published generators (proved). Modelled: sp_random_state_new, sph_random_state_new, sph_random_u64, in Random. Proof: the published algorithms are stated with natural numbers (Spec/Random.lean) and compared with the model word by word; differences from injectivity of the mixing function and of the step; existence of a seed from injectivity on a finite type.; RandomSeed.lean. The published algorithms are in Spec/Random.lean, with the constants as published.
* **C182** Adding events and making configurations when allocations fail (partial). Modelled: sp_event_list_add, sp_group_add, sp_group_append, sp_map_event_config_new_n, sp_noise_event_config_new_n, sp_wave_event_config_new_n, sph_helper_primitive_malloc, in ListAlloc, Group, EventList. Proof: false because failing allocations have the status of success (C77): what happens instead is proved by cases of the allocation; sequences of calls by induction with the invariant of well-formed lists; configurations by an invariant of the loop over the elements.; ListAlloc.lean. False of the code for failing allocations: the status is success (C77), list elements are written through an address that has not been set (C182_list_add_iff, C182_group), and configurations made before are overwritten (C182_config_new_false). Proved: the exact condition for a result, sequences of calls, and the behaviour when allocations succeed.
* **C183** The spectrum of a filter kernel is the frequency response of the filter (proved). Modelled: Fft_transform, sp_fft, sp_windowed_sinc_bp_br_ir, sp_windowed_sinc_lp_hp_ir, in SincFilter, Fft. Proof: the sum of the transform over the kernel with zeros behind it is the sum of the response (C71); in double precision C133 gives the error of the transform from the size of the kernel, and C169 the response of the kernels.; KernelSpectrum.lean. exact for real numbers, and for numbers of type double with the error of the transform; all four kinds of windowed sinc kernels
* **C184** Reading and writing sound files when allocations fail (partial). Modelled: sp_file_read, sp_file_write, sph_helper_primitive_malloc, in FileAlloc, File. Proof: false because failing allocations have the status of success (C77): file_data stays null and is written to or passed to fread; with successful allocations the loops are related to those of File by an embedding of states, and the memory is compared address by address; sequences of calls by induction.; FileAlloc.lean. False of the code for failing allocations: the status is success (C77) and the null pointer is written to (C184_write_false) or passed to fread (C184_read_false), so that a sequence of writes is defined exactly if all allocations succeed (C184_write_each). Partial: with successful allocations as C69 and C160, and memory is as before. Writing no samples has the status of a failed write either way (C184_write_nothing).
* **C185** All compositions and permutations when allocations fail (partial). Modelled: sp_times_compositions, sp_times_permutations, sph_helper_primitive_calloc, sph_helper_primitive_malloc, in CompositionsAlloc, PermutationsAlloc, ArrayHeap. Proof: false because failing allocations have the status of success (C77): an invariant of the loop gives that the pointer of a result that could not be allocated is that of the result before, and then releasing the results frees an array twice; with successful allocations the function is equal to that of ArrayHeap step by step.; CompositionsAlloc.lean, PermutationsAlloc.lean. False of the code: a call that returns always has the status of success; the first arrays and the first result must have been allocated or the call is undefined, and for each later result that could not be allocated the array of the result before is overwritten and given twice, so that releasing is undefined (C185_compositions_false, C185_permutations_false). Partial: if all allocations succeed these are the functions of C142 (whose permutations have the wrong content, see C62).
* **C186** Functions with one new array when the allocation fails (partial). Modelled: arrays_template, define_sp_stat_median, sp_samples_to_times_replace, sp_times_constant, sp_times_random_binary, sp_times_scale, sp_times_to_samples_replace, sph_helper_primitive_calloc, in ArrayAlloc, CompositionsAlloc, ArrayHeap. Proof: false for the functions that use the allocation helpers, because failing allocations have the status of success (C77): for all arguments the pointer that has not been set is used (C186_false). If the allocation succeeds, the models are those of C142 with the status, by equations between the programs. The median tests the result of malloc itself and reports the failure.; ArrayAlloc.lean. False of all functions but the median: if the allocation fails no status is returned and a pointer that has not been set is used (C186_false). Partial: if the allocation succeeds the result is that of C142. sp_stat_times_median reports the failure and leaves memory as it was (C186_median).

## Axioms

Axioms each property theorem depends on, from `#print axioms` (theorem names without the prefix `Sp.`). 

* none: C15_square_refuted, C16_prepare_empty_undefined, C22_mixed_left, C22_mixed_right, C39_deinitialize_twice_false, C69_missing_file_false, C77_allocation_failure_not_reported, C77_block_new_aliases, C107_duration_false, C109_render_failure_leak, C111_end_set_false, C132_other_groups, C132_names_false, C132_memory_undefined, C182_group, C182_map_config_new.
* propext: C03_needs_carryover_space, C05_stale_impulse_response, C05_use_after_failed_update, C06_carryover_lost, C12_no_amod_refuted, C24_failing_prepare, C25_failing_prepare_leaks, C26_no_deadlock, C27_malformed_false, C28_failing_event_false, C38_result, C43_swap_large_index, C45_more_than_available_reads_unset, C50_zero, C53_and_false, C54_cusum_zero_count, C57_same_pointer_wrong, C58_extract_false, C64_sum_zero, C96_times_scale_y_false, C97_duplicate, C101_missing_envelope, C102_group_seeds_false, C102_modulation_false, C104_mixed_false, C109_not_begun_leak, C109_map_failure_leak, C130_segments_get_twice_false, C130_copy_false, C146_no_memory, C182_group_succeeds.
* Quot.sound, propext: C05_own_impulse_response_partial, C05_failure_reported, C06_keeps_all_of_growing, C10_wave_phase, C10_phase, C10_phase_float, C11_wave_blocks, C12_amod_partial, C12_no_amod_partial, C15_square_partial, C15_square_periodic_partial, C30_tiles_partial, C30_zero_duration_undefined, C34_narrow_overflow, C39_reinitialize_false, C39_reinitialize_partial, C43_pointer_swap_on_times, C49_range, C49_min, C49_max, C52_reverse_out_of_bounds, C57_random_size, C59_times_absolute_max, C66_permutations_all, C67_modulo_match, C68_empty_write, C69_status_false, C77_block_new_uses_unset_pointer, C77_event_memory_partial, C78_block_free_partial, C88_thread_count_partial, C88_thread_count_false, C100_large_block_overflow, C103_inner_ring_endless, C105_failed_update_double_free, C107_duration_partial, C107_hz_samples, C107_hz_above_rate_undefined, C108_plays, C108_failure, C109_map_freed, C110_pointers, C111_schedule_partial, C111_schedule_length, C128_prepare_fails, C131_uninitialized, C146_add_full_false, C146_data_last_partial, C151_events_left, C154_reordered_stores_false, C154_race_false, C155_success, C155_thread_error, C155_threads_end, C155_second_try_partial, C155_second_try_false, C155_mutex_false, C155_no_task_false, C155_deinit_false, C155_table_false, C159_same_seed_false, C159_any_order_false, C159_locked_partial, C160_block_undefined, C160_read_undefined, C161_healthy_read_partial, C161_read_partial, C172_allocation_false, C176_new_defined_iff, C176_update_defined_iff, C179_new_defined_iff, C181_seed, C181_words_differ, C182_config_new_partial, C182_config_new_false, C182_config_new_unset, C184_write_partial, C184_write_false, C184_write_nothing, C184_read_partial, C184_read_false, C185_compositions_partial, C185_permutations_partial.
* Classical.choice, Quot.sound, propext: all other theorems listed in MANIFEST.json (580).
