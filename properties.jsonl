{"id": "C01", "title": "sp_convolve_one is discrete linear convolution", "statement": "With out all zeros and of length at least a_len+b_len-1, sp_convolve_one leaves out[k] = sum over i+j=k of a[i]*b[j] for every k, leaves samples past a_len+b_len-2 unchanged, reads only a[0,a_len) and b[0,b_len) and never writes elsewhere.", "quantifier": "all input arrays, all lengths, every output index (exact arithmetic for the sum formula)", "why_tests_cant": "the claim ranges over all lengths and contents; tests fix a few small arrays", "anchors": ["source/c-precompiled/sph-sp/main.c:sp_convolve_one"]}
{"id": "C02", "title": "Block-wise convolution equals one-shot convolution, bit for bit", "statement": "Feeding a signal to sp_convolve in consecutive blocks, passing the carryover along (carryover_len 0 for the first call, b_len-1 afterwards), yields exactly the samples that one convolution of the whole signal yields, and the final carryover is exactly the tail. Equality is of the individual machine results: it needs no law of addition or multiplication, so it holds for floating point too.", "quantifier": "every signal, every impulse response, every division into blocks (including empty blocks and blocks shorter than the impulse response), every number of blocks", "why_tests_cant": "there are unboundedly many ways to divide an unbounded stream", "anchors": ["source/c-precompiled/sph-sp/main.c:sp_convolve", "source/c-precompiled/sph-sp/main.c:sp_convolve_one"]}
{"id": "C03", "title": "sp_convolve stays inside its arrays", "statement": "Called with b_len >= 1 and arrays of the documented lengths (out: a_len, carryover: at least max(b_len-1, carryover_len)), sp_convolve never reads or writes outside them, for any combination of lengths that does not overflow 32 bit sums.", "quantifier": "all lengths a_len, b_len, carryover_len and contents", "why_tests_cant": "out-of-bounds accesses for unusual length combinations are usually silent in tests", "anchors": ["source/c-precompiled/sph-sp/main.c:sp_convolve"]}
{"id": "C04", "title": "The convolution filter is seamless while its parameters stay the same", "statement": "Calling sp_convolution_filter with the same impulse response function and arguments over any division of a stream into blocks, starting from a null state, returns exactly the samples of convolving the whole stream with that impulse response; the impulse response function is called only for the first block.", "quantifier": "every deterministic impulse response function, argument block, stream and division into blocks", "why_tests_cant": "quantifies over all streams and divisions and over arbitrary callback functions", "anchors": ["source/c-precompiled/sph-sp/filter.c:sp_convolution_filter", "source/c-precompiled/sph-sp/filter.c:sp_convolution_filter_state_set"]}
{"id": "C05", "title": "Each filter call uses the impulse response of its own arguments", "statement": "After every call of sp_convolution_filter the impulse response that was applied is the one the passed function computes for the passed arguments, whatever the history of earlier calls on the state was.", "quantifier": "every history of calls with arbitrary functions and arguments on one state", "why_tests_cant": "a stale impulse response needs a particular history of calls; tests use one or two calls", "anchors": ["source/c-precompiled/sph-sp/filter.c:sp_convolution_filter_state_set"]}
{"id": "C06", "title": "Changing the impulse response between blocks loses no carried over samples", "statement": "When the impulse response (and its length) changes between calls, the samples the filter carried over from earlier blocks are all still delivered, each at its right time.", "quantifier": "every sequence of blocks, block sizes and impulse responses of varying length", "why_tests_cant": "depends on the relation of three lengths over a history of calls", "anchors": ["source/c-precompiled/sph-sp/filter.c:sp_convolution_filter", "source/c-precompiled/sph-sp/filter.c:sp_convolution_filter_state_set", "source/c-precompiled/sph-sp/main.c:sp_convolve"]}
{"id": "C07", "title": "Spectral inversion and reversal do what they say to the frequency response", "statement": "For an odd-length kernel with left-right symmetry, sp_spectral_inversion_ir turns the frequency response H into (pure delay - H), and sp_spectral_reversal_ir gives the response mirrored at a quarter of the sampling rate; each applied twice gives back the original kernel; only the documented elements are touched.", "quantifier": "all kernels of odd length and all frequencies", "why_tests_cant": "a statement about a continuum of frequencies and all kernels", "anchors": ["source/c-precompiled/sph-sp/main.c:sp_spectral_inversion_ir", "source/c-precompiled/sph-sp/main.c:sp_spectral_reversal_ir"]}
{"id": "C08", "title": "Windowed sinc kernels: odd length, symmetry, and gain at frequency zero", "statement": "The low-pass kernel has odd length at least 4/transition, is symmetric about its center, and its samples sum to one; the high-pass kernel has the same length and symmetry and sums to zero; a band-reject kernel sums to one and a band-pass kernel to zero whenever both cutoffs are inside the range.", "quantifier": "all cutoffs and transitions for which the unnormalised kernel sum is not zero (real arithmetic)", "why_tests_cant": "a statement about a continuum of parameters", "anchors": ["source/c-precompiled/sph-sp/filter.c:sp_windowed_sinc_lp_hp_ir", "source/c-precompiled/sph-sp/filter.c:sp_windowed_sinc_bp_br_ir", "source/c-precompiled/sph-sp/filter.c:sp_windowed_sinc_lp_hp_ir_length", "source/c-precompiled/sph-sp/filter.c:sp_window_blackman"]}
{"id": "C09", "title": "sp_moving_average is the centered window mean with the documented extension", "statement": "out[i] is the mean over the window of width 2*radius+1 around i of the input, extended on the left by prev (or, when missing, by point reflection at the first sample) and on the right by next (or by point reflection at the last sample).", "quantifier": "all inputs, all radii with width smaller than in_size, all four combinations of present/missing prev and next", "why_tests_cant": "a running-sum algorithm with four regions; correctness is an induction over positions", "anchors": ["source/c-precompiled/sph-sp/filter.c:sp_moving_average"]}
{"id": "C10", "title": "Oscillator phase never leaves the waveform", "statement": "Whatever frequencies are given (including values that overflow 32 bit addition), every sample sp_wave reads from the waveform is at an index below wvf_size, provided the initial phase is, and the phase written back is again below wvf_size; sp_phase and sp_phase_float return values below cycle.", "quantifier": "all phases, frequency values and modulation arrays, any number of samples", "why_tests_cant": "an invariant over an unbounded number of steps with 32 bit wrap-around", "anchors": ["source/c-precompiled/sph-sp/main.c:sp_wave", "source/c-precompiled/sph-sp/main.c:sp_phase", "source/c-precompiled/sph-sp/main.c:sp_phase_float"]}
{"id": "C11", "title": "sp_wave over consecutive blocks equals one call", "statement": "Rendering n+m samples with one call of sp_wave gives bit for bit the same output and final phase as rendering n samples and then m samples with the phase state and advanced modulation arrays.", "quantifier": "all waveforms, modulations, amplitudes and all split points", "why_tests_cant": "quantifies over all splits of an unbounded stream", "anchors": ["source/c-precompiled/sph-sp/main.c:sp_wave"]}
{"id": "C12", "title": "sp_wave adds amp times the waveform when no amplitude modulation is given", "statement": "sp_wave adds amp*amod[i]*waveform(phase) when amod is given and amp*waveform(phase) when amod is null.", "quantifier": "all amplitudes and waveforms", "why_tests_cant": "must hold for every amplitude; tests use amplitude 1, for which the defect is invisible", "anchors": ["source/c-precompiled/sph-sp/main.c:sp_wave", "other/documentation/c-manual.md"]}
{"id": "C13", "title": "Wave events are seamless over blocks and stay inside the waveform", "statement": "sp_wave_event_generate called over any consecutive ranges start..end gives bit for bit the output and channel phases of one call over the whole range; each waveform read is at an index below wvf_size; only samples 0..(end-start) of the configured channels change.", "quantifier": "all channel configurations, modulations and divisions of the event duration", "why_tests_cant": "quantifies over all divisions and configurations", "anchors": ["source/c-precompiled/sph-sp/sequencer.c:sp_wave_event_generate"]}
{"id": "C14", "title": "Wave event channel defaults are inherited from the first channel", "statement": "After sp_wave_event_prepare, every channel with use unset plays exactly as the first channel does except for its own target channel, and every used channel keeps all values it had set and takes amod, pmod, fmod and frq from the first channel where it had none.", "quantifier": "all channel configurations and channel counts", "why_tests_cant": "ranges over all combinations of set and unset fields", "anchors": ["source/c-precompiled/sph-sp/sequencer.c:sp_wave_event_prepare"]}
{"id": "C15", "title": "sp_square and sp_triangle are periodic and bounded", "statement": "sp_square(t,size) is -1 in the first half and 1 in the second half of each period of size samples; sp_triangle(t,a,b) is periodic with a+b, starts at 0, rises to 1 at t=a, falls back to 0, and always stays in 0..1.", "quantifier": "all times and sizes", "why_tests_cant": "must hold for every time value including those where 2*t overflows", "anchors": ["source/c-precompiled/sph-sp/main.c:sp_square", "source/c-precompiled/sph-sp/main.c:sp_triangle"]}
{"id": "C16", "title": "The event list is sorted and stable", "statement": "After any sequence of sp_event_list_add calls followed by sp_seq_events_prepare, the list holds exactly the added events, sorted by ascending start, and events with the same start are in the order in which they were added; all next/previous links agree with each other.", "quantifier": "all sequences of added events, any length and start times", "why_tests_cant": "pointer structure invariant over unbounded histories", "anchors": ["source/c-precompiled/sph-sp/sequencer.c:sp_event_list_add", "source/c-precompiled/sph-sp/sequencer.c:sp_event_list_reverse"]}
{"id": "C17", "title": "Removing a list element unlinks exactly that element and frees it once", "statement": "sp_event_list_remove on any element of a well-formed list leaves a well-formed list of the other elements in the same order, calls the event's free function once if there is one, frees the element once, and touches no other element than its neighbours.", "quantifier": "all lists and every position in them", "why_tests_cant": "pointer manipulation at every position of every list", "anchors": ["source/c-precompiled/sph-sp/sequencer.c:sp_event_list_remove"]}
{"id": "C18", "title": "Freeing an event list frees every event and element exactly once", "statement": "sp_event_list_free calls each event's free function exactly once, frees each element exactly once, never touches freed memory and leaves the empty list.", "quantifier": "all event lists", "why_tests_cant": "absence of double free and leaks for lists of every length", "anchors": ["source/c-precompiled/sph-sp/sequencer.c:sp_event_list_free"]}
{"id": "C19", "title": "Sequencing over consecutive blocks covers each event exactly", "statement": "When sp_seq is called for consecutive blocks, each event's generate function is called for consecutive event-relative ranges that together cover exactly the part of the event inside the rendered time, without gap or overlap, each with the output pointer at the sample where that part begins, and never for times outside the event.", "quantifier": "all event lists sorted by start, all divisions of time into blocks", "why_tests_cant": "off-by-one errors at block boundaries depend on the relative position of event and block edges", "anchors": ["source/c-precompiled/sph-sp/sequencer.c:sp_seq"]}
{"id": "C20", "title": "Each event is prepared exactly once, before it is first generated", "statement": "Over any number of sp_seq calls each event's prepare function is called at most once, exactly once if any part of the event is rendered, and before the first generate call of that event; events that are not reached are not prepared.", "quantifier": "all event lists and all sequences of blocks", "why_tests_cant": "a property of whole call histories", "anchors": ["source/c-precompiled/sph-sp/sequencer.c:sp_seq", "source/c-precompiled/sph-sp/sequencer.h:sp_event_prepare_optional_srq"]}
{"id": "C21", "title": "sp_seq frees finished events, and all of them on error", "statement": "An event is freed (its free function called once and its list element released) at the first sp_seq call whose block starts at or after the event's end, never earlier and never twice; if any generate or prepare function fails, sp_seq returns that status and all remaining events are freed exactly once and the list is empty.", "quantifier": "all event lists, block sequences and failure points", "why_tests_cant": "quantifies over all histories and over every point at which a callback can fail", "anchors": ["source/c-precompiled/sph-sp/sequencer.c:sp_seq", "source/c-precompiled/sph-sp/sequencer.c:sp_event_list_free"]}
{"id": "C22", "title": "Rendering does not depend on how time is divided into blocks", "statement": "For events whose generate functions are themselves seamless (wave events, groups of such events, nested to any depth), rendering a time range with sp_seq block by block gives bit for bit the same samples as rendering it at once.", "quantifier": "all event trees of any depth, all divisions of time into blocks", "why_tests_cant": "quantifies over event trees and divisions of unbounded size", "anchors": ["source/c-precompiled/sph-sp/sequencer.c:sp_seq", "source/c-precompiled/sph-sp/sequencer.c:sp_group_generate"]}
{"id": "C23", "title": "sp_seq writes only inside the requested block", "statement": "If each event's generate function writes only the samples of the range it was asked for, sp_seq(start,end,out) changes only samples 0..(end-start) of out, although offset blocks are passed on with their original size field.", "quantifier": "all event lists, block bounds and well-behaved generate functions", "why_tests_cant": "memory safety for all relative positions of events and block", "anchors": ["source/c-precompiled/sph-sp/sequencer.c:sp_seq", "source/c-precompiled/sph-sp/main.c:sp_block_with_offset"]}
{"id": "C24", "title": "Groups last until their last event ends; appending plays one after the other", "statement": "After any sequence of sp_group_add calls the group end is the maximum of its previous end and all event ends; after sp_group_append the event keeps its duration, starts at the previous group end plus its own start offset, and becomes the group's new end.", "quantifier": "all sequences of additions whose times do not overflow 32 bits", "why_tests_cant": "holds over unbounded histories of additions", "anchors": ["source/c-precompiled/sph-sp/sequencer.c:sp_group_add", "source/c-precompiled/sph-sp/sequencer.c:sp_group_append"]}
{"id": "C25", "title": "Memory registered by a failing prepare function is freed", "statement": "If an event's prepare function registers memory with the event and then fails, sp_seq frees all memory registered with the event before it returns the error.", "quantifier": "all events and failure points of prepare", "why_tests_cant": "resource leaks on error paths are not visible in test results", "anchors": ["source/c-precompiled/sph-sp/sequencer.c:sp_seq", "source/c-precompiled/sph-sp/sequencer.c:sp_event_memory_add_with_handler"]}
{"id": "C26", "title": "Parallel sequencing gives the result of sequential sequencing under every schedule", "statement": "For independent events sp_seq_parallel produces, whatever the order and interleaving in which the worker threads run, the same output block as sp_seq (up to the association of additions), and the same remaining event list.", "quantifier": "all event lists, numbers of threads and interleavings", "why_tests_cant": "tests see only a few of the possible schedules", "anchors": ["source/c-precompiled/sph-sp/sequencer.c:sp_seq_parallel", "source/c-precompiled/sph-sp/sequencer.c:sp_seq_parallel_future_f"]}
{"id": "C27", "title": "sp_seq_parallel starts as many futures as it made room for", "statement": "The number of futures created equals the number of array slots allocated, so no slot is written past the array and no unset slot is waited for.", "quantifier": "all event lists, including events whose end is before their start", "why_tests_cant": "memory safety for all event times", "anchors": ["source/c-precompiled/sph-sp/sequencer.c:sp_seq_parallel"]}
{"id": "C28", "title": "When one parallel event fails, no running event loses its memory", "statement": "If the generate function of one event fails, sp_seq_parallel does not free output blocks, futures or events that another thread may still be using.", "quantifier": "all schedules and failing events", "why_tests_cant": "a race between error cleanup and running threads", "anchors": ["source/c-precompiled/sph-sp/sequencer.c:sp_seq_parallel"]}
{"id": "C29", "title": "Rendering nested parallel groups terminates", "statement": "Rendering event trees with parallel groups in parallel groups finishes for every number of worker threads: waiting for a sub-event never prevents that sub-event from being run.", "quantifier": "all nesting depths, thread counts and schedules", "why_tests_cant": "deadlock depends on the number of threads and on the schedule", "anchors": ["source/c-precompiled/sph-sp/sequencer.c:sp_group_generate_parallel", "source/c/foreign/sph-sc-lib/sph-sp/futures.c:sph_future_touch", "source/c/foreign/sph-sc-lib/sph-sp/thread-pool.c:sph_thread_pool_worker"]}
{"id": "C30", "title": "Sub-block generation tiles the requested range", "statement": "sp_event_block_generate calls the given function for consecutive sub-blocks of at most the given resolution whose lengths sum to exactly the requested duration, at consecutive block and event offsets, in order, and stops at the first failure; zero durations are handled.", "quantifier": "all start, end and resolution values", "why_tests_cant": "arithmetic boundary cases over all 32 bit values", "anchors": ["source/c-precompiled/sph-sp/sequencer.c:sp_event_block_generate"]}
{"id": "C31", "title": "Event memory handlers run exactly once", "statement": "For any sequence of sp_event_memory_add / ensure / fixed_add calls followed by sp_event_memory_free, every registered address is passed exactly once to its handler, in order of registration, the register never overflows, and freeing again does nothing.", "quantifier": "all sequences of registrations of any length and all ensured sizes that are respected", "why_tests_cant": "growth of the register over unbounded histories", "anchors": ["source/c-precompiled/sph-sp/sequencer.c:sp_event_memory_add_with_handler", "source/c-precompiled/sph-sp/sequencer.c:sp_event_memory_ensure", "source/c-precompiled/sph-sp/sequencer.c:sp_event_memory_fixed_add_with_handler", "source/c-precompiled/sph-sp/sequencer.c:sp_event_memory_free", "source/c/foreign/sph-sc-lib/sph-sp/array3.h"]}
{"id": "C32", "title": "Isolated map events do not touch the main output", "statement": "With isolation the wrapped event writes to a zeroed temporary block only, the map function receives exactly what the wrapped event generated, and the main output changes only by what the map function writes; the temporary block is freed on every path.", "quantifier": "all wrapped events, map functions and blocks", "why_tests_cant": "ranges over arbitrary callbacks and failure points", "anchors": ["source/c-precompiled/sph-sp/sequencer.c:sp_map_event_isolated_generate", "source/c-precompiled/sph-sp/sequencer.c:sp_map_event_generate"]}
{"id": "C33", "title": "Rendering a time range to a file writes that range", "statement": "sp_render_range_file(event,start,end) writes exactly the samples of event times start..end to the file, the same as rendering them at once, for every block size.", "quantifier": "all events, ranges and block sizes", "why_tests_cant": "quantifies over all ranges and block sizes", "anchors": ["source/c-precompiled/sph-sp/main.c:sp_render_range_file"]}
{"id": "C34", "title": "Noise events release what they allocate", "statement": "The temporary buffers and filter states that a noise event allocates in its prepare function are released when the sequencer frees the event.", "quantifier": "all noise event configurations", "why_tests_cant": "leaks are not visible in results", "anchors": ["source/c-precompiled/sph-sp/sequencer.c:sp_noise_event_prepare", "source/c-precompiled/sph-sp/sequencer.c:sp_noise_event_free", "source/c-precompiled/sph-sp/sequencer.h:sp_noise_event"]}
{"id": "C35", "title": "The queue is first in first out", "statement": "Any sequence of enqueue and dequeue operations (dequeue only when not empty) behaves as a first-in-first-out list, and size is the number of contained nodes.", "quantifier": "all operation sequences", "why_tests_cant": "pointer invariant over unbounded histories", "anchors": ["source/c/foreign/sph-sc-lib/sph-sp/queue.h:sph_queue_enq", "source/c/foreign/sph-sc-lib/sph-sp/queue.h:sph_queue_deq"]}
{"id": "C36", "title": "Every enqueued task is run exactly once, in order of enqueueing", "statement": "Under every schedule, each task given to the thread pool is taken by exactly one worker, tasks are taken in the order they were enqueued, no task is lost or duplicated, and a worker only takes a task while the queue is not empty, also with spurious wakeups.", "quantifier": "all schedules, numbers of threads and tasks", "why_tests_cant": "tests see few schedules", "anchors": ["source/c/foreign/sph-sc-lib/sph-sp/thread-pool.c:sph_thread_pool_enqueue", "source/c/foreign/sph-sc-lib/sph-sp/thread-pool.c:sph_thread_pool_worker"]}
{"id": "C37", "title": "Finishing the pool waits for all tasks and ends all workers", "statement": "When sph_thread_pool_finish with waiting returns, every task enqueued before has been completed and every worker thread has ended.", "quantifier": "all schedules, numbers of threads and tasks", "why_tests_cant": "tests see few schedules", "anchors": ["source/c/foreign/sph-sc-lib/sph-sp/thread-pool.c:sph_thread_pool_finish", "source/c/foreign/sph-sc-lib/sph-sp/thread-pool.c:sph_thread_finish"]}
{"id": "C38", "title": "Futures return the value of their function", "statement": "sph_future_touch returns only after the future's function has returned, and returns exactly its result, under every schedule.", "quantifier": "all schedules, functions and numbers of futures", "why_tests_cant": "tests see few schedules", "anchors": ["source/c/foreign/sph-sc-lib/sph-sp/futures.c:sph_future_touch", "source/c/foreign/sph-sc-lib/sph-sp/futures.c:sph_future_eval", "source/c/foreign/sph-sc-lib/sph-sp/futures.c:sph_future_new"]}
{"id": "C39", "title": "The library can be initialised again after deinitialisation", "statement": "After sp_deinitialize, sp_initialize sets up a working thread pool again, and futures created afterwards are eventually run.", "quantifier": "all sequences of initialise and deinitialise calls", "why_tests_cant": "a property of call histories; the failure shows as a hang", "anchors": ["source/c/foreign/sph-sc-lib/sph-sp/futures.c:sph_future_init", "source/c/foreign/sph-sc-lib/sph-sp/futures.c:sph_future_deinit", "source/c-precompiled/sph-sp/main.c:sp_initialize", "source/c-precompiled/sph-sp/main.c:sp_deinitialize"]}
{"id": "C40", "title": "The random generator never degenerates", "statement": "For every seed the generator state is never all zeros, now or after any number of draws, and distinct states stay distinct (the state transition is a bijection), so no state is absorbing.", "quantifier": "all 2^64 seeds and any number of draws", "why_tests_cant": "2^256 states cannot be enumerated", "anchors": ["source/c/foreign/sph-sc-lib/sph-sp/random.c:sph_random_state_new", "source/c/foreign/sph-sc-lib/sph-sp/random.c:sph_random_u64", "source/c/foreign/sph-sc-lib/sph-sp/random.c:sph_random_f64_bounded"]}
{"id": "C41", "title": "Bounded random integers are in range and exactly uniform", "statement": "For every range > 0 the result is below range, and over the 2^64 possible raw draws exactly the same number lead to each result (the rest being redrawn), so the result is exactly uniform.", "quantifier": "all ranges and all raw draws", "why_tests_cant": "uniformity over 2^64 draws cannot be counted by testing", "anchors": ["source/c/foreign/sph-sc-lib/sph-sp/random.c:sph_random_u64_bounded"]}
{"id": "C42", "title": "Random floats lie in their documented half-open ranges", "statement": "sph_random_f64 and _0to1 lie in [0,1), _1to1 in [-1,1), each value is a multiple of 2^-53 (2^-52 for the latter) and every such multiple is produced by equally many raw draws; the float operations used are exact.", "quantifier": "all generator states", "why_tests_cant": "cannot enumerate 2^256 states", "anchors": ["source/c/foreign/sph-sc-lib/sph-sp/random.c:sph_random_f64", "source/c/foreign/sph-sc-lib/sph-sp/random.c:sph_random_f64_bounded", "source/c/foreign/sph-sc-lib/sph-sp/random.c:sph_random_f64_1to1", "source/c/foreign/sph-sc-lib/sph-sp/random.c:sph_random_f64_0to1"]}
{"id": "C43", "title": "Shuffling permutes, and reaches every permutation equally often", "statement": "sp_times_shuffle rearranges the array into a permutation of itself for every random outcome; over all combinations of the bounded random draws each of the count! rearrangements occurs exactly once. The same for sp_samples_shuffle, and for arrays of pointers with sp_shuffle and sp_times_shuffle_swap.", "quantifier": "all arrays and all sequences of draws", "why_tests_cant": "count! outcomes", "anchors": ["source/c-precompiled/sph-sp/arrays.c:sp_shuffle", "source/c-precompiled/sph-sp/arrays-template.c:sp_##type_name##_shuffle", "source/c-precompiled/sph-sp/arrays-template.c:sp_##type_name##_swap", "source/c-precompiled/sph-sp/arrays.c:sp_times_shuffle_swap"]}
{"id": "C44", "title": "Discrete random numbers follow the given distribution", "statement": "For cumulative sums of a distribution with positive total, sp_time_random_discrete returns an index below the size, never an index with probability zero, and over the equally likely deviates index i is returned for exactly as many as its weight.", "quantifier": "all distributions and all deviates", "why_tests_cant": "exact proportions over all deviates", "anchors": ["source/c-precompiled/sph-sp/arrays.c:sp_time_random_discrete", "source/c-precompiled/sph-sp/arrays.c:sp_times_random_discrete"]}
{"id": "C45", "title": "Unique discrete random numbers are unique", "statement": "When sp_times_random_discrete_unique returns, the written numbers are distinct valid indices, for every sequence of random outcomes.", "quantifier": "all random outcomes, sizes and distributions", "why_tests_cant": "a property of every possible random run", "anchors": ["source/c-precompiled/sph-sp/arrays.c:sp_times_random_discrete_unique"]}
{"id": "C46", "title": "quicksort sorts", "statement": "For every array and every strict weak order, quicksort over 0..size-1 terminates, calls less and swap only with indices inside that range, and leaves a sorted permutation of the input.", "quantifier": "all arrays and comparison functions", "why_tests_cant": "all inputs of all sizes; boundary behaviour of the partition loop with moving pivot index", "anchors": ["source/c/foreign/sph-sc-lib/sph-sp/quicksort.h:quicksort"]}
{"id": "C47", "title": "Median", "statement": "sp_stat_times_median and sp_stat_samples_median return the middle value of the sorted input, or the mean of the two middle values for even sizes, and do not modify the input.", "quantifier": "all non-empty inputs", "why_tests_cant": "all inputs; the existing defect shows only for odd sizes", "anchors": ["source/c-precompiled/sph-sp/statistics.c:define_sp_stat_median"]}
{"id": "C48", "title": "Mean, deviation, skewness, kurtosis and center follow their formulas", "statement": "The statistics functions return the documented formulas (mean, population standard deviation, skewness, kurtosis, center of mass) of the input, provided 32 bit sums of times do not overflow.", "quantifier": "all non-empty inputs (real arithmetic)", "why_tests_cant": "formulas over all inputs", "anchors": ["source/c-precompiled/sph-sp/statistics.c:sp_stat_times_mean", "source/c-precompiled/sph-sp/statistics.c:define_sp_stat_deviation", "source/c-precompiled/sph-sp/statistics.c:define_sp_stat_skewness", "source/c-precompiled/sph-sp/statistics.c:define_sp_stat_kurtosis", "source/c-precompiled/sph-sp/statistics.c:sp_stat_times_center", "source/c-precompiled/sph-sp/statistics.c:sp_stat_samples_center"]}
{"id": "C49", "title": "Range, minimum and maximum", "statement": "sp_stat_*_range, sp_times_min/max and sp_samples_min/max return values that occur in the input and bound all of it, and range is their difference.", "quantifier": "all non-empty inputs", "why_tests_cant": "all inputs of all sizes", "anchors": ["source/c-precompiled/sph-sp/statistics.c:define_sp_stat_range", "source/c-precompiled/sph-sp/arrays-template.c:sp_##type_name##_min", "source/c-precompiled/sph-sp/arrays-template.c:sp_##type_name##_max"]}
{"id": "C50", "title": "The compensated sum sums", "statement": "sph_f64_sum reads each of the len elements exactly once and in exact arithmetic returns their sum, for every len >= 1; len 0 is out of contract.", "quantifier": "all inputs and lengths", "why_tests_cant": "all lengths; the loop runs downwards over an unsigned counter", "anchors": ["source/c/foreign/sph-sc-lib/sph-sp/float.h:sph_define_float_sum"]}
{"id": "C51", "title": "Element-wise array functions change exactly count elements", "statement": "Each of the element-wise functions (square, add, multiply, divide, set, subtract, copy, range and the array-with-array variants) applies its operation to each of the first count elements exactly once and changes nothing else; subtraction of times stops at zero instead of wrapping.", "quantifier": "all arrays, counts and values", "why_tests_cant": "all inputs of all sizes", "anchors": ["source/c-precompiled/sph-sp/arrays-template.c:arrays_template"]}
{"id": "C52", "title": "sp_times_reverse and sp_samples_reverse reverse", "statement": "The reverse functions write the input in reverse order to out[0..count) and stay inside it.", "quantifier": "all arrays", "why_tests_cant": "all sizes", "anchors": ["source/c-precompiled/sph-sp/arrays-template.c:sp_##type_name##_reverse", "source/c-precompiled/sph-sp/arrays-template.c:sp_##type_name##_reverse"]}
{"id": "C53", "title": "and/or/xor combine by the limit as documented", "statement": "With 'set' meaning at or above limit: and yields b[i] where both are set and 0 elsewhere; or yields b[i] where only b is set and a[i] elsewhere; xor yields 0 where both are set and else the set one (a[i] if none is).", "quantifier": "all arrays and limits", "why_tests_cant": "all value combinations at all positions", "anchors": ["source/c-precompiled/sph-sp/arrays-template.c:sp_##type_name##_and_##type_name", "source/c-precompiled/sph-sp/arrays-template.c:sp_##type_name##_or_##type_name", "source/c-precompiled/sph-sp/arrays-template.c:sp_##type_name##_xor_##type_name"]}
{"id": "C54", "title": "Cumulative sums, additions and multiplications", "statement": "cusum writes out[i] = in[0]+...+in[i]; additions writes start+i*summand; multiplications writes start*factor^i (all modulo 2^32 for times), for exactly the first count elements.", "quantifier": "all arrays, counts and values", "why_tests_cant": "all sizes", "anchors": ["source/c-precompiled/sph-sp/arrays-template.c:sp_##type_name##_cusum", "source/c-precompiled/sph-sp/arrays-template.c:sp_##type_name##_additions", "source/c-precompiled/sph-sp/arrays.c:sp_times_multiplications"]}
{"id": "C55", "title": "Removing, inserting space and subdividing", "statement": "sp_times_remove writes the input without the count elements at index; sp_times_insert_space writes the input with a gap of count elements before index; sp_times_subdivide_difference inserts count equally spaced values between two neighbours and keeps all others; all in bounds.", "quantifier": "all arrays, indices and counts inside the array", "why_tests_cant": "index arithmetic at all positions; special cases for first and last index", "anchors": ["source/c-precompiled/sph-sp/arrays.c:sp_times_remove", "source/c-precompiled/sph-sp/arrays.c:sp_times_insert_space", "source/c-precompiled/sph-sp/arrays.c:sp_times_subdivide_difference"]}
{"id": "C56", "title": "Selecting by index and by threshold, also in place", "statement": "sp_times_gt_indices writes exactly the indices of the elements greater than n, ascending, and sp_times_select the elements at given indices; both are correct also when in and out are the same array (for select: with ascending distinct indices), and sp_times_select_random returns a subsequence of its input.", "quantifier": "all arrays, thresholds and random bits", "why_tests_cant": "aliasing of input and output for all contents", "anchors": ["source/c-precompiled/sph-sp/arrays.c:sp_times_gt_indices", "source/c-precompiled/sph-sp/arrays.c:sp_times_select", "source/c-precompiled/sph-sp/arrays.c:sp_times_select_random"]}
{"id": "C57", "title": "sp_times_bits_to_times writes the bits", "statement": "out[i] is bit (i mod 32) of a[i div 32] for all i below size, reading only the needed input elements; sp_times_random_binary allocates enough of them.", "quantifier": "all sizes and inputs", "why_tests_cant": "all sizes", "anchors": ["source/c-precompiled/sph-sp/arrays.c:sp_times_bits_to_times", "source/c-precompiled/sph-sp/arrays.c:sp_times_random_binary"]}
{"id": "C58", "title": "sp_times_extract_in_range extracts the values in range", "statement": "out receives exactly the elements of a between min and max inclusive, in order, and out_size their number.", "quantifier": "all arrays and bounds", "why_tests_cant": "all inputs", "anchors": ["source/c-precompiled/sph-sp/arrays.c:sp_times_extract_in_range"]}
{"id": "C59", "title": "Absolute maximum and gain", "statement": "sp_samples_absolute_max returns the largest absolute value; sp_samples_set_gain scales so that the largest absolute value becomes amp, and sp_samples_set_unity_gain so that it becomes that of the reference; sp_times_absolute_max the largest value.", "quantifier": "all arrays", "why_tests_cant": "all inputs; sample values below one are the normal case", "anchors": ["source/c-precompiled/sph-sp/arrays-template.c:sp_##type_name##_absolute_max", "source/c-precompiled/sph-sp/arrays.c:sp_samples_set_gain", "source/c-precompiled/sph-sp/arrays.c:sp_samples_set_unity_gain"]}
{"id": "C60", "title": "Limiting", "statement": "sp_times_limit, sp_samples_limit and sp_samples_limit_abs leave values inside the limit unchanged and set the others to the limit (keeping the sign for limit_abs), so that every result is within the limit.", "quantifier": "all arrays and non-negative limits", "why_tests_cant": "all inputs", "anchors": ["source/c-precompiled/sph-sp/arrays.c:sp_times_limit", "source/c-precompiled/sph-sp/arrays.c:sp_samples_limit", "source/c-precompiled/sph-sp/arrays.c:sp_samples_limit_abs"]}
{"id": "C61", "title": "Blending stays between its inputs", "statement": "sp_samples_blend yields a at fraction 0, b at fraction 1 and always a value between a[i] and b[i] for fractions in 0..1; sp_times_blend and sp_times_mask yield the nearest integer of that value, also between a[i] and b[i].", "quantifier": "all arrays and fractions", "why_tests_cant": "a continuum of fractions", "anchors": ["source/c-precompiled/sph-sp/arrays.c:sp_samples_blend", "source/c-precompiled/sph-sp/arrays.c:sp_times_blend", "source/c-precompiled/sph-sp/arrays.c:sp_times_mask", "source/c-precompiled/sph-sp/arrays.h:sp_time_interpolate_linear"]}
{"id": "C62", "title": "sp_times_permutations returns all permutations of the set", "statement": "The result holds size! arrays, each a permutation of the given set, all different if the elements of the set are; the set is not modified.", "quantifier": "all sets of all sizes (with size! below 2^32)", "why_tests_cant": "factorially many outputs for unbounded size", "anchors": ["source/c-precompiled/sph-sp/arrays.c:sp_times_permutations"]}
{"id": "C63", "title": "Sequence increment counts", "statement": "sp_times_sequence_increment adds one to the little-endian number of the given base (wrapping to zero after the largest), so sp_times_sequences lists consecutive numbers, and base^digits steps visit every digit sequence exactly once.", "quantifier": "all bases, digit counts and digit sequences", "why_tests_cant": "exponentially many sequences", "anchors": ["source/c-precompiled/sph-sp/arrays.c:sp_times_sequence_increment", "source/c-precompiled/sph-sp/arrays.c:sp_times_sequences"]}
{"id": "C64", "title": "sp_times_compositions returns all compositions", "statement": "For sum >= 1 the result holds exactly the 2^(sum-1) ordered lists of positive integers that add up to sum, each once, and memory accesses stay inside the allocated arrays.", "quantifier": "all sums >= 1 (with 2^(sum-1) below 2^32)", "why_tests_cant": "exponentially many outputs for unbounded sum", "anchors": ["source/c-precompiled/sph-sp/arrays.c:sp_times_compositions"]}
{"id": "C65", "title": "Integer power and factorial", "statement": "sp_time_expt(base,exp) is base^exp modulo 2^32 and sp_time_factorial(n) is n! modulo 2^32 for all arguments, and both terminate.", "quantifier": "all 32 bit arguments", "why_tests_cant": "2^64 argument pairs", "anchors": ["source/c-precompiled/sph-sp/main.c:sp_time_expt", "source/c-precompiled/sph-sp/main.c:sp_time_factorial"]}
{"id": "C66", "title": "Counting functions for sequences, permutations and compositions", "statement": "sp_set_sequence_max is the number of sequences of selection_size elements, sp_permutations_max the number of ordered selections without repetition (n!/(n-k)!), sp_compositions_max the number of compositions, whenever these fit in 32 bits.", "quantifier": "all arguments without overflow", "why_tests_cant": "all arguments", "anchors": ["source/c-precompiled/sph-sp/main.c:sp_set_sequence_max", "source/c-precompiled/sph-sp/main.c:sp_permutations_max", "source/c-precompiled/sph-sp/main.c:sp_compositions_max"]}
{"id": "C67", "title": "sp_modulo_match", "statement": "Returns the first index whose divisor divides the number, or the last index if there is none.", "quantifier": "all numbers and non-empty arrays of non-zero divisors", "why_tests_cant": "all inputs", "anchors": ["source/c-precompiled/sph-sp/main.c:sp_modulo_match"]}
{"id": "C68", "title": "Written files are well-formed wav files", "statement": "After sp_file_open_write, any sequence of successful sp_file_write calls and sp_file_close_write, the file begins with a 44 byte header whose fields (riff, wave, fmt, float format, channels, rates, block alignment, bit depth, data) are right and whose size fields equal the number of data bytes (plus 36), followed by exactly the written samples, interleaved.", "quantifier": "all channel counts, rates and sequences of writes with total below 2^32 bytes", "why_tests_cant": "all sequences of writes", "anchors": ["source/c-precompiled/sph-sp/file.c:sp_file_open_write", "source/c-precompiled/sph-sp/file.c:sp_file_write", "source/c-precompiled/sph-sp/file.c:sp_file_close_write"]}
{"id": "C69", "title": "Reading a written file returns the written samples", "statement": "sp_file_open_read accepts every file written by the library and sp_file_read returns the written samples (as 32 bit floats) channel by channel, over any division into read calls.", "quantifier": "all written contents and read sizes", "why_tests_cant": "all histories of writes and reads", "anchors": ["source/c-precompiled/sph-sp/file.c:sp_file_open_read", "source/c-precompiled/sph-sp/file.c:sp_file_read"]}
{"id": "C70", "title": "Interleaving and deinterleaving are inverse", "statement": "sp_interleave writes b[i*channels+c] = a[c][i] for all samples and channels, sp_deinterleave the reverse; doing one after the other restores the data; indices stay in bounds.", "quantifier": "all sizes and channel counts whose product fits in 32 bits", "why_tests_cant": "all sizes; nested downward counting loops", "anchors": ["source/c-precompiled/sph-sp/main.c:sp_interleave", "source/c-precompiled/sph-sp/main.c:sp_deinterleave"]}
{"id": "C71", "title": "sp_fft computes the discrete Fourier transform for every length", "statement": "For every length n, power of two or not, sp_fft replaces the input by X[k] = sum over t of x[t]*exp(-2*pi*i*t*k/n) (exact complex arithmetic), touching only the n elements.", "quantifier": "all lengths and inputs", "why_tests_cant": "all lengths; two algorithms, recursive index structure", "anchors": ["source/c-precompiled/sph-sp/main.c:sp_fft", "source/c/foreign/nayuki-fft/fft.c:Fft_transform", "source/c/foreign/nayuki-fft/fft.c:Fft_transformRadix2", "source/c/foreign/nayuki-fft/fft.c:Fft_transformBluestein"]}
{"id": "C72", "title": "sp_ffti inverts sp_fft up to the length", "statement": "Applying sp_fft and then sp_ffti multiplies every element by the length n, for every length.", "quantifier": "all lengths and inputs", "why_tests_cant": "all lengths", "anchors": ["source/c-precompiled/sph-sp/main.c:sp_ffti", "source/c/foreign/nayuki-fft/fft.c:Fft_inverseTransform"]}
{"id": "C73", "title": "Linear paths interpolate their points", "statement": "sp_path_samples without curvature writes every one of the length samples; between neighbouring points with integer x it is the straight line through them; it starts at the first point, and all values lie between the smallest and largest y.", "quantifier": "all point counts up to the limit, all strictly increasing integer x in range, all y", "why_tests_cant": "all paths and positions", "anchors": ["source/c-precompiled/sph-sp/path.c:sp_path_samples", "source/c/foreign/sph-sc-lib/sph-sp/spline-path.c:spline_path_get", "source/c/foreign/sph-sc-lib/sph-sp/spline-path.c:spline_path_line_generate", "source/c/foreign/sph-sc-lib/sph-sp/spline-path.c:spline_path_prepare_segments"]}
{"id": "C74", "title": "Reading a path block by block equals reading it at once", "statement": "spline_path_get over consecutive ranges gives the same values as one call over the whole range; reading the same range again gives the same values.", "quantifier": "all paths and all sequences of requested ranges", "why_tests_cant": "the function keeps a segment cursor between calls: a property of histories", "anchors": ["source/c/foreign/sph-sc-lib/sph-sp/spline-path.c:spline_path_get"]}
{"id": "C75", "title": "Curved paths can be read block by block", "statement": "Generating a later block of a bezier segment does not use uninitialised data and gives the same values as generating the segment at once.", "quantifier": "all block positions inside a segment", "why_tests_cant": "uninitialised reads are nondeterministic in tests", "anchors": ["source/c/foreign/sph-sc-lib/sph-sp/spline-path.c:spline_path_beziern_generate"]}
{"id": "C76", "title": "Envelopes begin and end at zero", "statement": "sp_envelope_zero (any number of points) and sp_envelope_zero3/4/5 produce envelopes that begin at zero, go through the given points at the given fractions of the length and go back to zero.", "quantifier": "all lengths, fractions and values", "why_tests_cant": "all parameters", "anchors": ["source/c-precompiled/sph-sp/path.c:sp_envelope_zero", "source/c-precompiled/sph-sp/path.c:sp_define_envelope_zero_n"]}
{"id": "C77", "title": "Allocation failure is reported", "statement": "When memory can not be allocated, the allocating functions return a failure status and no null or unset pointer is used.", "quantifier": "every allocation point failing", "why_tests_cant": "allocation failures do not happen in tests", "anchors": ["source/c/foreign/sph-sc-lib/sph-sp/helper.h:sph_helper_status_id_memory", "source/c/foreign/sph-sc-lib/sph-sp/helper.c:sph_helper_primitive_malloc", "source/c-precompiled/sph-sp/main.c:sp_block_new"]}
{"id": "C78", "title": "Blocks own their channels", "statement": "sp_block_new gives channel_count zeroed arrays of the given size, sp_block_free releases each exactly once, sp_block_zero and sp_block_copy touch exactly the samples of the block.", "quantifier": "all channel counts up to the limit and all sizes including zero", "why_tests_cant": "memory accounting over all sizes", "anchors": ["source/c-precompiled/sph-sp/main.c:sp_block_new", "source/c-precompiled/sph-sp/main.c:sp_block_free", "source/c-precompiled/sph-sp/main.c:sp_block_zero", "source/c-precompiled/sph-sp/main.c:sp_block_copy"]}
{"id": "C79", "title": "Pan values split the amplitude between channels", "statement": "sp_pan_to_amp is within 0..1; 0 mutes the second channel, 0.5 mutes none, 1 mutes the first, and on each side of the middle one channel stays at full volume.", "quantifier": "all pan values and channel pairs", "why_tests_cant": "a continuum of pan values", "anchors": ["source/c-precompiled/sph-sp/main.c:sp_pan_to_amp"]}
{"id": "C80", "title": "Little-endian number from bytes", "statement": "sp_u64_from_array(a,count) is the little-endian value of the count bytes, for counts 1 to 8.", "quantifier": "all byte arrays", "why_tests_cant": "2^64 contents", "anchors": ["source/c-precompiled/sph-sp/arrays.c:sp_u64_from_array"]}
{"id": "C81", "title": "sp_sine_period writes exactly one period", "statement": "sp_sine_period(size,out) writes sin(2*pi*i/size) for all i below size, so that the table can be read cyclically without a jump.", "quantifier": "all sizes", "why_tests_cant": "all sizes; odd sizes are affected by integer division", "anchors": ["source/c-precompiled/sph-sp/main.c:sp_sine_period"]}
{"id": "C82", "title": "Rounding to multiples", "statement": "sp_time_round_to_multiple returns a multiple of base next to a; sp_time_harmonize with amount 1 returns the nearest multiple of base and with amount 0 the value itself.", "quantifier": "all values and bases", "why_tests_cant": "all values", "anchors": ["source/c-precompiled/sph-sp/arrays-template.c:sp_##value_type_name##_round_to_multiple", "source/c-precompiled/sph-sp/main.c:sp_time_harmonize"]}
{"id": "C83", "title": "Counting unique subsequences", "statement": "sp_stat_unique_max(size,width) is the number of positions of a window of width in size elements and sp_stat_unique_all_max(size) the sum of these for widths 1 to size; the repetition maxima are these minus the least number of distinct ones.", "quantifier": "all sizes without overflow", "why_tests_cant": "all sizes", "anchors": ["source/c-precompiled/sph-sp/statistics.c:sp_stat_unique_max", "source/c-precompiled/sph-sp/statistics.c:sp_stat_unique_all_max", "source/c-precompiled/sph-sp/statistics.c:sp_stat_repetition_all_max", "source/c-precompiled/sph-sp/statistics.c:sp_stat_repetition_max"]}
{"id": "C84", "title": "sp_times_scale and sp_times_scale_sum", "statement": "sp_times_scale_sum writes values proportional to in (rounded) whose exact sum would be the given sum; sp_times_scale multiplies by factor and interpolates linearly between neighbours, writing exactly (count-1)*factor values.", "quantifier": "all arrays and factors without overflow", "why_tests_cant": "all inputs", "anchors": ["source/c-precompiled/sph-sp/arrays.c:sp_times_scale", "source/c-precompiled/sph-sp/arrays.c:sp_times_scale_sum"]}
{"id": "C85", "title": "Inharmonicity", "statement": "sp_stat_*_inharmonicity is the smallest, over all elements x, mean distance of the quotients y/x to integers; it is between 0 and 1/2, and 0 exactly if all elements are integer multiples of one of them.", "quantifier": "all non-empty arrays of positive values", "why_tests_cant": "infinitely many ratios; the minimum over all elements as base", "anchors": ["source/c-precompiled/sph-sp/statistics.c:sp_stat_times_inharmonicity", "source/c-precompiled/sph-sp/statistics.c:sp_stat_samples_inharmonicity"]}
{"id": "C86", "title": "sp_samples_scale_to_times maps the range of the samples to 0..max", "statement": "sp_samples_scale_to_times writes for each sample its position between the smallest and the largest sample scaled to max and rounded, so the smallest becomes 0, the largest max, and no result exceeds max.", "quantifier": "all arrays and max", "why_tests_cant": "all sample values", "anchors": ["source/c-precompiled/sph-sp/statistics.c:sp_samples_scale_to_times"]}
{"id": "C87", "title": "Opening any file for reading ends and finds the data", "statement": "sp_file_open_read ends for every file content; it succeeds exactly if the header is a 32 bit float wav header and the chain of chunks reaches a data chunk, and the stream is then positioned at the beginning of the data.", "quantifier": "all byte sequences", "why_tests_cant": "all file contents; loop over chunk sizes taken from the file", "anchors": ["source/c-precompiled/sph-sp/file.c:sp_file_open_read"]}
{"id": "C88", "title": "The requested number of threads is started", "statement": "sp_initialize with a cpu count starts that many worker threads, or fails with an error; it never writes outside the thread pool.", "quantifier": "all cpu counts the parameter type admits", "why_tests_cant": "memory safety for all arguments; usual machines have few cores", "anchors": ["source/c-precompiled/sph-sp/main.c:sp_initialize", "source/c/foreign/sph-sc-lib/sph-sp/futures.c:sph_future_init", "source/c/foreign/sph-sc-lib/sph-sp/thread-pool.c:sph_thread_pool_new"]}
{"id": "C89", "title": "Negative curvature", "statement": "A path with curvature values that are all less than 1e-5, in particular with any negative values, is exactly the path without curvature. (The documentation of sp_path_samples allows curvature from -1 to 1, so a user might expect a bend to the other side.)", "quantifier": "all paths and curvatures", "why_tests_cant": "one sample path cannot show that all negative values are ignored", "anchors": ["source/c-precompiled/sph-sp/path.c:sp_path_samples"]}
{"id": "C90", "title": "Scaled envelopes", "statement": "sp_envelope_scaled (any number of points) and sp_envelope_scaled3/4/5 give times that follow the points multiplied by the scalar, at the given fractions of the length, rounded to the nearest integer.", "quantifier": "all lengths, fractions, scalars and values in range", "why_tests_cant": "all parameters", "anchors": ["source/c-precompiled/sph-sp/path.c:sp_envelope_scaled", "source/c-precompiled/sph-sp/path.c:sp_define_envelope_scaled_n", "source/c-precompiled/sph-sp/path.c:sp_path_times"]}
{"id": "C91", "title": "The control point of an arc is in the rectangle", "statement": "spline_path_perpendicular_point returns a point on the perpendicular through the middle of a line which, for distances between -1 and 1, is inside of the rectangle that has the end points as opposite corners.", "quantifier": "all pairs of points with increasing x, all distances", "why_tests_cant": "geometry for all slopes; the failing slopes are rare in tests", "anchors": ["source/c/foreign/sph-sc-lib/sph-sp/spline-path.c:spline_path_perpendicular_point"]}
{"id": "C92", "title": "Paths with curvature are well-defined", "statement": "sp_path_samples with curvature writes every sample inside of the output, each value is on the curve of its segment and between the y values of the end points of the segment.", "quantifier": "all point counts up to the limit, all strictly increasing integer x, all y, all curvatures up to 1", "why_tests_cant": "a write outside of the output depends on the slope and is not noticed by tests", "anchors": ["source/c-precompiled/sph-sp/path.c:sp_path_samples", "source/c/foreign/sph-sc-lib/sph-sp/spline-path.c:spline_path_beziern_generate", "source/c/foreign/sph-sc-lib/sph-sp/spline-path.c:spline_path_bezier_arc_prepare"]}
{"id": "C93", "title": "Band kernels combine the responses of their parts", "statement": "With both cutoffs inside of the range, a band-reject kernel of sp_windowed_sinc_bp_br_ir has the sum of the frequency responses of the low-pass kernel for the lower and the high-pass kernel for the higher cutoff, aligned at their centers, and a band-pass kernel has the product of the responses of the high-pass kernel for the lower and the low-pass kernel for the higher cutoff.", "quantifier": "all cutoffs, transitions and frequencies (real arithmetic)", "why_tests_cant": "a statement about a continuum of parameters and frequencies", "anchors": ["source/c-precompiled/sph-sp/filter.c:sp_windowed_sinc_bp_br_ir", "source/c-precompiled/sph-sp/filter.c:sp_convolve_one"]}
{"id": "C94", "title": "Creating a band kernel leaves only the kernel allocated", "statement": "After sp_windowed_sinc_bp_br_ir succeeded, the returned kernel is the only array it allocated that is still allocated.", "quantifier": "all cutoffs, transitions and both filter types", "why_tests_cant": "a leak does not change any result", "anchors": ["source/c-precompiled/sph-sp/filter.c:sp_windowed_sinc_bp_br_ir"]}
{"id": "C95", "title": "Seamless transitions", "statement": "sp_times_make_seamless_right copies a to out and moves its last min(a_count, b_count/2) elements step by step towards the mirrored elements of b, and sp_times_make_seamless_left does the same for the first elements of b; neither accesses elements outside of the given arrays.", "quantifier": "all arrays", "why_tests_cant": "reads behind the end of an array are usually not noticed; all sizes", "anchors": ["source/c-precompiled/sph-sp/arrays.c:sp_times_make_seamless_right", "source/c-precompiled/sph-sp/arrays.c:sp_times_make_seamless_left"]}
{"id": "C96", "title": "Scaling to a maximum or a sum", "statement": "sp_times_scale_y and sp_samples_scale_y multiply all values by one factor so that the maximum becomes the target and write the result to out; sp_samples_scale_sum does the same for the sum.", "quantifier": "all arrays and targets", "why_tests_cant": "all inputs", "anchors": ["source/c-precompiled/sph-sp/arrays.c:sp_times_scale_y", "source/c-precompiled/sph-sp/arrays.c:sp_samples_scale_y", "source/c-precompiled/sph-sp/arrays.c:sp_samples_scale_sum"]}
{"id": "C97", "title": "Conversions between arrays", "statement": "sp_times_to_samples followed by sp_samples_to_times gives back the times; sp_samples_to_units maps -1..1 to 0..1 keeping the order; sp_samples_differences writes count - 1 differences from which the array can be restored; sp_times_constant gives an array with count equal values; sp_times_duplicate and sp_samples_duplicate give a new array with the same values. Nothing else is written.", "quantifier": "all arrays and counts", "why_tests_cant": "all inputs", "anchors": ["source/c-precompiled/sph-sp/arrays.c:sp_times_to_samples", "source/c-precompiled/sph-sp/arrays.c:sp_samples_to_times", "source/c-precompiled/sph-sp/arrays.c:sp_samples_to_units", "source/c-precompiled/sph-sp/arrays.c:sp_samples_differences", "source/c-precompiled/sph-sp/arrays.c:sp_times_constant", "source/c-precompiled/sph-sp/arrays-template.c:sp_##type_name##_duplicate"]}
{"id": "C98", "title": "sp_time_deharmonize moves at most half a base", "statement": "For amounts from 0 to 1, sp_time_deharmonize returns a value at most base/2 away from the given value, whatever random numbers are drawn.", "quantifier": "all bases from 2, values with value + base in the range of sp_time_t, amounts and random numbers", "why_tests_cant": "all random numbers", "anchors": ["source/c-precompiled/sph-sp/main.c:sp_time_deharmonize"]}
{"id": "C99", "title": "sp_normal_random stays in its range", "statement": "sp_normal_random(min,max) returns a value that is at least min and below max, whatever random numbers are drawn.", "quantifier": "all ranges and random numbers", "why_tests_cant": "all random numbers; the overflow needs large ranges", "anchors": ["source/c-precompiled/sph-sp/main.c:sp_normal_random"]}
{"id": "C100", "title": "A noise event adds limited values to the requested range only", "statement": "sp_noise_event_generate_block adds, for each channel configuration, one value between -1 and 1 per sample to the output channel of that configuration: the filtered noise times amplitude and envelope, limited. Only the samples from block_i to block_i + duration change.", "quantifier": "all configurations, durations, positions and output contents", "why_tests_cant": "all sample values; the overflow needs blocks larger than the temporary buffers", "anchors": ["source/c-precompiled/sph-sp/sequencer.c:sp_noise_event_generate_block"]}
{"id": "C101", "title": "Noise event channels take missing settings from the first channel", "statement": "sp_noise_event_prepare gives each channel configuration that is not in use all settings of the first except the output channel; a channel in use gets the amplitude envelope of the first if it has none, and, if it has a filter setting of its own, the missing filter settings; other settings are kept. With the default configuration and one envelope all channels play the same noise over the full frequency range. Without an envelope in the first channel, prepare returns invalid argument and changes nothing.", "quantifier": "all configurations with any number of channels and any settings, also if prepare fails later", "why_tests_cant": "combinations of missing settings over all channels", "anchors": ["source/c-precompiled/sph-sp/sequencer.c:sp_noise_event_prepare", "source/c-precompiled/sph-sp/sequencer.c:sp_noise_event_config_defaults"]}
{"id": "C102", "title": "Noise events sound the same for every division into blocks", "statement": "Noise events, with the random numbers, filters, envelopes and seeds that sp_noise_event_prepare gives them, rendered with sp_seq block by block give bit for bit the same samples as with any other division of the time range into blocks, and these samples are white noise convolved with the impulse responses of the channels, limited and multiplied by the envelopes.", "quantifier": "all lists and trees of noise events, all channel configurations, impulse responses and random generators, all divisions into blocks of up to four seconds", "why_tests_cant": "carry-over of filters between blocks, order of random numbers; unbounded lists and divisions", "anchors": ["source/c-precompiled/sph-sp/sequencer.c:sp_noise_event_prepare", "source/c-precompiled/sph-sp/sequencer.c:sp_noise_event_generate", "source/c-precompiled/sph-sp/sequencer.c:sp_noise_event_generate_block"]}
{"id": "C103", "title": "sp_event_list_validate accepts exactly the valid lists", "statement": "sp_event_list_validate returns without a report exactly if the event list is well-formed: it ends, no element occurs twice and each link to the previous element is right. For every other list, also one with a ring, it ends and reports.", "quantifier": "all event lists, well-formed or damaged", "why_tests_cant": "all ways in which the links of a list can be damaged; a test of a ring that hangs shows nothing about others", "anchors": ["source/c-precompiled/sph-sp/sequencer.c:sp_event_list_validate", "source/c-precompiled/sph-sp/sequencer.c:sp_event_list_find_duplicate"]}
{"id": "C104", "title": "Windowed sinc filters follow their parameters", "statement": "In a sequence of calls of sp_windowed_sinc_lp_hp or of sp_windowed_sinc_bp_br with one state, each block is filtered with the kernel for the parameters given for that block, bit for bit, and the kernel is computed anew exactly if the parameters differ from those of the previous call.", "quantifier": "all sequences of blocks and parameters", "why_tests_cant": "arbitrarily long histories of state; which bytes of the parameters are compared", "anchors": ["source/c-precompiled/sph-sp/filter.c:sp_windowed_sinc_lp_hp", "source/c-precompiled/sph-sp/filter.c:sp_windowed_sinc_bp_br", "source/c-precompiled/sph-sp/filter.c:sp_windowed_sinc_lp_hp_ir_f", "source/c-precompiled/sph-sp/filter.c:sp_windowed_sinc_bp_br_ir_f", "source/c-precompiled/sph-sp/filter.c:sp_convolution_filter_state_set"]}
{"id": "C105", "title": "Filter states release all their memory once", "statement": "After any sequence of filter calls with one state, including calls that fail because the impulse response function fails, sp_convolution_filter_state_free releases all memory that was allocated for the state, each allocation once.", "quantifier": "all sequences of calls, impulse response functions, arguments and lengths", "why_tests_cant": "leaks and double frees over arbitrary histories do not change results", "anchors": ["source/c-precompiled/sph-sp/filter.c:sp_convolution_filter_state_set", "source/c-precompiled/sph-sp/filter.c:sp_convolution_filter_state_free"]}
{"id": "C106", "title": "Bounded random numbers with a custom distribution stay in the range", "statement": "sp_time_random_discrete_bounded and sp_sample_random_discrete_bounded return a value that is at least zero and below the given range, for every distribution and whatever random numbers are drawn; the value is range times the drawn index divided by the number of elements.", "quantifier": "all cumulative distributions with at least one element, ranges and random numbers", "why_tests_cant": "all random numbers and distributions", "anchors": ["source/c-precompiled/sph-sp/arrays.c:sp_time_random_discrete_bounded", "source/c-precompiled/sph-sp/arrays.c:sp_sample_random_discrete_bounded"]}
{"id": "C107", "title": "Conversions between units are consistent", "statement": "sp_rate_duration and sp_duration give the number of samples of n/d seconds; sp_hz_to_samples followed by sp_samples_to_hz, sp_hz_to_factor followed by sp_factor_to_hz, and sp_hz_to_rad followed by sp_rad_to_hz give back a value that differs at most by rounding.", "quantifier": "all rates, numerators, denominators and frequencies", "why_tests_cant": "all integers; rounding of doubles for all arguments", "anchors": ["source/c-precompiled/sph-sp/main.h:sp_rate_duration", "source/c-precompiled/sph-sp/main.h:sp_duration", "source/c-precompiled/sph-sp/main.h:sp_hz_to_samples", "source/c-precompiled/sph-sp/main.h:sp_samples_to_hz", "source/c-precompiled/sph-sp/main.h:sp_hz_to_factor", "source/c-precompiled/sph-sp/main.h:sp_factor_to_hz", "source/c-precompiled/sph-sp/main.h:sp_hz_to_rad", "source/c-precompiled/sph-sp/main.h:sp_rad_to_hz"]}
{"id": "C108", "title": "Map events apply a function to what the wrapped event plays", "statement": "A map event with isolation adds to the output the result of applying the map function to the sound of the wrapped event alone; without isolation the function is applied to the output after the wrapped event has been mixed into it. If the function processes streams sample by sample with a state, the result is the same for every division into blocks.", "quantifier": "all wrapped events, also trees, all map functions with state, all divisions into blocks", "why_tests_cant": "all functions, trees and divisions", "anchors": ["source/c-precompiled/sph-sp/sequencer.c:sp_map_event_prepare", "source/c-precompiled/sph-sp/sequencer.c:sp_map_event_generate", "source/c-precompiled/sph-sp/sequencer.c:sp_map_event_isolated_generate", "source/c-precompiled/sph-sp/sequencer.c:sp_map_event_free"]}
{"id": "C109", "title": "Freeing an event frees all events inside of it", "statement": "When an event list or event is freed, also because sp_seq fails, the free functions of all events inside of groups and map events, at any depth, are called exactly once.", "quantifier": "all trees of groups, map events and other events, prepared or not", "why_tests_cant": "leaks do not change results; all trees and moments of failure", "anchors": ["source/c-precompiled/sph-sp/sequencer.c:sp_group_free", "source/c-precompiled/sph-sp/sequencer.c:sp_event_list_free", "source/c-precompiled/sph-sp/sequencer.c:sp_map_event_free", "source/c-precompiled/sph-sp/sequencer.c:sp_seq"]}
{"id": "C110", "title": "A block with offset covers the rest of the block", "statement": "sp_block_with_offset gives a block whose samples are those of the given block from the offset on, all of which can be read and written, so that functions for blocks such as sp_block_zero and sp_block_copy, for example in generate and map functions, stay inside of the memory of the block.", "quantifier": "all blocks and offsets up to the size", "why_tests_cant": "memory outside of the arrays is silently overwritten", "anchors": ["source/c-precompiled/sph-sp/main.c:sp_block_with_offset", "source/c-precompiled/sph-sp/main.c:sp_block_zero", "source/c-precompiled/sph-sp/main.c:sp_block_copy"]}
{"id": "C111", "title": "sp_event_schedule places an event in time", "statement": "sp_event_schedule(event, onset, duration, config) for an event with start zero returns a copy of the event that begins at onset and ends duration later, with the given configuration if it is not null, and else unchanged.", "quantifier": "all events with start zero, onsets, durations and configurations", "why_tests_cant": "all inputs", "anchors": ["source/c-precompiled/sph-sp/sequencer.c:sp_event_schedule"]}
{"id": "C112", "title": "A wave event with default configuration plays a sine tone", "statement": "A wave event with the configuration of sp_wave_event_config_defaults in which only frequency and envelope of the first channel are set, scheduled with sp_event_schedule and rendered, gives on every channel of the output the envelope times the sine of 2 pi times frequency times time since the onset, and silence outside; sp_wave_event_config_new_n gives as many such configurations as wanted.", "quantifier": "all sampling rates, frequencies, envelopes, onsets, durations and numbers of output channels", "why_tests_cant": "real-valued formula for all samples; depends on tables, phases, defaults, blocks and files together", "anchors": ["source/c-precompiled/sph-sp/sequencer.c:sp_wave_event_config_defaults", "source/c-precompiled/sph-sp/sequencer.c:sp_wave_event_config_new_n", "source/c-precompiled/sph-sp/sequencer.c:sp_wave_event_prepare", "source/c-precompiled/sph-sp/sequencer.c:sp_wave_event_generate", "source/c-precompiled/sph-sp/main.c:sp_initialize", "source/c-precompiled/sph-sp/main.c:sp_render_file"]}
{"id": "C113", "title": "sp_sine and sp_sine_lfo add sine waves", "statement": "sp_sine adds amp times amod times the sine with frequency frq from the given phase on, and sp_sine_lfo that with frequency frq / sp_sine_lfo_factor; without amod just amp times the sine. The phase state afterwards continues the wave.", "quantifier": "all sampling rates, frequencies, amplitudes, modulations, phases and sizes", "why_tests_cant": "real-valued formula for all samples and rates", "anchors": ["source/c-precompiled/sph-sp/main.c:sp_sine", "source/c-precompiled/sph-sp/main.c:sp_sine_lfo", "source/c-precompiled/sph-sp/main.c:sp_initialize", "source/c-precompiled/sph-sp/main.c:sp_sine_period"]}
{"id": "C114", "title": "Paths with curves, read at once", "statement": "Reading the whole of a path of moves, lines and curves with one or two control points writes every sample of the range and nothing else: zero on moves, the straight line on lines, and on curves a value of the curve at most half a sample away, or the middle of the values of the neighbours where the curve skips a sample.", "quantifier": "all paths with integer x going to the right and control points whose x does not decrease, any number of segments", "why_tests_cant": "gaps, double writes and writes outside of the output depend on the slopes of the curves", "anchors": ["source/c/foreign/sph-sc-lib/sph-sp/spline-path.c:spline_path_get", "source/c/foreign/sph-sc-lib/sph-sp/spline-path.c:spline_path_set", "source/c/foreign/sph-sc-lib/sph-sp/spline-path.c:spline_path_beziern_generate", "source/c/foreign/sph-sc-lib/sph-sp/spline-path.c:spline_path_bezier2", "source/c/foreign/sph-sc-lib/sph-sp/spline-path.c:spline_path_bezier1"]}
{"id": "C115", "title": "Paths inside of paths", "statement": "A segment made with spline_path_path draws the contained path starting from the end of the preceding segment, has the length of the contained path, and the next segment begins after it.", "quantifier": "all paths with contained paths at any depth, all ranges", "why_tests_cant": "quantifies over all nestings", "anchors": ["source/c/foreign/sph-sc-lib/sph-sp/spline-path.c:spline_path_path", "source/c/foreign/sph-sc-lib/sph-sp/spline-path.c:spline_path_path_generate", "source/c/foreign/sph-sc-lib/sph-sp/spline-path.c:spline_path_path_prepare", "source/c/foreign/sph-sc-lib/sph-sp/spline-path.c:spline_path_prepare_segments"]}
{"id": "C116", "title": "Start, end and size of a path", "statement": "The start of a path is the origin. The end is the end point of its last segment, or the beginning of the last segment if that is a constant. The size is the x of the end.", "quantifier": "all paths of moves, lines and constants", "why_tests_cant": "all paths, depends on a comparison with the largest size", "anchors": ["source/c/foreign/sph-sc-lib/sph-sp/spline-path.c:spline_path_start", "source/c/foreign/sph-sc-lib/sph-sp/spline-path.c:spline_path_end", "source/c/foreign/sph-sc-lib/sph-sp/spline-path.c:spline_path_size", "source/c/foreign/sph-sc-lib/sph-sp/spline-path.c:spline_path_constant_prepare"]}
{"id": "C117", "title": "Path functions with a fixed number of points", "statement": "sp_path_samples2 to 5 give the samples of the straight lines through the given points, the first at 0 and the last at the length, sp_path_samples_c2 to c5 the samples of the curves with the given curvature for each part, sp_path_times2 to 5 and c2 to c5 the same values rounded, and sp_envelope_zero_c3 to c5 the path that begins and ends at zero, with cumulative x given as a fraction of the length. They return success.", "quantifier": "all lengths, points and curvatures", "why_tests_cant": "all points and lengths; many arguments of the same type that can be swapped without notice", "anchors": ["source/c-precompiled/sph-sp/path.c:sp_define_path_n", "source/c-precompiled/sph-sp/path.c:sp_define_envelope_zero_n", "source/c-precompiled/sph-sp/path.c:sp_path_times"]}
{"id": "C118", "title": "The compensated sum is accurate in floating point arithmetic", "statement": "sph_f64_sum gives the sum of an array of doubles with the error of about one rounding of the exact sum, instead of an error that grows with the number of elements.", "quantifier": "all arrays of doubles up to 2^52 elements without overflow, every rounding to nearest", "why_tests_cant": "rounding errors for all values and sizes; the failing cases cancel exactly in common test data", "anchors": ["source/c/foreign/sph-sc-lib/sph-sp/float.h:sph_define_float_sum", "source/c-precompiled/sph-sp/statistics.c:sp_stat_samples_mean"]}
{"id": "C119", "title": "The accuracy of convolution in double precision", "statement": "Every sample that sp_convolve_one and sequences of sp_convolve calls compute with doubles differs from the exact convolution by at most about (n + 1) / 2^53 times the convolution of the absolute values, n the length of the shorter array; for streams the error neither depends on the division into blocks nor grows with the length of the stream.", "quantifier": "all arrays of doubles, impulse responses, divisions into blocks, every rounding to nearest, without overflow", "why_tests_cant": "rounding errors for all values and sizes", "anchors": ["source/c-precompiled/sph-sp/main.c:sp_convolve_one", "source/c-precompiled/sph-sp/main.c:sp_convolve"]}
{"id": "C120", "title": "Lines of paths keep their end points and range in double precision", "statement": "With every operation rounded to a nearest double, sp_path_samples for paths of lines yields at each point exactly the y of the point, between two points only values between the two y, values that rise or fall with the line without going back, and within 8 / 2^53 of the larger y of the exact line.", "quantifier": "all paths of lines with integer x and lengths below 2^32, all double values up to a quarter of the largest, every rounding to nearest", "why_tests_cant": "rounding of each of millions of values for all combinations of points", "anchors": ["source/c-precompiled/sph-sp/path.c:sp_path_samples", "source/c/foreign/sph-sc-lib/sph-sp/spline-path.c:spline_path_line_generate", "source/c/foreign/sph-sc-lib/sph-sp/spline-path.c:spline_path_get"]}
{"id": "C121", "title": "Blending in double precision", "statement": "With every operation rounded to a nearest double, sp_samples_blend yields a at fraction 0, b at fraction 1, always a value between a[i] and b[i] for fractions in 0..1, and values within a few roundings of the exact ones; sp_times_blend yields an integer between the two that is nearest to the exact value up to 2^-18.", "quantifier": "all arrays of doubles and fractions, all integers, every rounding to nearest", "why_tests_cant": "rounding for all doubles", "anchors": ["source/c-precompiled/sph-sp/arrays.c:sp_samples_blend", "source/c-precompiled/sph-sp/arrays.c:sp_times_blend", "source/c-precompiled/sph-sp/arrays.h:sp_time_interpolate_linear"]}
{"id": "C122", "title": "Conversions between samples and times in double precision", "statement": "With every operation rounded to a nearest double, sp_samples_to_times yields the nearest integer for every double in the range of sp_time_t, the upper one for halves; times converted to samples and back are unchanged; sp_samples_to_units maps -1..1 to 0..1, keeps the order and is accurate to 3 / 2^53.", "quantifier": "all arrays of doubles, all counts, every rounding to nearest", "why_tests_cant": "rounding for all doubles; one single double is an exception", "anchors": ["source/c-precompiled/sph-sp/arrays.c:sp_samples_to_times", "source/c-precompiled/sph-sp/arrays.c:sp_times_to_samples", "source/c-precompiled/sph-sp/arrays.c:sp_samples_to_units", "source/c-precompiled/sph-sp/main.h:sp_cheap_round_positive"]}
{"id": "C123", "title": "The moving average in double precision", "statement": "With every operation rounded to a nearest double, each value that sp_moving_average writes is within a few roundings of the exact mean of the values in its window.", "quantifier": "all inputs, previous and next arrays, radii and rounding functions", "why_tests_cant": "rounding errors carry over in the running sum; depends on the ratio of distant values", "anchors": ["source/c-precompiled/sph-sp/filter.c:sp_moving_average"]}
{"id": "C124", "title": "Triangle waves and pan in double precision", "statement": "With every operation rounded to a nearest double, sp_triangle is periodic, stays in 0..1, rises and falls without going back, is within 3 / 2^53 of the exact wave and reaches exactly 0 and 1; sp_pan_to_amp gives exactly the factors of exact arithmetic.", "quantifier": "all times, lengths of sides, pan values and channels", "why_tests_cant": "rounding for all 2^96 arguments", "anchors": ["source/c-precompiled/sph-sp/main.c:sp_triangle", "source/c-precompiled/sph-sp/main.c:sp_pan_to_amp"]}
{"id": "C125", "title": "Means in double precision", "statement": "With every operation rounded to a nearest double, sp_stat_times_mean is the nearest double to the exact mean; sp_stat_samples_mean is within about two roundings; both are not less than the least and not greater than the greatest value.", "quantifier": "all arrays, sizes and rounding functions", "why_tests_cant": "rounding for all doubles and sizes", "anchors": ["source/c-precompiled/sph-sp/statistics.c:sp_stat_times_mean", "source/c-precompiled/sph-sp/statistics.c:sp_stat_samples_mean"]}
{"id": "C126", "title": "Comparing arrays with a value", "statement": "sp_times_equal and sp_samples_equal return 1 exactly if all elements of the array up to the given count are the value; sp_times_contains returns 1 exactly if one of them is. Nothing outside of the given size is read.", "quantifier": "all arrays, sizes and values", "why_tests_cant": "all sizes and positions of a difference", "anchors": ["source/c-precompiled/sph-sp/arrays-template.c:sp_##type_name##_equal", "source/c-precompiled/sph-sp/arrays.c:sp_times_contains"]}
{"id": "C127", "title": "Bounded random floats stay below their range in double precision", "statement": "With the product rounded to a nearest double, sph_random_f64_bounded returns a value that is at least zero and less than the range, and nearest to the exact product.", "quantifier": "all double ranges, random states and rounding functions", "why_tests_cant": "the largest of 2^53 random values decides; rounding for all ranges", "anchors": ["source/c/foreign/sph-sc-lib/sph-sp/random.c:sph_random_f64_bounded"]}
{"id": "C128", "title": "Segments with own functions", "statement": "For segments with any generate and prepare functions, generate is only called with ranges inside of the segment and with out positioned at the offset of this range, with room for it. If these functions draw the values of a function of x, a path of such segments, read in any division into blocks, gives for each x the value of the segment at x. If a prepare function fails, spline_path_set returns 1 and calls no further functions.", "quantifier": "all functions that fulfil these requirements, all lists of segments and sequences of reads", "why_tests_cant": "all functions and divisions into blocks; a call with a wrong range writes outside of the output only for some of them", "anchors": ["source/c/foreign/sph-sc-lib/sph-sp/spline-path.c:spline_path_get", "source/c/foreign/sph-sc-lib/sph-sp/spline-path.c:spline_path_set", "source/c/foreign/sph-sc-lib/sph-sp/spline-path.c:spline_path_prepare_segments", "source/c/foreign/sph-sc-lib/sph-sp/spline-path.h:spline_path_segment_t"]}
{"id": "C129", "title": "Segments can be used again", "statement": "An array of segments can be used for any number of paths and calls of spline_path_segments_get and gives the same values each time.", "quantifier": "all lists of segments and ranges, any number of calls", "why_tests_cant": "the array changes on first use; all kinds of segments and histories", "anchors": ["source/c/foreign/sph-sc-lib/sph-sp/spline-path.c:spline_path_segments_get", "source/c/foreign/sph-sc-lib/sph-sp/spline-path.c:spline_path_set", "source/c/foreign/sph-sc-lib/sph-sp/spline-path.c:spline_path_bezier_arc_prepare", "source/c/foreign/sph-sc-lib/sph-sp/spline-path.c:spline_path_constant_prepare"]}
{"id": "C130", "title": "The memory of paths inside of paths", "statement": "Freeing each path once with spline_path_free, in any order, releases all memory that spline_path_path has allocated, each allocation once, also at any depth and if allocations fail; setting and reading paths before that is safe. spline_path_segments_get can be called any number of times and releases what it does not need any more. A path set with spline_path_set_copy does not depend on the original segments.", "quantifier": "all nestings of paths, failed allocations and orders of freeing", "why_tests_cant": "leaks, double frees and accesses to freed memory do not change results; all nestings and orders", "anchors": ["source/c/foreign/sph-sc-lib/sph-sp/spline-path.c:spline_path_free", "source/c/foreign/sph-sc-lib/sph-sp/spline-path.c:spline_path_path", "source/c/foreign/sph-sc-lib/sph-sp/spline-path.c:spline_path_segments_get", "source/c/foreign/sph-sc-lib/sph-sp/spline-path.c:spline_path_set_copy"]}
{"id": "C131", "title": "Memory allocated with the macros for events is released with the event", "statement": "A prepare function that allocates any number of times with sp_event_malloc, sp_event_samples and the related macros: freeing the memory of the event releases all that was allocated, each allocation once, also if one of the allocations fails and the function returns early.", "quantifier": "all sequences of allocations, all failures of allocations", "why_tests_cant": "leaks and double frees need failing allocations, which do not occur in tests", "anchors": ["source/c-precompiled/sph-sp/sequencer.h:sp_event_malloc_srq", "source/c-precompiled/sph-sp/sequencer.h:sp_event_alloc_srq", "source/c-precompiled/sph-sp/sequencer.c:sp_event_memory_ensure", "source/c-precompiled/sph-sp/sequencer.c:sp_event_memory_add_with_handler"]}
{"id": "C132", "title": "Failures can be told apart by name and description", "statement": "sp_status_name and sp_status_description return a name and a description for every status that functions of the library return, and different failures have different ones.", "quantifier": "all status values", "why_tests_cant": "all groups and numbers; a missing return statement gives arbitrary values", "anchors": ["source/c-precompiled/sph-sp/main.c:sp_status_name", "source/c-precompiled/sph-sp/main.c:sp_status_description", "source/c/foreign/sph-sc-lib/sph-sp/helper.c:sph_helper_status_description"]}
{"id": "C133", "title": "The accuracy of the Fourier transform in double precision", "statement": "With every operation rounded to a nearest double and cos and sin accurate to 2^-52, sp_fft of n samples differs from the discrete Fourier transform by at most log2(n) / 2^45 times the sum of the absolute values of the samples if n is a power of two and n / 2^35 times that sum for all other n; sp_ffti after sp_fft gives the samples multiplied by n, except for an error of four times that, multiplied by n.", "quantifier": "all arrays of doubles without overflow, all sizes, every rounding to nearest, every math library of that accuracy", "why_tests_cant": "rounding errors of n log n operations for all values and sizes", "anchors": ["source/c-precompiled/sph-sp/main.c:sp_fft", "source/c-precompiled/sph-sp/main.c:sp_ffti", "source/c/foreign/nayuki-fft/fft.c:Fft_transformRadix2", "source/c/foreign/nayuki-fft/fft.c:Fft_transformBluestein"]}
{"id": "C134", "title": "Files store nearest single precision numbers", "statement": "sp_file_write stores each sample as the bit pattern, lowest byte first, of a nearest IEEE 754 single precision number; what sp_file_read returns from a written file differs from the written sample x by at most |x|/2^24 + 2^-150; samples that are single precision numbers, among them all of 24 bit integer sound, are returned unchanged, so that copying a file any number of times loses nothing more.", "quantifier": "all samples with absolute value up to the largest single precision number, all channel counts and divisions into write and read calls", "why_tests_cant": "the rounding of every double; tests read back a few values", "anchors": ["source/c-precompiled/sph-sp/file.c:sp_file_write", "source/c-precompiled/sph-sp/file.c:sp_file_read"]}
{"id": "C135", "title": "Windowed sinc kernels are the documented kernels and delay all frequencies alike", "statement": "The kernel that sp_windowed_sinc_lp_hp_ir creates for a low-pass has the smallest odd length that is not below 4 / transition, and its values are sin(x)/x for the cutoff frequency around the middle, times the Blackman window, scaled to the sum one; for a high-pass it is the impulse in the middle minus the low-pass kernel. These kernels and those of sp_windowed_sinc_bp_br_ir delay all frequencies by the same time, half of the length: the response at each frequency is that of a delay times a real number.", "quantifier": "all cutoffs and transitions for which a kernel is created, all frequencies", "why_tests_cant": "a statement about all frequencies and all lengths in exact arithmetic; spot checks of some kernels show neither the formula nor the phase", "anchors": ["source/c-precompiled/sph-sp/filter.c:sp_windowed_sinc_lp_hp_ir", "source/c-precompiled/sph-sp/filter.c:sp_windowed_sinc_lp_hp_ir_length", "source/c-precompiled/sph-sp/filter.c:sp_window_blackman", "source/c-precompiled/sph-sp/filter.c:sp_windowed_sinc_bp_br_ir", "source/c-precompiled/sph-sp/main.c:sp_sinc"]}
{"id": "C136", "title": "Files with plot data hold the data", "statement": "After sp_plot_samples_to_file and sp_plot_times_to_file the file has exactly one line for each element, in order: for samples a decimal number at most 0.0005 away, for times the number. After sp_plot_spectrum_to_file the lines are the absolute values of the discrete Fourier transform times two divided by the number of samples, with the same accuracy, and all temporary memory is freed. Previous content of the file is replaced and no other file is changed.", "quantifier": "all arrays, sizes and paths", "why_tests_cant": "all sizes and values; leaks occur only with failing allocations", "anchors": ["source/c-precompiled/sph-sp/plot.c:sp_plot_samples_to_file", "source/c-precompiled/sph-sp/plot.c:sp_plot_times_to_file", "source/c-precompiled/sph-sp/plot.c:sp_plot_spectrum_to_file"]}
{"id": "C137", "title": "Each plot has its own data file", "statement": "Any number of calls of sp_plot_samples, sp_plot_times and sp_plot_spectrum in any order: each call writes its data to a file that no other call of the same process uses, and runs one command that plots this file; at the end all files hold the data of their call, and no other files have been changed.", "quantifier": "all sequences of calls and data", "why_tests_cant": "the name is cut off after 10^9 calls", "anchors": ["source/c-precompiled/sph-sp/plot.c:sp_plot_samples", "source/c-precompiled/sph-sp/plot.c:sp_plot_times", "source/c-precompiled/sph-sp/plot.c:sp_plot_spectrum"]}
{"id": "C138", "title": "The plot command names the given file", "statement": "sp_plot_samples_file, sp_plot_times_file and sp_plot_spectrum_file run gnuplot with a script that plots the file with exactly the given path, for paths of any length, and run nothing else.", "quantifier": "all paths", "why_tests_cant": "all paths, the buffer is sized for the path; characters with special meaning for the shell", "anchors": ["source/c-precompiled/sph-sp/plot.c:sp_plot_samples_file", "source/c-precompiled/sph-sp/plot.c:sp_plot_times_file", "source/c-precompiled/sph-sp/plot.c:sp_plot_spectrum_file"]}
{"id": "C139", "title": "Rendering to a plot", "statement": "sp_render_plot plots the samples of the first channel of the full duration of the event and prints the duration; the display of progress while rendering to a file is printed with a valid format.", "quantifier": "all events that fulfil the contract of event functions, all durations and rates", "why_tests_cant": "all events and durations", "anchors": ["source/c-precompiled/sph-sp/main.c:sp_render_plot", "source/c-precompiled/sph-sp/main.c:sp_render_range_block", "source/c-precompiled/sph-sp/main.c:sp_render_range_file"]}
{"id": "C140", "title": "Display functions print the data", "statement": "sp_times_display and sp_samples_display print all elements in order in one line, separated by blanks, samples rounded to five decimal places; sp_event_list_display prints one line for each element, in order, with the addresses of the neighbours and the times, and returns. Only the given elements are read.", "quantifier": "all arrays, sizes and well-formed lists", "why_tests_cant": "all sizes; reading outside of an empty array has no visible effect", "anchors": ["source/c-precompiled/sph-sp/arrays.c:sp_times_display", "source/c-precompiled/sph-sp/arrays.c:sp_samples_display", "source/c-precompiled/sph-sp/sequencer.c:sp_event_list_display"]}
{"id": "C141", "title": "Fourier transforms release their memory and leave the data alone if an allocation fails", "statement": "A call of sp_fft or sp_ffti frees every temporary array exactly once, whether it succeeds or not. It returns 0 exactly if every allocation it tried succeeded, and then the arrays hold the transform; otherwise it returns 1 and the arrays of the caller are as before.", "quantifier": "all lengths, all data and all patterns of failing allocations", "why_tests_cant": "out of memory at each of 18 places, for every length", "anchors": ["source/c-precompiled/sph-sp/main.c:sp_fft", "source/c-precompiled/sph-sp/main.c:sp_ffti", "source/c/foreign/nayuki-fft/fft.c:Fft_transformRadix2", "source/c/foreign/nayuki-fft/fft.c:Fft_transformBluestein", "source/c/foreign/nayuki-fft/fft.c:Fft_convolveComplex"]}
{"id": "C142", "title": "Functions of arrays own and release memory as documented", "statement": "sp_times_permutations and sp_times_compositions return an array of pointers to arrays that are new and all different, leave nothing else allocated and change no array other than the given set; sp_times_array_free on the result (and free on the sizes) releases exactly that memory. sp_times_duplicate and sp_times_constant return a new array and change nothing else. sp_times_scale (also with the same array for input and output) and sp_times_random_binary free their temporary array and change only the output. sp_times_to_samples_replace and sp_samples_to_times_replace free the given array and return a new one. No array is accessed or freed after it was freed.", "quantifier": "all sizes, contents and states of memory", "why_tests_cant": "leaks, double frees and aliasing are not visible in the results", "anchors": ["source/c-precompiled/sph-sp/arrays.c:sp_times_permutations", "source/c-precompiled/sph-sp/arrays.c:sp_times_compositions", "source/c-precompiled/sph-sp/arrays-template.c:sp_##type_name##_array_free", "source/c-precompiled/sph-sp/arrays.c:sp_times_random_binary", "source/c-precompiled/sph-sp/arrays.c:sp_times_scale", "source/c-precompiled/sph-sp/arrays.c:sp_times_to_samples_replace", "source/c-precompiled/sph-sp/arrays.c:sp_samples_to_times_replace", "source/c-precompiled/sph-sp/arrays.c:sp_times_constant"]}
{"id": "C143", "title": "Medians leave no memory allocated", "statement": "sp_stat_times_median gives the median of the given array, does not change it, and afterwards the same memory is allocated as before.", "quantifier": "all arrays and states of memory", "why_tests_cant": "a leak is not visible in the result", "anchors": ["source/c-precompiled/sph-sp/statistics.c:sp_stat_times_median"]}
{"id": "C144", "title": "String functions", "statement": "string_append, string_clone and string_join return a new array that is exactly the given strings, in order, for string_join with the delimiter between each two, and one zero byte, and string_join also the length; null is returned without memory and for no strings. ensure_trailing_slash gives the string with a slash at the end, the given string itself if it already has one or is empty.", "quantifier": "all strings, delimiters and numbers of strings, failing allocations", "why_tests_cant": "all lengths and numbers; a missing zero byte is often there by accident", "anchors": ["source/c/foreign/sph-sc-lib/sph-sp/string.h:string_append", "source/c/foreign/sph-sc-lib/sph-sp/string.h:string_clone", "source/c/foreign/sph-sc-lib/sph-sp/string.h:string_join", "source/c/foreign/sph-sc-lib/sph-sp/string.h:ensure_trailing_slash"]}
{"id": "C145", "title": "Display of bits", "statement": "sph_helper_display_bits prints for each byte of the given memory, in order, eight digits, the lowest bit first, and a line break at the end.", "quantifier": "all memory contents and sizes", "why_tests_cant": "all sizes and byte values", "anchors": ["source/c/foreign/sph-sc-lib/sph-sp/helper.c:sph_helper_display_bits", "source/c/foreign/sph-sc-lib/sph-sp/helper.c:sph_helper_display_bits_u8"]}
{"id": "C146", "title": "Arrays with used length", "statement": "A program of any additions, removals, clearings and resizings on an array3 that never exceeds the size keeps exactly the elements that were added and not removed, in order; the size, the room left and the last element are those of that list.", "quantifier": "all programs of these calls, all sizes, failing reallocations", "why_tests_cant": "all sequences of calls; reading cells that were never set often gives plausible values", "anchors": ["source/c/foreign/sph-sc-lib/sph-sp/array3.h:array3_add", "source/c/foreign/sph-sc-lib/sph-sp/array3.h:array3_remove", "source/c/foreign/sph-sc-lib/sph-sp/array3.h:name##_resize", "source/c/foreign/sph-sc-lib/sph-sp/array3.h:array3_data_last", "source/c/foreign/sph-sc-lib/sph-sp/array3.h:array3_declare_stack"]}
{"id": "C147", "title": "Registers of memory free what was registered", "statement": "memreg_free gives each address that was added with memreg_add to free, exactly once, the last first; a second memreg_free does nothing.", "quantifier": "all numbers of addresses up to the size of the register, null included", "why_tests_cant": "double frees and leaks are not visible in results", "anchors": ["source/c/foreign/sph-sc-lib/sph-sp/memreg.h:memreg_add", "source/c/foreign/sph-sc-lib/sph-sp/memreg.h:memreg_free"]}
{"id": "C148", "title": "A score of tones renders to the sum of its tones", "statement": "A program that makes a default wave event for each tone of a score (onset, duration, frequency, envelope), puts tones and parts that sound together into groups with sp_group_add and parts that follow each other into groups with sp_group_append, groups in groups to any depth, schedules each with sp_event_schedule, and renders the outermost event with sp_render_file, gets a wav file as long as the score whose samples in each channel are, for each time, the sum over the tones playing at that time of the envelope value times sin(2 pi f t / rate), t counted from the start of that tone, whatever the order in which the tones were added.", "quantifier": "all scores: any number of tones and parts, any nesting depth, any onsets, durations, frequencies and envelopes within 32 bit sizes, any order of adding; all even sampling rates; all channel counts", "why_tests_cant": "the claim is about every score of every depth and every order of insertion, across list building, preparation, block rendering and the file writer; tests render one or two events", "anchors": ["source/c-precompiled/sph-sp/sequencer.c:sp_event_schedule", "source/c-precompiled/sph-sp/sequencer.c:sp_group_add", "source/c-precompiled/sph-sp/sequencer.c:sp_group_append", "source/c-precompiled/sph-sp/sequencer.c:sp_group_prepare", "source/c-precompiled/sph-sp/sequencer.c:sp_wave_event_config_defaults", "source/c-precompiled/sph-sp/main.c:sp_render_file"]}
{"id": "C149", "title": "Steady tones through the windowed sinc filters", "statement": "A tone that is filtered block by block with sp_windowed_sinc_lp_hp or sp_windowed_sinc_bp_br with fixed parameters comes out, once the kernel is filled, as the same tone with the same frequency, delayed by half of the kernel length and scaled by a real gain that depends only on kernel and frequency, whatever the division into blocks, the amplitude and the phase; a constant passes low-pass and band-reject filters unchanged and is removed by high-pass and band-pass filters.", "quantifier": "all kernels the code creates, all frequencies, amplitudes and phases, all divisions into blocks, all signal lengths", "why_tests_cant": "the claim is about every frequency and every block division at once; tests can only sample some frequencies", "anchors": ["source/c-precompiled/sph-sp/filter.c:sp_convolution_filter", "source/c-precompiled/sph-sp/filter.c:sp_windowed_sinc_lp_hp_ir", "source/c-precompiled/sph-sp/filter.c:sp_windowed_sinc_bp_br_ir", "source/c-precompiled/sph-sp/main.c:sp_convolve"]}
{"id": "C150", "title": "Creating directories", "statement": "ensure_directory_structure returns 1 exactly if the path exists afterwards, which is so exactly if every missing directory on the way can be created; it creates nothing else, removes nothing, and frees every string it allocated exactly once.", "quantifier": "all file systems, all paths of any depth, all permissions", "why_tests_cant": "whether a pointer given to free was allocated, and all combinations of existing and missing directories", "anchors": ["source/c/foreign/sph-sc-lib/sph-sp/filesystem.h:dirname_2", "source/c/foreign/sph-sc-lib/sph-sp/filesystem.h:ensure_directory_structure"]}
{"id": "C151", "title": "Failed writes while rendering are reported", "statement": "If samples can not be written to the file, because the disk is full for example, then sp_render_range_file returns the status for failed writes, the file is closed once, it is a wav file of the samples of the blocks before, and the event is released. If the status is success, then everything is in the file.", "quantifier": "every event that plays seamlessly, every length, block size, channel count and rate; every behaviour of the disk: each write can be refused or be cut at any byte", "why_tests_cant": "write failures depend on the state of the disk and can begin at any call and any byte, tests write to working disks", "anchors": ["source/c-precompiled/sph-sp/main.c:sp_render_range_file", "source/c-precompiled/sph-sp/file.c:sp_file_open_write", "source/c-precompiled/sph-sp/file.c:sp_file_write", "source/c-precompiled/sph-sp/file.c:sp_file_close_write"]}
{"id": "C152", "title": "The random numbers repeat after 2^256 - 1 draws and not before, and are equally distributed", "statement": "For every seed, the sequence of numbers given by sph_random_u64 repeats after exactly 2^256 - 1 draws and after no other number of draws than multiples of this. In between the generator takes every state except all zeros exactly once. Every four 64 bit numbers that are not all zero are drawn one after the other at exactly one place of the period. Every 64 bit number is drawn 2^192 times in a period, zero once less. Of the samples of sph_random_f64_1to1, each of the 2^53 multiples of 2^-52 from -1 up to but not including 1 comes 2^203 times, -1 once less.", "quantifier": "for all seeds, all states other than zero, all numbers of draws, all 64 bit numbers", "why_tests_cant": "No test can draw 2^256 numbers; a changed shift constant leaves numbers that look random but can have a short cycle for some seeds.", "anchors": ["source/c/foreign/sph-sc-lib/sph-sp/random.c:sph_random_u64", "source/c/foreign/sph-sc-lib/sph-sp/random.c:sph_random_f64_bounded", "source/c/foreign/sph-sc-lib/sph-sp/random.c:sph_random_state_new", "source/c-precompiled/sph-sp/main.c:sp_random_state_new"]}
{"id": "C153", "title": "Under every fair schedule enqueued tasks are run and waiting returns", "statement": "In every execution of the thread pool in which no thread that can go on again and again is passed over for ever, and in which the functions of futures return: every task in the queue is taken, its function is called and the task completed; every call of sph_future_touch returns with the result of the future; every call of sph_thread_pool_finish returns with all workers ended. If workers never wait for futures, then functions fail to return only by not ending themselves. If functions of futures wait for futures, there is for every number of workers a fair execution in which all workers wait for ever.", "quantifier": "all numbers of workers and clients, all fair infinite executions including spurious wakeups and any choice of which sleeping worker a signal wakes, all functions of futures that return, fewer than 2^32 - 1 tasks in the queue", "why_tests_cant": "that something happens at some time in every schedule is not refuted by any finite number of runs that take long, and not shown by any number of runs that end; lost wakeups appear only in rare interleavings", "anchors": ["source/c/foreign/sph-sc-lib/sph-sp/thread-pool.c:sph_thread_pool_worker", "source/c/foreign/sph-sc-lib/sph-sp/thread-pool.c:sph_thread_pool_enqueue", "source/c/foreign/sph-sc-lib/sph-sp/thread-pool.c:sph_thread_pool_finish", "source/c/foreign/sph-sc-lib/sph-sp/futures.c:sph_future_touch", "source/c/foreign/sph-sc-lib/sph-sp/futures.c:sph_future_new"]}
{"id": "C154", "title": "Data races and store buffers of futures", "statement": "The thread pool and futures have no data race: never are two threads about to access the same field of the queue, of a task or of a future, one of them writing, without the mutex ordering them; in particular making or freeing a future that is not in use races with nothing. sph_future_touch returns what the function of the future has returned, every task is taken in order and called at most once and no freed memory is used also on a machine where the stores of a thread reach the memory later than it executes them, whether such a machine keeps the order of the stores of a thread (total store order) or not.", "quantifier": "all reachable states of any number of workers and clients, all interleavings of steps with stores leaving the buffers, all functions, data and addresses", "why_tests_cant": "reordering of stores depends on the machine and on timing, and a race that gives a wrong result once in a billion runs, or only on another processor, does not show up in tests", "anchors": ["source/c/foreign/sph-sc-lib/sph-sp/futures.c:sph_future_eval", "source/c/foreign/sph-sc-lib/sph-sp/futures.c:sph_future_touch", "source/c/foreign/sph-sc-lib/sph-sp/futures.c:sph_future_new", "source/c/foreign/sph-sc-lib/sph-sp/thread-pool.c:sph_thread_pool_worker", "source/c/foreign/sph-sc-lib/sph-sp/thread-pool.c:sph_thread_pool_enqueue"]}
{"id": "C155", "title": "Initialisation when threads or memory are missing", "statement": "When a thread can not be created, sp_initialize returns the error number, changes nothing that sp_deinitialize would have to release, and the threads that were created before end; after that, or at once, sp_initialize can be called again and gives a pool of the requested size in which exactly these threads run. When there is no memory for a sine table sp_initialize returns a failure. sp_deinitialize ends all threads, or leaves the pool usable, also when memory is missing.", "quantifier": "all requested numbers of threads, all threads at which the creation fails, all error numbers, all allocations that fail, all orders in which threads end", "why_tests_cant": "tests run where threads and memory are available; which threads have ended at the time of a second call depends on timing", "anchors": ["source/c-precompiled/sph-sp/main.c:sp_initialize", "source/c-precompiled/sph-sp/main.c:sp_deinitialize", "source/c/foreign/sph-sc-lib/sph-sp/thread-pool.c:sph_thread_pool_new", "source/c/foreign/sph-sc-lib/sph-sp/thread-pool.c:sph_thread_pool_finish", "source/c/foreign/sph-sc-lib/sph-sp/futures.c:sph_future_init", "source/c/foreign/sph-sc-lib/sph-sp/futures.c:sph_future_deinit"]}
{"id": "C156", "title": "Parallel rendering in double precision", "statement": "With the rounded additions of floating point numbers sp_seq_parallel gives the same output, bit for bit, in every run, however the futures are scheduled, and the same output as sp_seq. This holds for wave events and for all events whose functions only add to their output.", "quantifier": "all lists of events, all functions that add to the output, all additions whether associative or not, all blocks, all interleavings of the calling thread and the futures", "why_tests_cant": "floating point additions in another order give other results in the last bits only for some values and some timings; a test compares few runs on one machine", "anchors": ["source/c-precompiled/sph-sp/sequencer.c:sp_seq_parallel", "source/c-precompiled/sph-sp/sequencer.c:sp_seq_parallel_future_f", "source/c-precompiled/sph-sp/sequencer.c:sp_seq", "source/c-precompiled/sph-sp/sequencer.c:sp_wave_event_generate"]}
{"id": "C157", "title": "Mixing in double precision", "statement": "When sp_seq renders wave events and groups of them, nested to any depth, in any division into blocks, into a block of zeros, each sample differs from the exact sum of the products of amplitude, modulation and waveform of all that sounds at its time only by accumulated rounding: for k tones with values between -1 and 1 by at most k * (k + 3) / 2^53. Where nothing sounds the sample is zero.", "quantifier": "all trees of wave events with at most 2^24 tones at a time, all values, all block divisions, all roundings to nearest", "why_tests_cant": "the rounding error depends on all values and on the order of additions; a test compares a few mixes with an allowed difference that is guessed", "anchors": ["source/c-precompiled/sph-sp/sequencer.c:sp_seq", "source/c-precompiled/sph-sp/sequencer.c:sp_wave_event_generate", "source/c-precompiled/sph-sp/sequencer.c:sp_group_prepare", "source/c-precompiled/sph-sp/sequencer.c:sp_group_generate"]}
{"id": "C158", "title": "Rendering block by block in parallel", "statement": "When a piece is rendered with consecutive calls of sp_seq_parallel, for any division into blocks and any schedules of the threads, with events of any kind that play seamlessly (wave events, noise events that have their seeds, groups to any depth), then no call faults or fails, the samples depend neither on the division nor on the schedules, bit for bit, and with exact additions they are those that sp_seq renders.", "quantifier": "all lists of event trees, all divisions into blocks, all schedules of all calls", "why_tests_cant": "the number of schedules grows exponentially with the number of events and calls, and the events carry their state from call to call", "anchors": ["source/c-precompiled/sph-sp/sequencer.c:sp_seq_parallel", "source/c-precompiled/sph-sp/sequencer.c:sp_seq_parallel_future_f", "source/c-precompiled/sph-sp/sequencer.c:sp_group_generate_parallel", "source/c-precompiled/sph-sp/sequencer.c:sp_seq"]}
{"id": "C159", "title": "Noise events rendered in parallel are reproducible", "statement": "When a piece with noise events is rendered with sp_seq_parallel twice with the same random state of the library, the same samples come out: each noise event takes its own seed from the library, and which one does not depend on the order in which threads run.", "quantifier": "all numbers of noise events, all random states, all schedules", "why_tests_cant": "the threads rarely meet between reading and writing the random state, so that a test passes nearly always", "anchors": ["source/c-precompiled/sph-sp/sequencer.c:sp_noise_event_prepare", "source/c-precompiled/sph-sp/sequencer.c:sp_seq_parallel_future_f", "source/c-precompiled/sph-sp/main.c:sp_random_state_new", "source/c-precompiled/sph-sp/main.h:sp_random_state"]}
{"id": "C160", "title": "Recordings of any length", "statement": "A recording of any length that is written with sp_file_write is a wav file whose header says how many bytes of samples it has, or the caller is told that it can not be one; reading it returns all samples.", "quantifier": "all lengths, all divisions into calls, all numbers of channels, all samples", "why_tests_cant": "the first wrong file has four gigabytes, three hours of stereo", "anchors": ["source/c-precompiled/sph-sp/file.c:sp_file_write", "source/c-precompiled/sph-sp/file.c:sp_file_close_write", "source/c-precompiled/sph-sp/file.c:sp_file_read"]}
{"id": "C161", "title": "Opening and reading from devices that fail", "statement": "sp_file_open_read reports success only if the next byte that is read is the first of the samples, for files, pipes and devices with read errors, and leaves no file open otherwise. sp_file_read reports if it could not read, and then has written no samples.", "quantifier": "all contents, all places at which reading or seeking fails", "why_tests_cant": "tests read complete files from a disk that works", "anchors": ["source/c-precompiled/sph-sp/file.c:sp_file_open_read", "source/c-precompiled/sph-sp/file.c:sp_file_read", "source/c-precompiled/sph-sp/file.c:sp_file_close_read"]}
{"id": "C162", "title": "The accuracy of parallel rendering in double precision", "statement": "When wave events and groups of them, nested to any depth, with values between -1 and 1, are rendered with sp_seq_parallel, in any division into blocks and under any schedules, all samples are finite, and where k tones sound a sample differs from the exact sum of the tones by at most k * (2 * k + 3) / 2^53 and from what sp_seq renders by at most k * (3 * k + 6) / 2^53.", "quantifier": "all trees of wave events with at most 2^24 tones at a time, all values, all divisions into blocks, all schedules, all roundings to nearest", "why_tests_cant": "sums are made in another order than by sp_seq, and how far they are apart depends on all values; a test compares a few mixes with an allowed difference that is guessed", "anchors": ["source/c-precompiled/sph-sp/sequencer.c:sp_seq_parallel", "source/c-precompiled/sph-sp/sequencer.c:sp_seq_parallel_future_f", "source/c-precompiled/sph-sp/sequencer.c:sp_seq", "source/c-precompiled/sph-sp/sequencer.c:sp_wave_event_generate"]}
{"id": "C163", "title": "Pieces rendered to files, from tones to bytes", "statement": "When a piece of wave events and groups of them, nested to any depth, with values between -1 and 1, is rendered with sp_render_file, the result is a wav file with one finite single precision number per frame and channel, each of which differs from the exact sum of the k tones that sound at its time by at most k / 2^23, and is zero where nothing sounds; so do the samples that sp_file_read reads from it, in any division into blocks.", "quantifier": "all trees of wave events with at most 2^24 tones at a time, all values, all durations that fit into a file, all rates and numbers of channels, all roundings to nearest", "why_tests_cant": "the error is accumulated by mixing, by the conversion to single precision and depends on all values; a test compares a few files with an allowed difference that is guessed", "anchors": ["source/c-precompiled/sph-sp/main.c:sp_render_file", "source/c-precompiled/sph-sp/main.c:sp_render_range_file", "source/c-precompiled/sph-sp/sequencer.c:sp_seq", "source/c-precompiled/sph-sp/sequencer.c:sp_wave_event_generate", "source/c-precompiled/sph-sp/file.c:sp_file_write", "source/c-precompiled/sph-sp/file.c:sp_file_read"]}
{"id": "C164", "title": "The gain of filter kernels in double precision", "statement": "Whatever the rounding of sin and cos, a kernel that sp_windowed_sinc_lp_hp_ir makes from its windowed sinc values has, with every operation rounded to a nearest double, the sum 1 for low pass and 0 for high pass except for an error of at most about 12 n / 2^53 times the cancellation of the elements, so that constant signals pass unchanged or not at all; each element of the low pass kernel is the scaled value except for the same relative error.", "quantifier": "all lengths, all finite windowed sinc values whose sum is not lost in rounding, every rounding to nearest", "why_tests_cant": "rounding errors for all values and lengths", "anchors": ["source/c-precompiled/sph-sp/filter.c:sp_windowed_sinc_lp_hp_ir", "source/c/foreign/sph-sc-lib/sph-sp/float.h:sph_define_float_sum"]}
{"id": "C165", "title": "Parallel groups inside of pieces", "statement": "A group whose generate function is sp_group_generate_parallel can be used like any other event: in pieces that sp_seq renders block by block, with other events and in groups to any depth, rendering succeeds, the samples do not depend on how the time is divided into blocks nor on how the threads are scheduled, bit for bit, and if additions are exact they are those of an ordinary group.", "quantifier": "all pieces of seamless events, all divisions into blocks that are not empty, all schedules of all calls", "why_tests_cant": "each call has its own schedule, and the number of schedules grows exponentially with the number of events", "anchors": ["source/c-precompiled/sph-sp/sequencer.c:sp_group_generate_parallel", "source/c-precompiled/sph-sp/sequencer.c:sp_group_prepare", "source/c-precompiled/sph-sp/sequencer.c:sp_group_free", "source/c-precompiled/sph-sp/sequencer.c:sp_seq_parallel", "source/c-precompiled/sph-sp/main.c:sp_block_with_offset"]}
{"id": "C166", "title": "Scores in double precision, from tones to bytes", "statement": "When a piece is written down as tones with onset, duration, frequency and envelope, together and one after the other, nested to any depth, and a program makes the events with the default configuration and sp_group_add and sp_group_append and renders the whole with sp_render_file, then with all rounding, from the sine table over the mix to the single precision numbers of the file, each number in the file is finite and differs from the mathematical sum of sines times envelopes by at most k / 2^22, where k is the number of tones that sound at that time, and is zero where none sounds.", "quantifier": "all scores with at most 2^24 tones at a time, envelopes between -1 and 1, all even sampling rates, all numbers of channels, every rounding to nearest, every math library whose sin is accurate to 2^-52 and not above 1", "why_tests_cant": "errors come from the table, the envelope, the sums and the conversion, and depend on all values and the structure of the score; a test compares a few files with an allowed difference that is guessed", "anchors": ["source/c-precompiled/sph-sp/main.c:sp_sine_period", "source/c-precompiled/sph-sp/main.c:sp_render_file", "source/c-precompiled/sph-sp/sequencer.c:sp_group_add", "source/c-precompiled/sph-sp/sequencer.c:sp_group_append", "source/c-precompiled/sph-sp/sequencer.c:sp_event_schedule", "source/c-precompiled/sph-sp/sequencer.c:sp_seq", "source/c-precompiled/sph-sp/sequencer.c:sp_wave_event_prepare", "source/c-precompiled/sph-sp/sequencer.c:sp_wave_event_generate", "source/c-precompiled/sph-sp/file.c:sp_file_write"]}
{"id": "C167", "title": "Windowed sinc kernels in double precision", "statement": "sp_windowed_sinc_lp_hp_ir, computed with all rounding and with a math library of the usual accuracy, gives for each cutoff frequency up to half of the sampling rate a kernel of odd length, which is 4 / transition up to the rounding of that division and less than 2 above, whose elements are finite and are those of the formula (sinc times Blackman window, scaled to the sum 1; for high-pass the delayed impulse without that), and whose frequency response at each frequency is that of the exact kernel, each except for an error of at most K (20 n K + 160 n / |s|) / 2^53, where n is the length, s the sum before the scaling and K the ratio of the sum of the absolute values to |s|; when all values are positive, at most 180 n / 2^53. The length is not always the one for the exact quotient.", "quantifier": "all cutoff frequencies from 2^-99 to 1/2, all transitions, all lengths of at least 3 below 2^32 for which that bound is at most 1/8, all frequencies, every rounding to nearest, every math library with the accuracy stated", "why_tests_cant": "errors of sin for large arguments, of the window, of the sum and of the division come together and depend on the length and the cutoff frequency; a test looks at a few kernels with an allowed difference that is guessed", "anchors": ["source/c-precompiled/sph-sp/main.c:sp_sinc", "source/c-precompiled/sph-sp/filter.c:sp_window_blackman", "source/c-precompiled/sph-sp/filter.c:sp_windowed_sinc_lp_hp_ir_length", "source/c-precompiled/sph-sp/filter.c:sp_windowed_sinc_lp_hp_ir", "source/c-precompiled/sph-sp/filter.c:sp_spectral_inversion_ir"]}
{"id": "C168", "title": "Filter kernels exist for every cutoff frequency", "statement": "sp_windowed_sinc_lp_hp_ir creates a kernel, without a division by zero, for every cutoff frequency up to half of the sampling rate and every transition below 4 for which 4 / transition fits into 32 bit, and sp_windowed_sinc_bp_br_ir for all pairs of such cutoff frequencies: the sum of the windowed sinc values, by which the values are divided, is never less than 1, however many of the values are negative.", "quantifier": "all cutoff frequencies from -1/2 to 1/2, all transitions between 4 / (2^32 - 1) and 4, both kinds; band filters with lengths up to 2^30", "why_tests_cant": "the sum is an alternating trigonometric sum with up to 2^32 terms; that it is never zero is an inequality for all lengths and all cutoff frequencies, of which tests see single points", "anchors": ["source/c-precompiled/sph-sp/filter.c:sp_windowed_sinc_lp_hp_ir", "source/c-precompiled/sph-sp/filter.c:sp_windowed_sinc_bp_br_ir", "source/c-precompiled/sph-sp/filter.c:sp_window_blackman", "source/c-precompiled/sph-sp/main.c:sp_sinc"]}
{"id": "C169", "title": "What filters pass and what they stop", "statement": "If the cutoff frequency is at least the transition, then the low-pass filter passes all frequencies up to cutoff - transition, with the response of a delay by half of the kernel length and a relative error of at most 1/75, and attenuates all frequencies from cutoff + transition to half of the sampling rate to at most 1/150; the high-pass filter the other way around; the band-pass filter passes between the cutoff frequencies with at most 1/45 error and attenuates the rest to at most 1/70; the band-reject filter attenuates between them to at most 1/50 and passes the rest with at most 2/75 error. In double precision, the kernels keep these bounds, plus at most 2^-40 times the length for low-pass and high-pass and 2^-38 times the length for band filters. A tone filtered block by block comes out accordingly: delayed, or with an amplitude of at most that fraction, also in double precision and from samples that are only near to a tone, with errors in proportion to those of the samples.", "quantifier": "all cutoff frequencies up to half of the sampling rate, all transitions up to the cutoff frequency, all kernel lengths up to 2^32, all frequencies up to half of the sampling rate, all divisions into blocks", "why_tests_cant": "the attenuation is a statement about all frequencies, all cutoff frequencies and all lengths; tests measure a few tones with a few filters", "anchors": ["source/c-precompiled/sph-sp/filter.c:sp_windowed_sinc_lp_hp_ir", "source/c-precompiled/sph-sp/filter.c:sp_windowed_sinc_bp_br_ir", "source/c-precompiled/sph-sp/filter.c:sp_windowed_sinc_lp_hp_ir_length", "source/c-precompiled/sph-sp/filter.c:sp_windowed_sinc_lp_hp", "source/c-precompiled/sph-sp/filter.c:sp_filter"]}
{"id": "C170", "title": "Arrays of random numbers and noise", "statement": "sp_noise (sp_samples_random), sp_units_random, sp_times_random and the bounded variants set exactly the first size elements of the array, to the numbers that single calls would give one after the other, so that an array filled in pieces is the same as one filled at once. Samples are multiples of 2^-52 in -1 to 1 (1 not included), units multiples of 2^-53 in 0 to 1 (1 not included), bounded numbers less than the bound; drawing bounded times returns for every seed. Each 32 bit time comes 2^224 times in a period, zero once less. Over a period noise has no offset (mean within 2^-53 of zero) and the power 1/3 (within 2^-104).", "quantifier": "all seeds and states other than zero, all sizes, arrays, ranges; all ways to divide an array", "why_tests_cant": "the loop that draws again could run for ever for some state; mean and power are over 2^256 - 1 samples", "anchors": ["source/c/foreign/sph-sc-lib/sph-sp/random.c:sph_random_f64_array_1to1", "source/c/foreign/sph-sc-lib/sph-sp/random.c:sph_random_f64_array_0to1", "source/c/foreign/sph-sc-lib/sph-sp/random.c:sph_random_u32_array", "source/c/foreign/sph-sc-lib/sph-sp/random.c:sph_random_u32_bounded_array", "source/c/foreign/sph-sc-lib/sph-sp/random.c:sph_random_f64_bounded_array", "source/c/foreign/sph-sc-lib/sph-sp/random.c:sph_random_u64_bounded"]}
{"id": "C171", "title": "Approximate comparison", "statement": "sp_sample_nearly_equal returns true exactly if the difference of the two numbers is less than the margin, where margin is a factor as documented; sp_samples_nearly_equal returns true exactly if the lengths are equal and all elements with the same index are nearly equal, and reads only inside of the arrays.", "quantifier": "all doubles whose difference does not overflow, all margins, all arrays and lengths", "why_tests_cant": "the difference is rounded, which matters for few numbers only", "anchors": ["source/c/foreign/sph-sc-lib/sph-sp/float.c:sph_f64_nearly_equal", "source/c/foreign/sph-sc-lib/sph-sp/float.h:sph_define_float_array_nearly_equal"]}
{"id": "C172", "title": "Paths and envelopes made for events", "statement": "The macros that make paths and envelopes for an event (sp_event_path_samples_srq, sp_event_path_times_srq, sp_event_envelope_zero_srq, sp_event_envelope_scaled_srq and the ones for three to five points) calculate the path in memory of its own that was not in use before and store the address in the variable given; freeing the event releases exactly the memory of all paths made for it, and in between nothing else is kept allocated.", "quantifier": "all sequences of uses of the macros with any variables, all paths, all events without event memory", "why_tests_cant": "which memory is in use after freeing cannot be observed without instrumentation, and what a status that was never set contains depends on the compiler", "anchors": ["source/c-precompiled/sph-sp/sequencer.h:sp_event_path_samples_srq", "source/c-precompiled/sph-sp/sequencer.h:sp_event_envelope_zero_srq", "source/c-precompiled/sph-sp/path.c:sp_path_times", "source/c-precompiled/sph-sp/path.c:sp_define_path_n", "source/c-precompiled/sph-sp/sequencer.c:sp_event_memory_add", "source/c-precompiled/sph-sp/sequencer.c:sp_event_memory_free"]}
{"id": "C173", "title": "Scores rendered in parallel with numbers of type double", "statement": "The parts of a score of sine tones, together and one after the other in groups of any depth, are made into events with the functions of the library and rendered with sp_seq_parallel from time zero on, in consecutive blocks of any sizes. For all schedules of the threads every call returns success, and every sample is a finite number that differs from the sum of the enveloped sines of the score by no more than k (2k + 3) / 2^53 + k / 2^47 where k tones sound.", "quantifier": "all scores with envelopes between -1 and 1 and at most 2^24 tones at a time, all block divisions, all schedules of threads, every even sampling rate, all ways to round to nearest and all accurate math libraries", "why_tests_cant": "schedules and rounding cannot be enumerated, and a test compares with a recorded result, not with the exact sum", "anchors": ["source/c-precompiled/sph-sp/sequencer.c:sp_seq_parallel", "source/c-precompiled/sph-sp/sequencer.c:sp_group_add", "source/c-precompiled/sph-sp/main.c:sp_sine_period", "source/c-precompiled/sph-sp/sequencer.c:sp_wave_event_generate"]}
{"id": "C174", "title": "Tones of the library through filters of the library", "statement": "A program initialises the library, plays a tone with sp_sine block by block into blocks of any sizes, keeping the phase between the calls, and filters the blocks with the windowed sinc low-pass, high-pass, band-pass or band-reject filter, all with numbers of type double. Every call succeeds, and once the kernel is filled a tone whose frequency in hertz is outside of the pass band (and of the transition) is nearly removed, with less than 1/100 to 1/45 of its amplitude left, while a tone inside is the same sine delayed by half of the kernel length, with an error of at most 1/100 to 1/30 of its amplitude.", "quantifier": "all even sampling rates, frequencies, phases, amplitudes up to one, block divisions, cutoff frequencies and transitions of at least 2^-20, all ways to round to nearest and all accurate math libraries", "why_tests_cant": "only some frequencies, blocks and cutoffs can be tried, and a test compares with a recorded result, not with the exact sine", "anchors": ["source/c-precompiled/sph-sp/main.c:sp_sine", "source/c-precompiled/sph-sp/main.c:sp_initialize", "source/c-precompiled/sph-sp/filter.c:sp_windowed_sinc_lp_hp", "source/c-precompiled/sph-sp/filter.c:sp_windowed_sinc_bp_br", "source/c-precompiled/sph-sp/filter.c:sp_convolution_filter"]}
{"id": "C175", "title": "Several tones together through filters of the library", "statement": "A program initialises the library, plays up to 2^20 tones together with sp_sine, block by block with blocks of any sizes, each tone with amplitude, frequency and phase of its own, and filters the blocks with a windowed sinc low-pass, high-pass, band-pass or band-reject filter, all with numbers of type double. No tone is inside of a transition of the filter or above half of the sampling rate. Every call succeeds, and once the kernel is filled the output is the sum of exactly those tones that the filter is made to keep, delayed by half of the kernel length, with an error of at most 1/60 (low-pass, high-pass), 1/40 (band-pass) or 1/30 (band-reject) of the sum of the amplitudes plus (k + 1)^2 / 2^37 for k tones.", "quantifier": "all lists of tones, all even sampling rates, block divisions, cutoff frequencies and transitions of at least 2^-20, all ways to round to nearest and all accurate math libraries", "why_tests_cant": "only some combinations of tones can be tried, and a test compares with a recorded result, not with the exact sum of sines", "anchors": ["source/c-precompiled/sph-sp/main.c:sp_sine", "source/c-precompiled/sph-sp/main.c:sp_initialize", "source/c-precompiled/sph-sp/filter.c:sp_windowed_sinc_lp_hp", "source/c-precompiled/sph-sp/filter.c:sp_windowed_sinc_bp_br", "source/c-precompiled/sph-sp/filter.c:sp_convolution_filter"]}
{"id": "C176", "title": "Failing allocations in filters are reported", "statement": "If allocating the state, the argument block or the carryover array fails in a filter call, then the call returns a failure status and does not touch memory it does not have. Whatever calls were made with a state, its blocks are as large as the state says.", "quantifier": "all sequences of calls, impulse response functions, arguments, lengths and combinations of failing allocations", "why_tests_cant": "tests do not make allocations fail, and the combinations of failures and histories of sizes are unbounded", "anchors": ["source/c-precompiled/sph-sp/filter.c:sp_convolution_filter_state_set", "source/c/foreign/sph-sc-lib/sph-sp/helper.c:sph_helper_primitive_realloc"]}
{"id": "C177", "title": "The spectrum of tones shows their amplitudes", "statement": "A program plays tones together with sp_sine, block by block, and takes the spectrum with sp_fft over a number of samples that holds whole periods of every tone. The magnitude times two divided by the length, which is what sp_plot_spectrum_to_file writes, is the amplitude of the tone at the element of its frequency, and zero at the elements below half of the length where no tone has its frequency. With real numbers this is exact; with numbers of type double the error is at most n (k + 1) / 2^34 + (k + 1)^2 / 2^46 for k tones and length n, and log2(n) (k + 1) / 2^44 + (k + 1)^2 / 2^46 for lengths that are powers of two.", "quantifier": "up to 2^20 tones with amplitudes up to one, frequencies below half of the sampling rate, all even sampling rates, all lengths below 2^32, all divisions into blocks, every rounding to nearest, every math library with the accuracy stated", "why_tests_cant": "leakage and rounding depend on all frequencies, amplitudes and lengths together; tests look at a few spectra", "anchors": ["source/c-precompiled/sph-sp/main.c:sp_sine", "source/c-precompiled/sph-sp/main.c:sp_sine_period", "source/c-precompiled/sph-sp/main.c:sp_fft", "source/c/foreign/nayuki-fft/fft.c:Fft_transform", "source/c-precompiled/sph-sp/plot.c:sp_plot_spectrum_to_file"]}
{"id": "C178", "title": "Energy and convolution in the frequency domain", "statement": "sp_fft keeps the energy: the sum of the squares of the magnitudes of the result is n times that of the input, for every length, and in double precision up to the error stated by C133. Two signals with zeros behind them, transformed with sp_fft over a length that holds their convolution and multiplied element by element, are what sp_fft gives for the result of sp_convolve_one, and sp_ffti of the products is n times the result of sp_convolve_one with zero imaginary parts.", "quantifier": "all signals of at least one element, all lengths from the sum of the lengths minus one to 2^32 - 1, powers of two or not", "why_tests_cant": "an identity between three functions of the library for all signals and lengths; tests compare some", "anchors": ["source/c-precompiled/sph-sp/main.c:sp_fft", "source/c-precompiled/sph-sp/main.c:sp_ffti", "source/c-precompiled/sph-sp/main.c:sp_convolve_one", "source/c/foreign/nayuki-fft/fft.c:Fft_transform"]}
{"id": "C179", "title": "Blocks when allocations fail", "statement": "If allocating a channel fails in sp_block_new, then a failure status is returned and nothing stays allocated, and functions that make a block for themselves (sp_map_event_isolated_generate) pass the failure on. A block that was made with success has a separate array for each channel and can be freed with sp_block_free, after which the memory is as before.", "quantifier": "all numbers of channels, sizes, combinations of failing allocations, events and map functions", "why_tests_cant": "tests do not make allocations fail, and that two channels are the same memory does not show in every test", "anchors": ["source/c-precompiled/sph-sp/main.c:sp_block_new", "source/c-precompiled/sph-sp/main.c:sp_block_free", "source/c-precompiled/sph-sp/sequencer.c:sp_map_event_isolated_generate", "source/c/foreign/sph-sc-lib/sph-sp/helper.c:sph_helper_primitive_calloc"]}
{"id": "C180", "title": "The spectrum of filtered tones", "statement": "A program plays tones together with sp_sine, block by block, filters the blocks with a windowed sinc low-pass, high-pass, band-pass or band-reject filter, and takes the spectrum of the output with sp_fft over a number of samples that holds whole periods of every tone, from a sample on at which the kernel is filled. No tone is inside of a transition band. At the element of a tone that the filter passes, the magnitude times two divided by the length is the amplitude of the tone, and at all other elements of the first half, in particular those of the tones that the filter stops, it is zero; with numbers of type double, up to a stated multiple of the sum of the amplitudes (from the ripple of the filter) and a stated rounding error.", "quantifier": "all even sample rates, all lists of up to 2^20 tones, all cutoff frequencies and transitions of at least 2^-20, all divisions into blocks, all lengths and positions of the spectrum, all roundings to nearest", "why_tests_cant": "the result goes through tables, block carryover, a kernel with errors of libm, and a transform of any length; a test looks at one spectrum with an allowed difference that is guessed", "anchors": ["source/c-precompiled/sph-sp/main.c:sp_sine", "source/c-precompiled/sph-sp/filter.c:sp_windowed_sinc_lp_hp", "source/c-precompiled/sph-sp/filter.c:sp_windowed_sinc_bp_br", "source/c-precompiled/sph-sp/filter.c:sp_filter", "source/c-precompiled/sph-sp/main.c:sp_fft"]}
{"id": "C181", "title": "Seeds and the published generators", "statement": "sph_random_state_new sets the four words of the state to the first four numbers of splitmix64 for the seed, sp_random_state_new does the same for a 32 bit seed and drops two numbers, and sph_random_u64 gives the numbers and states of xoshiro256**. Different seeds give different states at every later time, the four words of a new state are different from each other, and for each word every 64 bit number is made by exactly one seed.", "quantifier": "all 64 bit and 32 bit seeds, all states, any number of numbers drawn", "why_tests_cant": "that no two of 2^64 seeds give the same state cannot be tried out, and tests with known numbers only see a few states", "anchors": ["source/c/foreign/sph-sc-lib/sph-sp/random.c:sph_random_state_new", "source/c/foreign/sph-sc-lib/sph-sp/random.c:sph_random_u64", "source/c-precompiled/sph-sp/main.c:sp_random_state_new"]}
{"id": "C182", "title": "Adding events and making configurations when allocations fail", "statement": "If the memory for a list element or for event configurations can not be allocated, then sp_event_list_add, sp_group_add, sp_group_append, sp_wave_event_config_new_n, sp_noise_event_config_new_n and sp_map_event_config_new_n return a failure status and change neither the list, the group nor configurations made before. If the allocation succeeds, then the event is in the list, and all new configurations have the default values and no other memory is changed.", "quantifier": "all lists, events, prepare functions, sequences of calls with any of the allocations failing, numbers of configurations and values of the variable of the caller", "why_tests_cant": "allocations that fail at chosen points of a sequence of calls are not made to fail in tests, and what is done with memory that has not been allocated may have no visible effect", "anchors": ["source/c-precompiled/sph-sp/sequencer.c:sp_event_list_add", "source/c-precompiled/sph-sp/sequencer.c:sp_group_add", "source/c-precompiled/sph-sp/sequencer.c:sp_group_append", "source/c-precompiled/sph-sp/sequencer.c:sp_wave_event_config_new_n", "source/c-precompiled/sph-sp/sequencer.c:sp_noise_event_config_new_n", "source/c-precompiled/sph-sp/sequencer.c:sp_map_event_config_new_n", "source/c/foreign/sph-sc-lib/sph-sp/helper.c:sph_helper_primitive_malloc"]}
{"id": "C183", "title": "The spectrum of a filter kernel is the frequency response of the filter", "statement": "A kernel of a filter, with zeros put behind it, transformed with sp_fft over n elements, gives at element k the frequency response of the filter at k/n of the sampling rate. For the kernels of the windowed sinc filters of the library, with numbers of type double, the magnitudes in the first half of the spectrum are 1 in the pass bands and 0 in the stop bands, up to a stated ripple and a stated rounding error.", "quantifier": "all kernels, all lengths that hold the kernel, all cutoff frequencies and transitions of at least 2^-28, all roundings to nearest, every libm within the stated accuracy", "why_tests_cant": "a test looks at the spectrum of a few kernels with an allowed difference that is guessed; the bounds hold for all lengths, also those that go through the Bluestein transform", "anchors": ["source/c-precompiled/sph-sp/filter.c:sp_windowed_sinc_lp_hp_ir", "source/c-precompiled/sph-sp/filter.c:sp_windowed_sinc_bp_br_ir", "source/c-precompiled/sph-sp/main.c:sp_fft", "source/c/foreign/nayuki-fft/fft.c:Fft_transform"]}
{"id": "C184", "title": "Reading and writing sound files when allocations fail", "statement": "If the temporary array can not be allocated, then sp_file_write and sp_file_read return a failure status, nothing is written to the file or to the sample arrays, and no memory is accessed that has not been allocated. If it can be allocated, then the calls write and read the samples, and the array is freed. Over any sequence of sp_file_write calls with failing allocations among them, the file has the samples of the successful calls.", "quantifier": "all files, sample arrays, numbers of samples, states of memory, and sequences of calls with any of the allocations failing", "why_tests_cant": "allocations are not made to fail at chosen calls in tests", "anchors": ["source/c-precompiled/sph-sp/file.c:sp_file_write", "source/c-precompiled/sph-sp/file.c:sp_file_read", "source/c/foreign/sph-sc-lib/sph-sp/helper.c:sph_helper_primitive_malloc"]}
{"id": "C185", "title": "All compositions and permutations when allocations fail", "statement": "If an array can not be allocated, then sp_times_compositions and sp_times_permutations return a failure status and release everything they allocated before. If the status is success, then the results are separate arrays with all compositions or permutations that can be released with sp_times_array_free.", "quantifier": "all sums and sizes, states of memory, and choices of which of the allocations fail", "why_tests_cant": "one allocation per result and 2^(n-1) or n! results: failures at chosen allocations are not tried out, and the result looks complete", "anchors": ["source/c-precompiled/sph-sp/arrays.c:sp_times_compositions", "source/c-precompiled/sph-sp/arrays.c:sp_times_permutations", "source/c/foreign/sph-sc-lib/sph-sp/helper.c:sph_helper_primitive_malloc", "source/c/foreign/sph-sc-lib/sph-sp/helper.c:sph_helper_primitive_calloc"]}
{"id": "C186", "title": "Functions with one new array when the allocation fails", "statement": "If the new array can not be allocated, then sp_times_duplicate, sp_times_constant, sp_times_random_binary, sp_times_scale, sp_times_to_samples_replace, sp_samples_to_times_replace and sp_stat_times_median return a failure status, and all memory is as before; in particular the array to be replaced is not freed. If it can be allocated, then they return success with the result documented.", "quantifier": "all arrays, sizes, factors, states of memory and of the random source, allocations that succeed and that fail", "why_tests_cant": "allocations are not made to fail in tests, and what an unset pointer contains depends on the compiler", "anchors": ["source/c-precompiled/sph-sp/arrays-template.c:arrays_template", "source/c-precompiled/sph-sp/arrays.c:sp_times_constant", "source/c-precompiled/sph-sp/arrays.c:sp_times_random_binary", "source/c-precompiled/sph-sp/arrays.c:sp_times_scale", "source/c-precompiled/sph-sp/arrays.c:sp_times_to_samples_replace", "source/c-precompiled/sph-sp/arrays.c:sp_samples_to_times_replace", "source/c-precompiled/sph-sp/statistics.c:define_sp_stat_median", "source/c/foreign/sph-sc-lib/sph-sp/helper.c:sph_helper_primitive_calloc"]}
