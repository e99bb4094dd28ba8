{
 "claims": [
  {
   "property": "C01",
   "status": "proved",
   "theorems": [
    "Sp.C01_convolve_one",
    "Sp.C01_tail_unchanged"
   ],
   "note": "sp_convolve_one over any sample type without laws (operation order included); exact linear convolution over commutative semirings; samples after a_len+b_len-1 unchanged."
  },
  {
   "property": "C02",
   "status": "proved",
   "theorems": [
    "Sp.C02_convolve_blocks",
    "Sp.C02_one_shot",
    "Sp.C02_blocks_eq_one_shot"
   ],
   "note": "block by block convolution with carryover equals one convolution of the whole input, with law-free samples in the operation order of the code; plus the exact version."
  },
  {
   "property": "C03",
   "status": "proved",
   "theorems": [
    "Sp.C03_convolve_in_bounds",
    "Sp.C03_needs_carryover_space"
   ],
   "note": "no access outside the buffers of the documented sizes; a carryover of one element less is an out of bounds access."
  },
  {
   "property": "C04",
   "status": "proved",
   "theorems": [
    "Sp.C04_filter_seamless"
   ],
   "note": "sp_convolution_filter over any block sizes, state initialised by the first call, allocation cannot fail."
  },
  {
   "property": "C05",
   "status": "partial",
   "theorems": [
    "Sp.C05_stale_impulse_response",
    "Sp.C05_use_after_failed_update",
    "Sp.C05_own_impulse_response_partial",
    "Sp.C05_failure_reported"
   ],
   "note": "False in general: the arguments comparison only compares memory of the given length, and a failed update leaves a dangling pointer. Partial: holds when argument equality implies the same impulse response and nothing fails."
  },
  {
   "property": "C06",
   "status": "partial",
   "theorems": [
    "Sp.C06_carryover_lost",
    "Sp.C06_changing_response_partial",
    "Sp.C06_keeps_all_of_growing"
   ],
   "note": "False in general: when the new impulse response is shorter the carried samples that no longer fit are lost. Partial: holds when the carryover capacity is kept (growing responses)."
  },
  {
   "property": "C07",
   "status": "proved",
   "theorems": [
    "Sp.C07_inversion",
    "Sp.C07_reversal"
   ],
   "note": "Exact reals. The response is the sum over the kernel times complex exponentials, for every frequency."
  },
  {
   "property": "C08",
   "status": "proved",
   "theorems": [
    "Sp.C08_low_pass",
    "Sp.C08_high_pass",
    "Sp.C08_defined",
    "Sp.C08_band_reject",
    "Sp.C08_band_pass",
    "Sp.C08_band_edges"
   ],
   "note": "Exact reals. Holds for every kernel that is created; the band-pass statements need lengths below 2^30. C08_defined shows kernels exist for a range of parameters, C168 for all cutoffs up to half of the sampling rate, and C08_band_edges covers cutoffs outside of the range."
  },
  {
   "property": "C09",
   "status": "partial",
   "theorems": [
    "Sp.C09_moving_average_partial",
    "Sp.C09_missing_next_false",
    "Sp.C09_first_value_false"
   ],
   "note": "Proved for all widths up to the size, all prev, and present next. Missing: a missing next, where the last radius values are wrong (C09_missing_next_false); the documented preservation of the first value is also false (C09_first_value_false)."
  },
  {
   "property": "C10",
   "status": "proved",
   "theorems": [
    "Sp.C10_wave_phase",
    "Sp.C10_phase",
    "Sp.C10_phase_float"
   ],
   "note": "Law-free model of sp_wave with 32 bit phase; sp_phase_float enters by truncation and fractional flag."
  },
  {
   "property": "C11",
   "status": "proved",
   "theorems": [
    "Sp.C11_wave_blocks"
   ],
   "note": "For every split, no laws of sample arithmetic used."
  },
  {
   "property": "C12",
   "status": "partial",
   "theorems": [
    "Sp.C12_amod_partial",
    "Sp.C12_no_amod_refuted",
    "Sp.C12_no_amod_partial"
   ],
   "note": "False without amod (amplitude applied twice, C12_no_amod_refuted). Partial: with amod, and without amod for amp*amp = amp."
  },
  {
   "property": "C13",
   "status": "proved",
   "theorems": [
    "Sp.C13_blocks",
    "Sp.C13_frame"
   ],
   "note": "For every division into ranges; law-free."
  },
  {
   "property": "C14",
   "status": "proved",
   "theorems": [
    "Sp.C14_defaults"
   ],
   "note": "For every number of channels."
  },
  {
   "property": "C15",
   "status": "partial",
   "theorems": [
    "Sp.C15_square_partial",
    "Sp.C15_square_refuted",
    "Sp.C15_square_periodic_partial",
    "Sp.C15_triangle",
    "Sp.C15_triangle_periodic"
   ],
   "note": "sp_square is false from t = 2^31 on (C15_square_refuted); partial below. sp_triangle holds in exact arithmetic."
  },
  {
   "property": "C16",
   "status": "partial",
   "theorems": [
    "Sp.C16_events_sorted_partial",
    "Sp.C16_prepare_empty_undefined",
    "Sp.C16_add_keeps_list"
   ],
   "note": "Partial because preparing an empty list stores an uninitialised pointer (C16_prepare_empty_undefined); proved for every nonempty sequence of additions."
  },
  {
   "property": "C17",
   "status": "proved",
   "theorems": [
    "Sp.C17_remove"
   ],
   "note": "heap model with dangling pointers as faults; the free function of the event is a log entry."
  },
  {
   "property": "C18",
   "status": "proved",
   "theorems": [
    "Sp.C18_list_free"
   ],
   "note": "heap model; every free call logged once, every node deallocated once."
  },
  {
   "property": "C19",
   "status": "proved",
   "theorems": [
    "Sp.C19_generate_calls",
    "Sp.C19_covers_exactly"
   ],
   "note": "Heap model of sp_seq refined to a list model; for every list sorted by start, event functions and division into consecutive blocks. Event functions must not change the event's start and end."
  },
  {
   "property": "C20",
   "status": "proved",
   "theorems": [
    "Sp.C20_prepared_once",
    "Sp.C20_prepared_if_rendered"
   ],
   "note": "Same model as C19; the prepare calls of every event over any number of blocks."
  },
  {
   "property": "C21",
   "status": "proved",
   "theorems": [
    "Sp.C21_no_fault",
    "Sp.C21_freed_when_finished",
    "Sp.C21_remaining",
    "Sp.C21_error"
   ],
   "note": "Same model; includes absence of use after free and double free, the freeing of finished events, and the error path."
  },
  {
   "property": "C22",
   "status": "proved",
   "theorems": [
    "Sp.C22_blocks",
    "Sp.C22_block_division",
    "Sp.C22_wave_events",
    "Sp.C22_mixed_left",
    "Sp.C22_mixed_right"
   ],
   "note": "Playable trees of any depth: leaf events are assumed seamless, which is proved for wave events (C22_wave_events) and, with conditions, for noise events (C102); C22_mixed_left and C22_mixed_right are for trees with events of two kinds. Each list has its own address space."
  },
  {
   "property": "C23",
   "status": "proved",
   "theorems": [
    "Sp.C23_writes_only_block"
   ],
   "note": "For event functions that write only their own range; both success and failure of sp_seq."
  },
  {
   "property": "C24",
   "status": "proved",
   "theorems": [
    "Sp.C24_add",
    "Sp.C24_add_succeeds",
    "Sp.C24_append",
    "Sp.C24_append_sequence",
    "Sp.C24_failing_prepare"
   ],
   "note": "Events whose end is zero are prepared first as in the code. Allocation of list nodes is assumed to succeed."
  },
  {
   "property": "C25",
   "status": "partial",
   "theorems": [
    "Sp.C25_failing_prepare_leaks",
    "Sp.C25_registered_before_is_freed_partial"
   ],
   "note": "False: sp_event_prepare_optional_srq works on a local copy that is dropped when prepare fails (C25_failing_prepare_leaks). Partial: all memory registered before the call is freed on any failure."
  },
  {
   "property": "C26",
   "status": "proved",
   "theorems": [
    "Sp.C26_parallel_equals_sequential",
    "Sp.C26_no_infinite_schedule",
    "Sp.C26_no_deadlock"
   ],
   "note": "Proved over a transition system of the calling thread and the futures with any interleaving, for samples in a commutative monoid (the order of additions differs). Events are independent and add to their own part of the output, prepare leaves the times unchanged (the parallel version computes times before prepare, the sequential one after), and no event fails. Termination and freedom from deadlock are separate theorems."
  },
  {
   "property": "C27",
   "status": "partial",
   "theorems": [
    "Sp.C27_slots_partial",
    "Sp.C27_malformed_false"
   ],
   "note": "False for events that end before they start: the counting loop stops at them and the distributing loop removes them, and the next event is written past the array (C27_malformed_false). Proved for all events with start at most end, whatever their functions do."
  },
  {
   "property": "C28",
   "status": "partial",
   "theorems": [
    "Sp.C28_no_failure_partial",
    "Sp.C28_failing_event_false"
   ],
   "note": "False: the merge loop leaves at the first failed future and everything is freed while later futures may still run (C28_failing_event_false). Proved when no event fails."
  },
  {
   "property": "C29",
   "status": "partial",
   "theorems": [
    "Sp.C29_nested_false",
    "Sp.C29_flat_partial",
    "Sp.C29_enough_workers_partial"
   ],
   "note": "False: for every number of workers there is a reachable state in which all workers wait for futures in the queue for ever. Partial: futures that do not wait for futures; futures of any nesting if fewer functions wait than there are workers and each waits only for futures enqueued after it, in every fair execution."
  },
  {
   "property": "C30",
   "status": "partial",
   "theorems": [
    "Sp.C30_tiles_partial",
    "Sp.C30_zero_duration_undefined"
   ],
   "note": "Proved for nonempty ranges; for an empty range the code divides by zero (C30_zero_duration_undefined)."
  },
  {
   "property": "C31",
   "status": "partial",
   "theorems": [
    "Sp.C31_handlers_once_partial",
    "Sp.C31_no_overflow_partial",
    "Sp.C31_ensure_zero_undefined"
   ],
   "note": "Proved when at least one element is ensured where something is ensured; ensuring zero elements makes the next registration write out of bounds (C31_ensure_zero_undefined)."
  },
  {
   "property": "C32",
   "status": "partial",
   "theorems": [
    "Sp.C32_isolated_partial",
    "Sp.C32_zero_size_leaks"
   ],
   "note": "Proved for blocks of nonzero size; with size zero the temporary block is leaked (C32_zero_size_leaks)."
  },
  {
   "property": "C33",
   "status": "partial",
   "theorems": [
    "Sp.C33_renders_from_zero",
    "Sp.C33_range_block",
    "Sp.C33_range_file_partial",
    "Sp.C33_range_false",
    "Sp.C33_render_file",
    "Sp.C33_open_failure_undefined"
   ],
   "note": "The file written always holds the sound from time 0 on, with as many frames as stop minus start; for start 0 this is the requested range, for every block size. For a later start the requested range is not what is written: negation C33_range_false with a concrete event. C33_open_failure_undefined: when the file cannot be opened the code goes on with a null pointer."
  },
  {
   "property": "C34",
   "status": "partial",
   "theorems": [
    "Sp.C34_free_releases_partial",
    "Sp.C34_leak",
    "Sp.C34_narrow_overflow"
   ],
   "note": "Prepare succeeds for valid configurations and the callback releases every registered allocation (partial), but the event has no free callback set by prepare, so the sequencer never calls it: negation C34_leak. C34_narrow_overflow: an impulse response longer than the buffer is written past its end."
  },
  {
   "property": "C35",
   "status": "proved",
   "theorems": [
    "Sp.C35_fifo"
   ],
   "note": "Queue in a heap model with next pointers; every sequence of enqueue and dequeue operations whose use is legal behaves as a first in first out list, including re-enqueueing removed elements."
  },
  {
   "property": "C36",
   "status": "proved",
   "theorems": [
    "Sp.C36_no_fault",
    "Sp.C36_order",
    "Sp.C36_exactly_once",
    "Sp.C36_done",
    "Sp.C36_takes_from_nonempty",
    "Sp.C36_no_lost_wakeup",
    "Sp.C36_completable"
   ],
   "note": "Transition system with any number of client threads, tasks that make further futures, spurious wakeups, deallocation. Safety for all schedules; completion as reachability from every state in which no worker waits for a future."
  },
  {
   "property": "C37",
   "status": "proved",
   "theorems": [
    "Sp.C37_finish"
   ],
   "note": "For sph_thread_pool_finish(pool, 0, 0), the form used by sph_future_deinit. Tasks enqueued by running tasks after the call are not covered by the property and may not be run."
  },
  {
   "property": "C38",
   "status": "proved",
   "theorems": [
    "Sp.C38_touch",
    "Sp.C38_result"
   ],
   "note": "Sequentially consistent memory is assumed; the code reads the field finished without synchronisation."
  },
  {
   "property": "C39",
   "status": "partial",
   "theorems": [
    "Sp.C39_reinitialize_false",
    "Sp.C39_reinitialize_partial",
    "Sp.C39_deinitialize_twice_false"
   ],
   "note": "False: sph_future_deinit does not reset the flag and destroys the mutex twice. Partial: initialisations without threads before."
  },
  {
   "property": "C40",
   "status": "proved",
   "theorems": [
    "Sp.C40_transition_bijective",
    "Sp.C40_never_zero",
    "Sp.C40_never_zero_sp",
    "Sp.C40_distinct",
    "Sp.C40_draws"
   ],
   "note": "xoshiro256 transition, splitmix seeding and the states made by sp_random_state_new, on 64 bit words as BitVec 64."
  },
  {
   "property": "C41",
   "status": "proved",
   "theorems": [
    "Sp.C41_bounded",
    "Sp.C41_returns",
    "Sp.C41_uniform",
    "Sp.C41_time_random_bounded"
   ],
   "note": "For an arbitrary source of 64 bit numbers: first raw number that is not redrawn decides, result below the range, and exactly 2^64/range raw numbers lead to each result. Termination only under the stated condition that a number that is not redrawn appears."
  },
  {
   "property": "C42",
   "status": "proved",
   "theorems": [
    "Sp.C42_f64",
    "Sp.C42_f64_0to1",
    "Sp.C42_f64_1to1",
    "Sp.C42_equally_many",
    "Sp.C42_distinct"
   ],
   "note": "Floating point operations are modelled as an arbitrary rounding that leaves representable numbers unchanged; all operations are shown to be exact."
  },
  {
   "property": "C43",
   "status": "partial",
   "theorems": [
    "Sp.C43_library_rand",
    "Sp.C43_times_shuffle_permutes_partial",
    "Sp.C43_times_shuffle_returns",
    "Sp.C43_times_shuffle_each_once_partial",
    "Sp.C43_times_shuffle_indices",
    "Sp.C43_long_array_out_of_bounds",
    "Sp.C43_swap_large_index",
    "Sp.C43_pointer_shuffle",
    "Sp.C43_pointer_swap_on_times",
    "Sp.C43_samples_second_half_stays",
    "Sp.C43_samples_shuffle_not_permutation"
   ],
   "note": "Proved for sp_times_shuffle up to 2^31 elements: permutes for every random source, each permutation from exactly one draw sequence, rearrangement independent of the elements. With more elements every call leaves the array because sp_times_swap takes signed 32 bit indices (C43_long_array_out_of_bounds). False for sp_samples_shuffle, which exchanges 32 bit words: refuted with a concrete run, and the second half of the array never moves. sp_times_shuffle_swap is right for arrays of pointers of all lengths (C43_pointer_shuffle) and leaves every array of times (C43_pointer_swap_on_times)."
  },
  {
   "property": "C44",
   "status": "proved",
   "theorems": [
    "Sp.C44_random_discrete",
    "Sp.C44_random_discrete_returns",
    "Sp.C44_proportions",
    "Sp.C44_times_random_discrete"
   ],
   "note": "For every source of bounded random numbers in range."
  },
  {
   "property": "C45",
   "status": "proved",
   "theorems": [
    "Sp.C45_unique",
    "Sp.C45_unique_all",
    "Sp.C45_first_distinct",
    "Sp.C45_more_than_available_reads_unset"
   ],
   "note": "For every random source and every returning run; if more numbers than indices are asked for, unset elements of out are read (C45_more_than_available_reads_unset)."
  },
  {
   "property": "C46",
   "status": "partial",
   "theorems": [
    "Sp.C46_sorts_partial",
    "Sp.C46_with_guard_partial",
    "Sp.C46_reads_before_array"
   ],
   "note": "False as stated: the scan from the right can leave the array (C46_reads_before_array holds for every strict weak order and each pair in ascending order). C46_sorts_partial: whenever a run has no undefined behaviour the result is a sorted permutation. C46_with_guard_partial: total correctness, with bounds, when an element not greater than the part stands before it."
  },
  {
   "property": "C47",
   "status": "partial",
   "theorems": [
    "Sp.C47_times_even_partial",
    "Sp.C47_samples_even_partial",
    "Sp.C47_times_odd_value",
    "Sp.C47_odd_false",
    "Sp.C47_one_false"
   ],
   "note": "Even sizes proved (given that the sort returns; for times the sum must fit). The code is wrong for odd sizes (it returns the larger neighbour of the middle index) and reads out of bounds for size 1: C47_odd_false, C47_one_false."
  },
  {
   "property": "C48",
   "status": "partial",
   "theorems": [
    "Sp.C48_times_mean",
    "Sp.C48_samples_mean",
    "Sp.C48_times_deviation",
    "Sp.C48_samples_deviation",
    "Sp.C48_times_skewness",
    "Sp.C48_samples_skewness",
    "Sp.C48_times_kurtosis",
    "Sp.C48_samples_kurtosis",
    "Sp.C48_samples_center",
    "Sp.C48_times_center_value",
    "Sp.C48_times_center_partial",
    "Sp.C48_times_center_false"
   ],
   "note": "Mean, deviation, skewness, kurtosis and the samples center proved over exact reals. sp_stat_times_center adds the first element twice: value and witness given, correct value only when the first element is zero."
  },
  {
   "property": "C49",
   "status": "proved",
   "theorems": [
    "Sp.C49_range",
    "Sp.C49_min",
    "Sp.C49_max"
   ],
   "note": "Both bounds are elements and bound all elements."
  },
  {
   "property": "C50",
   "status": "proved",
   "theorems": [
    "Sp.C50_sum",
    "Sp.C50_reads",
    "Sp.C50_zero"
   ],
   "note": "Over exact numbers the compensated sum is the sum; reads exactly the elements."
  },
  {
   "property": "C51",
   "status": "proved",
   "theorems": [
    "Sp.C51_times",
    "Sp.C51_times_arrays",
    "Sp.C51_samples",
    "Sp.C51_samples_arrays",
    "Sp.C51_copy",
    "Sp.C51_range"
   ],
   "note": "All element-wise functions of both instances of the template, also with the second array being the first; samples with arbitrary arithmetic."
  },
  {
   "property": "C52",
   "status": "partial",
   "theorems": [
    "Sp.C52_reverse_out_of_bounds",
    "Sp.C52_reverse_shifted_partial"
   ],
   "note": "False: C52_reverse_out_of_bounds holds for every input of every size. C52_reverse_shifted_partial gives the actual effect with one element more."
  },
  {
   "property": "C53",
   "status": "partial",
   "theorems": [
    "Sp.C53_or",
    "Sp.C53_xor",
    "Sp.C53_and_partial",
    "Sp.C53_and_ignores_b",
    "Sp.C53_and_false"
   ],
   "note": "or and xor proved; and is false (C53_and_ignores_b, C53_and_false), C53_and_partial is the case where it is right."
  },
  {
   "property": "C54",
   "status": "proved",
   "theorems": [
    "Sp.C54_times_cusum",
    "Sp.C54_samples_cusum",
    "Sp.C54_times_additions",
    "Sp.C54_times_multiplications",
    "Sp.C54_samples_additions",
    "Sp.C54_samples_divisions",
    "Sp.C54_cusum_zero_count"
   ],
   "note": "All functions; a count of zero is outside of the contract of cusum (C54_cusum_zero_count)."
  },
  {
   "property": "C55",
   "status": "proved",
   "theorems": [
    "Sp.C55_remove",
    "Sp.C55_insert_space",
    "Sp.C55_subdivide"
   ],
   "note": "All three functions, for all indices and counts inside the array."
  },
  {
   "property": "C56",
   "status": "proved",
   "theorems": [
    "Sp.C56_select",
    "Sp.C56_select_in_place",
    "Sp.C56_gt_indices",
    "Sp.C56_select_random"
   ],
   "note": "All three functions, with the aliasing the documentation allows."
  },
  {
   "property": "C57",
   "status": "proved",
   "theorems": [
    "Sp.C57_bits",
    "Sp.C57_same_pointer_wrong",
    "Sp.C57_random_size",
    "Sp.C57_random_bits",
    "Sp.C57_random_binary"
   ],
   "note": "Proved. C57_same_pointer_wrong: the same pointer for both arrays, allowed by the comment in the source, does not work."
  },
  {
   "property": "C58",
   "status": "partial",
   "theorems": [
    "Sp.C58_extract_takes_all",
    "Sp.C58_extract_all_in_range_partial",
    "Sp.C58_extract_false"
   ],
   "note": "False: with min <= max everything is extracted (C58_extract_takes_all, C58_extract_false); C58_extract_all_in_range_partial is the case where it is right."
  },
  {
   "property": "C59",
   "status": "partial",
   "theorems": [
    "Sp.C59_times_absolute_max",
    "Sp.C59_samples_absolute_max_partial",
    "Sp.C59_samples_below_one",
    "Sp.C59_set_gain_partial",
    "Sp.C59_samples_false",
    "Sp.C59_unity_gain_partial",
    "Sp.C59_unity_gain_below_one"
   ],
   "note": "times proved. samples false: values are truncated to integers (C59_samples_below_one for every signal below 1). Partial: signals whose largest absolute value is an integer."
  },
  {
   "property": "C60",
   "status": "proved",
   "theorems": [
    "Sp.C60_times_limit",
    "Sp.C60_samples_limit",
    "Sp.C60_samples_limit_abs"
   ],
   "note": "Proved in exact arithmetic; comparisons and negation are exact in floating point too."
  },
  {
   "property": "C61",
   "status": "proved",
   "theorems": [
    "Sp.C61_samples_blend",
    "Sp.C61_times_blend",
    "Sp.C61_times_mask"
   ],
   "note": "Proved in exact rational arithmetic."
  },
  {
   "property": "C62",
   "status": "partial",
   "theorems": [
    "Sp.C62_loop_partial",
    "Sp.C62_copies_zeros"
   ],
   "note": "False of the code: the copies before the loop are the wrong way around, so the set is overwritten with zeros and all size! results are zeros (C62_copies_zeros, for all sets and sizes). C62_loop_partial proves the loop itself (Heap's algorithm) correct for every array: each permutation exactly once."
  },
  {
   "property": "C63",
   "status": "proved",
   "theorems": [
    "Sp.C63_increment",
    "Sp.C63_sequences",
    "Sp.C63_sequences_all"
   ],
   "note": "For all bases from 1, digit counts and first sequences."
  },
  {
   "property": "C64",
   "status": "proved",
   "theorems": [
    "Sp.C64_compositions",
    "Sp.C64_sum_zero"
   ],
   "note": "For all sums from 1 whose number of compositions fits in 32 bits. The sum 0 is an access outside of the array (C64_sum_zero)."
  },
  {
   "property": "C65",
   "status": "proved",
   "theorems": [
    "Sp.C65_expt",
    "Sp.C65_factorial"
   ],
   "note": "All 32 bit arguments."
  },
  {
   "property": "C66",
   "status": "partial",
   "theorems": [
    "Sp.C66_sequences_partial",
    "Sp.C66_sequences_empty",
    "Sp.C66_compositions",
    "Sp.C66_permutations_value",
    "Sp.C66_permutations_partial",
    "Sp.C66_permutations_all",
    "Sp.C66_permutations_false"
   ],
   "note": "Sequences: true except for empty sequences of an empty set (C66_sequences_empty). Compositions: proved for sums from 1. sp_permutations_max divides by n-k and not by (n-k)!: right for k = n-1 and k = n-2, a division by zero for k = n (C66_permutations_all), wrong otherwise (C66_permutations_false)."
  },
  {
   "property": "C67",
   "status": "proved",
   "theorems": [
    "Sp.C67_modulo_match"
   ],
   "note": "All numbers and non-empty arrays of divisors other than zero."
  },
  {
   "property": "C68",
   "status": "proved",
   "theorems": [
    "Sp.C68_write",
    "Sp.C68_empty_write"
   ],
   "note": "All sequences of non-empty writes; header, sizes and data bytes exactly. A write of zero samples is reported as a failure (C68_empty_write). I/O errors are not modelled."
  },
  {
   "property": "C69",
   "status": "partial",
   "theorems": [
    "Sp.C69_read_partial",
    "Sp.C69_roundtrip_partial",
    "Sp.C69_channel_count_false",
    "Sp.C69_status_false",
    "Sp.C69_missing_file_false"
   ],
   "note": "Round trip over any division into calls, given that the caller sets file.channel_count. False as stated: open_read leaves channel_count unset (C69_channel_count_false), read returns no status (C69_status_false), a missing file is a null pointer access (C69_missing_file_false)."
  },
  {
   "property": "C70",
   "status": "proved",
   "theorems": [
    "Sp.C70_interleave",
    "Sp.C70_deinterleave",
    "Sp.C70_roundtrip",
    "Sp.C70_roundtrip2"
   ],
   "note": "Both directions, bounds, frame, and both round trips."
  },
  {
   "property": "C71",
   "status": "proved",
   "theorems": [
    "Sp.C71_dft"
   ],
   "note": "Exact complex arithmetic over the reals, both algorithms (radix 2 and Bluestein with the recursive convolution). Arrays of equal length at least n, n in the range of the parameter type. Floating point rounding is not modelled."
  },
  {
   "property": "C72",
   "status": "proved",
   "theorems": [
    "Sp.C72_inverse"
   ],
   "note": "Exact complex arithmetic over the reals; same assumptions as C71."
  },
  {
   "property": "C73",
   "status": "proved",
   "theorems": [
    "Sp.C73_linear_paths",
    "Sp.C73_limit_unchecked"
   ],
   "note": "For all point counts from 2 to 24, all strictly increasing integer x and all y: all samples are written, follow the straight line through neighbouring points, start at the first point and stay within the range of y. Exact (rational) arithmetic. A second theorem: more than 24 points write outside of the segment array."
  },
  {
   "property": "C74",
   "status": "partial",
   "theorems": [
    "Sp.C74_blocks_partial",
    "Sp.C74_reread_false",
    "Sp.C74_fraction_false"
   ],
   "note": "Proved for paths of moves, lines and constants with integer x and all histories of reads where each read begins at or after the end of the last one or before its beginning. False for re-reading a range and for points at fractional x, with witnesses."
  },
  {
   "property": "C75",
   "status": "partial",
   "theorems": [
    "Sp.C75_later_block_false",
    "Sp.C75_blocks_false",
    "Sp.C75_whole_segment_partial",
    "Sp.C75_whole_cubic_partial"
   ],
   "note": "False: a later block of a curve either uses an unset variable (general theorem for blocks at least twice their size into the segment) or writes before the output. Proved for curves with one and with two control points drawn as a whole."
  },
  {
   "property": "C76",
   "status": "partial",
   "theorems": [
    "Sp.C76_envelope_zero_two_points_partial",
    "Sp.C76_envelope_zero_false",
    "Sp.C76_envelope_zero_two_points_false",
    "Sp.C76_envelope_zero3_partial",
    "Sp.C76_envelope_zero4_partial",
    "Sp.C76_envelope_zero5_partial"
   ],
   "note": "sp_envelope_zero has undefined behaviour for all inputs with three or more points (theorem). The fixed-size variants 3, 4 and 5 are proved to follow their points; the status they return is indeterminate because the functions they call have no return statement."
  },
  {
   "property": "C77",
   "status": "partial",
   "theorems": [
    "Sp.C77_allocation_failure_not_reported",
    "Sp.C77_block_new_uses_unset_pointer",
    "Sp.C77_block_new_aliases",
    "Sp.C77_event_memory_partial"
   ],
   "note": "False of the code: the helper status id for memory errors is zero, which is success. Holds of the event memory register only."
  },
  {
   "property": "C78",
   "status": "partial",
   "theorems": [
    "Sp.C78_block_new",
    "Sp.C78_block_free_partial",
    "Sp.C78_zero_size_leaks",
    "Sp.C78_block_zero",
    "Sp.C78_block_copy"
   ],
   "note": "sp_block_free does not release blocks of size zero (C78_zero_size_leaks); the rest is proved."
  },
  {
   "property": "C79",
   "status": "partial",
   "theorems": [
    "Sp.C79_pan_partial",
    "Sp.C79_documented",
    "Sp.C79_further_channels_false"
   ],
   "note": "Proved for the first pair of channels (the default channel limit is two). False for every further pair (C79_further_channels_false)."
  },
  {
   "property": "C80",
   "status": "proved",
   "theorems": [
    "Sp.C80_u64_from_array"
   ],
   "note": "All byte arrays and counts 1 to 8; unaligned little-endian loads as on the supported machines."
  },
  {
   "property": "C81",
   "status": "partial",
   "theorems": [
    "Sp.C81_even_partial",
    "Sp.C81_odd_false",
    "Sp.C81_double_partial"
   ],
   "note": "Proved for even sizes, for exact reals and in double precision (error at most 2^-48 with an accurate sin). False for odd sizes because of the integer division (C81_odd_false); the tables of the library have the size of the sampling rate, which is usually even."
  },
  {
   "property": "C82",
   "status": "partial",
   "theorems": [
    "Sp.C82_round_returns_argument",
    "Sp.C82_round_false",
    "Sp.C82_harmonize_partial",
    "Sp.C82_harmonize_false",
    "Sp.C82_harmonize_overflow_false",
    "Sp.C82_sample_round_ignores_base",
    "Sp.C82_sample_round_false"
   ],
   "note": "sp_time_harmonize rounds up to the next multiple, not to the nearest (C82_harmonize_false); sp_time_round_to_multiple returns its argument (C82_round_returns_argument, C82_round_false). Exact arithmetic, values with a + base at most 2^32."
  },
  {
   "property": "C83",
   "status": "proved",
   "theorems": [
    "Sp.C83_unique_max",
    "Sp.C83_repetition_max",
    "Sp.C83_unique_all_max",
    "Sp.C83_repetition_all_max"
   ],
   "note": "Closed forms for all sizes within uint32."
  },
  {
   "property": "C84",
   "status": "partial",
   "theorems": [
    "Sp.C84_scale",
    "Sp.C84_scale_sum_partial",
    "Sp.C84_scale_sum_false"
   ],
   "note": "sp_times_scale is proved in full. sp_times_scale_sum holds with the same pointer for both arrays and is false otherwise (C84_scale_sum_false)."
  },
  {
   "property": "C85",
   "status": "proved",
   "theorems": [
    "Sp.C85_inharmonicity",
    "Sp.C85_zero_iff"
   ],
   "note": "Exact reals; quotients below 2^32 so that the conversion to sp_time_t is defined."
  },
  {
   "property": "C86",
   "status": "partial",
   "theorems": [
    "Sp.C86_scale_partial",
    "Sp.C86_positive_false",
    "Sp.C86_constant_false"
   ],
   "note": "Proved when the smallest sample is not positive and not all samples are equal. False otherwise: C86_positive_false, C86_constant_false."
  },
  {
   "property": "C87",
   "status": "proved",
   "theorems": [
    "Sp.C87_open_read"
   ],
   "note": "Termination and exact success condition for every content."
  },
  {
   "property": "C88",
   "status": "partial",
   "theorems": [
    "Sp.C88_thread_count_partial",
    "Sp.C88_thread_count_false"
   ],
   "note": "False above 128 threads (write past the array) and for 256 (no threads). Partial: up to 128."
  },
  {
   "property": "C89",
   "status": "proved",
   "theorems": [
    "Sp.C89_negative_curvature_ignored",
    "Sp.C89_curvature_false"
   ],
   "note": "All curvatures less than 1e-5, so all negative ones, give exactly the path without curvature; a witness shows that the curvature 1/2 does bend the path. This disagrees with the documented range -1 to 1."
  },
  {
   "property": "C90",
   "status": "partial",
   "theorems": [
    "Sp.C90_envelope_scaled_two_points_partial",
    "Sp.C90_envelope_scaled_false",
    "Sp.C90_envelope_scaled3_partial",
    "Sp.C90_envelope_scaled4_partial",
    "Sp.C90_envelope_scaled5_partial"
   ],
   "note": "As C76: sp_envelope_scaled has undefined behaviour for three or more points; the fixed-size variants are proved, with an indeterminate status."
  },
  {
   "property": "C91",
   "status": "partial",
   "theorems": [
    "Sp.C91_control_point_partial",
    "Sp.C91_steep_descent_false",
    "Sp.C91_horizontal_false"
   ],
   "note": "Proved for lines that are not horizontal and do not descend more than their width; false otherwise, with witnesses."
  },
  {
   "property": "C92",
   "status": "partial",
   "theorems": [
    "Sp.C92_curved_paths_partial",
    "Sp.C92_steep_descent_false",
    "Sp.C92_horizontal_false"
   ],
   "note": "Proved for segments whose control point is in the rectangle; false otherwise: a steep descent writes outside of the output, a horizontal segment leaves the range of y."
  },
  {
   "property": "C93",
   "status": "proved",
   "theorems": [
    "Sp.C93_band_reject_response",
    "Sp.C93_band_pass_response"
   ],
   "note": "Exact reals; band-pass with lengths below 2^30."
  },
  {
   "property": "C94",
   "status": "partial",
   "theorems": [
    "Sp.C94_band_pass_leak_false",
    "Sp.C94_no_leak_partial"
   ],
   "note": "False for band-pass with both cutoffs inside of the range, where two arrays leak (C94_band_pass_leak_false). Proved for all other cases."
  },
  {
   "property": "C95",
   "status": "partial",
   "theorems": [
    "Sp.C95_right_partial",
    "Sp.C95_right_false",
    "Sp.C95_left_out_of_bounds",
    "Sp.C95_left_not_copied"
   ],
   "note": "sp_times_make_seamless_right: only copying, the last element and memory safety hold (C95_right_false); sp_times_make_seamless_left always reads outside of a (C95_left_out_of_bounds) or copies nothing (C95_left_not_copied)."
  },
  {
   "property": "C96",
   "status": "partial",
   "theorems": [
    "Sp.C96_times_scale_y_partial",
    "Sp.C96_times_scale_y_false",
    "Sp.C96_samples_scale_y_ignores_target",
    "Sp.C96_samples_scale_y_false",
    "Sp.C96_samples_scale_sum_partial"
   ],
   "note": "The functions write to in instead of out; sp_times_scale_y holds when the maximum divides the target (C96_times_scale_y_false), sp_samples_scale_y ignores the target (C96_samples_scale_y_false), sp_samples_scale_sum holds with one array."
  },
  {
   "property": "C97",
   "status": "proved",
   "theorems": [
    "Sp.C97_times_round_trip",
    "Sp.C97_units",
    "Sp.C97_differences",
    "Sp.C97_constant",
    "Sp.C97_conversion",
    "Sp.C97_duplicate"
   ],
   "note": "Exact samples."
  },
  {
   "property": "C98",
   "status": "proved",
   "theorems": [
    "Sp.C98_deharmonize"
   ],
   "note": "For bases from 2 and values with a + base at most 2^32; exact arithmetic."
  },
  {
   "property": "C99",
   "status": "partial",
   "theorems": [
    "Sp.C99_times_random_bounded",
    "Sp.C99_normal_random_partial",
    "Sp.C99_normal_random_false"
   ],
   "note": "Proved for maxima up to 2^27; false above, because the sum overflows (C99_normal_random_false)."
  },
  {
   "property": "C100",
   "status": "partial",
   "theorems": [
    "Sp.C100_noise_generate_partial",
    "Sp.C100_large_block_overflow"
   ],
   "note": "For durations up to the length of the temporary buffers. C100_large_block_overflow: a longer duration, for example more than four seconds of an event without filter modulation requested at once, is written past the buffers. Random numbers and filters are arbitrary functions."
  },
  {
   "property": "C101",
   "status": "proved",
   "theorems": [
    "Sp.C101_channel_defaults",
    "Sp.C101_missing_envelope",
    "Sp.C101_default_config"
   ],
   "note": "Exact settings of each channel after prepare."
  },
  {
   "property": "C102",
   "status": "partial",
   "theorems": [
    "Sp.C102_noise_events_partial",
    "Sp.C102_seeds_partial",
    "Sp.C102_group_seeds_false",
    "Sp.C102_modulation_false"
   ],
   "note": "With given seeds, for events without modulated filter parameters, in trees of any depth (C102_noise_events_partial with C22_blocks); with the seeds taken from the library, for lists without groups (C102_seeds_partial). The rest does not hold: C102_group_seeds_false for noise events in groups, C102_modulation_false for modulated filter parameters."
  },
  {
   "property": "C103",
   "status": "partial",
   "theorems": [
    "Sp.C103_valid_accepted",
    "Sp.C103_accepted_valid",
    "Sp.C103_wrong_previous_reported",
    "Sp.C103_ring_reported",
    "Sp.C103_inner_ring_endless"
   ],
   "note": "valid lists are accepted, accepted lists are valid, ending lists with wrong links and rings through the first element are reported. False part: a ring that does not contain the first element makes it loop forever."
  },
  {
   "property": "C104",
   "status": "partial",
   "theorems": [
    "Sp.C104_windowed_sinc_partial",
    "Sp.C104_mixed_false"
   ],
   "note": "law-free, bit for bit. Partial: the condition KeepsAll of C06 (a block is at least as long as the carry-over when the kernel gets shorter), and one of the two filters per state; with both on one state a stale kernel is used (C104_mixed_false), because the function pointer in the state is never updated."
  },
  {
   "property": "C105",
   "status": "partial",
   "theorems": [
    "Sp.C105_released_partial",
    "Sp.C105_failed_update_double_free"
   ],
   "note": "all histories where no call fails after one has succeeded. False otherwise: the freed impulse response stays in the state and is freed again (for all states). Allocation succeeds; impulse responses are not empty."
  },
  {
   "property": "C106",
   "status": "partial",
   "theorems": [
    "Sp.C106_sample",
    "Sp.C106_time_partial",
    "Sp.C106_time_range_end",
    "Sp.C106_time_one_undefined"
   ],
   "note": "The sample version stays in the range. The time version is bounded by the range including its end, which is reached (C106_time_range_end), and is undefined for a distribution with one element (0/0)."
  },
  {
   "property": "C107",
   "status": "partial",
   "theorems": [
    "Sp.C107_duration_partial",
    "Sp.C107_duration_false",
    "Sp.C107_hz_samples",
    "Sp.C107_hz_above_rate_undefined",
    "Sp.C107_rad_false",
    "Sp.C107_factor_partial",
    "Sp.C107_factor_false"
   ],
   "note": "sp_rate_duration divides first and so loses up to n samples (bound proved; witness). sp_rad_to_hz is not the inverse of sp_hz_to_rad for any value except 0. sp_factor_to_hz rounds down: x or x - 1, 27 Hz at 48000 gives 26. For frequencies above the rate sp_hz_to_samples followed by sp_samples_to_hz divides by zero."
  },
  {
   "property": "C108",
   "status": "proved",
   "theorems": [
    "Sp.C108_isolated_plays",
    "Sp.C108_plays",
    "Sp.C108_isolated_blocks",
    "Sp.C108_failure"
   ],
   "note": "For any wrapped event that plays seamlessly, including trees, and any map function that processes streams."
  },
  {
   "property": "C109",
   "status": "partial",
   "theorems": [
    "Sp.C109_begun_freed_partial",
    "Sp.C109_list_freed_partial",
    "Sp.C109_not_begun_leak",
    "Sp.C109_render_failure_leak",
    "Sp.C109_map_freed",
    "Sp.C109_map_failure_leak"
   ],
   "note": "Holds for trees whose groups have begun. Groups that have not begun when sp_seq fails, and map events whose wrapped event fails in prepare, are leaked: proved."
  },
  {
   "property": "C110",
   "status": "partial",
   "theorems": [
    "Sp.C110_pointers",
    "Sp.C110_accessible_partial",
    "Sp.C110_size_out_of_bounds"
   ],
   "note": "The pointers are right but the size is not reduced, so that sp_block_zero and sp_block_copy write outside for every offset above zero."
  },
  {
   "property": "C111",
   "status": "partial",
   "theorems": [
    "Sp.C111_schedule_partial",
    "Sp.C111_schedule_length",
    "Sp.C111_end_set_false"
   ],
   "note": "Holds for events whose end is zero; for others the duration is added to the end (exact result proved)."
  },
  {
   "property": "C112",
   "status": "partial",
   "theorems": [
    "Sp.C112_double_tone",
    "Sp.C112_double_tone_file",
    "Sp.C112_default_tone",
    "Sp.C112_tone_file",
    "Sp.C112_fewer_channels_undefined",
    "Sp.C112_config_new"
   ],
   "note": "For even sampling rates (see C81) and as many output channels as the channel limit; with fewer output channels the default configuration writes to channels that do not exist (C112_fewer_channels_undefined). Proved over the reals, and in double precision with an error of at most 2^-47 for envelopes within [-1, 1] (C112_double_tone, C112_double_tone_file), given a sine function with an error of at most 2^-52."
  },
  {
   "property": "C113",
   "status": "partial",
   "theorems": [
    "Sp.C113_double_sine_partial",
    "Sp.C113_double_lfo_partial",
    "Sp.C113_sine_partial",
    "Sp.C113_lfo_partial",
    "Sp.C113_no_amod"
   ],
   "note": "Even sampling rates for sp_sine, all for sp_sine_lfo; exact reals and double precision (error at most 2^-47 plus one rounding per sample). Without amod the amplitude is squared (C113_no_amod, see C12)."
  },
  {
   "property": "C114",
   "status": "proved",
   "theorems": [
    "Sp.C114_curves_at_once"
   ],
   "note": "Proved for all numbers of segments; C75 shows that the same is false for curves that are read in blocks."
  },
  {
   "property": "C115",
   "status": "partial",
   "theorems": [
    "Sp.C115_no_length_false",
    "Sp.C115_contained_paths_ignored_false",
    "Sp.C115_contained_path_false",
    "Sp.C115_contained_curve_false"
   ],
   "note": "False: a contained path has points_count 1 and therefore no length. Proved for all nestings of moves, lines and constants: the samples are those of the path without the contained paths. A contained curve reads an unset variable."
  },
  {
   "property": "C116",
   "status": "proved",
   "theorems": [
    "Sp.C116_start_end_size",
    "Sp.C116_empty_undefined"
   ],
   "note": "Proved; without segments the end is undefined."
  },
  {
   "property": "C117",
   "status": "partial",
   "theorems": [
    "Sp.C117_two_points_partial",
    "Sp.C117_three_points_partial",
    "Sp.C117_four_points_partial",
    "Sp.C117_five_points_partial",
    "Sp.C117_curve2_partial",
    "Sp.C117_curve3_partial",
    "Sp.C117_curve4_partial",
    "Sp.C117_curve5_partial",
    "Sp.C117_envelope_curve3_partial",
    "Sp.C117_envelope_curve4_partial",
    "Sp.C117_envelope_curve5_partial",
    "Sp.C117_fraction_false"
   ],
   "note": "The values are proved for all lengths: straight paths for all points from left to right, curves for integer x and curvatures for which the control point is inside of the rectangle of the part. The returned status is indeterminate for all of these functions because the return statement is missing, so success does not hold. False for curves that start at a fraction of one half or more: a sample is left zero (C117_fraction_false). Missing: curves with smaller fractions."
  },
  {
   "property": "C118",
   "status": "partial",
   "theorems": [
    "Sp.C118_running_sums_partial",
    "Sp.C118_nonnegative_partial",
    "Sp.C118_negative_false",
    "Sp.C118_any_signs_partial"
   ],
   "note": "Holds if no running sum is negative, in particular for numbers that are not negative (C118_running_sums_partial, C118_nonnegative_partial). False otherwise (C118_negative_false): the code compares numbers and not absolute values, so that 2^60, -2^60, 1 gives 0. For any signs the error is at most 6 n / 2^53 times the sum of the absolute values (C118_any_signs_partial)."
  },
  {
   "property": "C119",
   "status": "proved",
   "theorems": [
    "Sp.C119_convolve_one",
    "Sp.C119_convolve_blocks"
   ],
   "note": "Doubles with any rounding to nearest, without fused operations; no overflow as hypothesis."
  },
  {
   "property": "C120",
   "status": "proved",
   "theorems": [
    "Sp.C120_path_samples"
   ],
   "note": "Rounding of each operation to a nearest double is modelled. Integer x, no curvature, the y up to a quarter of the largest double."
  },
  {
   "property": "C121",
   "status": "partial",
   "theorems": [
    "Sp.C121_samples_blend_partial",
    "Sp.C121_samples_blend_false",
    "Sp.C121_times_blend"
   ],
   "note": "Rounding of each operation is modelled. False: blending 0.625 with itself by 0.08 gives a larger number, for every rounding to nearest. Proved: accuracy, both ends exact, and for times that results stay between the inputs."
  },
  {
   "property": "C122",
   "status": "partial",
   "theorems": [
    "Sp.C122_to_times_partial",
    "Sp.C122_times_round_trip",
    "Sp.C122_to_times_false",
    "Sp.C122_units"
   ],
   "note": "Rounding of each operation is modelled. False for a single number, the largest double below 1/2 (0.49999999999999994), which is converted to 1; proved for all others."
  },
  {
   "property": "C123",
   "status": "partial",
   "theorems": [
    "Sp.C123_moving_average_partial",
    "Sp.C123_moving_average_false"
   ],
   "note": "Each mean is within (8 (radius + i) + 2) M / 2^53 of the exact one, M the largest absolute value of the input, for inputs of any length with next given. The claim relative to the values in the window is false: after a value of 2^60 all following ones come out as zero."
  },
  {
   "property": "C124",
   "status": "partial",
   "theorems": [
    "Sp.C124_triangle_partial",
    "Sp.C124_triangle_false",
    "Sp.C124_pan"
   ],
   "note": "Triangle: doubles from 0 to 1, periodic, monotone on both sides, within 3 / 2^53, 0 at the start. The peak can be 1 - 2^-53 (proved for b = 49). Pan: exact for every double."
  },
  {
   "property": "C125",
   "status": "partial",
   "theorems": [
    "Sp.C125_times_mean",
    "Sp.C125_samples_mean_partial",
    "Sp.C125_mean_between_false"
   ],
   "note": "Times: nearest double, between least and greatest value. Samples that are not negative: about two roundings. The mean of eleven equal samples can be greater than all of them."
  },
  {
   "property": "C126",
   "status": "proved",
   "theorems": [
    "Sp.C126_equal",
    "Sp.C126_contains"
   ],
   "note": "proved for all sizes"
  },
  {
   "property": "C127",
   "status": "partial",
   "theorems": [
    "Sp.C127_bounded_partial",
    "Sp.C127_bounded_false"
   ],
   "note": "proved for ranges from 2^-1021 on; for the smallest double the negation is proved"
  },
  {
   "property": "C128",
   "status": "proved",
   "theorems": [
    "Sp.C128_reads",
    "Sp.C128_prepare_fails"
   ],
   "note": "proved for functions that fulfil the contract, any segments and forward reads"
  },
  {
   "property": "C129",
   "status": "partial",
   "theorems": [
    "Sp.C129_set_again_partial",
    "Sp.C129_segments_get_partial",
    "Sp.C129_arc_false",
    "Sp.C129_arc_memory_false"
   ],
   "note": "proved for segments other than arcs; false for arcs, whose curvature is overwritten on first use"
  },
  {
   "property": "C130",
   "status": "partial",
   "theorems": [
    "Sp.C130_free",
    "Sp.C130_segments_get_partial",
    "Sp.C130_segments_get_twice_false",
    "Sp.C130_copy_false"
   ],
   "note": "freeing proved; false for a second spline_path_segments_get with the same segments and for copies"
  },
  {
   "property": "C131",
   "status": "partial",
   "theorems": [
    "Sp.C131_released_partial",
    "Sp.C131_leak",
    "Sp.C131_double_free",
    "Sp.C131_uninitialized"
   ],
   "note": "The memory operations are those of C105; allocation of the memory and of the register can each fail. False if allocations fail: a failed register leaks one allocation, a failed allocation is not noticed and registers the old address a second time or an unset variable."
  },
  {
   "property": "C132",
   "status": "partial",
   "theorems": [
    "Sp.C132_own_failures_partial",
    "Sp.C132_other_groups",
    "Sp.C132_names_false",
    "Sp.C132_memory_undefined"
   ],
   "note": "False for numbers that share a name and for the group sph, whose description function has no return statement; names of other groups are unknown."
  },
  {
   "property": "C133",
   "status": "proved",
   "theorems": [
    "Sp.C133_fft",
    "Sp.C133_fft_power",
    "Sp.C133_round_trip",
    "Sp.C133_round_trip_power"
   ],
   "note": "All lengths below 2^32. cos, sin and pi are hypotheses of the theorem, satisfied by an instance in the example. Overflow is excluded by a hypothesis. The underflow term is below 2^-946. The bound for lengths that are no power of two is not sharp."
  },
  {
   "property": "C134",
   "status": "proved",
   "theorems": [
    "Sp.C134_written",
    "Sp.C134_round_trip",
    "Sp.C134_exact",
    "Sp.C134_integer"
   ],
   "note": "C134_written: the bytes of the file are those of nearest single precision numbers. C134_round_trip: error of what is read. C134_exact, C134_integer: single precision numbers come back unchanged. The conversions between double and float are specified as those of IEEE 754 (Spec/Single.lean), numbers above the largest single precision number are outside."
  },
  {
   "property": "C135",
   "status": "proved",
   "theorems": [
    "Sp.C135_low_pass",
    "Sp.C135_high_pass",
    "Sp.C135_linear_phase"
   ],
   "note": "Proved in exact arithmetic; that a kernel is created for every cutoff is C168."
  },
  {
   "property": "C136",
   "status": "partial",
   "theorems": [
    "Sp.C136_samples",
    "Sp.C136_times_partial",
    "Sp.C136_times_undefined",
    "Sp.C136_unwritable_undefined",
    "Sp.C136_spectrum",
    "Sp.C136_spectrum_leaks"
   ],
   "note": "samples and spectrum proved; times hold on platforms where a uint32_t argument can be read with lu, which the standard does not define (C136_times_undefined); unwritable files are a null pointer access, failures of the spectrum function leak"
  },
  {
   "property": "C137",
   "status": "partial",
   "theorems": [
    "Sp.C137_mixed_partial",
    "Sp.C137_own_files_partial",
    "Sp.C137_names_false"
   ],
   "note": "holds below 10^9 plots, for every sequence of calls of the three plot functions (C137_mixed_partial) and in more detail for sp_plot_samples (C137_own_files_partial); from then on the name of an earlier plot is used (C137_names_false)"
  },
  {
   "property": "C138",
   "status": "partial",
   "theorems": [
    "Sp.C138_whole_command",
    "Sp.C138_runs_gnuplot_partial",
    "Sp.C138_quote_false"
   ],
   "note": "the whole command is passed for all paths; it plots the path if it has no quotes, backslash and backquote; with quotes other commands can run (C138_quote_false)"
  },
  {
   "property": "C139",
   "status": "partial",
   "theorems": [
    "Sp.C139_render_plot",
    "Sp.C139_milliseconds_false",
    "Sp.C139_progress_undefined"
   ],
   "note": "the plotted data is proved; the message is wrong below one second, the progress format is undefined"
  },
  {
   "property": "C140",
   "status": "partial",
   "theorems": [
    "Sp.C140_times_display_partial",
    "Sp.C140_samples_display",
    "Sp.C140_empty_out_of_bounds",
    "Sp.C140_event_list_display"
   ],
   "note": "samples and lists proved; times as in C136; without elements memory outside is read"
  },
  {
   "property": "C141",
   "status": "proved",
   "theorems": [
    "Sp.C141_fft",
    "Sp.C141_ffti",
    "Sp.C141_any_arithmetic"
   ],
   "note": "Transforms with memory: temporary arrays as allocations that are live or not, double free is a fault; contents of arrays are values, so that access to freed arrays is not part of this model. For lengths below 2^32 and arrays with at least that many elements. C141_any_arithmetic is the same for rounded arithmetic (C133)."
  },
  {
   "property": "C142",
   "status": "proved",
   "theorems": [
    "Sp.C142_permutations",
    "Sp.C142_compositions",
    "Sp.C142_duplicate",
    "Sp.C142_constant",
    "Sp.C142_random_binary",
    "Sp.C142_scale",
    "Sp.C142_to_samples_replace",
    "Sp.C142_to_times_replace"
   ],
   "note": "Arrays at addresses; use after free, double free and access outside of arrays are faults of the model and excluded by the theorems. Allocations succeed. Permutations for size! < 2^32 (the contents are zeros, see C62), compositions for 2^(n-1) < 2^32. C142_to_times_replace is stated for values for which sp_samples_to_times is defined (C97_conversion)."
  },
  {
   "property": "C143",
   "status": "partial",
   "theorems": [
    "Sp.C143_median_partial",
    "Sp.C143_median_leak"
   ],
   "note": "False (C143_median_leak): every successful call leaves the sorted copy allocated. Partial: the value is that of C47 and no array changes. sp_stat_samples_median is the same macro."
  },
  {
   "property": "C144",
   "status": "partial",
   "theorems": [
    "Sp.C144_append",
    "Sp.C144_clone",
    "Sp.C144_join",
    "Sp.C144_trailing_slash_partial",
    "Sp.C144_trailing_slash_false"
   ],
   "note": "append, clone and join as stated. ensure_trailing_slash is wrong: for each string without slash at the end the new string is empty (its first byte is set to zero) and its last byte is unset (C144_trailing_slash_false); the other cases are right (C144_trailing_slash_partial)"
  },
  {
   "property": "C145",
   "status": "proved",
   "theorems": [
    "Sp.C145_display_bits"
   ],
   "note": "as stated"
  },
  {
   "property": "C146",
   "status": "partial",
   "theorems": [
    "Sp.C146_array",
    "Sp.C146_no_memory",
    "Sp.C146_declare",
    "Sp.C146_add_full_false",
    "Sp.C146_data_last_false",
    "Sp.C146_data_last_partial",
    "Sp.C146_declare_stack_false"
   ],
   "note": "the list behaviour is as stated for all programs (C146_array). False in three respects: adding to a full array writes behind it (C146_add_full_false), array3_data_last reads an unset cell unless the array is full (C146_data_last_false, right if full: C146_data_last_partial), array3_declare_stack leaves used unset (C146_declare_stack_false)"
  },
  {
   "property": "C147",
   "status": "proved",
   "theorems": [
    "Sp.C147_register",
    "Sp.C147_overflow_false"
   ],
   "note": "as stated; adding more than the register has room for writes behind it (C147_overflow_false)"
  },
  {
   "property": "C148",
   "status": "proved",
   "theorems": [
    "Sp.C148_score_file"
   ],
   "note": "Scores without empty groups; even sampling rates (for odd ones the sine table is wrong, C81); real arithmetic here, floats narrowed by the format; C166 is the same with rounding"
  },
  {
   "property": "C149",
   "status": "proved",
   "theorems": [
    "Sp.C149_tone",
    "Sp.C149_constant"
   ],
   "note": "Real arithmetic; kernels for cutoffs inside of the range (at the edges of the range band kernels are low-pass, high-pass, passthrough or silence, C08_band_edges)"
  },
  {
   "property": "C150",
   "status": "partial",
   "theorems": [
    "Sp.C150_directories_partial",
    "Sp.C150_relative_undefined"
   ],
   "note": "Absolute paths, and relative ones whose first directory exists; for the others the code frees a constant string (proved: C150_relative_undefined)"
  },
  {
   "property": "C151",
   "status": "partial",
   "theorems": [
    "Sp.C151_failed_writes_partial",
    "Sp.C151_header_failure_undefined",
    "Sp.C151_sizes_unreported",
    "Sp.C151_events_left"
   ],
   "note": "The status is success exactly if all samples were written, otherwise the file has the samples of the blocks before and is closed once, for every event that plays seamlessly and every behaviour of the disk. Not so for the rest of the claim: if the header can not be written a closed file is used (C151_header_failure_undefined), failures of the sizes in the header are not reported (C151_sizes_unreported), the events are not released (C151_events_left). Simplified: no buffering in the C library."
  },
  {
   "property": "C152",
   "status": "proved",
   "theorems": [
    "Sp.C152_period",
    "Sp.C152_all_states",
    "Sp.C152_four_in_a_row",
    "Sp.C152_equally_often",
    "Sp.C152_noise_values",
    "Sp.C152_numbers_repeat",
    "Sp.C152_seed"
   ],
   "note": "All states other than zero; the two raw generators and the noise samples. Bounded draws (C41) take several raw numbers at times and are not counted here."
  },
  {
   "property": "C153",
   "status": "proved",
   "theorems": [
    "Sp.C153_tasks_run",
    "Sp.C153_touch_returns",
    "Sp.C153_finish_returns",
    "Sp.C153_functions_return",
    "Sp.C153_waiting_false",
    "Sp.C153_nested_return"
   ],
   "note": "All fair executions; false for functions of futures that wait for futures when all workers wait (C153_waiting_false); C153_nested_return: they return if there is always a worker that does not wait."
  },
  {
   "property": "C154",
   "status": "partial",
   "theorems": [
    "Sp.C154_total_store_order",
    "Sp.C154_buffers",
    "Sp.C154_no_fault",
    "Sp.C154_touch_partial",
    "Sp.C154_pool",
    "Sp.C154_reordered_stores_false",
    "Sp.C154_races_partial",
    "Sp.C154_new_races_not",
    "Sp.C154_race_false"
   ],
   "note": "The property is false. C154_race_false: the flag finished is written by the worker and read by sph_future_touch without a mutex or atomic access, a data race. C154_reordered_stores_false: if stores are reordered the touch can return the argument instead of the result. Proved: the only race is this one (C154_races_partial), making futures races with nothing (C154_new_races_not), and for total store order all executions are ones of the model without buffers (C154_total_store_order), so touch returns the result (C154_touch_partial), nothing freed is used, order and at most once hold (C154_no_fault, C154_pool, C154_buffers). Reordering by the compiler is covered only as far as it is a reordering of these two stores."
  },
  {
   "property": "C155",
   "status": "partial",
   "theorems": [
    "Sp.C155_success",
    "Sp.C155_thread_error",
    "Sp.C155_threads_end",
    "Sp.C155_second_try_partial",
    "Sp.C155_second_try_false",
    "Sp.C155_mutex_false",
    "Sp.C155_no_task_false",
    "Sp.C155_deinit_false",
    "Sp.C155_table_false"
   ],
   "note": "The property is false in four places, each with a theorem: C155_table_false (null pointer write instead of a failure), C155_second_try_false (a second call while threads of the first one are there drops their tasks; more threads run than the pool has and never end), C155_mutex_false (the mutex is initialised twice without having been destroyed), C155_no_task_false and C155_deinit_false (missing memory for tasks leaves threads, and the mutex is destroyed while they use it). Proved: the error number is returned, nothing else changed and the threads end (C155_thread_error, C155_threads_end), a second try after they have ended starts all threads (C155_second_try_partial), and success with enough resources (C155_success)."
  },
  {
   "property": "C156",
   "status": "partial",
   "theorems": [
    "Sp.C156_schedule_independent",
    "Sp.C156_bit_for_bit_partial",
    "Sp.C156_double_partial",
    "Sp.C156_wave_partial",
    "Sp.C156_wave_exact",
    "Sp.C156_bit_for_bit_false"
   ],
   "note": "Independence of the schedule holds for all additions. The output is that of sp_seq if no event adds more than once to a sample, in particular for wave events with at most one configuration for each channel; with exact additions for all. False for an event that adds twice to a sample, because the parallel version adds the sum: C156_bit_for_bit_false. The sign of zero is not represented."
  },
  {
   "property": "C157",
   "status": "proved",
   "theorems": [
    "Sp.C157_mix_error",
    "Sp.C157_full_scale",
    "Sp.C157_silence"
   ],
   "note": "The general bound is mixErrorBound, in terms of the number of tones, the sum of absolute values and the waveforms; C157_full_scale is the case of values between -1 and 1. Infinities are excluded by the range conditions."
  },
  {
   "property": "C158",
   "status": "proved",
   "theorems": [
    "Sp.C158_blocks",
    "Sp.C158_no_failure",
    "Sp.C158_same_as_sequential",
    "Sp.C158_returns",
    "Sp.C158_wave_trees"
   ],
   "note": "Any addition with a neutral zero for independence of division and schedule, in particular that of doubles; equality with sp_seq for sounds that add, with exact additions. Noise events with given seeds; for how they get their seeds see C159. sp_group_generate_parallel at the top of a piece is the same call; for parallel groups in parallel groups see C29."
  },
  {
   "property": "C159",
   "status": "partial",
   "theorems": [
    "Sp.C159_same_seed_false",
    "Sp.C159_any_order_false",
    "Sp.C159_race_false",
    "Sp.C159_seeds_partial",
    "Sp.C159_locked_partial",
    "Sp.C159_output_false"
   ],
   "note": "The property is false: for any number of noise events there is a schedule with which all get the same seed (C159_same_seed_false) and, without interruptions, one for each order of seeds (C159_any_order_false); there is a data race (C159_race_false), and the output differs (C159_output_false). What holds: seeds are among the first draws (C159_seeds_partial). With a mutex they would be different ones (C159_locked_partial)."
  },
  {
   "property": "C160",
   "status": "partial",
   "theorems": [
    "Sp.C160_stated_size_false",
    "Sp.C160_round_trip_partial",
    "Sp.C160_block_undefined",
    "Sp.C160_read_undefined"
   ],
   "note": "The property is false: from four gigabytes on the header has the remainder of the size and no call reports it (C160_stated_size_false), and a single block of 2^30 values or more is written and read outside of memory (C160_block_undefined, C160_read_undefined). What holds: all samples are in the file and are read again by this library, which does not use the stated size, for any number of blocks below four gigabytes each (C160_round_trip_partial)."
  },
  {
   "property": "C161",
   "status": "partial",
   "theorems": [
    "Sp.C161_open_partial",
    "Sp.C161_pipe",
    "Sp.C161_wrong_place_false",
    "Sp.C161_left_open_false",
    "Sp.C161_healthy_read_partial",
    "Sp.C161_read_partial"
   ],
   "note": "The property is false: the result of fseek is not used, so that with pipes success is reported at wrong places (C161_pipe, C161_wrong_place_false); the file stays open on failures (C161_left_open_false); sp_file_read returns no status. What holds: with devices that seek, opening succeeds exactly if all up to the samples can be read, with the right position (C161_open_partial), a read that fails in the middle writes no samples (C161_read_partial), and without failures it is the one of C69 (C161_healthy_read_partial)."
  },
  {
   "property": "C162",
   "status": "proved",
   "theorems": [
    "Sp.C162_parallel_error",
    "Sp.C162_same_but_rounding"
   ],
   "note": "For finite values at full scale; the sign of zero is not modelled."
  },
  {
   "property": "C163",
   "status": "proved",
   "theorems": [
    "Sp.C163_file_error",
    "Sp.C163_read_back"
   ],
   "note": "For finite values at full scale; reading with the channel count set by the caller (see C69)."
  },
  {
   "property": "C164",
   "status": "proved",
   "theorems": [
    "Sp.C164_low_pass",
    "Sp.C164_high_pass",
    "Sp.C164_constant_passes",
    "Sp.C164_constant_removed"
   ],
   "note": "The windowed sinc values are any doubles; finite values whose sum is not lost in rounding."
  },
  {
   "property": "C165",
   "status": "proved",
   "theorems": [
    "Sp.C165_parallel_group_plays",
    "Sp.C165_same_as_group",
    "Sp.C165_piece"
   ],
   "note": "Blocks must not be empty. Equality with ordinary groups needs exact additions, as for C158."
  },
  {
   "property": "C166",
   "status": "proved",
   "theorems": [
    "Sp.C166_score_double"
   ],
   "note": "Even sampling rates (C81). The accuracy of sin, its range and rounding to nearest are hypotheses about the platform, met by a library in the example. Envelopes between -1 and 1."
  },
  {
   "property": "C167",
   "status": "proved",
   "theorems": [
    "Sp.C167_every_cutoff",
    "Sp.C167_length",
    "Sp.C167_low_pass",
    "Sp.C167_high_pass",
    "Sp.C167_same_sign",
    "Sp.C167_length_rounded"
   ],
   "note": "Accuracy of sin (relative) and cos is a hypothesis, shown to be satisfiable. That the sum of the exact values is not near zero is a hypothesis of the general theorems, which C167_same_sign shows for wide filters and C167_every_cutoff for all cutoffs that are not below the transition. C167_length_rounded is a case in which the rounded division changes the length."
  },
  {
   "property": "C168",
   "status": "proved",
   "theorems": [
    "Sp.C168_kernels_exist",
    "Sp.C168_band_kernels_exist"
   ],
   "note": "Exact arithmetic; in double precision see C167_every_cutoff. Strengthens C08_defined."
  },
  {
   "property": "C169",
   "status": "proved",
   "theorems": [
    "Sp.C169_double_band_pass",
    "Sp.C169_double_band_reject",
    "Sp.C169_double_low_pass",
    "Sp.C169_double_high_pass",
    "Sp.C169_double_tone",
    "Sp.C169_double_sizes",
    "Sp.C169_double_tone_low_pass",
    "Sp.C169_double_tone_high_pass",
    "Sp.C169_double_tone_band_pass",
    "Sp.C169_double_tone_band_reject",
    "Sp.C169_low_pass",
    "Sp.C169_high_pass",
    "Sp.C169_band_pass",
    "Sp.C169_band_reject",
    "Sp.C169_tone"
   ],
   "note": "The bounds are about 43 dB; the usual figure of 74 dB for this window is not proved. Nothing is claimed inside of the transition, or for cutoff frequencies below the transition. All four kinds of kernels in exact arithmetic and in double precision; tones in exact arithmetic and in double precision, with every kernel (C169_double_tone) and from the arguments of all four kinds of filters to the output (C169_double_tone_low_pass, high_pass, band_pass, band_reject)."
  },
  {
   "property": "C170",
   "status": "proved",
   "theorems": [
    "Sp.C170_array",
    "Sp.C170_pieces",
    "Sp.C170_noise",
    "Sp.C170_units",
    "Sp.C170_f64_array",
    "Sp.C170_u64_array",
    "Sp.C170_times",
    "Sp.C170_samples_bounded",
    "Sp.C170_bounded_returns",
    "Sp.C170_times_bounded",
    "Sp.C170_u64_bounded",
    "Sp.C170_noise_offset",
    "Sp.C170_noise_power",
    "Sp.C170_times_equally_often"
   ],
   "note": "Doubles with any rounding that leaves doubles unchanged (bounded samples: to nearest). Bounded samples for ranges from 2^-1021 on (see C127). The bounded functions need enough fuel for the loop that draws again, the amount is proved to exist. sp_units_random_bounded expands to a function that does not exist."
  },
  {
   "property": "C171",
   "status": "partial",
   "theorems": [
    "Sp.C171_nearly_equal_sound",
    "Sp.C171_nearly_equal_complete_partial",
    "Sp.C171_margin_false",
    "Sp.C171_factor_false",
    "Sp.C171_arrays"
   ],
   "note": "Numbers reported as nearly equal differ by less than the margin (exactly); those whose difference is less by more than one part in 2^53 are reported. False: in between, differences just less than the margin are rounded to it (C171_margin_false), and the margin is not a factor (C171_factor_false). Arrays as stated."
  },
  {
   "property": "C172",
   "status": "partial",
   "theorems": [
    "Sp.C172_paths_partial",
    "Sp.C172_fixed_false",
    "Sp.C172_calls",
    "Sp.C172_envelopes_false",
    "Sp.C172_allocation_false",
    "Sp.C172_double_free",
    "Sp.C172_allocation_agrees"
   ],
   "note": "Proved for the macros for any number of points, when allocating the path succeeds. False for the macros for three to five points: sp_define_path_n functions have no return statement, so the status that is tested is indeterminate (C172_fixed_false). False for the envelopes with three or more points (C172_envelopes_false). False when an allocation fails, which is not noticed: the path is written through an unset variable or over an earlier path, which is then freed twice (C172_allocation_false, C172_double_free). sp_event_envelope_scaled_c3 to c5 use functions that do not exist."
  },
  {
   "property": "C173",
   "status": "proved",
   "theorems": [
    "Sp.C173_parallel_score"
   ],
   "note": "The math library is assumed accurate to 2^-52 with results of type double between -1 and 1 (TrigAccurate); the table of sp_sine_period is computed in rounded arithmetic and used as numbers that may also be infinite."
  },
  {
   "property": "C174",
   "status": "proved",
   "theorems": [
    "Sp.C174_low_pass",
    "Sp.C174_high_pass",
    "Sp.C174_band_pass",
    "Sp.C174_band_reject"
   ],
   "note": "All four kinds of filters. The amplitude modulation of sp_sine is constantly one, because without one the amplitude is squared (C12)."
  },
  {
   "property": "C175",
   "status": "proved",
   "theorems": [
    "Sp.C175_low_pass",
    "Sp.C175_high_pass",
    "Sp.C175_band_pass",
    "Sp.C175_band_reject"
   ],
   "note": "All four kinds of filters. Nothing is claimed about tones inside of the transitions."
  },
  {
   "property": "C176",
   "status": "partial",
   "theorems": [
    "Sp.C176_sizes_partial",
    "Sp.C176_reported_false",
    "Sp.C176_new_defined_iff",
    "Sp.C176_update_defined_iff",
    "Sp.C176_succeeds_partial",
    "Sp.C176_result",
    "Sp.C176_agrees"
   ],
   "note": "False of the code: a failing allocation has the status of success, and the call goes on with a pointer that was not set or a block that is too small (C176_reported_false, C176_new_defined_iff, C176_update_defined_iff). Proved: sizes of blocks for all histories, no access outside of blocks if all allocations succeed, same result as with succeeding allocations whenever there is one, agreement with the model of C105."
  },
  {
   "property": "C177",
   "status": "proved",
   "theorems": [
    "Sp.C177_exact",
    "Sp.C177_spectrum",
    "Sp.C177_spectrum_power"
   ],
   "note": "exact and in double precision; the bound for lengths that are not powers of two comes from C133"
  },
  {
   "property": "C178",
   "status": "proved",
   "theorems": [
    "Sp.C178_energy",
    "Sp.C178_double_energy",
    "Sp.C178_convolution"
   ],
   "note": "energy for every length, exact and in double precision; convolution with real numbers"
  },
  {
   "property": "C179",
   "status": "partial",
   "theorems": [
    "Sp.C179_new_defined_iff",
    "Sp.C179_channels_partial",
    "Sp.C179_free_iff",
    "Sp.C179_isolated_false"
   ],
   "note": "False of the code: a failing allocation has the status of success. If the first fails an unset pointer is stored (C179_new_defined_iff); if a later one fails the channel is the same array as the one before (C179_channels_partial) and freeing the block frees it twice (C179_free_iff, C179_isolated_false). Proved: blocks for which no allocation failed are freed and the memory is as before."
  },
  {
   "property": "C180",
   "status": "proved",
   "theorems": [
    "Sp.C180_low_pass",
    "Sp.C180_high_pass",
    "Sp.C180_band_pass",
    "Sp.C180_band_reject"
   ],
   "note": "Bounds: three times the error of C175 plus the rounding of the transform."
  },
  {
   "property": "C181",
   "status": "proved",
   "theorems": [
    "Sp.C181_seed",
    "Sp.C181_seed_sp",
    "Sp.C181_numbers",
    "Sp.C181_different",
    "Sp.C181_different_sp",
    "Sp.C181_words_differ",
    "Sp.C181_word_from_seed"
   ],
   "note": "The published algorithms are in Spec/Random.lean, with the constants as published."
  },
  {
   "property": "C182",
   "status": "partial",
   "theorems": [
    "Sp.C182_list_add_iff",
    "Sp.C182_list_add_each",
    "Sp.C182_group",
    "Sp.C182_group_succeeds",
    "Sp.C182_config_new_partial",
    "Sp.C182_config_new_false",
    "Sp.C182_config_new_unset",
    "Sp.C182_map_config_new"
   ],
   "note": "False of the code for failing allocations: the status is success (C77), list elements are written through an address that has not been set (C182_list_add_iff, C182_group), and configurations made before are overwritten (C182_config_new_false). Proved: the exact condition for a result, sequences of calls, and the behaviour when allocations succeed."
  },
  {
   "property": "C183",
   "status": "proved",
   "theorems": [
    "Sp.C183_response",
    "Sp.C183_double_response",
    "Sp.C183_double_low_pass",
    "Sp.C183_double_high_pass",
    "Sp.C183_double_band_pass",
    "Sp.C183_double_band_reject"
   ],
   "note": "exact for real numbers, and for numbers of type double with the error of the transform; all four kinds of windowed sinc kernels"
  },
  {
   "property": "C184",
   "status": "partial",
   "theorems": [
    "Sp.C184_write_partial",
    "Sp.C184_write_false",
    "Sp.C184_write_nothing",
    "Sp.C184_read_partial",
    "Sp.C184_read_false",
    "Sp.C184_write_each"
   ],
   "note": "False of the code for failing allocations: the status is success (C77) and the null pointer is written to (C184_write_false) or passed to fread (C184_read_false), so that a sequence of writes is defined exactly if all allocations succeed (C184_write_each). Partial: with successful allocations as C69 and C160, and memory is as before. Writing no samples has the status of a failed write either way (C184_write_nothing)."
  },
  {
   "property": "C185",
   "status": "partial",
   "theorems": [
    "Sp.C185_compositions_partial",
    "Sp.C185_compositions_false",
    "Sp.C185_permutations_false",
    "Sp.C185_permutations_partial"
   ],
   "note": "False of the code: a call that returns always has the status of success; the first arrays and the first result must have been allocated or the call is undefined, and for each later result that could not be allocated the array of the result before is overwritten and given twice, so that releasing is undefined (C185_compositions_false, C185_permutations_false). Partial: if all allocations succeed these are the functions of C142 (whose permutations have the wrong content, see C62)."
  },
  {
   "property": "C186",
   "status": "partial",
   "theorems": [
    "Sp.C186_false",
    "Sp.C186_duplicate_partial",
    "Sp.C186_constant_partial",
    "Sp.C186_random_binary_partial",
    "Sp.C186_scale_partial",
    "Sp.C186_to_samples_replace_partial",
    "Sp.C186_to_times_replace_partial",
    "Sp.C186_median"
   ],
   "note": "False of all functions but the median: if the allocation fails no status is returned and a pointer that has not been set is used (C186_false). Partial: if the allocation succeeds the result is that of C142. sp_stat_times_median reports the failure and leaves memory as it was (C186_median)."
  }
 ]
}