{
 "claims": [
  {
   "property": "C01",
   "status": "proved",
   "theorems": [
    "Verif.Rational.C01_constructors",
    "Verif.Rational.C01_canonical_unique"
   ],
   "note": "Element type: mathematical integers (machine overflow of T not modelled)."
  },
  {
   "property": "C02",
   "status": "proved",
   "theorems": [
    "Verif.Rational.C02_arithmetic",
    "Verif.Rational.C02_division",
    "Verif.Rational.C02_assigning",
    "Verif.Rational.C02_increment"
   ],
   "note": "Element type: mathematical integers."
  },
  {
   "property": "C03",
   "status": "proved",
   "theorems": [
    "Verif.Rational.C03_comparisons",
    "Verif.Rational.C03_equality_is_identity",
    "Verif.Rational.C03_strict_total_order"
   ],
   "note": "Element type: mathematical integers."
  },
  {
   "property": "C04",
   "status": "proved",
   "theorems": [
    "Verif.Rational.C04_power"
   ],
   "note": "Element type: mathematical integers; integer power is the squaring loop of math.cfa."
  },
  {
   "property": "C05",
   "status": "partial",
   "theorems": [
    "Verif.Rational.C05_setters_violated",
    "Verif.Rational.C05_setters_partial"
   ],
   "note": "The code violates this property: both setters take the rational by value, so the caller's object never changes. Negation proved by witness; the part that holds (returned old value, abort on zero) is proved."
  },
  {
   "property": "C06",
   "status": "proved",
   "theorems": [
    "Verif.Bitmanip.C06_is_pow2",
    "Verif.Bitmanip.C06_floor2_unsigned",
    "Verif.Bitmanip.C06_ceiling2_unsigned",
    "Verif.Bitmanip.C06_floor2_signed",
    "Verif.Bitmanip.C06_ceiling2_signed",
    "Verif.Bitmanip.C06_lib_agrees"
   ],
   "note": "All widths, signed and unsigned readings. verify() (debug only) is the precondition."
  },
  {
   "property": "C07",
   "status": "proved",
   "theorems": [
    "Verif.Bitmanip.C07_leading0s",
    "Verif.Bitmanip.C07_trailing0s",
    "Verif.Bitmanip.C07_counts",
    "Verif.Bitmanip.C07_low",
    "Verif.Bitmanip.C07_high",
    "Verif.Bitmanip.C07_high1_bracket"
   ],
   "note": "All widths; GCC builtins are modelled by their documented meaning, undefined on zero."
  },
  {
   "property": "C08",
   "status": "proved",
   "theorems": [
    "Verif.Time.C08_unit_make_get",
    "Verif.Time.C08_unit_get_make",
    "Verif.Time.C08_exact_arithmetic",
    "Verif.Time.C08_division",
    "Verif.Time.C08_time_difference",
    "Verif.Time.C08_time_shift",
    "Verif.Time.C08_comparisons"
   ],
   "note": "64-bit range explicit, signed overflow is an undefined outcome. double overloads not modelled."
  },
  {
   "property": "C09",
   "status": "partial",
   "theorems": [
    "Verif.Time.C09_timespec_roundtrip",
    "Verif.Time.C09_timeval_roundtrip",
    "Verif.Time.C09_from_structs",
    "Verif.Time.C09_struct_arithmetic_violated",
    "Verif.Time.C09_struct_arithmetic_partial"
   ],
   "note": "Conversions proved; struct +/- do not normalise (negation proved), their denoted value is exact."
  },
  {
   "property": "C10",
   "status": "partial",
   "theorems": [
    "Verif.Time.C10_itimerval_alarm",
    "Verif.Time.C10_itimerval_interval_violated",
    "Verif.Time.C10_itimerval_interval_partial"
   ],
   "note": "Two-argument constructor does not reduce the interval's microseconds modulo one second (negation proved); the rest is proved."
  },
  {
   "property": "C11",
   "status": "partial",
   "theorems": [
    "Verif.Time.C11_duration_printing_violated",
    "Verif.Time.C11_duration_printing_partial"
   ],
   "note": "Durations strictly between -1s and 0 print without their sign (witness proved); all others except INT64_MIN proved."
  },
  {
   "property": "C12",
   "status": "partial",
   "theorems": [
    "Verif.Random.C12_xoshiro256pp",
    "Verif.Random.C12_xoshiro128pp_partial",
    "Verif.Random.C12_splitmix64",
    "Verif.Random.C12_xorshift64_partial",
    "Verif.Random.C12_xorshift32_partial",
    "Verif.Random.C12_seed_violated",
    "Verif.Random.C12_lehmer64_partial",
    "Verif.Random.C12_wyhash_kiss_xorwow",
    "Verif.Random.C12_wyhash_xorwow_injective"
   ],
   "note": "xoshiro256pp (default), splitmix64, wyhash64, kiss_64, xorwow proved for all seeds. One seed each of the xorshifts and lehmer64 gives the absorbing zero state (negation proved). For xoshiro128pp it is not proved that no seed gives the zero state."
  },
  {
   "property": "C13",
   "status": "proved",
   "theorems": [
    "Verif.Random.C13_reverse"
   ],
   "note": "Proved of the model as stated in properties.jsonl; the simplifications of the model are in DESIGN.md and in the comments of its definitions."
  },
  {
   "property": "C14",
   "status": "partial",
   "theorems": [
    "Verif.Random.C14_below",
    "Verif.Random.C14_between_partial",
    "Verif.Random.C14_full_range_violated",
    "Verif.Random.C14_random_long_partial",
    "Verif.Random.C14_random_upto",
    "Verif.Random.C14_random_unsigned_partial",
    "Verif.Random.C14_random_char_violated",
    "Verif.Random.C14_random_coverage_violated"
   ],
   "note": "The full range divides by zero, char ranges of mixed sign and ranges wider than 2^31 fail (negations proved)."
  },
  {
   "property": "C15",
   "status": "proved",
   "theorems": [
    "Verif.Sort.C15_sort",
    "Verif.Sort.C15_same_order"
   ],
   "note": "Proved of the model as stated in properties.jsonl; the simplifications of the model are in DESIGN.md and in the comments of its definitions."
  },
  {
   "property": "C16",
   "status": "proved",
   "theorems": [
    "Verif.Sort.C16_bsearchl",
    "Verif.Sort.C16_bsearchu",
    "Verif.Sort.C16_by_key"
   ],
   "note": "Proved of the model as stated in properties.jsonl; the simplifications of the model are in DESIGN.md and in the comments of its definitions."
  },
  {
   "property": "C17",
   "status": "proved",
   "theorems": [
    "Verif.Queue.C17_queue_is_list",
    "Verif.Queue.C17_membership",
    "Verif.Queue.C17_debug_checks"
   ],
   "note": "Proved of the model as stated in properties.jsonl; the simplifications of the model are in DESIGN.md and in the comments of its definitions."
  },
  {
   "property": "C18",
   "status": "proved",
   "theorems": [
    "Verif.Stack.C18_stack_is_list",
    "Verif.Stack.C18_debug_check"
   ],
   "note": "Proved of the model as stated in properties.jsonl; the simplifications of the model are in DESIGN.md and in the comments of its definitions."
  },
  {
   "property": "C19",
   "status": "proved",
   "theorems": [
    "Verif.Sequence.C19_sequence_is_list",
    "Verif.Sequence.C19_membership",
    "Verif.Sequence.C19_debug_checks"
   ],
   "note": "Proved of the model as stated in properties.jsonl; the simplifications of the model are in DESIGN.md and in the comments of its definitions."
  },
  {
   "property": "C20",
   "status": "proved",
   "theorems": [
    "Verif.Collections.C20_queue_is_list"
   ],
   "note": "Proved of the model as stated in properties.jsonl; the simplifications of the model are in DESIGN.md and in the comments of its definitions."
  },
  {
   "property": "C21",
   "status": "proved",
   "theorems": [
    "Verif.Dlist.C21_dlist_is_list",
    "Verif.Dlist.C21_membership",
    "Verif.Dlist.C21_double_insert_aborts"
   ],
   "note": "Proved of the model as stated in properties.jsonl; the simplifications of the model are in DESIGN.md and in the comments of its definitions."
  },
  {
   "property": "C22",
   "status": "partial",
   "theorems": [
    "Verif.Dlist.C22_traversal_partial",
    "Verif.Dlist.C22_first_last_violated"
   ],
   "note": "C22_traversal_partial: Missing: `first`/`last` of a node, which are inverted (next theorem). False of the code (C22_first_last_violated): `first(node)` and `last(node)` answer the opposite of what they should: for every element of every reachable list, `first` returns true exactly when the element is not the first one, `last` exactly when it is not the last one."
  },
  {
   "property": "C23",
   "status": "proved",
   "theorems": [
    "Verif.Lane.C23_lane_is_fifo",
    "Verif.Lane.C23_pop_empty_checked"
   ],
   "note": "Proved of the model as stated in properties.jsonl; the simplifications of the model are in DESIGN.md and in the comments of its definitions."
  },
  {
   "property": "C24",
   "status": "proved",
   "theorems": [
    "Verif.Alarm.C24_alarm_list",
    "Verif.Alarm.C24_order_exists"
   ],
   "note": "Proved of the model as stated in properties.jsonl; the simplifications of the model are in DESIGN.md and in the comments of its definitions."
  },
  {
   "property": "C25",
   "status": "proved",
   "theorems": [
    "Verif.Vector.C25_vector_is_list",
    "Verif.Vector.C25_out_of_range_undefined"
   ],
   "note": "Proved of the model as stated in properties.jsonl; the simplifications of the model are in DESIGN.md and in the comments of its definitions."
  },
  {
   "property": "C26",
   "status": "partial",
   "theorems": [
    "Verif.Vector.C26_clear_partial",
    "Verif.Vector.C26_clear_violated",
    "Verif.Vector.C26_copy_violated"
   ],
   "note": "C26_clear_partial: Missing: everything else in the property, which fails (next theorems). False of the code (C26_clear_violated): `clear` on any reachable non-empty vector whose elements have a destructor is undefined behaviour: it destroys the cell after the last element, again and again, and never an element. False of the code (C26_copy_violated): Copy construction never yields the elements: unless the memory of the new vector happens to hold a null storage pointer it is undefined behaviour, and then the copy of a non-empty vector has no value at index 0."
  },
  {
   "property": "C27",
   "status": "partial",
   "theorems": [
    "Verif.Vector2.C27_vector_is_list_partial",
    "Verif.Vector2.C27_exit_blocks_growth",
    "Verif.Vector2.C27_index_violated",
    "Verif.Vector2.C27_full_traversal_violated",
    "Verif.Vector2.C27_insert_empty_violated",
    "Verif.Vector2.C27_capacity_zero_violated",
    "Verif.Vector2.C27_permit_violated",
    "Verif.Vector2.C27_negative_violated"
   ],
   "note": "False of the code (C27_index_violated): `v[length]` is not reported: in every reachable non-empty vector that is not full it reads a cell that holds no element. False of the code (C27_full_traversal_violated): Traversing a full vector aborts, in every reachable full vector. False of the code (C27_insert_empty_violated): Inserting into an empty vector is undefined behaviour (unless no capacity was reserved, when it aborts). False of the code (C27_capacity_zero_violated): Pushing onto a vector created with capacity 0 aborts. False of the code (C27_permit_violated): A permit on the first element of a vector of three; inserting a fourth element before it, which fills the vector, leaves the permit on the new element. False of the code (C27_negative_violated): `v[-1]` is not the last element: in every reachable vector of three elements that is not full it reads a cell that holds no element."
  },
  {
   "property": "C28",
   "status": "proved",
   "theorems": [
    "Verif.Arr.C28_subscripts_designate_cell",
    "Verif.Arr.C28_plain_subscripts",
    "Verif.Arr.C28_cells_disjoint",
    "Verif.Arr.C28_every_cell_reached",
    "Verif.Arr.C28_out_of_range_reported",
    "Verif.Arr.C28_constructs_each_cell",
    "Verif.Arr.C28_destroys_each_cell"
   ],
   "note": "Proved of the model as stated in properties.jsonl; the simplifications of the model are in DESIGN.md and in the comments of its definitions."
  },
  {
   "property": "C29",
   "status": "partial",
   "theorems": [
    "Verif.Maybe.C29_maybe_is_option",
    "Verif.Maybe.C29_maybe_destroyed_once_partial",
    "Verif.Maybe.C29_maybe_default_violated",
    "Verif.Maybe.C29_result_is_sum",
    "Verif.Maybe.C29_result_default",
    "Verif.Maybe.C29_result_assignment_value_violated"
   ],
   "note": "C29_maybe_destroyed_once_partial: Missing: default-constructed ones, for which it fails (next theorem). False of the code (C29_maybe_default_violated): A default-constructed `maybe` always leaves one object undestroyed: the default value constructed with it. False of the code (C29_result_assignment_value_violated): The value of an assignment expression between results is undefined, in every reachable state."
  },
  {
   "property": "C30",
   "status": "partial",
   "theorems": [
    "Verif.StrHeap.C30_assignment_stale_violated",
    "Verif.StrHeap.C30_strings_are_sequences_partial",
    "Verif.StrHeap.C30_values_partial",
    "Verif.StrHeap.C30_compare",
    "Verif.StrSearch.C30_slice",
    "Verif.StrSearch.C30_slice_from_partial",
    "Verif.StrSearch.C30_slice_from_violated",
    "Verif.StrSearch.C30_repeat",
    "Verif.StrSearch.C30_strncmp"
   ],
   "note": "Values of strings over the string heap model, with enough room that no collection happens (C32 treats collections); slicing, repetition and comparison at value level. The code violates the property for s(start) outside the string and for an assignment that reads a stale address after a collection."
  },
  {
   "property": "C31",
   "status": "partial",
   "theorems": [
    "Verif.StrSearch.C31_find_from",
    "Verif.StrSearch.C31_find",
    "Verif.StrSearch.C31_empty_key_from_violated",
    "Verif.StrSearch.C31_find_char",
    "Verif.StrSearch.C31_find_char_past_end_violated",
    "Verif.StrSearch.C31_includes_partial",
    "Verif.StrSearch.C31_includes_empty_violated",
    "Verif.StrSearch.C31_starts_with",
    "Verif.StrSearch.C31_ends_with",
    "Verif.StrSearch.C31_tests_agree",
    "Verif.StrSearch.C31_include_exclude",
    "Verif.StrSearch.C31_translate",
    "Verif.StrSearch.C31_find_range_violated",
    "Verif.StrSearch.C31_replace_partial",
    "Verif.StrSearch.C31_replace_empty_violated"
   ],
   "note": "Violated for empty keys (find with a start, includes of the empty string, replace) and for find with sub-ranges; the positive theorems cover every other key."
  },
  {
   "property": "C32",
   "status": "partial",
   "theorems": [
    "Verif.StrHeap.C32_collection_preserves_partial",
    "Verif.StrHeap.C32_whole_strings_survive_partial",
    "Verif.StrHeap.C32_append_violated",
    "Verif.StrHeap.C32_concatenation_violated",
    "Verif.StrHeap.C32_parts_violated",
    "Verif.StrHeap.C32_empty_string_violated"
   ],
   "note": "Proved for ordered handle lists, and for all histories of whole-string operations; the _violated theorems show histories with appends, parts of strings and default-constructed strings that lose characters."
  },
  {
   "property": "C33",
   "status": "partial",
   "theorems": [
    "Verif.StrHeap.C33_edit",
    "Verif.StrHeap.C33_append_shared_violated"
   ],
   "note": "Edits of overlapping share-edit parts refine a document model; appending to a share-edit part violates it."
  },
  {
   "property": "C34",
   "status": "partial",
   "theorems": [
    "Verif.Semaphore.C34_permits_partial",
    "Verif.Semaphore.C34_P_blocks_only_without_permit_partial",
    "Verif.Semaphore.C34_V_releases_first_partial",
    "Verif.Semaphore.C34_Vn_releases_all_partial",
    "Verif.Semaphore.C34_Vn_too_many_violated",
    "Verif.Semaphore.C34_Vn_positive_count_violated",
    "Verif.Semaphore.C34_negative_initial_count_violated",
    "Verif.Semaphore.C34_opposite_orders_deadlock_violated",
    "Verif.Semaphore.C34_front_empty_violated"
   ],
   "note": "C34_permits_partial: Missing: negative initial counts, and uses of `V( sem, n )` when permits are available or more than `n` threads wait. False of the code (C34_Vn_too_many_violated): for `V( sem, n )` when more than `n` threads wait: in every such reachable state it releases all of them, so that more permits are granted than there are. False of the code (C34_Vn_positive_count_violated): for `V( sem, n )` when permits are available: with a count `c > 0` the loop runs `2^64 - c` times on an empty queue. False of the code (C34_negative_initial_count_violated): for a negative initial count, which the constructor accepts: `P` by a thread and one `V` let it through although the count plus the number of `V` operations is 0. False of the code (C34_opposite_orders_deadlock_violated): for `P( a, b )` by one thread and `P( b, a )` by another: each can hold the spin lock of its first semaphore while it spins for the other's, and then neither can ever go on. False of the code (C34_front_empty_violated): for the queue inspection functions: in a debug build `front` aborts exactly when a thread is waiting, and reads a field of the list terminator when there is none; and `empty` is false for a semaphore with permits and no waiting thread."
  },
  {
   "property": "C35",
   "status": "partial",
   "theorems": [
    "Verif.OwnerLock.C35_exclusion",
    "Verif.OwnerLock.C35_fifo",
    "Verif.OwnerLock.C35_no_waiter_forgotten",
    "Verif.OwnerLock.C35_unlock_recursive",
    "Verif.OwnerLock.C35_unlock_hands_over",
    "Verif.OwnerLock.C35_lock",
    "Verif.OwnerLock.C35_try_lock",
    "Verif.OwnerLock.C35_relock_violated",
    "Verif.OwnerLock.C35_relock_no_exclusion_violated"
   ],
   "note": "False of the code (C35_relock_violated): for a single-acquisition lock that its holder locks again, in a build without debugging checks: the second `lock` returns at once, and after one of the two unlocks another thread gets the lock while the first one still has it. False of the code (C35_relock_no_exclusion_violated): "
  },
  {
   "property": "C36",
   "status": "proved",
   "theorems": [
    "Verif.Futex.C36_exclusion",
    "Verif.Futex.C36_no_lost_wakeup",
    "Verif.Futex.C36_no_deadlock",
    "Verif.Futex.C36_wake"
   ],
   "note": "Proved of the model as stated in properties.jsonl; the simplifications of the model are in DESIGN.md and in the comments of its definitions."
  },
  {
   "property": "C37",
   "status": "proved",
   "theorems": [
    "Verif.Futex.C37_exclusion",
    "Verif.Futex.C37_no_lost_wakeup",
    "Verif.Futex.C37_taker_marks",
    "Verif.Futex.C37_no_deadlock"
   ],
   "note": "Proved of the model as stated in properties.jsonl; the simplifications of the model are in DESIGN.md and in the comments of its definitions."
  },
  {
   "property": "C38",
   "status": "partial",
   "theorems": [
    "Verif.Mcs.C38_exclusion_partial",
    "Verif.Mcs.C38_fifo_partial",
    "Verif.Mcs.C38_tickets",
    "Verif.Mcs.C38_progress_partial",
    "Verif.Mcs.C38_spin_node_reuse_violated"
   ],
   "note": "False of the code (C38_spin_node_reuse_violated): for `mcs_spin_lock` when a node is used again, which `lock` provides for (it sets `locked` anew) except for the `next` field: the release goes to the previous successor, and the thread that waits is never released: no thread has the lock or is in an operation on it except for that thread, which cannot go on."
  },
  {
   "property": "C39",
   "status": "proved",
   "theorems": [
    "Verif.HybridLock.C39_exclusion",
    "Verif.HybridLock.C39_no_lost_wakeup",
    "Verif.HybridLock.C39_wakes_first",
    "Verif.HybridLock.C39_no_deadlock",
    "Verif.HybridLock.C39_flag_locks_exclusion",
    "Verif.HybridLock.C39_flag_locks_progress"
   ],
   "note": "Proved of the model as stated in properties.jsonl; the simplifications of the model are in DESIGN.md and in the comments of its definitions."
  },
  {
   "property": "C40",
   "status": "partial",
   "theorems": [
    "Verif.HybridLock.C40_fast_block_exclusion_partial",
    "Verif.HybridLock.C40_fast_block_fifo_partial",
    "Verif.HybridLock.C40_fast_block_hand_over_partial",
    "Verif.HybridLock.C40_fast_block_notify_free_violated",
    "Verif.HybridLock.C40_fast_block_timeout_violated",
    "Verif.OwnerLock.C40_recursion_count"
   ],
   "note": "False of the code (C40_fast_block_notify_free_violated): (and C41) fail for `fast_block_lock` with a condition variable when a waiting thread is notified, or its wait times out, while no thread has the lock: it is put on the list of blocked threads of the free lock, and nothing hands it the lock. False of the code (C40_fast_block_timeout_violated): The same in general: whenever the wait of a thread times out while no thread has the lock."
  },
  {
   "property": "C41",
   "status": "partial",
   "theorems": [
    "Verif.OwnerLock.C41_returns_after_signal",
    "Verif.OwnerLock.C41_unsignalled_iff_listed",
    "Verif.OwnerLock.C41_signalled_gets_lock",
    "Verif.OwnerLock.C41_notify_one",
    "Verif.OwnerLock.C41_notify_all",
    "Verif.OwnerLock.C41_wait_releases",
    "Verif.OwnerLock.C41_nodes_initialised",
    "Verif.OwnerLock.C41_notify_without_lock_violated"
   ],
   "note": "False of the code (C41_notify_without_lock_violated): when a thread notifies without having the lock, which the interface allows: between a thread's joining the list and its `on_wait`, a notification puts its uninitialised list node into the queue of the lock."
  },
  {
   "property": "C42",
   "status": "partial",
   "theorems": [
    "Verif.PthreadTime.C42_now_partial",
    "Verif.PthreadTime.C42_inverted_violated"
   ],
   "note": "False of the code (C42_inverted_violated): for every other time: a wait until a time in the future does not sleep, and a wait until a time in the past sleeps for as long as that time is past."
  },
  {
   "property": "C43",
   "status": "proved",
   "theorems": [
    "Verif.Channel.C43_fifo",
    "Verif.Channel.C43_delivered_once",
    "Verif.Channel.C43_insert_enters",
    "Verif.Channel.C43_remove_takes_oldest",
    "Verif.Channel.C43_capacity",
    "Verif.Channel.C43_blocks_only",
    "Verif.Channel.C43_blocked_consumer"
   ],
   "note": "Proved of the model as stated in properties.jsonl; the simplifications of the model are in DESIGN.md and in the comments of its definitions."
  },
  {
   "property": "C44",
   "status": "partial",
   "theorems": [
    "Verif.Channel.C44_close_releases",
    "Verif.Channel.C44_none_blocked",
    "Verif.Channel.C44_drain_partial",
    "Verif.Channel.C44_insert_fails_partial",
    "Verif.Channel.C44_insert_violated",
    "Verif.Channel.C44_drain_violated"
   ],
   "note": "C44_drain_partial: Partial: without a resumption handler it throws in any case (`C44_drain_violated`), and an `insert` on a closed channel does not fail if there is room and the resumption handler returns (`C44_insert_violated`). C44_insert_fails_partial: Partial: see `C44_insert_violated`. False of the code (C44_insert_violated): in every reachable state of a closed channel with room, a `try_insert`, and an `insert` whose resumption handler returns, succeeds: the element enters the closed channel. False of the code (C44_drain_violated): without a resumption handler, a `remove` on a closed channel throws although elements are stored."
  },
  {
   "property": "C45",
   "status": "partial",
   "theorems": [
    "Verif.Future.C45_get_value_partial",
    "Verif.Future.C45_get_ready_partial",
    "Verif.Future.C45_no_wait_when_fulfilled_partial",
    "Verif.Future.C45_fulfil",
    "Verif.Future.C45_stable_partial",
    "Verif.Future.C45_exclusion_partial",
    "Verif.Future.C45_exception_violated",
    "Verif.Future.C45_double_unlock_violated",
    "Verif.Future.C45_try_get_violated"
   ],
   "note": "C45_get_value_partial: Partial: futures that are given values; with exceptions see `C45_exception_violated`. False of the code (C45_exception_violated): for a future given an exception: the waiter that is woken frees the lock, which another thread holds, so two threads are in critical sections at once, each about to give the future (empty: it has been reset) its value. False of the code (C45_double_unlock_violated): for a future given an exception: `get` on the fulfilled future frees the lock a second time when the handler of the resumption returns, so that two threads are in critical sections at once, and it returns the uninitialised result. False of the code (C45_try_get_violated): for a future given an exception: `try_get` reports that a value is available, and returns the uninitialised result."
  },
  {
   "property": "C46",
   "status": "partial",
   "theorems": [
    "Verif.Select.C46_exactly_one",
    "Verif.Select.C46_at_most_one",
    "Verif.Select.C46_conserved",
    "Verif.Select.C46_moves",
    "Verif.Select.C46_woken",
    "Verif.Select.C46_no_missed_wakeup",
    "Verif.Select.C46_no_deadlock_partial",
    "Verif.Select.C46_self_violated"
   ],
   "note": "False of the code (C46_self_violated): A thread that executes `waituntil` on a read from and a write to the same channel, which is empty and which no other thread waits for, loops for ever with the lock of the channel, whatever other threads do: no clause is ever executed, and no other operation on the channel can begin."
  },
  {
   "property": "C47",
   "status": "partial",
   "theorems": [
    "Verif.Once.C47_at_most_once",
    "Verif.Once.C47_returns_after_completion",
    "Verif.Once.C47_all_woken",
    "Verif.Once.C47_progress",
    "Verif.Once.C47_debug_check_violated",
    "Verif.Once.C47_link_left_violated"
   ],
   "note": "False of the code (C47_debug_check_violated): The flag never becomes READY (line 54 stores IN_PROGRESS), so the check of once.hfa:60 fails in every execution: in a debug build no call that runs the function returns. False of the code (C47_link_left_violated): A push that finds the list poisoned leaves the link of the thread set to `1p`, so the next `push` of that thread, to any list, fails the check of lockfree.hfa:149."
  },
  {
   "property": "C48",
   "status": "proved",
   "theorems": [
    "Verif.Barrier.C48_full_generation",
    "Verif.Barrier.C48_generations",
    "Verif.Barrier.C48_released",
    "Verif.Barrier.C48_callback"
   ],
   "note": "Proved of the model as stated in properties.jsonl; the simplifications of the model are in DESIGN.md and in the comments of its definitions."
  },
  {
   "property": "C49",
   "status": "partial",
   "theorems": [
    "Verif.StackLF.C49_represents",
    "Verif.StackLF.C49_push",
    "Verif.StackLF.C49_pop",
    "Verif.StackLF.C49_pop_empty",
    "Verif.StackLF.C49_wasEmpty_meaning",
    "Verif.StackLF.C49_other_steps",
    "Verif.StackLF.C49_unsafe_remove_violated"
   ],
   "note": "False of the code (C49_unsafe_remove_violated): `unsafe_remove` does not look at what the links contain: whatever the stack holds, its loop visits the addresses `S`, `S + off`, `S + 2 * off`, ... So it never finds a node that is not at one of these addresses; with the link at the beginning of the node (`off` 0) it does not end."
  },
  {
   "property": "C50",
   "status": "proved",
   "theorems": [
    "Verif.Park.C50_no_abort",
    "Verif.Park.C50_one_place",
    "Verif.Park.C50_not_lost",
    "Verif.Park.C50_racy_case",
    "Verif.Park.C50_park_needs_unpark",
    "Verif.Park.C50_two_ahead_abort"
   ],
   "note": "Proved of the model as stated in properties.jsonl; the simplifications of the model are in DESIGN.md and in the comments of its definitions."
  },
  {
   "property": "C51",
   "status": "proved",
   "theorems": [
    "Verif.SingleSem.C51_sem_wait_needs_post",
    "Verif.SingleSem.C51_sem_not_lost",
    "Verif.SingleSem.C51_sem_post_wakes",
    "Verif.SingleSem.C51_sem_post_result",
    "Verif.SingleSem.C51_oneshot_wait_needs_post",
    "Verif.SingleSem.C51_oneshot_not_lost",
    "Verif.SingleSem.C51_oneshot_no_block",
    "Verif.SingleSem.C51_oneshot_post_result"
   ],
   "note": "Proved of the model as stated in properties.jsonl; the simplifications of the model are in DESIGN.md and in the comments of its definitions."
  },
  {
   "property": "C52",
   "status": "partial",
   "theorems": [
    "Verif.KFuture.C52_returns_partial",
    "Verif.KFuture.C52_no_dangling_partial",
    "Verif.KFuture.C52_wake_once_partial",
    "Verif.KFuture.C52_not_lost_partial",
    "Verif.KFuture.C52_freed_once_partial",
    "Verif.KFuture.C52_early_return_violated",
    "Verif.KFuture.C52_lost_violated",
    "Verif.KFuture.C52_abandon_violated",
    "Verif.KFuture.C52_zero_futures_violated"
   ],
   "note": "False of the code (C52_early_return_violated): is false for `wait_any`: it returns at the first future it finds fulfilled, and the futures it has set up before keep a pointer to its dead wait context; fulfilling one of them writes to the dead context. False of the code (C52_lost_violated): is false after such a return: a later wait on a future that is just being fulfilled overwrites its state (`setup` does not look for it). The client blocks on future 0 although it is fulfilled, and stays blocked in every execution from there. False of the code (C52_abandon_violated): is false after such a return: abandoning a future that still has the context frees it at once, and its server accesses the freed future. False of the code (C52_zero_futures_violated): With no futures `wait_any` blocks for ever: nothing can post its context."
  },
  {
   "property": "C53",
   "status": "proved",
   "theorems": [
    "Verif.Monitor.C53_mutual_exclusion",
    "Verif.Monitor.C53_nesting",
    "Verif.Monitor.C53_wait_releases",
    "Verif.Monitor.C53_leave_nested",
    "Verif.Monitor.C53_leave",
    "Verif.Monitor.C53_signal",
    "Verif.Monitor.C53_wait_order",
    "Verif.Monitor.C53_free",
    "Verif.Monitor.C53_entry_wakeup",
    "Verif.Monitor.C53_waiting_wakeup",
    "Verif.Monitor.C53_no_spurious_wakeup"
   ],
   "note": "Proved of the model as stated in properties.jsonl; the simplifications of the model are in DESIGN.md and in the comments of its definitions."
  },
  {
   "property": "C54",
   "status": "proved",
   "theorems": [
    "Verif.Monitor.C54_order",
    "Verif.Monitor.C54_no_cycle",
    "Verif.Monitor.C54_progress"
   ],
   "note": "Proved of the model as stated in properties.jsonl; the simplifications of the model are in DESIGN.md and in the comments of its definitions."
  },
  {
   "property": "C55",
   "status": "proved",
   "theorems": [
    "Verif.WaitforAgg.C55_aggregate",
    "Verif.WaitforAgg.C55_model",
    "Verif.WaitforAgg.C55_wait_threads"
   ],
   "note": "Proved of the model as stated in properties.jsonl; the simplifications of the model are in DESIGN.md and in the comments of its definitions."
  },
  {
   "property": "C56",
   "status": "partial",
   "theorems": [
    "Verif.Actor.C56_order",
    "Verif.Actor.C56_sender_order",
    "Verif.Actor.C56_send",
    "Verif.Actor.C56_nothing_lost",
    "Verif.Actor.C56_all_received",
    "Verif.Actor.C56_one_at_a_time",
    "Verif.Actor.C56_size_zero_violated"
   ],
   "note": "False of the code (C56_size_zero_violated): An executor created with buffers of size 0: the first send writes outside of the buffer."
  },
  {
   "property": "C57",
   "status": "proved",
   "theorems": [
    "Verif.Actor.C57_one_place",
    "Verif.Actor.C57_slot_refilled",
    "Verif.Actor.C57_ranges"
   ],
   "note": "Proved of the model as stated in properties.jsonl; the simplifications of the model are in DESIGN.md and in the comments of its definitions."
  },
  {
   "property": "C58",
   "status": "proved",
   "theorems": [
    "Verif.Snzi.C58_nonzero",
    "Verif.Snzi.C58_zero",
    "Verif.Snzi.C58_tree"
   ],
   "note": "Proved of the model as stated in properties.jsonl; the simplifications of the model are in DESIGN.md and in the comments of its definitions."
  },
  {
   "property": "C59",
   "status": "partial",
   "theorems": [
    "Verif.Alloc.C59_fill_partial",
    "Verif.Alloc.C59_some_elements",
    "Verif.Alloc.C59_whole_array_violated",
    "Verif.Alloc.C59_value_violated",
    "Verif.Alloc.C59_size_overflow_violated"
   ],
   "note": "False of the code (C59_whole_array_violated): The fill of a whole array, combined with `realloc of a block that is not empty, always writes outside the new block: the length is not reduced by the part that is kept. False of the code (C59_value_violated): The fill with a value, combined with `realloc of a block whose size is not a multiple of the size of an element, always writes past the end of the new block. False of the code (C59_size_overflow_violated): The size is computed without checking for overflow, so that the block can be smaller than its elements."
  },
  {
   "property": "C60",
   "status": "partial",
   "theorems": [
    "Verif.Convert.C60_reject",
    "Verif.Convert.C60_numeral_unique",
    "Verif.Convert.C60_long",
    "Verif.Convert.C60_fits_partial",
    "Verif.Convert.C60_out_of_range_partial",
    "Verif.Convert.C60_invalid_partial",
    "Verif.Convert.C60_int_violated",
    "Verif.Convert.C60_unsigned_violated",
    "Verif.Convert.C60_invalid_violated"
   ],
   "note": "C60_fits_partial: Missing: `out_of_range` for all others. C60_invalid_partial: Missing: `C60_invalid_violated`. False of the code (C60_int_violated): `convert` to `int` never reports a number that fits `long` as out of range: it returns another one. False of the code (C60_unsigned_violated): `convert` to an unsigned type accepts negative numerals. False of the code (C60_invalid_violated): A text that is not a numeral, reported as out of range."
  },
  {
   "property": "C61",
   "status": "partial",
   "theorems": [
    "Verif.Cost.C61_lexicographic",
    "Verif.Cost.C61_infinity_greatest",
    "Verif.Cost.C61_infinity_absorbing",
    "Verif.Cost.C61_add_componentwise",
    "Verif.Cost.C61_add_comm",
    "Verif.Cost.C61_add_assoc",
    "Verif.Cost.C61_add_monotone",
    "Verif.Cost.C61_increments",
    "Verif.Cost.C61_increment_abort",
    "Verif.Cost.C61_constructor",
    "Verif.Cost.C61_constants",
    "Verif.Cost.C61_implicit_constant_violated",
    "Verif.Cost.C61_compare_infinity_violated",
    "Verif.Cost.C61_overflow_violated"
   ],
   "note": "False of the code (C61_implicit_constant_violated): is false of the constant `implicit`: it is one implicit conversion and one sign conversion, so it is not `zero` with one implicit conversion. False of the code (C61_compare_infinity_violated): is false of `compare` at infinity: comparing infinity with itself says greater, although they are equal and neither is less. False of the code (C61_overflow_violated): Outside the range an addition carries into the next component: two costs of 128 safe conversions have one poly conversion and none safe."
  },
  {
   "property": "C62",
   "status": "proved",
   "theorems": [
    "Verif.PersistentMap.C62_persistent",
    "Verif.PersistentMap.C62_get_absent"
   ],
   "note": "Proved of the model as stated in properties.jsonl; the simplifications of the model are in DESIGN.md and in the comments of its definitions."
  },
  {
   "property": "C63",
   "status": "partial",
   "theorems": [
    "Verif.ScopedMap.C63_history",
    "Verif.ScopedMap.C63_end_outermost",
    "Verif.ScopedMap.C63_iteration",
    "Verif.ScopedMap.C63_reachable_ok",
    "Verif.ScopedMap.C63_backward_partial",
    "Verif.ScopedMap.C63_backward_violated"
   ],
   "note": "False of the code (C63_backward_violated): going backward: with an empty scope in between, `--` on an iterator reached by `++` decrements the `begin()` of an empty `std::map`."
  },
  {
   "property": "C64",
   "status": "partial",
   "theorems": [
    "Verif.ScopedMap.C64_history_partial",
    "Verif.ScopedMap.C64_erase_hides",
    "Verif.ScopedMap.C64_insert_violated",
    "Verif.ScopedMap.C64_erase_result_violated",
    "Verif.ScopedMap.C64_erase_result_partial",
    "Verif.ScopedMap.C64_iteration_violated",
    "Verif.ScopedMap.C64_iteration_partial"
   ],
   "note": "C64_history_partial: Missing from the full claim: inserting a key erased in the current scope, and the result of `erase`. False of the code (C64_insert_violated): for insertion: after `erase`, an insertion in the same scope leaves the sentinel in place, reports that nothing was inserted, and the key is not found. False of the code (C64_erase_result_violated): for the result of `erase`, documented as 1 when an element was erased and 0 otherwise: erasing a key that an outer scope binds hides it and returns 0, erasing a key twice returns 1 the second time. False of the code (C64_iteration_violated): iteration: a key erased in an inner scope, which `find` does not find, is still reached by a loop over the map. C64_iteration_partial: Missing from the full claim (`C64_iteration_violated`): a binding hidden by an erasure in a scope further in is reached too."
  },
  {
   "property": "C65",
   "status": "proved",
   "theorems": [
    "Verif.FilterCombos.C65_combinations",
    "Verif.FilterCombos.C65_distinct",
    "Verif.FilterCombos.C65_empty_undefined"
   ],
   "note": "Proved of the model as stated in properties.jsonl; the simplifications of the model are in DESIGN.md and in the comments of its definitions."
  },
  {
   "property": "C66",
   "status": "partial",
   "theorems": [
    "Verif.Eval.C66_value_partial",
    "Verif.Eval.C66_constant",
    "Verif.Eval.C66_variable_violated",
    "Verif.Eval.C66_dimension_violated",
    "Verif.Eval.C66_dimension_partial",
    "Verif.Eval.C66_div_zero_violated",
    "Verif.Eval.C66_cast_violated",
    "Verif.Eval.C66_unsigned_violated",
    "Verif.Eval.C66_overflow_violated",
    "Verif.Eval.C66_shift_violated"
   ],
   "note": "C66_value_partial: Missing from the full claim: that nothing is claimed for expressions without a value or with variables, and conversions that change values; see below. False of the code (C66_variable_violated): for expressions that are not constant: for `n + 1`, with `n` a variable, the evaluator reports a known value (0), whatever the value of `n`. False of the code (C66_dimension_violated): so two array types with the dimensions `n + 1` and `m + 2` are taken to be the same type. False of the code (C66_div_zero_violated): for division by zero: `x / 0` and `x % 0` are claimed to be 0. False of the code (C66_cast_violated): for conversions: `(unsigned char)300` is claimed to be 300, and is 44. False of the code (C66_unsigned_violated): for unsigned arithmetic: `1u - 2u` is claimed to be -1. False of the code (C66_overflow_violated): for overflow: `2147483647 + 1` has no value at type `int`; a value is claimed. False of the code (C66_shift_violated): a shift by 64 or more, or a sum that does not fit `long long int`, is undefined behaviour in the compiler."
  },
  {
   "property": "C67",
   "status": "partial",
   "theorems": [
    "Verif.Mangler.C67_symbols_partial",
    "Verif.Mangler.C67_plain_types_distinct",
    "Verif.Mangler.C67_renaming",
    "Verif.Mangler.C67_type_variables_violated",
    "Verif.Mangler.C67_type_variables_pointer_violated",
    "Verif.Mangler.C67_generic_violated",
    "Verif.Mangler.C67_operator_name_violated"
   ],
   "note": "C67_symbols_partial: Partial: the last item erases more than a renaming (see `C67_type_variables_violated`), and no type name may be generic in one declaration and plain in the other (see `C67_generic_violated`). False of the code (C67_type_variables_violated): `forall(T &, U &) void f(T, U)` and `forall(T &, U &) void f(T, T)` have the same symbol, although no renaming of the type parameters turns one into the other: the second cannot be obtained by any function on names, since it identifies the two parameters, and the renaming would have to be injective. False of the code (C67_type_variables_pointer_violated): Swapping the types of two parameters is not seen either: `f(T, U)` and `f(U, T)` (this one is a renaming), and with a pointer `f(T *, U)` against `f(U *, U)`. False of the code (C67_generic_violated): The brackets around generic arguments are the separators of function types, so two functions with different return and parameter types can share a symbol when a struct name is generic for one and plain for the other (for example in two translation units that are linked together): `a f(b(int))` and `[a(b), int] f()` are both `_X1fFS1a_S1b_i__`. False of the code (C67_operator_name_violated): A function that the user calls `_operator_add` has the symbol of the operator `?+?` of the same type."
  },
  {
   "property": "C68",
   "status": "partial",
   "theorems": [
    "Verif.TypeEnv.C68_one_class",
    "Verif.TypeEnv.C68_lookup",
    "Verif.TypeEnv.C68_solvable",
    "Verif.TypeEnv.C68_bindVar",
    "Verif.TypeEnv.C68_bindVarToVar",
    "Verif.TypeEnv.C68_unify",
    "Verif.TypeEnv.C68_known",
    "Verif.TypeEnv.C68_no_dangling",
    "Verif.TypeEnv.C68_add",
    "Verif.TypeEnv.C68_combine_partial",
    "Verif.TypeEnv.C68_combine_violated",
    "Verif.TypeEnv.C68_combine_diverges_violated",
    "Verif.TypeEnv.C68_combine_cyclic_violated"
   ],
   "note": "C68_combine_partial: Missing: the same for arbitrary environments, which is false (below). False of the code (C68_combine_violated): `{T \u2192 int} {U \u2192 char}` combined with `{T, U}` succeeds, although `T` and `U` cannot be equal: `U` is added to the class of `T` and stays in its own (TypeEnvironment.cpp:205-208). False of the code (C68_combine_diverges_violated): `{T} {U \u2192 T*}` combined with `{T, U}` does not return: `mergeBound` binds `T` to `T*`, and the occurs check that follows walks around the cycle for ever (TypeEnvironment.cpp:437-448). False of the code (C68_combine_cyclic_violated): `{U \u2192 X*} {X}` combined with `{X \u2192 T*} {T \u2192 U*}` succeeds with an environment nothing satisfies: `U` is a pointer to a pointer to a pointer to `U` (the class of `T` is appended without an occurs check, TypeEnvironment.cpp:224-226)."
  },
  {
   "property": "C69",
   "status": "partial",
   "theorems": [
    "Verif.Math.C69_signed_exact_partial",
    "Verif.Math.C69_signed_violated",
    "Verif.Math.C69_unsigned_exact",
    "Verif.Math.C69_unsigned_mod",
    "Verif.Math.C69_unsigned_violated",
    "Verif.Math.C69_generic"
   ],
   "note": "-1 to a large exponent is 0 (signed), odd bases to a large exponent are 0 instead of the residue (unsigned); both negations proved. Everything else is exact."
  },
  {
   "property": "C70",
   "status": "partial",
   "theorems": [
    "Verif.Math.C70_floor_partial",
    "Verif.Math.C70_floor_violated",
    "Verif.Math.C70_ceiling_signed",
    "Verif.Math.C70_ceiling_unsigned",
    "Verif.Math.C70_ceiling_div_partial",
    "Verif.Math.C70_ceiling_div_violated"
   ],
   "note": "floor and ceiling_div are wrong for negative numbers (negations proved); ceiling is right for all."
  },
  {
   "property": "C71",
   "status": "partial",
   "theorems": [
    "Verif.Math.C71_log2_partial",
    "Verif.Math.C71_log2_power",
    "Verif.Math.C71_log2_one_violated"
   ],
   "note": "Argument 1 shifts by the full width (proved); all arguments above 1 proved."
  },
  {
   "property": "C72",
   "status": "partial",
   "theorems": [
    "Verif.Time.C72_two_digit_year_violated",
    "Verif.Time.C72_two_digit_year_partial"
   ],
   "note": "The code prints (year-1900) mod 99: wrong from 1999 on (proved)."
  },
  {
   "property": "C73",
   "status": "proved",
   "theorems": [
    "Verif.Collections.C73_stack_is_list",
    "Verif.Collections.C73_push_check",
    "Verif.Collections.C73_dllist_is_list"
   ],
   "note": "Proved of the model as stated in properties.jsonl; the simplifications of the model are in DESIGN.md and in the comments of its definitions."
  },
  {
   "property": "C74",
   "status": "proved",
   "theorems": [
    "Verif.Maybe.C74_pair_lexicographic",
    "Verif.Maybe.C74_pair_trichotomy"
   ],
   "note": "Proved of the model as stated in properties.jsonl; the simplifications of the model are in DESIGN.md and in the comments of its definitions."
  },
  {
   "property": "C75",
   "status": "partial",
   "theorems": [
    "Verif.Alloc.C75_partial",
    "Verif.Alloc.C75_large_violated"
   ],
   "note": "C75_partial: Missing: more than 2^31 elements. False of the code (C75_large_violated): The index of the loop is an `int`: with more than 2^31 elements, no destructor is run."
  },
  {
   "property": "C76",
   "status": "partial",
   "theorems": [
    "Verif.Alloc.C76_default_alignment",
    "Verif.Alloc.C76_given_alignment",
    "Verif.Alloc.C76_reallocarray_partial",
    "Verif.Alloc.C76_reallocarray_violated",
    "Verif.Alloc.C76_reallocarray_align_violated"
   ],
   "note": "False of the code (C76_reallocarray_violated): `reallocarray` of a type with a larger alignment passes the alignment where the dimension is expected and the dimension where the element size is expected: the block is not aligned, and holds `dim` elements only if their size is their alignment. False of the code (C76_reallocarray_align_violated): The version with an alignment ignores the size of the elements."
  },
  {
   "property": "C77",
   "status": "partial",
   "theorems": [
    "Verif.RangeLoop.C77_up_partial",
    "Verif.RangeLoop.C77_down_partial",
    "Verif.RangeLoop.C77_up_violated",
    "Verif.RangeLoop.C77_down_violated",
    "Verif.RangeLoop.C77_index_type_violated"
   ],
   "note": "False of the code (C77_up_violated): `for ( i; lo ~= hi )` where `hi` is the largest value of an unsigned index type never ends. False of the code (C77_down_violated): `for ( i; 0 -~= hi )` with an unsigned index type never ends. False of the code (C77_index_type_violated): The index of `for ( i; 0 ~ n )` is an `int` whatever the type of `n`: for `n` of 2^31 or more the loop runs into signed overflow."
  },
  {
   "property": "C78",
   "status": "partial",
   "theorems": [
    "Verif.Monitor.C78_arriving_partial",
    "Verif.Monitor.C78_stmt",
    "Verif.Monitor.C78_queued_partial",
    "Verif.Monitor.C78_other_routine_violated",
    "Verif.Monitor.C78_subset_violated",
    "Verif.Monitor.C78_first_monitor_violated",
    "Verif.Monitor.C78_same_monitor_twice_violated"
   ],
   "note": "C78_arriving_partial: What is missing: routines with several monitors, for which this is false. C78_queued_partial: What is missing: clauses with several monitors, for which this is false. False of the code (C78_other_routine_violated): A thread waits in a `waitfor` that names only routine 5 with monitor 2; a call of another routine, 6, with monitors 1 and 2 enters monitor 2 all the same. False of the code (C78_subset_violated): A thread inside of the monitors 1 and 2 waits for a call of routine 5 with monitor 1 or of routine 6 with monitors 1 and 2. Routine 5 is called, accepted and returns. The waiting thread, although its `waitfor` has accepted a call that is finished, sleeps for ever: no thread that is inside of an operation can go on. False of the code (C78_first_monitor_violated): A call that the `waitfor` names is waiting for entry when the `waitfor` starts, and it is not accepted: both threads sleep for ever. False of the code (C78_same_monitor_twice_violated): A thread inside of a routine to which one monitor was passed twice can not `wait`: it never gets to release the monitor, so that no other thread enters."
  },
  {
   "property": "C79",
   "status": "partial",
   "theorems": [
    "Verif.ActorCount.C79_stop_partial",
    "Verif.ActorCount.C79_returns_partial",
    "Verif.ActorCount.C79_early_violated",
    "Verif.ActorCount.C79_abort_violated",
    "Verif.ActorCount.C79_no_actor_violated"
   ],
   "note": "C79_stop_partial: What is missing: programs that create an actor after all earlier ones have terminated, or none at all, for which this is false. False of the code (C79_early_violated): An actor terminates before the next one is created: `actor_stop` does not wait for the second one. False of the code (C79_abort_violated): Two actors, one after the other, terminate before `actor_stop`: the program aborts. False of the code (C79_no_actor_violated): `actor_stop` without any actor: it blocks, and nothing but the creation of an actor, which its caller can no longer do, goes on."
  },
  {
   "property": "C80",
   "status": "partial",
   "theorems": [
    "Verif.Select.C80_fifo_violated",
    "Verif.Select.C80_fifo_partial"
   ],
   "note": "False of the code (C80_fifo_violated): A channel of size 1 is not first-in first-out: it holds 1, a `waituntil` statement waits to write 2, and a `waituntil` statement that reads gets the 2."
  },
  {
   "property": "C81",
   "status": "partial",
   "theorems": [
    "Verif.WaitUntil.C81_condition_partial",
    "Verif.WaitUntil.C81_allor_violated",
    "Verif.WaitUntil.C81_guards_violated",
    "Verif.WaitUntil.C81_done",
    "Verif.WaitUntil.C81_needed",
    "Verif.WaitUntil.C81_once",
    "Verif.WaitUntil.C81_kept",
    "Verif.WaitUntil.C81_terminates",
    "Verif.WaitUntil.C81_no_missed_wakeup_partial"
   ],
   "note": "Full for the execution of the general form; partial: the compiled condition is right for statements where no right operand of or is a parenthesised or, and (unless the outermost operator is and or there is no and) some clause is enabled. Both exclusions are real defects (C81_allor_violated, C81_guards_violated). waituntil with else is not modelled."
  },
  {
   "property": "C82",
   "status": "partial",
   "theorems": [
    "Verif.WaitUntil.C82_finished_partial",
    "Verif.WaitUntil.C82_futures_violated"
   ],
   "note": "Proved for resources whose unregister_select$ takes the lock under which clauses are made available (channels, blocking locks); violated for futures, whose unregister_select$ returns at once if the node has been removed from the list."
  },
  {
   "property": "C83",
   "status": "partial",
   "theorems": [
    "Verif.SchedLock.C83_exclusion",
    "Verif.SchedLock.C83_ids",
    "Verif.SchedLock.C83_progress",
    "Verif.SchedLock.C83_readers",
    "Verif.SchedLock.C83_dangling_violated",
    "Verif.SchedLock.C83_limit_violated"
   ],
   "note": "False of the code (C83_dangling_violated): The violation of what a user expects of a processor that is deleted: a writer has read the address of the local lock of a thread, the thread unregisters and ends, and the writer accesses the lock (cluster.cfa:163-164, 134-142, private.hfa:294-297). False of the code (C83_limit_violated): The violation of the limit: with a maximum of 2 a registration aborts the program although only one other thread is registered; a cell became free after the search had passed it (cluster.cfa:96-114)."
  },
  {
   "property": "C84",
   "status": "partial",
   "theorems": [
    "Verif.HeapAlloc.C84_blocks_partial",
    "Verif.HeapAlloc.C84_returned_partial",
    "Verif.HeapAlloc.C84_malloc_wraps_violated",
    "Verif.HeapAlloc.C84_calloc_wraps_violated",
    "Verif.HeapAlloc.C84_memalign_null_violated",
    "Verif.HeapAlloc.C84_realloc_null_violated",
    "Verif.HeapAlloc.C84_mallopt_race_violated",
    "Verif.HeapAlloc.C84_stops_partial",
    "Verif.HeapAlloc.C84_top_pad_violated"
   ],
   "note": "False of the code (C84_malloc_wraps_violated): What is missing in `C84_blocks_partial` is false. Adding the size of the header wraps around: a request for 2^64 - 16 bytes gets a block with 16 bytes, and the next block lies within the bytes asked for. False of the code (C84_calloc_wraps_violated): calloc multiplies without a check: 2^32 elements of 2^32 bytes get a block with 16 bytes. False of the code (C84_memalign_null_violated): memalign uses the null pointer it gets for a request that is too large. False of the code (C84_realloc_null_violated): And so does realloc. False of the code (C84_mallopt_race_violated): An allocation between the two assignments of a change of the threshold gets a block that is too small. False of the code (C84_top_pad_violated): After mallopt( M_TOP_PAD, 0 ) the heap grows by less than a page, and the next time it has to grow the program is stopped, although the system grants the memory."
  },
  {
   "property": "C85",
   "status": "partial",
   "theorems": [
    "Verif.HeapAlloc.C85_contents",
    "Verif.HeapAlloc.C85_kept",
    "Verif.HeapAlloc.C85_promise",
    "Verif.HeapAlloc.C85_resize_0_violated",
    "Verif.HeapAlloc.C85_memalign_0_violated"
   ],
   "note": "False of the code (C85_resize_0_violated): resize( p, 0 ) is said to be the same as free( p ) (heap.cfa:1327-1330), but returns a block, which stays allocated if the client takes the comment at its word. False of the code (C85_memalign_0_violated): memalign( al, 0 ) is said to return an address that is a multiple of `al` (heap.cfa:1428), but does not."
  },
  {
   "property": "C86",
   "status": "proved",
   "theorems": [
    "Verif.HeapAlloc.C86_routines_end"
   ],
   "note": "Proved of the model as stated in properties.jsonl; the simplifications of the model are in DESIGN.md and in the comments of its definitions."
  },
  {
   "property": "C87",
   "status": "partial",
   "theorems": [
    "Verif.HeapAlloc.C87_private_heaps_partial",
    "Verif.HeapAlloc.C87_heaps_lost_violated"
   ],
   "note": "False of the code (C87_heaps_lost_violated): What is missing in `C87_private_heaps_partial`, that the number of heaps is bounded by the number of threads that run at the same time, is false: heapManagerBootFlag is set only for a new heap (heap.cfa:476), so the heap of a thread that got a heap for the second time is not given back. The number of heaps grows without bound (up to the memory of the machine) although never more than one thread runs."
  },
  {
   "property": "C88",
   "status": "partial",
   "theorems": [
    "Verif.MultiExit.C88_exits_partial",
    "Verif.MultiExit.C88_labels_partial",
    "Verif.MultiExit.C88_choose",
    "Verif.MultiExit.C88_body_violated",
    "Verif.MultiExit.C88_lost_violated",
    "Verif.MultiExit.C88_stops_violated"
   ],
   "note": "C88_exits_partial: Missing: labels on the block that is the body of a control structure and on a `break`, `continue` or `fallthrough` (see `C88_body_violated`, `C88_lost_violated`). C88_labels_partial: Missing: as for `C88_exits_partial`. False of the code (C88_body_violated): A `break` from a labelled block that is the body of a loop leaves the loop too: the translator accepts the function, and the C function returns with another store. False of the code (C88_lost_violated): A label on a `break` is lost: the translator accepts the function, but the C function has a `goto` to a label that it does not have. False of the code (C88_stops_violated): A `fallthrough default` inside a loop with an `else` clause stops the translator: the function is a valid one that returns, its labels are unique and defined, and the translator accepts it without the `else`."
  },
  {
   "property": "C89",
   "status": "partial",
   "theorems": [
    "Verif.Except.C89_exceptions_partial",
    "Verif.Except.C89_isParent",
    "Verif.Except.C89_accepts",
    "Verif.Except.C89_accepted",
    "Verif.Except.C89_finally_violated",
    "Verif.Except.C89_rethrow_violated",
    "Verif.Except.C89_rethrow_finally_violated",
    "Verif.Except.C89_reresume_violated"
   ],
   "note": "C89_exceptions_partial: Missing: the programs that the translator accepts with `throw;` or `throwResume;` in a nested `try` statement, and executions in which an exception is lost as a `finally` clause executed for it throws another; for these it is false (below). False of the code (C89_finally_violated): if a `finally` clause that is executed for an exception throws another, the first stays the current one, so that `throw;` in a handler around it throws it instead of the exception of the handler, and that exception is never deleted. False of the code (C89_rethrow_violated): if `throw;` in a `try` statement of a `catch` clause is caught by that `try` statement, the exception of the clause has been deleted and its variable is null afterwards: the rest of the clause uses the null pointer. False of the code (C89_rethrow_finally_violated): nor can a `finally` clause executed for `throw;` use the exception of the `catch` clause that it is in. False of the code (C89_reresume_violated): `throwResume;` in the block of a `try` statement with `catch` clauses, in a `catchResume` clause, becomes `return false` in the function made from that block: the handler continues, and the exception counts as handled. (A C compiler that rejects `return false` in a function without a result rejects the program.)"
  },
  {
   "property": "C90",
   "status": "partial",
   "theorems": [
    "Verif.SmartPtr.C90_counter_partial",
    "Verif.SmartPtr.C90_unique_partial",
    "Verif.SmartPtr.C90_last",
    "Verif.SmartPtr.C90_counter_violated",
    "Verif.SmartPtr.C90_self_violated",
    "Verif.SmartPtr.C90_pop_violated",
    "Verif.SmartPtr.C90_move_violated"
   ],
   "note": "False of the code (C90_counter_violated): the counter of a `counter_ptr` is an `unsigned int` that wraps: with 2^32 + 1 pointers to an object, destroying one of them deletes the object and leaves 2^32 pointers to freed memory. False of the code (C90_self_violated): `r.next = 0`, where the pointer `next` in the object `r` is the last pointer to `r` itself, deletes `r` and then writes to it. False of the code (C90_pop_violated): `move(head, head->next)`, which takes the first node off a list of `unique_ptr`, deletes the node, and with it the rest of the list, and then reads the pointer in it. False of the code (C90_move_violated): `move(x, x)` destroys the object and leaves a null pointer."
  },
  {
   "property": "C91",
   "status": "partial",
   "theorems": [
    "GenLayout.C91_leastMul",
    "GenLayout.C91_size_partial",
    "GenLayout.C91_offsets_partial",
    "GenLayout.C91_members_partial",
    "GenLayout.C91_empty_violated",
    "GenLayout.C91_bitfield_violated",
    "GenLayout.C91_aligned_violated",
    "GenLayout.C91_union_violated",
    "GenLayout.C91_array_violated",
    "GenLayout.C91_buffer_partial",
    "GenLayout.C91_buffer_violated"
   ],
   "note": "C91_size_partial: Missing: bit-fields, `aligned` members, empty aggregates, types of size 0, arithmetic overflow. C91_offsets_partial: Missing: as in C91_size_partial. False of the code (C91_empty_violated): an empty generic structure has size 1 in code that does not know its argument and size 0 in code that does, so in `S` the member after it is at offset 4 for the one and at 0 for the other when `T` is `int`. False of the code (C91_bitfield_violated): the layout function gives a bit-field the whole size of its type. In a structure with two bit-fields of 4 bits before a `T`, the `T` is at offset 8 in code that does not know `T`, and at 4 in code that does, when `T` is `int`. False of the code (C91_aligned_violated): the layout function ignores the `aligned` attribute of a member. False of the code (C91_union_violated): the layout function of a union starts with size 1, so a union whose members all have size 0 (an empty structure in GNU C) has size 1 in code that does not know this. False of the code (C91_array_violated): A type argument that is an array of a polymorphic type: `Pair(T[2], char)` in a function with parameter `T`. C91 fails: the translation refers to a variable that is not declared, so the program does not compile. C91_buffer_partial: Missing: larger alignments, for which it fails. False of the code (C91_buffer_violated): a local variable of a type with alignment 64 may be put at an address that is not a multiple of 64, for its buffer only has to be at a multiple of 8."
  },
  {
   "property": "C92",
   "status": "partial",
   "theorems": [
    "ObjLife.C92_scope_partial",
    "ObjLife.C92_end_partial",
    "ObjLife.C92_runs_partial",
    "ObjLife.C92_throwingConstructor_violated",
    "ObjLife.C92_computedGoto_violated",
    "ObjLife.C92_labelledExpression_violated",
    "ObjLife.C92_loopCondition_violated"
   ],
   "note": "False of the code (C92_throwingConstructor_violated): the `cleanup` attribute is on the declaration and the constructor call comes after it, so if the constructor raises an exception the destructor is run on an object that was never constructed. False of the code (C92_computedGoto_violated): a computed goto is not checked, and no destructors are called when it leaves a block: the call returns with an object still there. `{ X 0; goto *p; } L5: 20;` False of the code (C92_labelledExpression_violated): the label of an expression stays on the expression, behind the declarations of its temporaries. A goto to it enters their scope without initialising them, and if the expression raises an exception before the temporary is constructed, a destructor is called through memory that was never written. `L5: 20( t10 ); goto L5;` False of the code (C92_loopCondition_violated): the temporaries of the condition of a loop are declared before the loop, so each iteration constructs them again over the ones of the last iteration, which are never destroyed. `while ( 20( t10 ) ) 21;`"
  },
  {
   "property": "C93",
   "status": "partial",
   "theorems": [
    "IdleSleep.C93_noStall_partial",
    "IdleSleep.C93_noStallPow_partial",
    "IdleSleep.C93_lanes_partial",
    "IdleSleep.C93_idles_partial",
    "IdleSleep.C93_overflow_violated",
    "IdleSleep.C93_destroyed_violated"
   ],
   "note": "False of the code (C93_overflow_violated): `search` computes `( offset + i ) % count` with 32-bit numbers. If the random `offset` is near 2^32 the sum overflows, and when `count` does not divide 2^32 some lanes are looked at twice and others not at all. On a cluster of three processors with two lanes each, a thread made ready while all processors are awake can be in the lane that is left out (number 5, for the offset 2^32 - 1); then all three go to sleep and the thread is not run. False of the code (C93_destroyed_violated): while a processor is being destroyed: two threads are made ready while both processors of a cluster sleep. Both callers find the same processor, the second sees that it has been told to wake up and does nothing. The processor is being destroyed (by a thread of another cluster): it wakes up, runs the first thread and leaves, without a look at the queue or waking anybody. The second thread stays in the queue, the other processor asleep."
  },
  {
   "property": "C94",
   "status": "partial",
   "theorems": [
    "InitCursor.C94_initializers_partial",
    "InitCursor.C94_wholeStructure_violated",
    "InitCursor.C94_staleElement_violated",
    "InitCursor.C94_lastElement_violated",
    "InitCursor.C94_innerBraces_violated",
    "InitCursor.C94_designatedBraces_violated",
    "InitCursor.C94_firstMember_violated",
    "InitCursor.C94_emptyStructure_violated",
    "InitCursor.C94_unnamedBitfield_violated",
    "InitCursor.C94_firstDeclaration_violated",
    "InitCursor.C94_tuple_violated"
   ],
   "note": "False of the code (C94_wholeStructure_violated): after an expression that initializes a whole structure the compiler continues inside that structure. In `struct B b @= { a, a }` the second value is offered only `a0.y`, a `double`; C says it is for `a1`. False of the code (C94_staleElement_violated): an index designation keeps the iterator of the element before. In `struct A a[3] @= { 1, [2] = v }` the designated value is offered only `a[2].y`; C says it is for `a[2]`. False of the code (C94_lastElement_violated): after the last element of an array there is no iterator, and an index designation uses the null pointer: the compiler crashes for `int a[3] @= { [2] = 1, [0] = 2 }`. False of the code (C94_innerBraces_violated): a braced list is always taken for a member of the current object, also where the next subobject is inside of it. In `struct B b @= { 1, { 2. } }` the list is for `a0.y` by the rules of C; the compiler resolves it for a `struct A`. False of the code (C94_designatedBraces_violated): the same with a designation, `struct B b @= { .a1.y = { 2. } }`. False of the code (C94_firstMember_violated): a designation of the first member of an inner structure also offers the whole structure: in `struct B b @= { .a1.x = v }` the value may be a `struct A`. False of the code (C94_emptyStructure_violated): for structures with a member whose type is an empty structure: `struct { struct {} e; int x; } s @= { {}, 1 }` stops the compiler. False of the code (C94_unnamedBitfield_violated): for unnamed bit-fields, which are taken for members that are initialized: in `struct { int a; int : 4; int * b; } s @= { 1, p }` the pointer is offered the bit-field. False of the code (C94_firstDeclaration_violated): for structures that begin with a declaration that is no object (a static assertion): no subobject is offered. False of the code (C94_tuple_violated): for tuples with aggregate components: the test for the end of the component is the wrong way round, and after the first member of the component the next component is taken."
  },
  {
   "property": "C95",
   "status": "partial",
   "theorems": [
    "Verif.OstreamInt.C95_plain128",
    "Verif.OstreamInt.C95_numeral",
    "Verif.OstreamInt.C95_layout",
    "Verif.OstreamInt.C95_printed64_partial",
    "Verif.OstreamInt.C95_printed128_partial",
    "Verif.OstreamInt.C95_power_violated",
    "Verif.OstreamInt.C95_signedChunk_violated",
    "Verif.OstreamInt.C95_leftWidth_violated",
    "Verif.OstreamInt.C95_binPrecision_violated",
    "Verif.OstreamInt.C95_hexZero_violated",
    "Verif.OstreamInt.C95_padPrecision_violated"
   ],
   "note": "C95_printed64_partial: Missing: zero with a precision of 0, binary numbers with more digits than the precision, and a hexadecimal zero padded on the left (see `C95_binPrecision_violated`, `C95_hexZero_violated`). C95_printed128_partial: Missing: the cases excluded by `Ok128`, in each of which the property fails or the C rule for precision 0 differs (see the theorems with the suffix `_violated`). False of the code (C95_power_violated): the 128-bit number 2^64 is printed as zero in hexadecimal and in binary. The number is split at values greater than 2^64, so 2^64 is one chunk, of which the lower 64 bits are printed. False of the code (C95_signedChunk_violated): a group of 19 digits of an `int128` that is at least 2^63 is printed as a negative number, in the middle of the digits. False of the code (C95_leftWidth_violated): a decimal 128-bit number justified to the left takes one column more than asked for if its first group of digits is a power of ten, as the number of its digits is computed as the ceiling of its logarithm. False of the code (C95_binPrecision_violated): a binary number with more digits than the precision is padded as if it had only as many as the precision: 16 columns are printed where 10 were asked for and suffice. False of the code (C95_hexZero_violated): a hexadecimal zero is padded with blanks between the prefix and the digit. False of the code (C95_padPrecision_violated): with a precision, padding with zeros is ignored for 64-bit integers, but not for 128-bit integers of more than one chunk whose precision does not reach their first chunk."
  },
  {
   "property": "C96",
   "status": "partial",
   "theorems": [
    "Verif.OstreamSep.C96_text_partial",
    "Verif.OstreamSep.C96_statement",
    "Verif.OstreamSep.C96_tuple",
    "Verif.OstreamSep.C96_null_violated",
    "Verif.OstreamSep.C96_first_violated",
    "Verif.OstreamSep.C96_character_violated",
    "Verif.OstreamSep.C96_sepOn_violated"
   ],
   "note": "C96_text_partial: Missing: the cases excluded by `Treated`, in each of which the property fails (see the theorems with the suffix `_violated`). False of the code (C96_null_violated): the null string pointer is printed without the separator that precedes other values, so `sout | 1 | s` prints `10p` if `s` is null. False of the code (C96_first_violated): `sep` before anything has been printed puts a separator at the beginning of the first line, though not of any other line. False of the code (C96_character_violated): `sep` after a character is ignored on a line on which only characters have been printed, except the first line, as characters do not clear the flag for the beginning of a line. False of the code (C96_sepOn_violated): `sepOff` takes effect for the next value but `sepOn` only after it."
  },
  {
   "property": "C97",
   "status": "partial",
   "theorems": [
    "Verif.Arith.C97_nearest",
    "Verif.Arith.C97_common",
    "Verif.Arith.C97_reading",
    "Verif.Arith.C97_resolved_partial",
    "Verif.Arith.C97_as_in_C_partial",
    "Verif.Arith.C97_value_partial",
    "Verif.Arith.C97_nearer_partial",
    "Verif.Arith.C97_bool_violated",
    "Verif.Arith.C97_promotion_violated",
    "Verif.Arith.C97_longlong_violated",
    "Verif.Arith.C97_shift_violated",
    "Verif.Arith.C97_remainder_violated",
    "Verif.Arith.C97_float32_violated",
    "Verif.Arith.C97_safe_violated",
    "Verif.Arith.C97_casts_violated",
    "Verif.Arith.C97_nearer_violated"
   ],
   "note": "C97_resolved_partial: Missing: `_Bool` operands alone (`C97_bool_violated`), types without operators of their own (`C97_float32_violated`), operands an operator is not declared for (`C97_remainder_violated`), expressions with 254 casts (`C97_casts_violated`) or 65536 operators. C97_as_in_C_partial: Missing: smaller types (`C97_promotion_violated`), `unsigned long` with `long long` (`C97_longlong_violated`), shifts of one type by another (`C97_shift_violated`), and the size limits of `C97_resolved_partial`. C97_value_partial: Missing: safe conversions counted as changing the sign (`C97_safe_violated`). C97_nearer_partial: Missing: a `_Bool` or `char` argument and a parameter of type `char` or `signed char` (`C97_nearer_violated`). False of the code (C97_bool_violated): an operator applied to two `_Bool` variables is rejected: the versions for `char` and for `signed char` are equally near, so `b1 + b2` is ambiguous, as a statement and where an `int` is wanted. In C it is an `int`. False of the code (C97_promotion_violated): there is no integer promotion. The sum of two `char` is a `char`, and a `signed char` compared with an `unsigned char` is converted to `unsigned char`: for `-1` and `1` the comparison is false, in C it is true. False of the code (C97_longlong_violated): an `unsigned long` and a `long long` are converted to `long long`, in C to `unsigned long long`: for `1` and `-2` their sum is negative, in C it is the greatest value. False of the code (C97_shift_violated): the left operand of a shift is converted to the type of the right one: an `unsigned int` shifted by a `long` is a `long`, in C an `unsigned int`, and the bits shifted out in C are kept. False of the code (C97_remainder_violated): the remainder of a `double` is accepted, by narrowing the `double` to an `int`; C rejects it. False of the code (C97_float32_violated): `_Float32` and `_Float64` have no operators: their sums are a `float` and a `double`. False of the code (C97_safe_violated): conversions that change values are counted as safe: an `int` is converted to `unsigned int`, an `unsigned long` to `long long`, with a finite number of safe steps. False of the code (C97_casts_violated): the count of narrowing conversions has one byte. After 255 of them in an operand the next one is free, and a `long` added to the operand is narrowed to `int`. False of the code (C97_nearer_violated): a `char` is as near to `short` as to `signed char`, though `signed char` widens to `short`; and a `_Bool` as near to `signed char` as to `char`: a call with functions for both is ambiguous."
  },
  {
   "property": "C98",
   "status": "partial",
   "theorems": [
    "Verif.IntLit.C98_typed_partial",
    "Verif.IntLit.C98_known_partial",
    "Verif.IntLit.C98_int128_partial",
    "Verif.IntLit.C98_rejected_partial",
    "Verif.IntLit.C98_lu_violated",
    "Verif.IntLit.C98_u_violated",
    "Verif.IntLit.C98_l_violated",
    "Verif.IntLit.C98_binary_violated",
    "Verif.IntLit.C98_known_violated",
    "Verif.IntLit.C98_half_violated",
    "Verif.IntLit.C98_octal128_violated",
    "Verif.IntLit.C98_binary128_violated",
    "Verif.IntLit.C98_decimal128_violated"
   ],
   "note": "C98_typed_partial: Missing: the suffix `lu` (`C98_lu_violated`), decimals with `u` (`C98_u_violated`), `l` and `ll` past `LONG_MAX` (`C98_l_violated`), binary constants past `INT_MAX` (`C98_binary_violated`); 128 bits are the subject of `C98_int128_partial`. C98_known_partial: Missing: most binary constants (`C98_known_violated`). C98_int128_partial: Missing: constants whose lower half is zero (`C98_half_violated`), octal constants of 2 to the 127 and more (`C98_octal128_violated`), binary constants whose lower half is below four (`C98_binary128_violated`), decimals of more than 39 digits (`C98_decimal128_violated`). C98_rejected_partial: Missing: longer decimals (`C98_decimal128_violated`). False of the code (C98_lu_violated): `10lu` is an `unsigned int`, though `10ul` is an `unsigned long`, as both are in C: a length followed by `u` is dropped. False of the code (C98_u_violated): `3000000000u` is an `unsigned long`; in C it is an `unsigned int`. False of the code (C98_l_violated): `0xFFFFFFFFFFFFFFFFl` is a `long`, with value -1; in C it is an `unsigned long`. False of the code (C98_binary_violated): the binary constant for 2 to the 31 is an `int`, with a negative value: the last two digits are not read. In C it is an `unsigned int`. False of the code (C98_known_violated): for constant expressions, the compiler takes `0b101` for 1, and `0b11u` for 1: the last digits are not read. False of the code (C98_half_violated): `0x1_0000_0000_0000_0000l128` has the value 1: when the lower half is zero the halves are taken in the wrong order. It denotes 2 to the 64. False of the code (C98_octal128_violated): an octal constant of 2 to the 127 and more is read with more than 64 bits at a time: this one, 2 to the 127 and 1, has another value. False of the code (C98_binary128_violated): a binary constant of more than 64 digits whose lower half is 1, 2 or 3 has its halves exchanged: this one denotes 2 to the 64 and 2. False of the code (C98_decimal128_violated): a decimal constant of forty digits, which no type can represent, is accepted."
  },
  {
   "property": "C99",
   "status": "partial",
   "theorems": [
    "Verif.Symbols.C99_lookup",
    "Verif.Symbols.C99_global",
    "Verif.Symbols.C99_restored",
    "Verif.Symbols.C99_tag_rejected",
    "Verif.Symbols.C99_type_rejected",
    "Verif.Symbols.C99_clash_partial",
    "Verif.Symbols.C99_with_partial",
    "Verif.Symbols.C99_twice_violated",
    "Verif.Symbols.C99_order_violated",
    "Verif.Symbols.C99_with_violated"
   ],
   "note": "C99_clash_partial: Missing: clashes with a later declaration of the same identifier (`C99_twice_violated`), and a C function declared after its Cforall version (`C99_order_violated`). C99_with_partial: Missing: members with C linkage (`C99_with_violated`). False of the code (C99_twice_violated): a function that is declared and then defined twice is accepted; defined twice without the declaration, it is rejected. False of the code (C99_order_violated): whether a C and a Cforall version of a function may be declared in one scope depends on their order, and after the order that is accepted the name denotes the Cforall version. False of the code (C99_with_violated): a `with` clause over two objects of C structures that have a member of the same name with different types is rejected, even if the member is not used."
  },
  {
   "property": "C100",
   "status": "partial",
   "theorems": [
    "Verif.Symbols.C100_usable_partial",
    "Verif.Symbols.C100_found_partial",
    "Verif.Symbols.C100_order_partial",
    "Verif.Symbols.C100_builtin_violated",
    "Verif.Symbols.C100_order_violated",
    "Verif.Symbols.C100_shadow_violated",
    "Verif.Symbols.C100_definition_violated"
   ],
   "note": "C100_usable_partial: Missing: types with built-in functions for which the user writes a copy function (see `C100_builtin_violated`), and declarations in an outer scope (see `C100_shadow_violated`). C100_found_partial: Missing as in `C100_usable_partial`. C100_order_partial: Missing as in `C100_usable_partial`; and the other order may be rejected (see `C100_definition_violated`). False of the code (C100_builtin_violated): a built-in default constructor \"must be overridden exactly\" (it is not withdrawn, in the terms of the specification), but a copy constructor the user writes for the type, such as an enumeration, makes it unusable. False of the code (C100_order_violated): for a type with built-in functions the order matters. With the same constructors of the user's, the built-in default constructor can be used when the one that is not a copy constructor is written first, and cannot when the copy constructor is. False of the code (C100_shadow_violated): a structure in a block with the name of one outside of it is another type, but when the user has written a default constructor for the outer one, the one generated for the inner one cannot be used: an object of the inner structure cannot be declared. False of the code (C100_definition_violated): a constructor the user defines between the declaration of a structure and its definition is rejected as a second definition, because the generated one comes after it. The same definition after that of the structure is accepted."
  },
  {
   "property": "C101",
   "status": "partial",
   "theorems": [
    "Verif.Gmp.C101_arith_partial",
    "Verif.Gmp.C101_sub_exact",
    "Verif.Gmp.C101_sub_violated",
    "Verif.Gmp.C101_bits_partial",
    "Verif.Gmp.C101_xor_violated",
    "Verif.Gmp.C101_division_partial",
    "Verif.Gmp.C101_division_violated",
    "Verif.Gmp.C101_divmod",
    "Verif.Gmp.C101_divmod_violated",
    "Verif.Gmp.C101_compare_partial",
    "Verif.Gmp.C101_compare_reversed",
    "Verif.Gmp.C101_compare_violated",
    "Verif.Gmp.C101_convert",
    "Verif.Gmp.C101_convert_violated",
    "Verif.Gmp.C101_assign",
    "Verif.Gmp.C101_shift",
    "Verif.Gmp.C101_print_violated"
   ],
   "note": "False of the code (C101_sub_violated): `-5 - x`, for `x` an `Int` with value 3, is 18446744073709551608. C101_bits_partial: Missing: exclusive disjunction with a C integer, see `C101_xor_violated`. False of the code (C101_xor_violated): `x ^ 1`, for `x` an `Int` with value 1, is 1. False of the code (C101_division_violated): the smallest `long int` divided by an `Int` with value -1 stops the program, though the quotient is an integer. False of the code (C101_divmod_violated): `div( x, y )` does not give what `x / y` and `x % y` give: for -7 and 2, -4 and 1 instead of -3 and -1. False of the code (C101_compare_violated): `5 < x` is true and `5 > x` is false, for `x` an `Int` with value 3. False of the code (C101_convert_violated): an `Int` assigned to an unsigned variable is not converted as C converts integers, to the value that is equal to it modulo a power of 2: -1 becomes 1. False of the code (C101_print_violated): an `Int` printed to a stream other than the standard output is written to the standard output; only the separator goes to the stream."
  },
  {
   "property": "C102",
   "status": "partial",
   "theorems": [
    "Verif.Props.TupleAsg.C102_multiple_partial",
    "Verif.Props.TupleAsg.C102_values",
    "Verif.Props.TupleAsg.C102_sizes",
    "Verif.Props.TupleAsg.C102_mass_partial",
    "Verif.Props.TupleAsg.C102_mass_assign",
    "Verif.Props.TupleAsg.C102_swap",
    "Verif.Props.TupleAsg.C102_swap_references_violated",
    "Verif.Props.TupleAsg.C102_sequence_violated",
    "Verif.Props.TupleAsg.C102_mass_violated",
    "Verif.Props.TupleAsg.C102_order_violated"
   ],
   "note": "C102_multiple_partial: Missing: left-hand components of reference type, and the same place twice on the left (both are false, see below). C102_mass_partial: Missing: a right-hand side of reference type (false in general, see below; true for `=`, C102_mass_assign) and the same place twice on the left. False of the code (C102_swap_references_violated): when the left-hand components are references, the right side is not copied. With `int & x`, `int & y` (parameters, say), `[x, y] = [y, x]` does not swap: both end up with the value of `y`. A left-hand component of type `int &` is cast to `int &&`, \"LHS type minus one reference\" is then `int &`, and the temporary for the right side is a reference to the very object that is being assigned. False of the code (C102_sequence_violated): for the same reason a right-hand component is not read when it is evaluated. With `int & x`, `[x, y] = [z, f()]` where `f` changes `z` gives `x` the changed `z`; with `int x` it gives the old one. False of the code (C102_mass_violated): mass assignment does not copy a right-hand side of reference type. With `int & r` referring to `b`, `[b, c] += r` doubles `b` and then adds the doubled `b` to `c`; with `r` an object of the same value it adds the value to both. And the other order gives another result. False of the code (C102_order_violated): the same place twice on the left gets the value of whichever assignment C happens to make last: they are the initializers of a compound literal."
  },
  {
   "property": "C103",
   "status": "partial",
   "theorems": [
    "Verif.Props.Coroutine.C103_control_partial",
    "Verif.Props.Coroutine.C103_exceptions",
    "Verif.Props.Coroutine.C103_polls",
    "Verif.Props.Coroutine.C103_resume_pointer_violated",
    "Verif.Props.Coroutine.C103_cancelled_unnoticed_violated",
    "Verif.Props.Coroutine.C103_cancelled_elsewhere_violated",
    "Verif.Props.Coroutine.C103_cleanup_cut_violated",
    "Verif.Props.Coroutine.C103_cancelled_cut_violated"
   ],
   "note": "C103_control_partial: Partial: the operations are `Orderly`. False of the code (C103_resume_pointer_violated): the first resume of a coroutine through a `coroutine$ *` does not prepare its stack, and the program stops. False of the code (C103_cancelled_unnoticed_violated): if the latest resumer of a cancelled coroutine is not waiting in a resume, no exception is raised in it, and a later resume it does, of another coroutine, stops the program. False of the code (C103_cancelled_elsewhere_violated): if the latest resumer of a cancelled coroutine is waiting in a resume of another coroutine, the program stops. False of the code (C103_cleanup_cut_violated): a destructor of a local of a destroyed coroutine that resumes another coroutine is cut short when that comes back: unwinding starts again in the middle of it. False of the code (C103_cancelled_cut_violated): if a destructor of a local of a cancelled coroutine resumes another coroutine, the cancellation exception is never raised."
  },
  {
   "property": "C104",
   "status": "partial",
   "theorems": [
    "Verif.Props.IoUring.C104_once_partial",
    "Verif.Props.IoUring.C104_entry",
    "Verif.Props.IoUring.C104_flush",
    "Verif.Props.IoUring.C104_no_crash",
    "Verif.Props.IoUring.C104_drained_partial",
    "Verif.Props.IoUring.C104_granted_partial",
    "Verif.Props.IoUring.C104_waiting_violated",
    "Verif.Props.IoUring.C104_no_entry_violated",
    "Verif.Props.IoUring.C104_mark_violated",
    "Verif.Props.IoUring.C104_refused_violated",
    "Verif.Props.IoUring.C104_two_processors_violated"
   ],
   "note": "C104_once_partial: Partial: for two processors in a system call at once see `C104_two_processors_violated`, and that every request is taken at last is not claimed, see `C104_waiting_violated`. C104_granted_partial: Partial: it must be exactly one of each, see `C104_waiting_violated` and `C104_no_entry_violated`. False of the code (C104_waiting_violated): a request that waits for an entry is left waiting for ever although all entries are free. The arbiter passes over a waiting request if *more* entries are free than it wants. Ring of two; two requests are submitted while a third waits; the flush frees both entries, and whatever happens later, short of further requests, the third waits on. False of the code (C104_no_entry_violated): a waiting request is woken without an entry, and goes on with an index that was never set, if fewer entries are free than it wants. Ring of one, two requests wait, one entry is freed. False of the code (C104_mark_violated): after the kernel has taken only part of what is listed, the processor is marked as having nothing to submit, with a request still listed. False of the code (C104_refused_violated): if the call for completions that were kept back is refused once (EAGAIN, EBUSY), the drain ends as if there were none, with the completion ring empty; then no future of this context is ever fulfilled again, of old requests or of new ones. False of the code (C104_two_processors_violated): two processors (the owner of a context, and one that helps) can release the entries of one system call both, and an entry is then free twice. Requests 2 and 5 get the same entry: the kernel takes 5 twice and never 2."
  },
  {
   "property": "C105",
   "status": "partial",
   "theorems": [
    "Verif.Props.PthreadTsd.C105_values",
    "Verif.Props.PthreadTsd.C105_join",
    "Verif.Props.PthreadTsd.C105_called_partial",
    "Verif.Props.PthreadTsd.C105_all_called_partial",
    "Verif.Props.PthreadTsd.C105_no_crash_partial",
    "Verif.Props.PthreadTsd.C105_runner_violated",
    "Verif.Props.PthreadTsd.C105_unjoined_violated",
    "Verif.Props.PthreadTsd.C105_null_destructor_violated",
    "Verif.Props.PthreadTsd.C105_other_destructor_violated",
    "Verif.Props.PthreadTsd.C105_main_violated",
    "Verif.Props.PthreadTsd.C105_tryjoin_blocks_violated",
    "Verif.Props.PthreadTsd.C105_tryjoin_raises_violated"
   ],
   "note": "C105_called_partial: Partial: with keys deleted in the meantime see `C105_other_destructor_violated`, for who calls it `C105_runner_violated`. C105_all_called_partial: Partial: for a thread that is not joined see `C105_unjoined_violated`. C105_no_crash_partial: Partial: see `C105_main_violated` and `C105_null_destructor_violated`. False of the code (C105_runner_violated): the destructor is called by the thread that joins, not by the thread whose value it is: `pthread_getspecific` in it answers the value of the joining thread, here 9, where POSIX says that the value of the key is null then. False of the code (C105_unjoined_violated): the destructors of a thread that is not joined are never called, whatever happens afterwards, though it has ended with a value that has one; `pthread_detach` stops the program. False of the code (C105_null_destructor_violated): a key deleted while the data of a joined thread is, between the test of its destructor, under the lock, and its call, without: a null pointer is called. False of the code (C105_other_destructor_violated): a key deleted and another made at that point: the destructor of the new key is called with the value of the old. False of the code (C105_main_violated): the main thread, or any thread not made by `pthread_create`, that sets a value, or asks for the value of a key that exists, uses memory outside of its thread object. False of the code (C105_tryjoin_blocks_violated): the flag that `pthread_tryjoin_np` tests is not initialised: if the memory of the new thread is not zero, the call blocks, where it must answer `EBUSY`. False of the code (C105_tryjoin_raises_violated): `pthread_tryjoin_np` of a thread that has called `pthread_exit` raises the cancellation in the joining thread, where `pthread_join` answers the value."
  },
  {
   "property": "C106",
   "status": "partial",
   "theorems": [
    "Verif.RefLower.C106_value_partial",
    "Verif.RefLower.C106_read",
    "Verif.RefLower.C106_assign",
    "Verif.RefLower.C106_address",
    "Verif.RefLower.C106_rebind",
    "Verif.RefLower.C106_temporary",
    "Verif.RefLower.C106_argument_violated",
    "Verif.RefLower.C106_untaken_violated",
    "Verif.RefLower.C106_conditional_violated",
    "Verif.RefLower.C106_address_of_value_violated",
    "Verif.RefLower.C106_double_address_violated",
    "Verif.RefLower.C106_two_levels_violated",
    "Verif.RefLower.C106_returned_reference_violated",
    "Verif.RefLower.C106_address_of_cast_violated"
   ],
   "note": "C106_value_partial: Missing: the forms for which it is false, see below, and the conversions of values to references, which need a temporary. False of the code (C106_argument_violated): an `int &&` given to a function with an `int &` parameter is handed on one level too far out: the function gets the address of the reference instead of the address of the object (`FixIntrinsicArgs` takes the address of the `*` that `ReferenceConversions` has just added, and the two cancel). Here `x` is variable 0, `r` (1) refers to it, `rr` (2) to `r`; the types ask for the address 0, and the call gets 1. False of the code (C106_untaken_violated): a value given to a reference parameter is computed into a temporary in front of the whole statement. In `c ? f( g( 3 ) ) : 7` with `f` taking an `int &`, `g` is called although `c` is 0. False of the code (C106_conditional_violated): in `(int *)( c ? &r : &s )` with `r` and `s` of type `int &`, the branches have already been turned into pointers when the conversion of the whole to `int *` follows one more address: the result is the content of the object, not its address. False of the code (C106_address_of_value_violated): `&*p` given to a function with an `int * &` parameter is handed on as the variable `p` itself, without a warning or a temporary: the function can change `p` (variable 0). False of the code (C106_double_address_violated): `&&r`, `r` of type `int &`, is a value of type `int **`; given to a function with an `int ** &` parameter it becomes `(int ***)&(&r)`, which is not C. False of the code (C106_two_levels_violated): an `int` variable where an `int &&` is wanted becomes `&(&x)`, which is not C (the compiler itself ends with an error about it when it makes the second `&`, Expr.cpp 169). False of the code (C106_returned_reference_violated): the result of a function returning `int &` where an `int &&` is wanted ends the compiler: one temporary too many is made, and `assert( 1 == diff )` does not hold. False of the code (C106_address_of_cast_violated): `&(long &)x` with `x` of type `int` has a value by its types, the address of `x`, and becomes `*(long **)&(&x)`, which is not C."
  },
  {
   "property": "C107",
   "status": "partial",
   "theorems": [
    "Verif.Config.C107_read",
    "Verif.Config.C107_table",
    "Verif.Config.C107_accepted_partial",
    "Verif.Config.C107_refused_partial",
    "Verif.Config.C107_validated",
    "Verif.Config.C107_repeated_key_violated",
    "Verif.Config.C107_missing_hidden_violated",
    "Verif.Config.C107_which_value_violated",
    "Verif.Config.C107_two_entries_violated",
    "Verif.Config.C107_refused_value_violated",
    "Verif.Config.C107_ruled_line_violated",
    "Verif.Config.C107_no_value_violated",
    "Verif.Config.C107_key_at_end_violated",
    "Verif.Config.C107_string_block_violated",
    "Verif.Config.C107_string_variable_violated"
   ],
   "note": "C107_accepted_partial: Missing for the full property: a key that is in the file twice (`C107_repeated_key_violated`), and two entries with one key (`C107_two_entries_violated`). C107_refused_partial: Missing for the full property: as for `C107_accepted_partial`; and the variable of the value that is refused is changed (`C107_refused_value_violated`). False of the code (C107_repeated_key_violated): a key that is in the file twice is counted twice, and an entry whose key comes after it in the file is not looked at: the function returns normally, and the variable of that entry, which is in the file, has not been set. False of the code (C107_missing_hidden_violated): an entry that is missing is not reported if another one is in the file twice. False of the code (C107_which_value_violated): which of two values for one key counts depends on the other entries: with one entry it is the first, with two it is the second. False of the code (C107_two_entries_violated): of two entries with one key, the second is never set, and counts as missing. False of the code (C107_refused_value_violated): a value that is refused by the validation is in the variable nevertheless. False of the code (C107_ruled_line_violated): a comment whose first word has more than 63 characters, as a ruled line has, is not skipped: reading the file raises `cstring_length`, whatever follows. False of the code (C107_no_value_violated): a line with a key and no value takes its value from the line after it, which is then lost. False of the code (C107_key_at_end_violated): a key without a value at the end of the file is dropped, and not reported. False of the code (C107_string_block_violated): the block for each key and each value of the file is one byte shorter than what is written to it. False of the code (C107_string_variable_violated): a variable of type `const char *` that is set from the file is left pointing to a block that is freed when the function returns."
  },
  {
   "property": "C108",
   "status": "partial",
   "theorems": [
    "Verif.Args.C108_int_partial",
    "Verif.Args.C108_unsigned",
    "Verif.Args.C108_bool",
    "Verif.Args.C108_args_partial",
    "Verif.Args.C108_help",
    "Verif.Args.C108_unknown",
    "Verif.Args.C108_duplicates",
    "Verif.Args.C108_help_text",
    "Verif.Args.C108_empty_number_violated",
    "Verif.Args.C108_equals_violated",
    "Verif.Args.C108_letter_h_violated",
    "Verif.Args.C108_short_only_violated",
    "Verif.Args.C108_empty_names_violated",
    "Verif.Args.C108_no_columns_violated"
   ],
   "note": "C108_int_partial: Missing for the full property: the empty argument, which is accepted (`C108_empty_number_violated`). C108_args_partial: Missing for the full property: options without long name, or with the letter `h` or `?` (`C108_short_only_violated`, `C108_letter_h_violated`), and arguments that start with `=` (`C108_equals_violated`). False of the code (C108_empty_number_violated): the empty argument, as in `--count=`, is accepted for an `int`, as 0. False of the code (C108_equals_violated): an argument that starts with `=` loses it: `--out==x`, and `--out =x`, set the variable to `x`, as `--out=x` does. False of the code (C108_letter_h_violated): an option with the letter `h` is accepted, and its use prints the usage and ends the program: so does its use by the long name. False of the code (C108_short_only_violated): an option that has a short name only (a null long name, which `parse_args` and the usage allow for) is not found when it is used: the program is aborted. False of the code (C108_empty_names_violated): with the empty name for no long name, two options that have a short name only are refused as having the same long name. False of the code (C108_no_columns_violated): on a terminal that reports 0 columns, the help text of an option never ends."
  },
  {
   "property": "C109",
   "status": "partial",
   "theorems": [
    "Verif.Preempt.C109_section_partial",
    "Verif.Preempt.C109_deferred",
    "Verif.Preempt.C109_prompt",
    "Verif.Preempt.C109_poll",
    "Verif.Preempt.C109_returns",
    "Verif.Preempt.C109_window_violated",
    "Verif.Preempt.C109_unpolled_violated",
    "Verif.Preempt.C109_depth_violated",
    "Verif.Preempt.C109_timer",
    "Verif.Preempt.C109_tick",
    "Verif.Preempt.C109_first_tick_violated"
   ],
   "note": "C109_section_partial: Missing: more than 65535 sections in each other, for which it fails. False of the code (C109_window_violated): a signal that arrives when `enable_interrupts` has looked for one, and before it has returned, is noted, and nothing acts on the note: the user code goes on, out of all sections, with the signal pending. False of the code (C109_unpolled_violated): a signal that arrives in a section stays pending after the section when `enable_interrupts` is told not to poll. False of the code (C109_depth_violated): the depth of the sections is counted modulo 65536, so the end of the innermost of 65537 sections enables preemption, and the processor is given away in the others. False of the code (C109_first_tick_violated): the alarm of a processor has its first deadline when it is made, not one preemption rate later, so the first preemption comes after one microsecond whatever the rate."
  },
  {
   "property": "C110",
   "status": "partial",
   "theorems": [
    "Verif.Enum.C110_attributes_partial",
    "Verif.Enum.C110_steps",
    "Verif.Enum.C110_loop",
    "Verif.Enum.C110_inline_value_partial",
    "Verif.Enum.C110_convert_partial",
    "Verif.Enum.C110_own_first_violated",
    "Verif.Enum.C110_nested_violated",
    "Verif.Enum.C110_inline_value_violated",
    "Verif.Enum.C110_opaque_inline_violated",
    "Verif.Enum.C110_plus_violated"
   ],
   "note": "C110_attributes_partial: Missing: opaque enumerations with a typed one inline, for which it fails. C110_inline_value_partial: Missing: the other places, for which it fails. C110_convert_partial: Missing: the other places, for which it fails. False of the code (C110_own_first_violated): enumerators that come before an inline enumeration are not counted in the conversion to it. False of the code (C110_nested_violated): in a conversion over two levels whose upper level has the middle one first, the place in the middle one is not counted. False of the code (C110_inline_value_violated): an inline enumerator without a value takes the value after whatever comes before it, not the one of its own enumeration. False of the code (C110_opaque_inline_violated): an opaque enumeration with a typed one inline takes its values for positions; its first enumerator has position 10 and no label, and a loop over it does not visit the enumerators. False of the code (C110_plus_violated): `+=` does not abort at the end of an enumeration, unlike `succ`; the result is no enumerator."
  },
  {
   "property": "C111",
   "status": "partial",
   "theorems": [
    "Verif.StrStream.C111_output",
    "Verif.StrStream.C111_bounds",
    "Verif.StrStream.C111_terminated",
    "Verif.StrStream.C111_cleared_violated",
    "Verif.StrStream.C111_words_partial",
    "Verif.StrStream.C111_two_spaces_violated",
    "Verif.StrStream.C111_leading_space_violated",
    "Verif.StrStream.C111_newline_violated",
    "Verif.StrStream.C111_char_violated",
    "Verif.StrStream.C111_end_violated"
   ],
   "note": "False of the code (C111_cleared_violated): after `clear` or `write` the buffer still has the text as a C string, although the stream is empty. C111_words_partial: Missing: other white space, for which it fails, and single characters. False of the code (C111_two_spaces_violated): two spaces between words, and a word is read twice. False of the code (C111_leading_space_violated): a space before the first word, and it is read twice. False of the code (C111_newline_violated): a newline between words, and the word after it is not read. False of the code (C111_char_violated): reading a character takes all the characters up to the next space or tab, for every word of more than one character. False of the code (C111_end_violated): at the end of the buffer, and after white space only, a read aborts the program; no exception says that the input has ended."
  },
  {
   "property": "C112",
   "status": "partial",
   "theorems": [
    "Verif.StrInput.C112_bounds",
    "Verif.StrInput.C112_word",
    "Verif.StrInput.C112_line",
    "Verif.StrInput.C112_lines",
    "Verif.StrInput.C112_set_partial",
    "Verif.StrInput.C112_quote",
    "Verif.StrInput.C112_end",
    "Verif.StrInput.C112_ignore_end",
    "Verif.StrInput.C112_getline_width_violated",
    "Verif.StrInput.C112_range_violated",
    "Verif.StrInput.C112_quote_end_violated",
    "Verif.StrInput.C112_quote_char_violated",
    "Verif.StrInput.C112_enum",
    "Verif.StrInput.C112_enum_sound",
    "Verif.StrInput.C112_enums",
    "Verif.StrInput.C112_enum_newline_violated",
    "Verif.StrInput.C112_enum_prefix_violated",
    "Verif.StrInput.C112_int128_partial",
    "Verif.StrInput.C112_int128_overflow_violated",
    "Verif.StrInput.C112_int128_sign_violated"
   ],
   "note": "C112_set_partial: Missing: scan sets with ranges, for which it fails. False of the code (C112_getline_width_violated): `getline` with a read width loses the character after the ones that are read. False of the code (C112_range_violated): a scan set with a range. `incl` cuts a text that does not fit without an exception, and `excl` raises one for a text that fits. False of the code (C112_quote_end_violated): reading a quoted string when only white space is left raises no exception and leaves what was read before. False of the code (C112_quote_char_violated): reading a quoted character removes what follows it, also if it is not the delimiter. False of the code (C112_enum_newline_violated): after an enumerator the end of the line is lost for some labels and not for others, so that `nl` after it skips the next line, or does not. False of the code (C112_enum_prefix_violated): a label in the input is not found if a longer one goes on as the input does for a while. False of the code (C112_int128_overflow_violated): any number of minus signs is stored in an array of 40 characters. False of the code (C112_int128_sign_violated): without a number no exception is raised and the variable stays; two signs are one."
  },
  {
   "property": "C113",
   "status": "partial",
   "theorems": [
    "Verif.Cofor.C113_COFOR_partial",
    "Verif.Cofor.C113_balance",
    "Verif.Cofor.C113_overflow_violated",
    "Verif.Cofor.C113_cofor",
    "Verif.Cofor.C113_once",
    "Verif.Cofor.C113_ends"
   ],
   "note": "False of the code (C113_overflow_violated): bounds whose difference is not a `ssize_t`, and the body is never called."
  },
  {
   "property": "C114",
   "status": "partial",
   "theorems": [
    "Verif.OldLocks.C114_exclusion",
    "Verif.OldLocks.C114_fifo",
    "Verif.OldLocks.C114_free",
    "Verif.OldLocks.C114_handoff",
    "Verif.OldLocks.C114_returns",
    "Verif.OldLocks.C114_wait",
    "Verif.OldLocks.C114_wait_only",
    "Verif.OldLocks.C114_waiters",
    "Verif.OldLocks.C114_notify_one",
    "Verif.OldLocks.C114_notify_all",
    "Verif.OldLocks.C114_recursive_exclusion",
    "Verif.OldLocks.C114_recursive_fifo",
    "Verif.OldLocks.C114_recursive_lock",
    "Verif.OldLocks.C114_recursive_unlock",
    "Verif.OldLocks.C114_recursive_handoff",
    "Verif.OldLocks.C114_recursive_wait_violated"
   ],
   "note": "False of the code (C114_recursive_wait_violated): `wait` with a recursive mutex that the thread has locked more than once does not give it up. The thread sleeps with the lock, and whatever the other threads do, none of them ever gets it."
  },
  {
   "property": "C115",
   "status": "partial",
   "theorems": [
    "Verif.InitLength.C115_string_partial",
    "Verif.InitLength.C115_array_partial",
    "Verif.InitLength.C115_units",
    "Verif.InitLength.C115_encodings",
    "Verif.InitLength.C115_encoding_violated",
    "Verif.InitLength.C115_universal_violated",
    "Verif.InitLength.C115_list_partial",
    "Verif.InitLength.C115_designator_violated",
    "Verif.InitLength.C115_flat_violated"
   ],
   "note": "False of the code (C115_encoding_violated): a string with an encoding `L`, `U` or `u` has length 1, and one with `u8` length 2, whatever its characters are. False of the code (C115_universal_violated): a universal character name counts as one character, although the string has one for each byte of its encoding. False of the code (C115_designator_violated): with designators the length is the number of items, and an item can be put beyond the array; two items at one index give an element too many. False of the code (C115_flat_violated): an array of arrays with a list of scalars has as many elements as there are scalars."
  },
  {
   "property": "C116",
   "status": "partial",
   "theorems": [
    "Verif.ConstVal.C116_char_partial",
    "Verif.ConstVal.C116_escape_violated",
    "Verif.ConstVal.C116_dimension_violated",
    "Verif.ConstVal.C116_enum_sound",
    "Verif.ConstVal.C116_enum_known",
    "Verif.ConstVal.C116_enum_ends_partial",
    "Verif.ConstVal.C116_enum_recursion_violated"
   ],
   "note": "False of the code (C116_escape_violated): every escape sequence is taken to have the value of the backslash, 92, whatever its value is in C. False of the code (C116_dimension_violated): arrays whose dimensions are escape sequences are taken to have the same type. False of the code (C116_enum_recursion_violated): if the value of the first enumerator is not known (as with `sizeof`) and the second is written with an enumerator, the compiler calls itself without end, at every depth."
  },
  {
   "property": "C117",
   "status": "partial",
   "theorems": [
    "Verif.CpuList.C117_visit_partial",
    "Verif.CpuList.C117_empty_violated",
    "Verif.CpuList.C117_width_partial",
    "Verif.CpuList.C117_file_partial",
    "Verif.CpuList.C117_long_violated",
    "Verif.CpuList.C117_table",
    "Verif.CpuList.C117_gap_violated"
   ],
   "note": "False of the code (C117_empty_violated): over the empty list, or after a comma at the end, the program is ended. False of the code (C117_long_violated): of a longer line only 127 characters are kept. With the 50 even processors below 100, 45 are counted, and the iteration over them ends the program at the comma where the line is cut; with 60 even numbers from 1000 on, the last of those that are counted is a part of a number. False of the code (C117_gap_violated): if a processor below another one is off-line, the start of the run-time writes an entry behind the end of its table."
  },
  {
   "property": "C118",
   "status": "partial",
   "theorems": [
    "Verif.CpuMap.C118_places",
    "Verif.CpuMap.C118_caches",
    "Verif.CpuMap.C118_groups",
    "Verif.CpuMap.C118_cut_partial",
    "Verif.CpuMap.C118_width_violated"
   ],
   "note": "False of the code (C118_width_violated): of a list of more than 31 characters the rest is dropped, and the width of the cache is that of what is kept. With 36 processors of which the even ones share a cache, and the odd ones another, each cache has 18 of them but the count is 13, and the places of the two groups overlap."
  }
 ]
}