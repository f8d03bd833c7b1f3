{
"Verif.Rational.C01_constructors": [
"propext",
"Classical.choice",
"Quot.sound"
],
"Verif.Rational.C01_canonical_unique": [
"propext",
"Classical.choice",
"Quot.sound"
],
"Verif.Rational.C02_arithmetic": [
"propext",
"Classical.choice",
"Quot.sound"
],
"Verif.Rational.C02_division": [
"propext",
"Classical.choice",
"Quot.sound"
],
"Verif.Rational.C02_assigning": [
"propext"
],
"Verif.Rational.C02_increment": [
"propext",
"Classical.choice",
"Quot.sound"
],
"Verif.Rational.C03_comparisons": [
"propext",
"Classical.choice",
"Quot.sound"
],
"Verif.Rational.C03_equality_is_identity": [
"propext",
"Classical.choice",
"Quot.sound"
],
"Verif.Rational.C03_strict_total_order": [
"propext",
"Classical.choice",
"Quot.sound"
],
"Verif.Rational.C04_power": [
"propext",
"Classical.choice",
"Quot.sound"
],
"Verif.Rational.C05_setters_violated": [
"propext",
"Classical.choice",
"Quot.sound"
],
"Verif.Rational.C05_setters_partial": [
"propext",
"Quot.sound"
],
"Verif.Bitmanip.C06_is_pow2": [
"propext",
"Classical.choice",
"Quot.sound"
],
"Verif.Bitmanip.C06_floor2_unsigned": [
"propext",
"Classical.choice",
"Quot.sound"
],
"Verif.Bitmanip.C06_ceiling2_unsigned": [
"propext",
"Classical.choice",
"Quot.sound"
],
"Verif.Bitmanip.C06_floor2_signed": [
"propext",
"Classical.choice",
"Quot.sound"
],
"Verif.Bitmanip.C06_ceiling2_signed": [
"propext",
"Classical.choice",
"Quot.sound"
],
"Verif.Bitmanip.C06_lib_agrees": [
"propext",
"Quot.sound"
],
"Verif.Bitmanip.C07_leading0s": [
"propext",
"Quot.sound"
],
"Verif.Bitmanip.C07_trailing0s": [
"propext",
"Quot.sound"
],
"Verif.Bitmanip.C07_counts": [
"propext",
"Classical.choice",
"Quot.sound"
],
"Verif.Bitmanip.C07_low": [
"propext",
"Classical.choice",
"Quot.sound"
],
"Verif.Bitmanip.C07_high": [
"propext",
"Classical.choice",
"Quot.sound"
],
"Verif.Bitmanip.C07_high1_bracket": [
"propext",
"Quot.sound"
],
"Verif.Time.C08_unit_make_get": [
"propext",
"Classical.choice",
"Quot.sound"
],
"Verif.Time.C08_unit_get_make": [
"propext",
"Classical.choice",
"Quot.sound"
],
"Verif.Time.C08_exact_arithmetic": [
"propext",
"Quot.sound"
],
"Verif.Time.C08_division": [
"propext",
"Classical.choice",
"Quot.sound"
],
"Verif.Time.C08_time_difference": [
"propext",
"Classical.choice",
"Quot.sound"
],
"Verif.Time.C08_time_shift": [
"propext",
"Quot.sound"
],
"Verif.Time.C08_comparisons": [
"propext",
"Classical.choice",
"Quot.sound"
],
"Verif.Time.C09_timespec_roundtrip": [
"propext",
"Classical.choice",
"Quot.sound"
],
"Verif.Time.C09_timeval_roundtrip": [
"propext",
"Classical.choice",
"Quot.sound"
],
"Verif.Time.C09_from_structs": [
"propext",
"Classical.choice",
"Quot.sound"
],
"Verif.Time.C09_struct_arithmetic_violated": [
"propext",
"Classical.choice",
"Quot.sound"
],
"Verif.Time.C09_struct_arithmetic_partial": [
"propext",
"Quot.sound"
],
"Verif.Time.C10_itimerval_alarm": [
"propext",
"Classical.choice",
"Quot.sound"
],
"Verif.Time.C10_itimerval_interval_violated": [
"propext",
"Classical.choice",
"Quot.sound"
],
"Verif.Time.C10_itimerval_interval_partial": [
"propext",
"Classical.choice",
"Quot.sound"
],
"Verif.Time.C11_duration_printing_violated": [
"propext",
"Quot.sound"
],
"Verif.Time.C11_duration_printing_partial": [
"propext",
"Classical.choice",
"Quot.sound"
],
"Verif.Random.C12_xoshiro256pp": [
"propext",
"Quot.sound"
],
"Verif.Random.C12_xoshiro128pp_partial": [
"propext",
"Quot.sound"
],
"Verif.Random.C12_splitmix64": [
"propext",
"Quot.sound"
],
"Verif.Random.C12_xorshift64_partial": [
"propext",
"Quot.sound"
],
"Verif.Random.C12_xorshift32_partial": [
"propext",
"Quot.sound"
],
"Verif.Random.C12_seed_violated": [
"propext",
"Quot.sound"
],
"Verif.Random.C12_lehmer64_partial": [
"propext",
"Quot.sound"
],
"Verif.Random.C12_wyhash_kiss_xorwow": [
"propext",
"Quot.sound"
],
"Verif.Random.C12_wyhash_xorwow_injective": [
"propext",
"Quot.sound"
],
"Verif.Random.C13_reverse": [
"propext",
"Classical.choice",
"Quot.sound"
],
"Verif.Random.C14_below": [
"propext"
],
"Verif.Random.C14_between_partial": [
"propext",
"Classical.choice",
"Quot.sound"
],
"Verif.Random.C14_full_range_violated": [
"propext"
],
"Verif.Random.C14_random_long_partial": [
"propext",
"Classical.choice",
"Quot.sound"
],
"Verif.Random.C14_random_upto": [
"propext",
"Classical.choice",
"Quot.sound"
],
"Verif.Random.C14_random_unsigned_partial": [
"propext",
"Classical.choice",
"Quot.sound"
],
"Verif.Random.C14_random_char_violated": [
"propext"
],
"Verif.Random.C14_random_coverage_violated": [
"propext",
"Quot.sound"
],
"Verif.Sort.C15_sort": [
"propext",
"Quot.sound"
],
"Verif.Sort.C15_same_order": [
"propext",
"Quot.sound"
],
"Verif.Sort.C16_bsearchl": [
"propext",
"Quot.sound"
],
"Verif.Sort.C16_bsearchu": [
"propext",
"Quot.sound"
],
"Verif.Sort.C16_by_key": [
"propext",
"Quot.sound"
],
"Verif.Queue.C17_queue_is_list": [
"propext",
"Classical.choice",
"Quot.sound"
],
"Verif.Queue.C17_membership": [
"propext",
"Classical.choice",
"Quot.sound"
],
"Verif.Queue.C17_debug_checks": [
"propext",
"Classical.choice",
"Quot.sound"
],
"Verif.Stack.C18_stack_is_list": [
"propext",
"Quot.sound"
],
"Verif.Stack.C18_debug_check": [
"propext",
"Quot.sound"
],
"Verif.Sequence.C19_sequence_is_list": [
"propext",
"Quot.sound"
],
"Verif.Sequence.C19_membership": [
"propext",
"Classical.choice",
"Quot.sound"
],
"Verif.Sequence.C19_debug_checks": [
"propext",
"Quot.sound"
],
"Verif.Collections.C20_queue_is_list": [
"propext",
"Quot.sound"
],
"Verif.Dlist.C21_dlist_is_list": [
"propext",
"Classical.choice",
"Quot.sound"
],
"Verif.Dlist.C21_membership": [
"propext",
"Classical.choice",
"Quot.sound"
],
"Verif.Dlist.C21_double_insert_aborts": [
"propext",
"Classical.choice",
"Quot.sound"
],
"Verif.Dlist.C22_traversal_partial": [
"propext",
"Classical.choice",
"Quot.sound"
],
"Verif.Dlist.C22_first_last_violated": [
"propext",
"Classical.choice",
"Quot.sound"
],
"Verif.Lane.C23_lane_is_fifo": [
"propext",
"Classical.choice",
"Quot.sound"
],
"Verif.Lane.C23_pop_empty_checked": [
"propext",
"Classical.choice",
"Quot.sound"
],
"Verif.Alarm.C24_alarm_list": [
"propext",
"Classical.choice",
"Quot.sound"
],
"Verif.Alarm.C24_order_exists": [
"propext",
"Classical.choice",
"Quot.sound"
],
"Verif.Vector.C25_vector_is_list": [
"propext",
"Classical.choice",
"Quot.sound"
],
"Verif.Vector.C25_out_of_range_undefined": [
"propext",
"Classical.choice",
"Quot.sound"
],
"Verif.Vector.C26_clear_partial": [
"propext",
"Classical.choice",
"Quot.sound"
],
"Verif.Vector.C26_clear_violated": [
"propext",
"Classical.choice",
"Quot.sound"
],
"Verif.Vector.C26_copy_violated": [
"propext",
"Classical.choice",
"Quot.sound"
],
"Verif.Vector2.C27_vector_is_list_partial": [
"propext",
"Classical.choice",
"Quot.sound"
],
"Verif.Vector2.C27_exit_blocks_growth": [
"propext",
"Classical.choice",
"Quot.sound"
],
"Verif.Vector2.C27_index_violated": [
"propext",
"Classical.choice",
"Quot.sound"
],
"Verif.Vector2.C27_full_traversal_violated": [
"propext",
"Classical.choice",
"Quot.sound"
],
"Verif.Vector2.C27_insert_empty_violated": [
"propext",
"Quot.sound"
],
"Verif.Vector2.C27_capacity_zero_violated": [
"propext",
"Quot.sound"
],
"Verif.Vector2.C27_permit_violated": [
"propext",
"Quot.sound"
],
"Verif.Vector2.C27_negative_violated": [
"propext",
"Classical.choice",
"Quot.sound"
],
"Verif.Arr.C28_subscripts_designate_cell": [
"propext",
"Classical.choice",
"Quot.sound"
],
"Verif.Arr.C28_plain_subscripts": [
"propext",
"Quot.sound"
],
"Verif.Arr.C28_cells_disjoint": [
"propext",
"Quot.sound"
],
"Verif.Arr.C28_every_cell_reached": [
"propext",
"Classical.choice",
"Quot.sound"
],
"Verif.Arr.C28_out_of_range_reported": [
"propext",
"Classical.choice",
"Quot.sound"
],
"Verif.Arr.C28_constructs_each_cell": [
"propext",
"Quot.sound"
],
"Verif.Arr.C28_destroys_each_cell": [
"propext",
"Quot.sound"
],
"Verif.Maybe.C29_maybe_is_option": [
"propext",
"Quot.sound"
],
"Verif.Maybe.C29_maybe_destroyed_once_partial": [
"propext",
"Quot.sound"
],
"Verif.Maybe.C29_maybe_default_violated": [
"propext",
"Quot.sound"
],
"Verif.Maybe.C29_result_is_sum": [
"propext"
],
"Verif.Maybe.C29_result_default": [],
"Verif.Maybe.C29_result_assignment_value_violated": [
"propext"
],
"Verif.StrHeap.C30_assignment_stale_violated": [
"propext"
],
"Verif.StrHeap.C30_strings_are_sequences_partial": [
"propext",
"Classical.choice",
"Quot.sound"
],
"Verif.StrHeap.C30_values_partial": [
"propext",
"Classical.choice",
"Quot.sound"
],
"Verif.StrHeap.C30_compare": [
"propext",
"Classical.choice",
"Quot.sound"
],
"Verif.StrSearch.C30_slice": [
"propext",
"Quot.sound"
],
"Verif.StrSearch.C30_slice_from_partial": [
"propext",
"Quot.sound"
],
"Verif.StrSearch.C30_slice_from_violated": [
"propext",
"Quot.sound"
],
"Verif.StrSearch.C30_repeat": [
"propext",
"Quot.sound"
],
"Verif.StrSearch.C30_strncmp": [
"propext",
"Quot.sound"
],
"Verif.StrSearch.C31_find_from": [
"propext",
"Classical.choice",
"Quot.sound"
],
"Verif.StrSearch.C31_find": [
"propext",
"Classical.choice",
"Quot.sound"
],
"Verif.StrSearch.C31_empty_key_from_violated": [
"propext",
"Quot.sound"
],
"Verif.StrSearch.C31_find_char": [
"propext",
"Classical.choice",
"Quot.sound"
],
"Verif.StrSearch.C31_find_char_past_end_violated": [
"propext"
],
"Verif.StrSearch.C31_includes_partial": [
"propext",
"Classical.choice",
"Quot.sound"
],
"Verif.StrSearch.C31_includes_empty_violated": [
"propext"
],
"Verif.StrSearch.C31_starts_with": [
"propext",
"Classical.choice",
"Quot.sound"
],
"Verif.StrSearch.C31_ends_with": [
"propext",
"Classical.choice",
"Quot.sound"
],
"Verif.StrSearch.C31_tests_agree": [
"propext",
"Classical.choice",
"Quot.sound"
],
"Verif.StrSearch.C31_include_exclude": [
"propext",
"Classical.choice",
"Quot.sound"
],
"Verif.StrSearch.C31_translate": [
"propext",
"Classical.choice",
"Quot.sound"
],
"Verif.StrSearch.C31_find_range_violated": [
"propext"
],
"Verif.StrSearch.C31_replace_partial": [
"propext",
"Classical.choice",
"Quot.sound"
],
"Verif.StrSearch.C31_replace_empty_violated": [
"propext",
"Quot.sound"
],
"Verif.StrHeap.C32_collection_preserves_partial": [
"propext",
"Classical.choice",
"Quot.sound"
],
"Verif.StrHeap.C32_whole_strings_survive_partial": [
"propext",
"Classical.choice",
"Quot.sound"
],
"Verif.StrHeap.C32_append_violated": [
"propext"
],
"Verif.StrHeap.C32_concatenation_violated": [
"propext"
],
"Verif.StrHeap.C32_parts_violated": [
"propext"
],
"Verif.StrHeap.C32_empty_string_violated": [
"propext"
],
"Verif.StrHeap.C33_edit": [
"propext",
"Classical.choice",
"Quot.sound"
],
"Verif.StrHeap.C33_append_shared_violated": [
"propext"
],
"Verif.Semaphore.C34_permits_partial": [
"propext",
"Classical.choice",
"Quot.sound"
],
"Verif.Semaphore.C34_P_blocks_only_without_permit_partial": [
"propext",
"Classical.choice",
"Quot.sound"
],
"Verif.Semaphore.C34_V_releases_first_partial": [
"propext",
"Classical.choice",
"Quot.sound"
],
"Verif.Semaphore.C34_Vn_releases_all_partial": [
"propext",
"Classical.choice",
"Quot.sound"
],
"Verif.Semaphore.C34_Vn_too_many_violated": [
"propext",
"Classical.choice",
"Quot.sound"
],
"Verif.Semaphore.C34_Vn_positive_count_violated": [
"propext",
"Quot.sound"
],
"Verif.Semaphore.C34_negative_initial_count_violated": [
"propext"
],
"Verif.Semaphore.C34_opposite_orders_deadlock_violated": [
"propext"
],
"Verif.Semaphore.C34_front_empty_violated": [
"propext",
"Quot.sound"
],
"Verif.OwnerLock.C35_exclusion": [
"propext",
"Classical.choice",
"Quot.sound"
],
"Verif.OwnerLock.C35_fifo": [
"propext",
"Classical.choice",
"Quot.sound"
],
"Verif.OwnerLock.C35_no_waiter_forgotten": [
"propext",
"Classical.choice",
"Quot.sound"
],
"Verif.OwnerLock.C35_unlock_recursive": [
"propext",
"Classical.choice",
"Quot.sound"
],
"Verif.OwnerLock.C35_unlock_hands_over": [
"propext",
"Classical.choice",
"Quot.sound"
],
"Verif.OwnerLock.C35_lock": [
"propext",
"Classical.choice",
"Quot.sound"
],
"Verif.OwnerLock.C35_try_lock": [
"propext",
"Classical.choice",
"Quot.sound"
],
"Verif.OwnerLock.C35_relock_violated": [
"propext",
"Classical.choice",
"Quot.sound"
],
"Verif.OwnerLock.C35_relock_no_exclusion_violated": [
"propext",
"Quot.sound"
],
"Verif.Futex.C36_exclusion": [
"propext",
"Classical.choice",
"Quot.sound"
],
"Verif.Futex.C36_no_lost_wakeup": [
"propext",
"Classical.choice",
"Quot.sound"
],
"Verif.Futex.C36_no_deadlock": [
"propext",
"Classical.choice",
"Quot.sound"
],
"Verif.Futex.C36_wake": [
"propext",
"Classical.choice",
"Quot.sound"
],
"Verif.Futex.C37_exclusion": [
"propext",
"Classical.choice",
"Quot.sound"
],
"Verif.Futex.C37_no_lost_wakeup": [
"propext",
"Classical.choice",
"Quot.sound"
],
"Verif.Futex.C37_taker_marks": [
"propext"
],
"Verif.Futex.C37_no_deadlock": [
"propext",
"Classical.choice",
"Quot.sound"
],
"Verif.Mcs.C38_exclusion_partial": [
"propext",
"Classical.choice",
"Quot.sound"
],
"Verif.Mcs.C38_fifo_partial": [
"propext",
"Classical.choice",
"Quot.sound"
],
"Verif.Mcs.C38_tickets": [
"propext"
],
"Verif.Mcs.C38_progress_partial": [
"propext",
"Classical.choice",
"Quot.sound"
],
"Verif.Mcs.C38_spin_node_reuse_violated": [
"propext",
"Quot.sound"
],
"Verif.HybridLock.C39_exclusion": [
"propext",
"Classical.choice",
"Quot.sound"
],
"Verif.HybridLock.C39_no_lost_wakeup": [
"propext",
"Classical.choice",
"Quot.sound"
],
"Verif.HybridLock.C39_wakes_first": [
"propext",
"Classical.choice",
"Quot.sound"
],
"Verif.HybridLock.C39_no_deadlock": [
"propext",
"Classical.choice",
"Quot.sound"
],
"Verif.HybridLock.C39_flag_locks_exclusion": [
"propext",
"Classical.choice",
"Quot.sound"
],
"Verif.HybridLock.C39_flag_locks_progress": [
"propext",
"Classical.choice",
"Quot.sound"
],
"Verif.HybridLock.C40_fast_block_exclusion_partial": [
"propext",
"Classical.choice",
"Quot.sound"
],
"Verif.HybridLock.C40_fast_block_fifo_partial": [
"propext",
"Classical.choice",
"Quot.sound"
],
"Verif.HybridLock.C40_fast_block_hand_over_partial": [
"propext",
"Classical.choice",
"Quot.sound"
],
"Verif.HybridLock.C40_fast_block_notify_free_violated": [
"propext",
"Quot.sound"
],
"Verif.HybridLock.C40_fast_block_timeout_violated": [
"propext",
"Classical.choice",
"Quot.sound"
],
"Verif.OwnerLock.C40_recursion_count": [
"propext",
"Classical.choice",
"Quot.sound"
],
"Verif.OwnerLock.C41_returns_after_signal": [
"propext",
"Classical.choice",
"Quot.sound"
],
"Verif.OwnerLock.C41_unsignalled_iff_listed": [
"propext",
"Classical.choice",
"Quot.sound"
],
"Verif.OwnerLock.C41_signalled_gets_lock": [
"propext",
"Classical.choice",
"Quot.sound"
],
"Verif.OwnerLock.C41_notify_one": [
"propext",
"Classical.choice",
"Quot.sound"
],
"Verif.OwnerLock.C41_notify_all": [
"propext",
"Classical.choice",
"Quot.sound"
],
"Verif.OwnerLock.C41_wait_releases": [
"propext",
"Classical.choice",
"Quot.sound"
],
"Verif.OwnerLock.C41_nodes_initialised": [
"propext",
"Classical.choice",
"Quot.sound"
],
"Verif.OwnerLock.C41_notify_without_lock_violated": [
"propext",
"Quot.sound"
],
"Verif.PthreadTime.C42_now_partial": [
"propext",
"Classical.choice",
"Quot.sound"
],
"Verif.PthreadTime.C42_inverted_violated": [
"propext",
"Classical.choice",
"Quot.sound"
],
"Verif.Channel.C43_fifo": [
"propext",
"Classical.choice",
"Quot.sound"
],
"Verif.Channel.C43_delivered_once": [
"propext",
"Classical.choice",
"Quot.sound"
],
"Verif.Channel.C43_insert_enters": [
"propext",
"Classical.choice",
"Quot.sound"
],
"Verif.Channel.C43_remove_takes_oldest": [
"propext",
"Classical.choice",
"Quot.sound"
],
"Verif.Channel.C43_capacity": [
"propext",
"Classical.choice",
"Quot.sound"
],
"Verif.Channel.C43_blocks_only": [
"propext",
"Classical.choice",
"Quot.sound"
],
"Verif.Channel.C43_blocked_consumer": [
"propext",
"Classical.choice",
"Quot.sound"
],
"Verif.Channel.C44_close_releases": [
"propext",
"Classical.choice",
"Quot.sound"
],
"Verif.Channel.C44_none_blocked": [
"propext",
"Classical.choice",
"Quot.sound"
],
"Verif.Channel.C44_drain_partial": [
"propext",
"Classical.choice",
"Quot.sound"
],
"Verif.Channel.C44_insert_fails_partial": [
"propext",
"Classical.choice",
"Quot.sound"
],
"Verif.Channel.C44_insert_violated": [
"propext",
"Classical.choice",
"Quot.sound"
],
"Verif.Channel.C44_drain_violated": [
"propext"
],
"Verif.Future.C45_get_value_partial": [
"propext",
"Classical.choice",
"Quot.sound"
],
"Verif.Future.C45_get_ready_partial": [
"propext",
"Classical.choice",
"Quot.sound"
],
"Verif.Future.C45_no_wait_when_fulfilled_partial": [
"propext",
"Classical.choice",
"Quot.sound"
],
"Verif.Future.C45_fulfil": [
"propext",
"Classical.choice",
"Quot.sound"
],
"Verif.Future.C45_stable_partial": [
"propext",
"Classical.choice",
"Quot.sound"
],
"Verif.Future.C45_exclusion_partial": [
"propext",
"Classical.choice",
"Quot.sound"
],
"Verif.Future.C45_exception_violated": [
"propext"
],
"Verif.Future.C45_double_unlock_violated": [
"propext"
],
"Verif.Future.C45_try_get_violated": [
"propext"
],
"Verif.Select.C46_exactly_one": [
"propext",
"Classical.choice",
"Quot.sound"
],
"Verif.Select.C46_at_most_one": [
"propext",
"Classical.choice",
"Quot.sound"
],
"Verif.Select.C46_conserved": [
"propext",
"Classical.choice",
"Quot.sound"
],
"Verif.Select.C46_moves": [
"propext",
"Classical.choice",
"Quot.sound"
],
"Verif.Select.C46_woken": [
"propext",
"Classical.choice",
"Quot.sound"
],
"Verif.Select.C46_no_missed_wakeup": [
"propext",
"Classical.choice",
"Quot.sound"
],
"Verif.Select.C46_no_deadlock_partial": [
"propext",
"Classical.choice",
"Quot.sound"
],
"Verif.Select.C46_self_violated": [
"propext",
"Classical.choice",
"Quot.sound"
],
"Verif.Once.C47_at_most_once": [
"propext",
"Classical.choice",
"Quot.sound"
],
"Verif.Once.C47_returns_after_completion": [
"propext",
"Classical.choice",
"Quot.sound"
],
"Verif.Once.C47_all_woken": [
"propext",
"Classical.choice",
"Quot.sound"
],
"Verif.Once.C47_progress": [
"propext",
"Classical.choice",
"Quot.sound"
],
"Verif.Once.C47_debug_check_violated": [
"propext",
"Classical.choice",
"Quot.sound"
],
"Verif.Once.C47_link_left_violated": [
"propext"
],
"Verif.Barrier.C48_full_generation": [
"propext",
"Classical.choice",
"Quot.sound"
],
"Verif.Barrier.C48_generations": [
"propext",
"Classical.choice",
"Quot.sound"
],
"Verif.Barrier.C48_released": [
"propext",
"Classical.choice",
"Quot.sound"
],
"Verif.Barrier.C48_callback": [
"propext",
"Classical.choice",
"Quot.sound"
],
"Verif.StackLF.C49_represents": [
"propext",
"Classical.choice",
"Quot.sound"
],
"Verif.StackLF.C49_push": [
"propext",
"Quot.sound"
],
"Verif.StackLF.C49_pop": [
"propext",
"Classical.choice",
"Quot.sound"
],
"Verif.StackLF.C49_pop_empty": [
"propext",
"Classical.choice",
"Quot.sound"
],
"Verif.StackLF.C49_wasEmpty_meaning": [
"propext",
"Classical.choice",
"Quot.sound"
],
"Verif.StackLF.C49_other_steps": [
"propext",
"Quot.sound"
],
"Verif.StackLF.C49_unsafe_remove_violated": [
"propext",
"Quot.sound"
],
"Verif.Park.C50_no_abort": [
"propext",
"Classical.choice",
"Quot.sound"
],
"Verif.Park.C50_one_place": [
"propext",
"Classical.choice",
"Quot.sound"
],
"Verif.Park.C50_not_lost": [
"propext",
"Classical.choice",
"Quot.sound"
],
"Verif.Park.C50_racy_case": [
"propext",
"Classical.choice",
"Quot.sound"
],
"Verif.Park.C50_park_needs_unpark": [
"propext",
"Classical.choice",
"Quot.sound"
],
"Verif.Park.C50_two_ahead_abort": [
"propext",
"Quot.sound"
],
"Verif.SingleSem.C51_sem_wait_needs_post": [
"propext",
"Classical.choice",
"Quot.sound"
],
"Verif.SingleSem.C51_sem_not_lost": [
"propext",
"Classical.choice",
"Quot.sound"
],
"Verif.SingleSem.C51_sem_post_wakes": [
"propext",
"Classical.choice",
"Quot.sound"
],
"Verif.SingleSem.C51_sem_post_result": [
"propext",
"Classical.choice",
"Quot.sound"
],
"Verif.SingleSem.C51_oneshot_wait_needs_post": [
"propext",
"Classical.choice",
"Quot.sound"
],
"Verif.SingleSem.C51_oneshot_not_lost": [
"propext",
"Classical.choice",
"Quot.sound"
],
"Verif.SingleSem.C51_oneshot_no_block": [
"propext",
"Classical.choice",
"Quot.sound"
],
"Verif.SingleSem.C51_oneshot_post_result": [
"propext",
"Classical.choice",
"Quot.sound"
],
"Verif.KFuture.C52_returns_partial": [
"propext",
"Classical.choice",
"Quot.sound"
],
"Verif.KFuture.C52_no_dangling_partial": [
"propext",
"Classical.choice",
"Quot.sound"
],
"Verif.KFuture.C52_wake_once_partial": [
"propext",
"Classical.choice",
"Quot.sound"
],
"Verif.KFuture.C52_not_lost_partial": [
"propext",
"Classical.choice",
"Quot.sound"
],
"Verif.KFuture.C52_freed_once_partial": [
"propext",
"Classical.choice",
"Quot.sound"
],
"Verif.KFuture.C52_early_return_violated": [
"propext",
"Quot.sound"
],
"Verif.KFuture.C52_lost_violated": [
"propext",
"Classical.choice",
"Quot.sound"
],
"Verif.KFuture.C52_abandon_violated": [
"propext",
"Quot.sound"
],
"Verif.KFuture.C52_zero_futures_violated": [
"propext",
"Quot.sound"
],
"Verif.Monitor.C53_mutual_exclusion": [
"propext",
"Classical.choice",
"Quot.sound"
],
"Verif.Monitor.C53_nesting": [
"propext",
"Classical.choice",
"Quot.sound"
],
"Verif.Monitor.C53_wait_releases": [
"propext",
"Classical.choice",
"Quot.sound"
],
"Verif.Monitor.C53_leave_nested": [
"propext",
"Classical.choice",
"Quot.sound"
],
"Verif.Monitor.C53_leave": [
"propext",
"Classical.choice",
"Quot.sound"
],
"Verif.Monitor.C53_signal": [
"propext",
"Classical.choice",
"Quot.sound"
],
"Verif.Monitor.C53_wait_order": [
"propext",
"Quot.sound"
],
"Verif.Monitor.C53_free": [
"propext",
"Classical.choice",
"Quot.sound"
],
"Verif.Monitor.C53_entry_wakeup": [
"propext",
"Classical.choice",
"Quot.sound"
],
"Verif.Monitor.C53_waiting_wakeup": [
"propext",
"Classical.choice",
"Quot.sound"
],
"Verif.Monitor.C53_no_spurious_wakeup": [
"propext",
"Classical.choice",
"Quot.sound"
],
"Verif.Monitor.C54_order": [
"propext",
"Classical.choice",
"Quot.sound"
],
"Verif.Monitor.C54_no_cycle": [
"propext",
"Classical.choice",
"Quot.sound"
],
"Verif.Monitor.C54_progress": [
"propext",
"Classical.choice",
"Quot.sound"
],
"Verif.WaitforAgg.C55_aggregate": [
"propext",
"Classical.choice",
"Quot.sound"
],
"Verif.WaitforAgg.C55_model": [
"propext",
"Classical.choice",
"Quot.sound"
],
"Verif.WaitforAgg.C55_wait_threads": [
"propext",
"Quot.sound"
],
"Verif.Actor.C56_order": [
"propext",
"Classical.choice",
"Quot.sound"
],
"Verif.Actor.C56_sender_order": [
"propext",
"Classical.choice",
"Quot.sound"
],
"Verif.Actor.C56_send": [
"propext",
"Classical.choice",
"Quot.sound"
],
"Verif.Actor.C56_nothing_lost": [
"propext",
"Classical.choice",
"Quot.sound"
],
"Verif.Actor.C56_all_received": [
"propext",
"Classical.choice",
"Quot.sound"
],
"Verif.Actor.C56_one_at_a_time": [
"propext",
"Classical.choice",
"Quot.sound"
],
"Verif.Actor.C56_size_zero_violated": [
"propext"
],
"Verif.Actor.C57_one_place": [
"propext",
"Classical.choice",
"Quot.sound"
],
"Verif.Actor.C57_slot_refilled": [
"propext",
"Classical.choice",
"Quot.sound"
],
"Verif.Actor.C57_ranges": [
"propext",
"Quot.sound"
],
"Verif.Snzi.C58_nonzero": [
"propext",
"Classical.choice",
"Quot.sound"
],
"Verif.Snzi.C58_zero": [
"propext",
"Classical.choice",
"Quot.sound"
],
"Verif.Snzi.C58_tree": [
"propext",
"Classical.choice",
"Quot.sound"
],
"Verif.Alloc.C59_fill_partial": [
"propext",
"Classical.choice",
"Quot.sound"
],
"Verif.Alloc.C59_some_elements": [
"propext",
"Classical.choice",
"Quot.sound"
],
"Verif.Alloc.C59_whole_array_violated": [
"propext",
"Quot.sound"
],
"Verif.Alloc.C59_value_violated": [
"propext",
"Quot.sound"
],
"Verif.Alloc.C59_size_overflow_violated": [],
"Verif.Convert.C60_reject": [
"propext",
"Quot.sound"
],
"Verif.Convert.C60_numeral_unique": [
"propext"
],
"Verif.Convert.C60_long": [
"propext",
"Classical.choice",
"Quot.sound"
],
"Verif.Convert.C60_fits_partial": [
"propext",
"Classical.choice",
"Quot.sound"
],
"Verif.Convert.C60_out_of_range_partial": [
"propext",
"Classical.choice",
"Quot.sound"
],
"Verif.Convert.C60_invalid_partial": [
"propext",
"Quot.sound"
],
"Verif.Convert.C60_int_violated": [
"propext",
"Classical.choice",
"Quot.sound"
],
"Verif.Convert.C60_unsigned_violated": [
"propext",
"Classical.choice",
"Quot.sound"
],
"Verif.Convert.C60_invalid_violated": [
"propext",
"Classical.choice",
"Quot.sound"
],
"Verif.Cost.C61_lexicographic": [
"propext",
"Classical.choice",
"Quot.sound"
],
"Verif.Cost.C61_infinity_greatest": [
"propext"
],
"Verif.Cost.C61_infinity_absorbing": [
"propext"
],
"Verif.Cost.C61_add_componentwise": [
"propext",
"Classical.choice",
"Quot.sound"
],
"Verif.Cost.C61_add_comm": [
"propext"
],
"Verif.Cost.C61_add_assoc": [
"propext",
"Classical.choice",
"Quot.sound"
],
"Verif.Cost.C61_add_monotone": [
"propext",
"Classical.choice",
"Quot.sound"
],
"Verif.Cost.C61_increments": [
"propext",
"Quot.sound"
],
"Verif.Cost.C61_increment_abort": [
"propext",
"Quot.sound"
],
"Verif.Cost.C61_constructor": [
"propext",
"Classical.choice",
"Quot.sound"
],
"Verif.Cost.C61_constants": [],
"Verif.Cost.C61_implicit_constant_violated": [],
"Verif.Cost.C61_compare_infinity_violated": [],
"Verif.Cost.C61_overflow_violated": [],
"Verif.PersistentMap.C62_persistent": [
"propext",
"Quot.sound"
],
"Verif.PersistentMap.C62_get_absent": [
"propext",
"Quot.sound"
],
"Verif.ScopedMap.C63_history": [
"propext",
"Classical.choice",
"Quot.sound"
],
"Verif.ScopedMap.C63_end_outermost": [
"propext"
],
"Verif.ScopedMap.C63_iteration": [
"propext",
"Classical.choice",
"Quot.sound"
],
"Verif.ScopedMap.C63_reachable_ok": [
"propext",
"Classical.choice",
"Quot.sound"
],
"Verif.ScopedMap.C63_backward_partial": [
"propext",
"Classical.choice",
"Quot.sound"
],
"Verif.ScopedMap.C63_backward_violated": [
"propext",
"Quot.sound"
],
"Verif.ScopedMap.C64_history_partial": [
"propext",
"Classical.choice",
"Quot.sound"
],
"Verif.ScopedMap.C64_erase_hides": [
"propext",
"Classical.choice",
"Quot.sound"
],
"Verif.ScopedMap.C64_insert_violated": [
"propext",
"Quot.sound"
],
"Verif.ScopedMap.C64_erase_result_violated": [
"propext",
"Quot.sound"
],
"Verif.ScopedMap.C64_erase_result_partial": [
"propext",
"Classical.choice",
"Quot.sound"
],
"Verif.ScopedMap.C64_iteration_violated": [
"propext"
],
"Verif.ScopedMap.C64_iteration_partial": [
"propext",
"Classical.choice",
"Quot.sound"
],
"Verif.FilterCombos.C65_combinations": [
"propext",
"Classical.choice",
"Quot.sound"
],
"Verif.FilterCombos.C65_distinct": [
"propext",
"Quot.sound"
],
"Verif.FilterCombos.C65_empty_undefined": [
"propext"
],
"Verif.Eval.C66_value_partial": [
"propext",
"Quot.sound"
],
"Verif.Eval.C66_constant": [
"propext",
"Quot.sound"
],
"Verif.Eval.C66_variable_violated": [
"propext"
],
"Verif.Eval.C66_dimension_violated": [
"propext"
],
"Verif.Eval.C66_dimension_partial": [
"propext",
"Quot.sound"
],
"Verif.Eval.C66_div_zero_violated": [
"propext",
"Quot.sound"
],
"Verif.Eval.C66_cast_violated": [
"propext"
],
"Verif.Eval.C66_unsigned_violated": [
"propext"
],
"Verif.Eval.C66_overflow_violated": [
"propext"
],
"Verif.Eval.C66_shift_violated": [
"propext",
"Quot.sound"
],
"Verif.Mangler.C67_symbols_partial": [
"propext",
"Classical.choice",
"Quot.sound"
],
"Verif.Mangler.C67_plain_types_distinct": [
"propext",
"Classical.choice",
"Quot.sound"
],
"Verif.Mangler.C67_renaming": [
"propext",
"Classical.choice",
"Quot.sound"
],
"Verif.Mangler.C67_type_variables_violated": [
"propext",
"Classical.choice",
"Quot.sound"
],
"Verif.Mangler.C67_type_variables_pointer_violated": [
"propext",
"Classical.choice",
"Quot.sound"
],
"Verif.Mangler.C67_generic_violated": [
"propext",
"Classical.choice",
"Quot.sound"
],
"Verif.Mangler.C67_operator_name_violated": [
"propext",
"Classical.choice",
"Quot.sound"
],
"Verif.TypeEnv.C68_one_class": [
"propext",
"Classical.choice",
"Quot.sound"
],
"Verif.TypeEnv.C68_lookup": [
"propext",
"Classical.choice",
"Quot.sound"
],
"Verif.TypeEnv.C68_solvable": [
"propext",
"Classical.choice",
"Quot.sound"
],
"Verif.TypeEnv.C68_bindVar": [
"propext",
"Classical.choice",
"Quot.sound"
],
"Verif.TypeEnv.C68_bindVarToVar": [
"propext",
"Classical.choice",
"Quot.sound"
],
"Verif.TypeEnv.C68_unify": [
"propext",
"Classical.choice",
"Quot.sound"
],
"Verif.TypeEnv.C68_known": [
"propext",
"Classical.choice",
"Quot.sound"
],
"Verif.TypeEnv.C68_no_dangling": [
"propext",
"Classical.choice",
"Quot.sound"
],
"Verif.TypeEnv.C68_add": [
"propext",
"Classical.choice",
"Quot.sound"
],
"Verif.TypeEnv.C68_combine_partial": [
"propext",
"Classical.choice",
"Quot.sound"
],
"Verif.TypeEnv.C68_combine_violated": [
"propext",
"Quot.sound"
],
"Verif.TypeEnv.C68_combine_diverges_violated": [
"propext",
"Quot.sound"
],
"Verif.TypeEnv.C68_combine_cyclic_violated": [
"propext",
"Quot.sound"
],
"Verif.Math.C69_signed_exact_partial": [
"propext",
"Classical.choice",
"Quot.sound"
],
"Verif.Math.C69_signed_violated": [
"propext",
"Quot.sound"
],
"Verif.Math.C69_unsigned_exact": [
"propext",
"Classical.choice",
"Quot.sound"
],
"Verif.Math.C69_unsigned_mod": [
"propext",
"Classical.choice",
"Quot.sound"
],
"Verif.Math.C69_unsigned_violated": [
"propext",
"Classical.choice",
"Quot.sound"
],
"Verif.Math.C69_generic": [
"propext",
"Quot.sound"
],
"Verif.Math.C70_floor_partial": [
"propext",
"Quot.sound"
],
"Verif.Math.C70_floor_violated": [
"propext",
"Quot.sound"
],
"Verif.Math.C70_ceiling_signed": [
"propext",
"Quot.sound"
],
"Verif.Math.C70_ceiling_unsigned": [
"propext",
"Quot.sound"
],
"Verif.Math.C70_ceiling_div_partial": [
"propext",
"Quot.sound"
],
"Verif.Math.C70_ceiling_div_violated": [
"propext",
"Quot.sound"
],
"Verif.Math.C71_log2_partial": [
"propext",
"Classical.choice",
"Quot.sound"
],
"Verif.Math.C71_log2_power": [
"propext",
"Classical.choice",
"Quot.sound"
],
"Verif.Math.C71_log2_one_violated": [
"propext"
],
"Verif.Time.C72_two_digit_year_violated": [],
"Verif.Time.C72_two_digit_year_partial": [
"propext",
"Classical.choice",
"Quot.sound"
],
"Verif.Collections.C73_stack_is_list": [
"propext",
"Quot.sound"
],
"Verif.Collections.C73_push_check": [
"propext",
"Quot.sound"
],
"Verif.Collections.C73_dllist_is_list": [
"propext",
"Quot.sound"
],
"Verif.Maybe.C74_pair_lexicographic": [
"propext",
"Classical.choice",
"Quot.sound"
],
"Verif.Maybe.C74_pair_trichotomy": [
"propext",
"Classical.choice",
"Quot.sound"
],
"Verif.Alloc.C75_partial": [
"propext",
"Quot.sound"
],
"Verif.Alloc.C75_large_violated": [
"propext",
"Quot.sound"
],
"Verif.Alloc.C76_default_alignment": [
"propext",
"Quot.sound"
],
"Verif.Alloc.C76_given_alignment": [
"propext"
],
"Verif.Alloc.C76_reallocarray_partial": [
"propext",
"Quot.sound"
],
"Verif.Alloc.C76_reallocarray_violated": [
"propext",
"Quot.sound"
],
"Verif.Alloc.C76_reallocarray_align_violated": [],
"Verif.RangeLoop.C77_up_partial": [
"propext",
"Quot.sound"
],
"Verif.RangeLoop.C77_down_partial": [
"propext",
"Quot.sound"
],
"Verif.RangeLoop.C77_up_violated": [
"propext",
"Classical.choice",
"Quot.sound"
],
"Verif.RangeLoop.C77_down_violated": [
"propext",
"Classical.choice",
"Quot.sound"
],
"Verif.RangeLoop.C77_index_type_violated": [
"propext",
"Classical.choice",
"Quot.sound"
],
"Verif.Monitor.C78_arriving_partial": [
"propext",
"Classical.choice",
"Quot.sound"
],
"Verif.Monitor.C78_stmt": [
"propext",
"Classical.choice",
"Quot.sound"
],
"Verif.Monitor.C78_queued_partial": [
"propext",
"Classical.choice",
"Quot.sound"
],
"Verif.Monitor.C78_other_routine_violated": [
"propext",
"Quot.sound"
],
"Verif.Monitor.C78_subset_violated": [
"propext",
"Quot.sound"
],
"Verif.Monitor.C78_first_monitor_violated": [
"propext",
"Quot.sound"
],
"Verif.Monitor.C78_same_monitor_twice_violated": [
"propext",
"Quot.sound"
],
"Verif.ActorCount.C79_stop_partial": [
"propext",
"Classical.choice",
"Quot.sound"
],
"Verif.ActorCount.C79_returns_partial": [
"propext",
"Classical.choice",
"Quot.sound"
],
"Verif.ActorCount.C79_early_violated": [
"propext",
"Quot.sound"
],
"Verif.ActorCount.C79_abort_violated": [
"propext",
"Quot.sound"
],
"Verif.ActorCount.C79_no_actor_violated": [
"propext",
"Quot.sound"
],
"Verif.Select.C80_fifo_violated": [
"propext",
"Quot.sound"
],
"Verif.Select.C80_fifo_partial": [
"propext",
"Classical.choice",
"Quot.sound"
],
"Verif.WaitUntil.C81_condition_partial": [
"propext",
"Classical.choice",
"Quot.sound"
],
"Verif.WaitUntil.C81_allor_violated": [
"propext",
"Quot.sound"
],
"Verif.WaitUntil.C81_guards_violated": [
"propext",
"Classical.choice",
"Quot.sound"
],
"Verif.WaitUntil.C81_done": [
"propext",
"Classical.choice",
"Quot.sound"
],
"Verif.WaitUntil.C81_needed": [
"propext",
"Classical.choice",
"Quot.sound"
],
"Verif.WaitUntil.C81_once": [
"propext",
"Classical.choice",
"Quot.sound"
],
"Verif.WaitUntil.C81_kept": [
"propext",
"Classical.choice",
"Quot.sound"
],
"Verif.WaitUntil.C81_terminates": [
"propext",
"Classical.choice",
"Quot.sound"
],
"Verif.WaitUntil.C81_no_missed_wakeup_partial": [
"propext",
"Classical.choice",
"Quot.sound"
],
"Verif.WaitUntil.C82_finished_partial": [
"propext",
"Classical.choice",
"Quot.sound"
],
"Verif.WaitUntil.C82_futures_violated": [
"propext",
"Quot.sound"
],
"Verif.SchedLock.C83_exclusion": [
"propext",
"Classical.choice",
"Quot.sound"
],
"Verif.SchedLock.C83_ids": [
"propext",
"Classical.choice",
"Quot.sound"
],
"Verif.SchedLock.C83_progress": [
"propext",
"Classical.choice",
"Quot.sound"
],
"Verif.SchedLock.C83_readers": [
"propext",
"Classical.choice",
"Quot.sound"
],
"Verif.SchedLock.C83_dangling_violated": [
"propext",
"Quot.sound"
],
"Verif.SchedLock.C83_limit_violated": [
"propext",
"Quot.sound"
],
"Verif.HeapAlloc.C84_blocks_partial": [
"propext",
"Classical.choice",
"Quot.sound"
],
"Verif.HeapAlloc.C84_returned_partial": [
"propext",
"Classical.choice",
"Quot.sound"
],
"Verif.HeapAlloc.C84_malloc_wraps_violated": [
"propext",
"Quot.sound"
],
"Verif.HeapAlloc.C84_calloc_wraps_violated": [
"propext",
"Quot.sound"
],
"Verif.HeapAlloc.C84_memalign_null_violated": [
"propext",
"Quot.sound"
],
"Verif.HeapAlloc.C84_realloc_null_violated": [
"propext",
"Quot.sound"
],
"Verif.HeapAlloc.C84_mallopt_race_violated": [
"propext",
"Quot.sound"
],
"Verif.HeapAlloc.C84_stops_partial": [
"propext",
"Classical.choice",
"Quot.sound"
],
"Verif.HeapAlloc.C84_top_pad_violated": [
"propext",
"Quot.sound"
],
"Verif.HeapAlloc.C85_contents": [
"propext",
"Classical.choice",
"Quot.sound"
],
"Verif.HeapAlloc.C85_kept": [
"propext",
"Classical.choice",
"Quot.sound"
],
"Verif.HeapAlloc.C85_promise": [
"propext",
"Quot.sound"
],
"Verif.HeapAlloc.C85_resize_0_violated": [
"propext",
"Quot.sound"
],
"Verif.HeapAlloc.C85_memalign_0_violated": [
"propext",
"Quot.sound"
],
"Verif.HeapAlloc.C86_routines_end": [
"propext",
"Classical.choice",
"Quot.sound"
],
"Verif.HeapAlloc.C87_private_heaps_partial": [
"propext",
"Classical.choice",
"Quot.sound"
],
"Verif.HeapAlloc.C87_heaps_lost_violated": [
"propext",
"Quot.sound"
],
"Verif.MultiExit.C88_exits_partial": [
"propext",
"Classical.choice",
"Quot.sound"
],
"Verif.MultiExit.C88_labels_partial": [
"propext",
"Classical.choice",
"Quot.sound"
],
"Verif.MultiExit.C88_choose": [
"propext",
"Quot.sound"
],
"Verif.MultiExit.C88_body_violated": [
"propext",
"Quot.sound"
],
"Verif.MultiExit.C88_lost_violated": [
"propext",
"Quot.sound"
],
"Verif.MultiExit.C88_stops_violated": [
"propext",
"Quot.sound"
],
"Verif.Except.C89_exceptions_partial": [
"propext",
"Quot.sound"
],
"Verif.Except.C89_isParent": [
"propext",
"Quot.sound"
],
"Verif.Except.C89_accepts": [
"propext",
"Quot.sound"
],
"Verif.Except.C89_accepted": [
"propext"
],
"Verif.Except.C89_finally_violated": [
"propext"
],
"Verif.Except.C89_rethrow_violated": [
"propext"
],
"Verif.Except.C89_rethrow_finally_violated": [
"propext"
],
"Verif.Except.C89_reresume_violated": [
"propext"
],
"Verif.SmartPtr.C90_counter_partial": [
"propext",
"Classical.choice",
"Quot.sound"
],
"Verif.SmartPtr.C90_unique_partial": [
"propext",
"Classical.choice",
"Quot.sound"
],
"Verif.SmartPtr.C90_last": [
"propext",
"Classical.choice",
"Quot.sound"
],
"Verif.SmartPtr.C90_counter_violated": [
"propext",
"Classical.choice",
"Quot.sound"
],
"Verif.SmartPtr.C90_self_violated": [
"propext"
],
"Verif.SmartPtr.C90_pop_violated": [
"propext"
],
"Verif.SmartPtr.C90_move_violated": [
"propext"
],
"GenLayout.C91_leastMul": [
"propext",
"Quot.sound"
],
"GenLayout.C91_size_partial": [
"propext",
"Classical.choice",
"Quot.sound"
],
"GenLayout.C91_offsets_partial": [
"propext",
"Classical.choice",
"Quot.sound"
],
"GenLayout.C91_members_partial": [
"propext",
"Classical.choice",
"Quot.sound"
],
"GenLayout.C91_empty_violated": [
"propext"
],
"GenLayout.C91_bitfield_violated": [
"propext"
],
"GenLayout.C91_aligned_violated": [
"propext"
],
"GenLayout.C91_union_violated": [
"propext"
],
"GenLayout.C91_array_violated": [
"propext"
],
"GenLayout.C91_buffer_partial": [
"propext",
"Classical.choice",
"Quot.sound"
],
"GenLayout.C91_buffer_violated": [
"propext",
"Quot.sound"
],
"ObjLife.C92_scope_partial": [
"propext",
"Classical.choice",
"Quot.sound"
],
"ObjLife.C92_end_partial": [
"propext",
"Classical.choice",
"Quot.sound"
],
"ObjLife.C92_runs_partial": [
"propext",
"Classical.choice",
"Quot.sound"
],
"ObjLife.C92_throwingConstructor_violated": [
"propext",
"Quot.sound"
],
"ObjLife.C92_computedGoto_violated": [
"propext",
"Quot.sound"
],
"ObjLife.C92_labelledExpression_violated": [
"propext",
"Quot.sound"
],
"ObjLife.C92_loopCondition_violated": [
"propext",
"Quot.sound"
],
"IdleSleep.C93_noStall_partial": [
"propext",
"Classical.choice",
"Quot.sound"
],
"IdleSleep.C93_noStallPow_partial": [
"propext",
"Classical.choice",
"Quot.sound"
],
"IdleSleep.C93_lanes_partial": [
"propext",
"Quot.sound"
],
"IdleSleep.C93_idles_partial": [
"propext",
"Classical.choice",
"Quot.sound"
],
"IdleSleep.C93_overflow_violated": [
"propext",
"Quot.sound"
],
"IdleSleep.C93_destroyed_violated": [
"propext",
"Quot.sound"
],
"InitCursor.C94_initializers_partial": [
"propext",
"Classical.choice",
"Quot.sound"
],
"InitCursor.C94_wholeStructure_violated": [
"propext"
],
"InitCursor.C94_staleElement_violated": [
"propext"
],
"InitCursor.C94_lastElement_violated": [
"propext"
],
"InitCursor.C94_innerBraces_violated": [
"propext"
],
"InitCursor.C94_designatedBraces_violated": [
"propext"
],
"InitCursor.C94_firstMember_violated": [
"propext"
],
"InitCursor.C94_emptyStructure_violated": [
"propext"
],
"InitCursor.C94_unnamedBitfield_violated": [
"propext"
],
"InitCursor.C94_firstDeclaration_violated": [
"propext"
],
"InitCursor.C94_tuple_violated": [
"propext"
],
"Verif.OstreamInt.C95_plain128": [
"propext",
"Classical.choice",
"Quot.sound"
],
"Verif.OstreamInt.C95_numeral": [
"propext",
"Quot.sound"
],
"Verif.OstreamInt.C95_layout": [
"propext",
"Quot.sound"
],
"Verif.OstreamInt.C95_printed64_partial": [
"propext",
"Classical.choice",
"Quot.sound"
],
"Verif.OstreamInt.C95_printed128_partial": [
"propext",
"Classical.choice",
"Quot.sound"
],
"Verif.OstreamInt.C95_power_violated": [
"propext",
"Classical.choice",
"Quot.sound"
],
"Verif.OstreamInt.C95_signedChunk_violated": [
"propext",
"Classical.choice",
"Quot.sound"
],
"Verif.OstreamInt.C95_leftWidth_violated": [
"propext",
"Classical.choice",
"Quot.sound"
],
"Verif.OstreamInt.C95_binPrecision_violated": [
"propext",
"Classical.choice",
"Quot.sound"
],
"Verif.OstreamInt.C95_hexZero_violated": [
"propext",
"Classical.choice",
"Quot.sound"
],
"Verif.OstreamInt.C95_padPrecision_violated": [
"propext",
"Classical.choice",
"Quot.sound"
],
"Verif.OstreamSep.C96_text_partial": [
"propext",
"Classical.choice",
"Quot.sound"
],
"Verif.OstreamSep.C96_statement": [
"propext",
"Classical.choice",
"Quot.sound"
],
"Verif.OstreamSep.C96_tuple": [
"propext",
"Classical.choice",
"Quot.sound"
],
"Verif.OstreamSep.C96_null_violated": [
"propext",
"Classical.choice",
"Quot.sound"
],
"Verif.OstreamSep.C96_first_violated": [
"propext",
"Classical.choice",
"Quot.sound"
],
"Verif.OstreamSep.C96_character_violated": [
"propext",
"Classical.choice",
"Quot.sound"
],
"Verif.OstreamSep.C96_sepOn_violated": [
"propext",
"Classical.choice",
"Quot.sound"
],
"Verif.Arith.C97_nearest": [
"propext",
"Quot.sound"
],
"Verif.Arith.C97_common": [
"propext",
"Quot.sound"
],
"Verif.Arith.C97_reading": [
"propext",
"Quot.sound"
],
"Verif.Arith.C97_resolved_partial": [
"propext",
"Quot.sound"
],
"Verif.Arith.C97_as_in_C_partial": [
"propext",
"Quot.sound"
],
"Verif.Arith.C97_value_partial": [
"propext",
"Classical.choice",
"Quot.sound"
],
"Verif.Arith.C97_nearer_partial": [
"propext",
"Quot.sound"
],
"Verif.Arith.C97_bool_violated": [
"propext"
],
"Verif.Arith.C97_promotion_violated": [
"propext"
],
"Verif.Arith.C97_longlong_violated": [
"propext"
],
"Verif.Arith.C97_shift_violated": [
"propext"
],
"Verif.Arith.C97_remainder_violated": [
"propext"
],
"Verif.Arith.C97_float32_violated": [
"propext"
],
"Verif.Arith.C97_safe_violated": [
"propext"
],
"Verif.Arith.C97_casts_violated": [
"propext",
"Quot.sound"
],
"Verif.Arith.C97_nearer_violated": [
"propext"
],
"Verif.IntLit.C98_typed_partial": [
"propext",
"Classical.choice",
"Quot.sound"
],
"Verif.IntLit.C98_known_partial": [
"propext",
"Classical.choice",
"Quot.sound"
],
"Verif.IntLit.C98_int128_partial": [
"propext",
"Classical.choice",
"Quot.sound"
],
"Verif.IntLit.C98_rejected_partial": [
"propext",
"Classical.choice",
"Quot.sound"
],
"Verif.IntLit.C98_lu_violated": [
"propext",
"Classical.choice",
"Quot.sound"
],
"Verif.IntLit.C98_u_violated": [
"propext",
"Classical.choice",
"Quot.sound"
],
"Verif.IntLit.C98_l_violated": [
"propext",
"Classical.choice",
"Quot.sound"
],
"Verif.IntLit.C98_binary_violated": [
"propext",
"Classical.choice",
"Quot.sound"
],
"Verif.IntLit.C98_known_violated": [
"propext",
"Classical.choice",
"Quot.sound"
],
"Verif.IntLit.C98_half_violated": [
"propext",
"Classical.choice",
"Quot.sound"
],
"Verif.IntLit.C98_octal128_violated": [
"propext",
"Classical.choice",
"Quot.sound"
],
"Verif.IntLit.C98_binary128_violated": [
"propext",
"Classical.choice",
"Quot.sound"
],
"Verif.IntLit.C98_decimal128_violated": [
"propext",
"Classical.choice",
"Quot.sound"
],
"Verif.Symbols.C99_lookup": [
"propext",
"Classical.choice",
"Quot.sound"
],
"Verif.Symbols.C99_global": [
"propext",
"Classical.choice",
"Quot.sound"
],
"Verif.Symbols.C99_restored": [
"propext",
"Classical.choice",
"Quot.sound"
],
"Verif.Symbols.C99_tag_rejected": [
"propext",
"Classical.choice",
"Quot.sound"
],
"Verif.Symbols.C99_type_rejected": [
"propext",
"Classical.choice",
"Quot.sound"
],
"Verif.Symbols.C99_clash_partial": [
"propext",
"Classical.choice",
"Quot.sound"
],
"Verif.Symbols.C99_with_partial": [
"propext",
"Classical.choice",
"Quot.sound"
],
"Verif.Symbols.C99_twice_violated": [],
"Verif.Symbols.C99_order_violated": [],
"Verif.Symbols.C99_with_violated": [],
"Verif.Symbols.C100_usable_partial": [
"propext",
"Classical.choice",
"Quot.sound"
],
"Verif.Symbols.C100_found_partial": [
"propext",
"Classical.choice",
"Quot.sound"
],
"Verif.Symbols.C100_order_partial": [
"propext",
"Classical.choice",
"Quot.sound"
],
"Verif.Symbols.C100_builtin_violated": [
"propext"
],
"Verif.Symbols.C100_order_violated": [
"propext",
"Classical.choice",
"Quot.sound"
],
"Verif.Symbols.C100_shadow_violated": [
"propext"
],
"Verif.Symbols.C100_definition_violated": [],
"Verif.Gmp.C101_arith_partial": [
"propext",
"Quot.sound"
],
"Verif.Gmp.C101_sub_exact": [
"propext",
"Classical.choice",
"Quot.sound"
],
"Verif.Gmp.C101_sub_violated": [
"propext",
"Classical.choice",
"Quot.sound"
],
"Verif.Gmp.C101_bits_partial": [
"propext",
"Quot.sound"
],
"Verif.Gmp.C101_xor_violated": [
"propext"
],
"Verif.Gmp.C101_division_partial": [
"propext",
"Classical.choice",
"Quot.sound"
],
"Verif.Gmp.C101_division_violated": [
"propext",
"Classical.choice",
"Quot.sound"
],
"Verif.Gmp.C101_divmod": [
"propext",
"Classical.choice",
"Quot.sound"
],
"Verif.Gmp.C101_divmod_violated": [
"propext"
],
"Verif.Gmp.C101_compare_partial": [
"propext",
"Classical.choice",
"Quot.sound"
],
"Verif.Gmp.C101_compare_reversed": [
"propext",
"Classical.choice",
"Quot.sound"
],
"Verif.Gmp.C101_compare_violated": [
"propext"
],
"Verif.Gmp.C101_convert": [
"propext",
"Classical.choice",
"Quot.sound"
],
"Verif.Gmp.C101_convert_violated": [
"propext"
],
"Verif.Gmp.C101_assign": [
"propext",
"Classical.choice",
"Quot.sound"
],
"Verif.Gmp.C101_shift": [
"propext",
"Classical.choice",
"Quot.sound"
],
"Verif.Gmp.C101_print_violated": [
"propext"
],
"Verif.Props.TupleAsg.C102_multiple_partial": [
"propext",
"Classical.choice",
"Quot.sound"
],
"Verif.Props.TupleAsg.C102_values": [
"propext",
"Classical.choice",
"Quot.sound"
],
"Verif.Props.TupleAsg.C102_sizes": [
"propext",
"Quot.sound"
],
"Verif.Props.TupleAsg.C102_mass_partial": [
"propext",
"Classical.choice",
"Quot.sound"
],
"Verif.Props.TupleAsg.C102_mass_assign": [
"propext",
"Classical.choice",
"Quot.sound"
],
"Verif.Props.TupleAsg.C102_swap": [
"propext",
"Classical.choice",
"Quot.sound"
],
"Verif.Props.TupleAsg.C102_swap_references_violated": [
"propext"
],
"Verif.Props.TupleAsg.C102_sequence_violated": [
"propext"
],
"Verif.Props.TupleAsg.C102_mass_violated": [
"propext"
],
"Verif.Props.TupleAsg.C102_order_violated": [
"propext"
],
"Verif.Props.Coroutine.C103_control_partial": [
"propext",
"Quot.sound"
],
"Verif.Props.Coroutine.C103_exceptions": [
"propext",
"Quot.sound"
],
"Verif.Props.Coroutine.C103_polls": [
"propext",
"Quot.sound"
],
"Verif.Props.Coroutine.C103_resume_pointer_violated": [
"propext"
],
"Verif.Props.Coroutine.C103_cancelled_unnoticed_violated": [
"propext"
],
"Verif.Props.Coroutine.C103_cancelled_elsewhere_violated": [
"propext"
],
"Verif.Props.Coroutine.C103_cleanup_cut_violated": [
"propext"
],
"Verif.Props.Coroutine.C103_cancelled_cut_violated": [
"propext"
],
"Verif.Props.IoUring.C104_once_partial": [
"propext",
"Classical.choice",
"Quot.sound"
],
"Verif.Props.IoUring.C104_entry": [
"propext",
"Classical.choice",
"Quot.sound"
],
"Verif.Props.IoUring.C104_flush": [
"propext",
"Classical.choice",
"Quot.sound"
],
"Verif.Props.IoUring.C104_no_crash": [
"propext",
"Classical.choice",
"Quot.sound"
],
"Verif.Props.IoUring.C104_drained_partial": [
"propext",
"Classical.choice",
"Quot.sound"
],
"Verif.Props.IoUring.C104_granted_partial": [
"propext",
"Classical.choice",
"Quot.sound"
],
"Verif.Props.IoUring.C104_waiting_violated": [
"propext",
"Quot.sound"
],
"Verif.Props.IoUring.C104_no_entry_violated": [
"propext",
"Quot.sound"
],
"Verif.Props.IoUring.C104_mark_violated": [
"propext",
"Quot.sound"
],
"Verif.Props.IoUring.C104_refused_violated": [
"propext",
"Quot.sound"
],
"Verif.Props.IoUring.C104_two_processors_violated": [
"propext",
"Quot.sound"
],
"Verif.Props.PthreadTsd.C105_values": [
"propext",
"Classical.choice",
"Quot.sound"
],
"Verif.Props.PthreadTsd.C105_join": [
"propext",
"Classical.choice",
"Quot.sound"
],
"Verif.Props.PthreadTsd.C105_called_partial": [
"propext",
"Classical.choice",
"Quot.sound"
],
"Verif.Props.PthreadTsd.C105_all_called_partial": [
"propext",
"Classical.choice",
"Quot.sound"
],
"Verif.Props.PthreadTsd.C105_no_crash_partial": [
"propext",
"Classical.choice",
"Quot.sound"
],
"Verif.Props.PthreadTsd.C105_runner_violated": [
"propext",
"Quot.sound"
],
"Verif.Props.PthreadTsd.C105_unjoined_violated": [
"propext",
"Classical.choice",
"Quot.sound"
],
"Verif.Props.PthreadTsd.C105_null_destructor_violated": [
"propext"
],
"Verif.Props.PthreadTsd.C105_other_destructor_violated": [
"propext",
"Quot.sound"
],
"Verif.Props.PthreadTsd.C105_main_violated": [
"propext"
],
"Verif.Props.PthreadTsd.C105_tryjoin_blocks_violated": [
"propext"
],
"Verif.Props.PthreadTsd.C105_tryjoin_raises_violated": [
"propext"
],
"Verif.RefLower.C106_value_partial": [
"propext",
"Classical.choice",
"Quot.sound"
],
"Verif.RefLower.C106_read": [
"propext",
"Classical.choice",
"Quot.sound"
],
"Verif.RefLower.C106_assign": [
"propext",
"Classical.choice",
"Quot.sound"
],
"Verif.RefLower.C106_address": [
"propext",
"Classical.choice",
"Quot.sound"
],
"Verif.RefLower.C106_rebind": [
"propext",
"Classical.choice",
"Quot.sound"
],
"Verif.RefLower.C106_temporary": [
"propext",
"Classical.choice",
"Quot.sound"
],
"Verif.RefLower.C106_argument_violated": [
"propext"
],
"Verif.RefLower.C106_untaken_violated": [
"propext"
],
"Verif.RefLower.C106_conditional_violated": [
"propext"
],
"Verif.RefLower.C106_address_of_value_violated": [
"propext"
],
"Verif.RefLower.C106_double_address_violated": [
"propext"
],
"Verif.RefLower.C106_two_levels_violated": [
"propext"
],
"Verif.RefLower.C106_returned_reference_violated": [
"propext"
],
"Verif.RefLower.C106_address_of_cast_violated": [
"propext"
],
"Verif.Config.C107_read": [
"propext",
"Quot.sound"
],
"Verif.Config.C107_table": [
"propext",
"Quot.sound"
],
"Verif.Config.C107_accepted_partial": [
"propext",
"Classical.choice",
"Quot.sound"
],
"Verif.Config.C107_refused_partial": [
"propext",
"Classical.choice",
"Quot.sound"
],
"Verif.Config.C107_validated": [
"propext",
"Classical.choice",
"Quot.sound"
],
"Verif.Config.C107_repeated_key_violated": [
"propext",
"Classical.choice",
"Quot.sound"
],
"Verif.Config.C107_missing_hidden_violated": [
"propext",
"Classical.choice",
"Quot.sound"
],
"Verif.Config.C107_which_value_violated": [
"propext",
"Classical.choice",
"Quot.sound"
],
"Verif.Config.C107_two_entries_violated": [
"propext",
"Classical.choice",
"Quot.sound"
],
"Verif.Config.C107_refused_value_violated": [
"propext",
"Classical.choice",
"Quot.sound"
],
"Verif.Config.C107_ruled_line_violated": [
"propext"
],
"Verif.Config.C107_no_value_violated": [
"propext",
"Classical.choice",
"Quot.sound"
],
"Verif.Config.C107_key_at_end_violated": [
"propext",
"Classical.choice",
"Quot.sound"
],
"Verif.Config.C107_string_block_violated": [],
"Verif.Config.C107_string_variable_violated": [
"propext",
"Classical.choice",
"Quot.sound"
],
"Verif.Args.C108_int_partial": [
"propext",
"Quot.sound"
],
"Verif.Args.C108_unsigned": [
"propext",
"Quot.sound"
],
"Verif.Args.C108_bool": [
"propext",
"Classical.choice",
"Quot.sound"
],
"Verif.Args.C108_args_partial": [
"propext",
"Classical.choice",
"Quot.sound"
],
"Verif.Args.C108_help": [
"propext",
"Classical.choice",
"Quot.sound"
],
"Verif.Args.C108_unknown": [
"propext",
"Classical.choice",
"Quot.sound"
],
"Verif.Args.C108_duplicates": [
"propext",
"Classical.choice",
"Quot.sound"
],
"Verif.Args.C108_help_text": [
"propext",
"Classical.choice",
"Quot.sound"
],
"Verif.Args.C108_empty_number_violated": [
"propext"
],
"Verif.Args.C108_equals_violated": [
"propext",
"Classical.choice",
"Quot.sound"
],
"Verif.Args.C108_letter_h_violated": [
"propext",
"Classical.choice",
"Quot.sound"
],
"Verif.Args.C108_short_only_violated": [
"propext",
"Classical.choice",
"Quot.sound"
],
"Verif.Args.C108_empty_names_violated": [
"propext",
"Classical.choice",
"Quot.sound"
],
"Verif.Args.C108_no_columns_violated": [
"propext",
"Quot.sound"
],
"Verif.Preempt.C109_section_partial": [
"propext",
"Quot.sound"
],
"Verif.Preempt.C109_deferred": [
"propext",
"Classical.choice",
"Quot.sound"
],
"Verif.Preempt.C109_prompt": [
"propext",
"Classical.choice",
"Quot.sound"
],
"Verif.Preempt.C109_poll": [
"propext",
"Classical.choice",
"Quot.sound"
],
"Verif.Preempt.C109_returns": [
"propext",
"Quot.sound"
],
"Verif.Preempt.C109_window_violated": [
"propext",
"Quot.sound"
],
"Verif.Preempt.C109_unpolled_violated": [
"propext"
],
"Verif.Preempt.C109_depth_violated": [
"propext",
"Quot.sound"
],
"Verif.Preempt.C109_timer": [
"propext",
"Classical.choice",
"Quot.sound"
],
"Verif.Preempt.C109_tick": [
"propext",
"Classical.choice",
"Quot.sound"
],
"Verif.Preempt.C109_first_tick_violated": [
"propext",
"Quot.sound"
],
"Verif.Enum.C110_attributes_partial": [
"propext",
"Quot.sound"
],
"Verif.Enum.C110_steps": [
"propext",
"Classical.choice",
"Quot.sound"
],
"Verif.Enum.C110_loop": [
"propext",
"Quot.sound"
],
"Verif.Enum.C110_inline_value_partial": [
"propext",
"Quot.sound"
],
"Verif.Enum.C110_convert_partial": [
"propext",
"Classical.choice",
"Quot.sound"
],
"Verif.Enum.C110_own_first_violated": [
"propext"
],
"Verif.Enum.C110_nested_violated": [
"propext"
],
"Verif.Enum.C110_inline_value_violated": [
"propext"
],
"Verif.Enum.C110_opaque_inline_violated": [
"propext"
],
"Verif.Enum.C110_plus_violated": [
"propext",
"Quot.sound"
],
"Verif.StrStream.C111_output": [
"propext",
"Classical.choice",
"Quot.sound"
],
"Verif.StrStream.C111_bounds": [
"propext",
"Classical.choice",
"Quot.sound"
],
"Verif.StrStream.C111_terminated": [
"propext",
"Classical.choice",
"Quot.sound"
],
"Verif.StrStream.C111_cleared_violated": [
"propext",
"Classical.choice",
"Quot.sound"
],
"Verif.StrStream.C111_words_partial": [
"propext",
"Quot.sound"
],
"Verif.StrStream.C111_two_spaces_violated": [
"propext",
"Classical.choice",
"Quot.sound"
],
"Verif.StrStream.C111_leading_space_violated": [
"propext",
"Classical.choice",
"Quot.sound"
],
"Verif.StrStream.C111_newline_violated": [
"propext",
"Classical.choice",
"Quot.sound"
],
"Verif.StrStream.C111_char_violated": [
"propext",
"Quot.sound"
],
"Verif.StrStream.C111_end_violated": [
"propext",
"Quot.sound"
],
"Verif.StrInput.C112_bounds": [
"propext",
"Quot.sound"
],
"Verif.StrInput.C112_word": [
"propext",
"Classical.choice",
"Quot.sound"
],
"Verif.StrInput.C112_line": [
"propext",
"Classical.choice",
"Quot.sound"
],
"Verif.StrInput.C112_lines": [
"propext",
"Classical.choice",
"Quot.sound"
],
"Verif.StrInput.C112_set_partial": [
"propext",
"Classical.choice",
"Quot.sound"
],
"Verif.StrInput.C112_quote": [
"propext",
"Classical.choice",
"Quot.sound"
],
"Verif.StrInput.C112_end": [
"propext",
"Quot.sound"
],
"Verif.StrInput.C112_ignore_end": [
"propext",
"Classical.choice",
"Quot.sound"
],
"Verif.StrInput.C112_getline_width_violated": [
"propext",
"Classical.choice",
"Quot.sound"
],
"Verif.StrInput.C112_range_violated": [
"propext",
"Classical.choice",
"Quot.sound"
],
"Verif.StrInput.C112_quote_end_violated": [
"propext",
"Quot.sound"
],
"Verif.StrInput.C112_quote_char_violated": [
"propext",
"Classical.choice",
"Quot.sound"
],
"Verif.StrInput.C112_enum": [
"propext",
"Quot.sound"
],
"Verif.StrInput.C112_enum_sound": [
"propext",
"Quot.sound"
],
"Verif.StrInput.C112_enums": [
"propext",
"Quot.sound"
],
"Verif.StrInput.C112_enum_newline_violated": [
"propext",
"Classical.choice",
"Quot.sound"
],
"Verif.StrInput.C112_enum_prefix_violated": [
"propext",
"Classical.choice",
"Quot.sound"
],
"Verif.StrInput.C112_int128_partial": [
"propext",
"Classical.choice",
"Quot.sound"
],
"Verif.StrInput.C112_int128_overflow_violated": [
"propext",
"Quot.sound"
],
"Verif.StrInput.C112_int128_sign_violated": [
"propext",
"Classical.choice",
"Quot.sound"
],
"Verif.Cofor.C113_COFOR_partial": [
"propext",
"Classical.choice",
"Quot.sound"
],
"Verif.Cofor.C113_balance": [
"propext",
"Classical.choice",
"Quot.sound"
],
"Verif.Cofor.C113_overflow_violated": [],
"Verif.Cofor.C113_cofor": [
"propext",
"Quot.sound"
],
"Verif.Cofor.C113_once": [
"propext",
"Quot.sound"
],
"Verif.Cofor.C113_ends": [
"propext",
"Classical.choice",
"Quot.sound"
],
"Verif.OldLocks.C114_exclusion": [
"propext",
"Quot.sound"
],
"Verif.OldLocks.C114_fifo": [
"propext",
"Quot.sound"
],
"Verif.OldLocks.C114_free": [
"propext",
"Quot.sound"
],
"Verif.OldLocks.C114_handoff": [
"propext",
"Quot.sound"
],
"Verif.OldLocks.C114_returns": [
"propext",
"Quot.sound"
],
"Verif.OldLocks.C114_wait": [
"propext",
"Quot.sound"
],
"Verif.OldLocks.C114_wait_only": [
"propext",
"Quot.sound"
],
"Verif.OldLocks.C114_waiters": [
"propext",
"Quot.sound"
],
"Verif.OldLocks.C114_notify_one": [
"propext",
"Classical.choice",
"Quot.sound"
],
"Verif.OldLocks.C114_notify_all": [
"propext",
"Quot.sound"
],
"Verif.OldLocks.C114_recursive_exclusion": [
"propext",
"Quot.sound"
],
"Verif.OldLocks.C114_recursive_fifo": [
"propext",
"Quot.sound"
],
"Verif.OldLocks.C114_recursive_lock": [
"propext",
"Quot.sound"
],
"Verif.OldLocks.C114_recursive_unlock": [
"propext",
"Classical.choice",
"Quot.sound"
],
"Verif.OldLocks.C114_recursive_handoff": [
"propext",
"Quot.sound"
],
"Verif.OldLocks.C114_recursive_wait_violated": [
"propext",
"Quot.sound"
],
"Verif.InitLength.C115_string_partial": [
"propext",
"Classical.choice",
"Quot.sound"
],
"Verif.InitLength.C115_array_partial": [
"propext",
"Classical.choice",
"Quot.sound"
],
"Verif.InitLength.C115_units": [
"propext",
"Classical.choice",
"Quot.sound"
],
"Verif.InitLength.C115_encodings": [
"propext",
"Classical.choice",
"Quot.sound"
],
"Verif.InitLength.C115_encoding_violated": [
"propext",
"Classical.choice",
"Quot.sound"
],
"Verif.InitLength.C115_universal_violated": [
"propext",
"Classical.choice",
"Quot.sound"
],
"Verif.InitLength.C115_list_partial": [
"propext",
"Classical.choice",
"Quot.sound"
],
"Verif.InitLength.C115_designator_violated": [
"propext"
],
"Verif.InitLength.C115_flat_violated": [
"propext",
"Quot.sound"
],
"Verif.ConstVal.C116_char_partial": [
"propext"
],
"Verif.ConstVal.C116_escape_violated": [
"propext"
],
"Verif.ConstVal.C116_dimension_violated": [
"propext",
"Classical.choice",
"Quot.sound"
],
"Verif.ConstVal.C116_enum_sound": [
"propext",
"Classical.choice",
"Quot.sound"
],
"Verif.ConstVal.C116_enum_known": [
"propext",
"Quot.sound"
],
"Verif.ConstVal.C116_enum_ends_partial": [
"propext",
"Quot.sound"
],
"Verif.ConstVal.C116_enum_recursion_violated": [],
"Verif.CpuList.C117_visit_partial": [
"propext",
"Quot.sound"
],
"Verif.CpuList.C117_empty_violated": [
"propext",
"Quot.sound"
],
"Verif.CpuList.C117_width_partial": [
"propext",
"Classical.choice",
"Quot.sound"
],
"Verif.CpuList.C117_file_partial": [
"propext",
"Classical.choice",
"Quot.sound"
],
"Verif.CpuList.C117_long_violated": [
"propext",
"Quot.sound"
],
"Verif.CpuList.C117_table": [
"propext",
"Classical.choice",
"Quot.sound"
],
"Verif.CpuList.C117_gap_violated": [
"propext",
"Classical.choice",
"Quot.sound"
],
"Verif.CpuMap.C118_places": [
"propext",
"Classical.choice",
"Quot.sound"
],
"Verif.CpuMap.C118_caches": [
"propext",
"Classical.choice",
"Quot.sound"
],
"Verif.CpuMap.C118_groups": [
"propext",
"Classical.choice",
"Quot.sound"
],
"Verif.CpuMap.C118_cut_partial": [
"propext",
"Quot.sound"
],
"Verif.CpuMap.C118_width_violated": [
"propext",
"Classical.choice",
"Quot.sound"
]
}