# Axioms each theorem depends on

Written by `tools/axioms.py` from `#print axioms`.

## none (2)

- `Mu.BBuf.C39_false`
- `Mu.BBuf.C40_false`

## propext (16)

- `Mu.Bisync.C02_false`
- `Mu.Spsc.C15_init_success`
- `Mu.Arr.C17_delete_false`
- `Mu.Arr.C17_delete_oob_false`
- `Mu.Arr.C20_sort_single_item_false`
- `Mu.Task.C35_no_effect_if_equal_false`
- `Mu.BBuf.C44_false`
- `Mu.BBuf.C47_false`
- `Mu.Jems.C58_zero_levels`
- `Mu.Jems.C62_out_of_range`
- `Mu.System.C84_wait`
- `Mu.Sched.C86_concurrent_reset_stale`
- `Mu.BBuf.C87_init`
- `Mu.BBuf.C87_copy`
- `Mu.Spsc.Re.C101_store_order_matters`
- `Mu.Bisync.C111_overlap_matters`

## propext, Classical.choice, Quot.sound (336)

- `Mu.Bisync.C01_encode_exact`
- `Mu.Bisync.C01_large_capacity_refused`
- `Mu.Bisync.C02_decode_encode_partial`
- `Mu.Bisync.C02_encode_then_decode_partial`
- `Mu.Bisync.C03_sent_injective`
- `Mu.Bisync.C03_sent_prefix_free`
- `Mu.Bisync.C03_trailing_bytes_ignored`
- `Mu.Bisync.C04_false`
- `Mu.Bisync.C04_decode_accepts_partial`
- `Mu.Bisync.C05_encode_safe`
- `Mu.Bisync.C05_decode_safe`
- `Mu.Queue.C06_queue_is_bounded_fifo`
- `Mu.Queue.C06_failed_calls_change_nothing`
- `Mu.Queue.C07_queue_memory_safe`
- `Mu.Queue.C07_queue_exact_storage`
- `Mu.Mqueue.C08_mqueue_is_bounded_fifo`
- `Mu.Mqueue.C08_conforms`
- `Mu.Mqueue.C08_get_delivers_oldest`
- `Mu.Mqueue.C09_notification_order`
- `Mu.Mqueue.C09_notified_exactly_once`
- `Mu.Mqueue.C10_counting_semaphore`
- `Mu.Mqueue.C10_returns_match_effects`
- `Mu.Spsc.C11_sequential_fifo`
- `Mu.Spsc.C12_fifo_all_interleavings`
- `Mu.Spsc.C12_nothing_lost`
- `Mu.Spsc.C13_full_not_spurious`
- `Mu.Spsc.C13_empty_not_spurious`
- `Mu.Spsc.C13_wait_free`
- `Mu.Spsc.C14_no_slot_race`
- `Mu.Spsc.C15_init_iff_power_of_two`
- `Mu.Spsc.C15_init_failure`
- `Mu.Arr.C16_array_is_bounded_list`
- `Mu.Arr.C16_reachable`
- `Mu.Arr.C16_failed_calls_change_nothing`
- `Mu.Arr.C17_delete_partial`
- `Mu.Arr.C18_index_rindex`
- `Mu.Arr.C19_sort_single_item_false`
- `Mu.Arr.C19_sort_partial`
- `Mu.Arr.C19_sort_lp64`
- `Mu.Arr.C20_sort_any_comparator_partial`
- `Mu.Arr.C21_insert_sorted`
- `Mu.Arr.C21_insert_sorted_full`
- `Mu.Arr.C21_insert_sorted_safe`
- `Mu.Sched.C22_no_fault`
- `Mu.Sched.C22_priority`
- `Mu.Sched.C22_one_task_per_step`
- `Mu.Sched.C23_time_order`
- `Mu.Sched.C23_none_earlier`
- `Mu.Sched.C24_never_early`
- `Mu.Sched.C25_conservation`
- `Mu.Sched.C25_called_iff_taken`
- `Mu.Sched.C26_full_iff`
- `Mu.Sched.C26_full_changes_nothing`
- `Mu.Sched.C27_remove_result`
- `Mu.Sched.C27_not_run_after_removal`
- `Mu.Sched.C27_removes_exactly`
- `Mu.Sched.C28_current_is_running`
- `Mu.Sched.C28_null_outside`
- `Mu.Sched.C28_steps_balanced`
- `Mu.Sched.C29_reset_is_fresh`
- `Mu.Sched.C30_isr_position`
- `Mu.Sched.C30_deferred_position`
- `Mu.Sched.C30_immediate_position`
- `Mu.Sched.C30_no_starvation`
- `Mu.Sched.C31_isr_fifo`
- `Mu.Sched.C31_immed_fifo`
- `Mu.Sched.C32_interrupted_step`
- `Mu.Sched.C32_reachable`
- `Mu.Sched.C33_window_is_proper`
- `Mu.Sched.C33_wraparound`
- `Mu.Task.C34_conforms`
- `Mu.Task.C34_exactly_once`
- `Mu.Log.C37_level_name`
- `Mu.BBuf.C38_compare`
- `Mu.BBuf.C38_antisymmetric`
- `Mu.BBuf.C38_transitive`
- `Mu.BBuf.C38_matches`
- `Mu.BBuf.C38_cstr`
- `Mu.BBuf.C39_slice_partial`
- `Mu.BBuf.C40_bisect_partial`
- `Mu.BBuf.C41_prefix_suffix`
- `Mu.BBuf.C41_cstr`
- `Mu.BBuf.C42_find_substr`
- `Mu.BBuf.C42_find_subcstr`
- `Mu.BBuf.C43_byte`
- `Mu.BBuf.C43_predicate`
- `Mu.BBuf.C44_ltrim_partial`
- `Mu.BBuf.C45_rtrim_false`
- `Mu.BBuf.C45_rtrim_partial`
- `Mu.BBuf.C45_trim_partial`
- `Mu.BBuf.C47_narrow_partial`
- `Mu.BBuf.C47_wide_partial`
- `Mu.BBuf.C48_parse_hex`
- `Mu.BBuf.C49_put`
- `Mu.BBuf.C49_ref`
- `Mu.BBuf.C49_clear`
- `Mu.BBuf.C51_reverse_partial`
- `Mu.BBuf.C51_empty_false`
- `Mu.BBuf.C52_rrotate_partial`
- `Mu.BBuf.C52_empty_false`
- `Mu.BBuf.C53_rshift_partial`
- `Mu.BVec.C54_write_read_back`
- `Mu.BVec.C55_refines`
- `Mu.BVec.C55_bounds`
- `Mu.Jems.C56_document`
- `Mu.Jems.C56_read_back`
- `Mu.Jems.C56_injective`
- `Mu.Jems.C56_sequence`
- `Mu.Jems.C56_item_limit`
- `Mu.Jems.C57_bytes`
- `Mu.Jems.C57_string`
- `Mu.Jems.C58_levels`
- `Mu.Jems.C59_integer`
- `Mu.Jems.C60_positions`
- `Mu.Jems.C61_integral`
- `Mu.Jems.C61_fraction`
- `Mu.Jems.C61_document`
- `Mu.Jems.C62_defined_iff`
- `Mu.Bisync.C63_decode_frame`
- `Mu.Bisync.C63_round_trip`
- `Mu.Bisync.C64_no_soh`
- `Mu.Bisync.C64_decode_exact`
- `Mu.Bisync.C64_every_input`
- `Mu.Arr.C65_delete_last`
- `Mu.Arr.C65_delete_inner`
- `Mu.Arr.C65_delete_then_pop`
- `Mu.Arr.C66_sort`
- `Mu.Arr.C67_sort_any_comparator`
- `Mu.BBuf.C69_slice`
- `Mu.BBuf.C69_slice_below`
- `Mu.BBuf.C70_bisect`
- `Mu.BBuf.C71_ltrim`
- `Mu.BBuf.C72_rtrim`
- `Mu.BBuf.C73_parse_int`
- `Mu.BBuf.C74_copy_into`
- `Mu.BBuf.C75_reverse`
- `Mu.BBuf.C76_rrotate`
- `Mu.BBuf.C77_rshift`
- `Mu.Spsc.Lin.C78_linearizable`
- `Mu.Spsc.Tso.C79_fifo_store_buffers`
- `Mu.Spsc.Tso.C79_nothing_lost`
- `Mu.Sched.C80_next_task`
- `Mu.Sched.C80_changes_nothing`
- `Mu.Sched.C80_predicts`
- `Mu.Sched.C81_idle_is_last_set`
- `Mu.Sched.C81_null_if_never_set`
- `Mu.Sched.C82_no_hidden_state`
- `Mu.System.C83_task_view`
- `Mu.System.C83_safe`
- `Mu.System.C83_one_run_per_choice`
- `Mu.System.C83_current`
- `Mu.System.C84_transfer`
- `Mu.Sched.Smp.C85_linearizable`
- `Mu.Sched.C86_interrupted_reset`
- `Mu.BVec.C87_bvec_init`
- `Mu.Jems.C88_into_bvec`
- `Mu.Jems.C88_contents`
- `Mu.BBuf.C89_rotations_compose`
- `Mu.BBuf.C89_rotate_back`
- `Mu.BBuf.C90_bisect_slices`
- `Mu.Jems.C91_integer_parse`
- `Mu.Jems.C91_int64_min`
- `Mu.Jems.C91_unsigned_parse`
- `Mu.Arr.C92_sort_calls`
- `Mu.Arr.C92_sort_calls_observed`
- `Mu.Arr.C92_insert_sorted_calls`
- `Mu.Spsc.C93_nested_put`
- `Mu.Spsc.C93_nested_put_full`
- `Mu.Spsc.C93_between_calls`
- `Mu.Arr.C94_sort_compares_items`
- `Mu.Arr.C94_insert_sorted_compares_items`
- `Mu.Arr.C95_sort_bbufs`
- `Mu.Arr.C95_insert_sorted_bbufs`
- `Mu.BBuf.C96_slice_of_slice`
- `Mu.Bisync.C97_stream_unambiguous`
- `Mu.Bisync.C97_decode_in_stream`
- `Mu.Bisync.C98_truncated_frame`
- `Mu.Bisync.C98_no_eot_detected`
- `Mu.System.C99_queue_view`
- `Mu.System.C99_notified_once`
- `Mu.System.C100_semaphore`
- `Mu.System.C100_mutex`
- `Mu.Spsc.Re.C101_same_results`
- `Mu.Spsc.Re.C101_fifo`
- `Mu.Spsc.Re.C101_late_load`
- `Mu.Link.C102_link`
- `Mu.Link.C102_link_store_buffers`
- `Mu.Link.C102_all_received`
- `Mu.System.C103_consumer_on_its_way`
- `Mu.System.C103_idle_means_empty`
- `Mu.Sched.C104_only_comparisons_matter`
- `Mu.Sched.C104_wrapping_clock`
- `Mu.Sched.C105_at_least_period`
- `Mu.Sched.C105_kth_run`
- `Mu.Telemetry.C106_frame_is_text`
- `Mu.Telemetry.C106_truncation_detected`
- `Mu.Telemetry.C106_documents_arrive`
- `Mu.Telemetry.C107_join_late`
- `Mu.BBuf.C108_copies`
- `Mu.BBuf.C108_intended`
- `Mu.BBuf.C108_overruns`
- `Mu.Arr.C109_priority_queue`
- `Mu.Arr.C109_after_sort`
- `Mu.BBuf.C110_find`
- `Mu.BBuf.C110_calls`
- `Mu.BBuf.C110_ltrim`
- `Mu.BBuf.C110_rtrim`
- `Mu.BBuf.C110_trim`
- `Mu.Bisync.C111_decode_in_place`
- `Mu.Bisync.C111_encode_in_place`
- `Mu.Bisync.C111_frame_in_place`
- `Mu.Bisync.C111_encode_to_front`
- `Mu.Sched.C112_isr_wait`
- `Mu.Sched.C112_immed_wait`
- `Mu.Sched.C112_starvation`
- `Mu.Sched.C113_due_wait`
- `Mu.Jems.C114_anywhere`
- `Mu.Jems.C114_finish`
- `Mu.Jems.C115_truncated`
- `Mu.Jems.C115_buffer`
- `Mu.Jems.C116_exact`
- `Mu.Jems.C116_order`
- `Mu.CS.C117_queue_source_is_bounded_fifo`
- `Mu.CS.C118_spsc_source_is_bounded_fifo`
- `Mu.CS.C118_spsc_source_refuses`
- `Mu.CS.C119_encode_source`
- `Mu.CS.C119_decode_source`
- `Mu.CS.C119_decode_source_refuses`
- `Mu.CS.C119_decode_source_in_place`
- `Mu.CS.C120_compare`
- `Mu.CS.C120_compare_cstr`
- `Mu.CS.C120_prefix_suffix`
- `Mu.CS.C120_prefix_suffix_cstr`
- `Mu.CS.C120_find_substr`
- `Mu.CS.C120_find_subcstr`
- `Mu.CS.C120_find_byte`
- `Mu.CS.C120_find_predicate`
- `Mu.CS.C120_parse_unsigned`
- `Mu.CS.C120_parse_signed`
- `Mu.CS.C120_accessors`
- `Mu.CS.C120_get_byte`
- `Mu.CS.C121_init_cstr`
- `Mu.CS.C121_slice`
- `Mu.CS.C121_slice_below`
- `Mu.CS.C121_bisect`
- `Mu.CS.C121_ltrim`
- `Mu.CS.C121_rtrim`
- `Mu.CS.C121_trim`
- `Mu.CS.C122_put_byte`
- `Mu.CS.C122_clear`
- `Mu.CS.C122_rshift`
- `Mu.CS.C122_reverse`
- `Mu.CS.C122_rrotate`
- `Mu.CS.C122_copy_into`
- `Mu.CS.C123_bvec_source`
- `Mu.CS.C123_at_end`
- `Mu.CS.C124_array_source_is_bounded_list`
- `Mu.CS.C124_delete_last`
- `Mu.CS.C124_delete_inner`
- `Mu.CS.C125_sort`
- `Mu.CS.C125_sort_writes_only_items`
- `Mu.CS.C125_sort_single_item`
- `Mu.CS.C125_insert_sorted`
- `Mu.CS.C125_insert_sorted_writes_only_array`
- `Mu.CS.C126_init`
- `Mu.CS.C127_init`
- `Mu.CS.C127_call`
- `Mu.CS.C127_history`
- `Mu.CS.C127_queue_without_tasks`
- `Mu.CS.C128_init`
- `Mu.CS.C128_frame`
- `Mu.CS.C128_immed`
- `Mu.CS.C128_from_isr`
- `Mu.CS.C128_defer_until`
- `Mu.CS.C128_defer_for`
- `Mu.CS.C128_remove`
- `Mu.CS.C128_reset`
- `Mu.CS.C128_questions`
- `Mu.CS.C128_set_idle`
- `Mu.CS.C128_transfer`
- `Mu.CS.C128_step`
- `Mu.CS.C128_return`
- `Mu.CS.C128_step_returns`
- `Mu.CS.C129_get`
- `Mu.CS.C129_log`
- `Mu.CS.C129_quiet`
- `Mu.CS.C129_level_name`
- `Mu.CS.C129_history`
- `Mu.CS.C130_document`
- `Mu.CS.C130_read_back`
- `Mu.CS.C130_calls`
- `Mu.CS.C130_counts`
- `Mu.CS.C131_steps`
- `Mu.CS.C131_program`
- `Mu.CS.C131_moment`
- `Mu.CS.C131_accounts`
- `Mu.CS.Conc.C132_linearizable`
- `Mu.CS.Conc.C132_wait_free`
- `Mu.CS.Isr.C134_interrupted`
- `Mu.CS.Isr.C134_finished`
- `Mu.CS.Isr.C134_accounts`
- `Mu.CS.Isr.C134_prompt`
- `Mu.CS.Sys.C135_program`
- `Mu.CS.Sys.C135_moment`
- `Mu.CS.Sys.C135_init`
- `Mu.CS.Sys.C135_contents`
- `Mu.CS.Tele.C136_emit`
- `Mu.CS.Tele.C136_received`
- `Mu.CS.Tele.C136_integer`
- `Mu.CS.Tele.C136_truncated`
- `Mu.CS.C137_sort`
- `Mu.CS.C137_insert_sorted`
- `Mu.CS.Conc.C138_fifo`
- `Mu.CS.Conc.C138_succeeds`
- `Mu.CS.Conc.C138_link`
- `Mu.CS.Tso.C139_fifo`
- `Mu.CS.Tso.C139_succeeds`
- `Mu.CS.Tso.C139_link`
- `Mu.CS.Tso.C139_order_matters`
- `Mu.CS.Story.C140_program`
- `Mu.CS.Story.C140_interrupted`
- `Mu.CS.Story.C140_hooks`
- `Mu.CS.Story.C140_hook_calls`
- `Mu.CS.Kern.C141_program`
- `Mu.CS.Kern.C141_moment`
- `Mu.CS.Kern.C141_init`
- `Mu.CS.Kern.C141_contents`
- `Mu.CS.Kern.C141_hooked`
- `Mu.CS.C142_containers`
- `Mu.CS.C142_each_alone`
- `Mu.CS.Isr.C143_interrupted`
- `Mu.CS.Isr.C143_finished`
- `Mu.CS.Isr.C143_never_twice`
- `Mu.CS.Isr.C143_prompt`
- `Mu.CS.Isr.C143_forgets`
- `Mu.CS.Isr.C143_accounts`

## propext, Quot.sound (37)

- `Mu.Task.C34_safe`
- `Mu.Task.C35_set_state_partial`
- `Mu.Task.C35_state_becomes_partial`
- `Mu.Log.C36_conforms`
- `Mu.Log.C36_level_in_logging_function`
- `Mu.BBuf.C42_not_found_iff`
- `Mu.BBuf.C46_parse_uint`
- `Mu.BBuf.C46_none`
- `Mu.BBuf.C49_get`
- `Mu.BBuf.C50_false`
- `Mu.BBuf.C50_no_overlap_partial`
- `Mu.BBuf.C53_int_min_false`
- `Mu.Arr.C66_single_item`
- `Mu.Task.C68_set_state`
- `Mu.BBuf.C70_bisect_below`
- `Mu.System.C83_scheduler_view`
- `Mu.System.C83_call_sequence`
- `Mu.Sched.Smp.C85_step_bounded`
- `Mu.Sched.Smp.C85_isr_bounded`
- `Mu.BBuf.C87_init_cstr`
- `Mu.System.C99_notification_is_call`
- `Mu.System.C99_isolated`
- `Mu.BBuf.C110_stateless`
- `Mu.CS.C121_init`
- `Mu.CS.C121_copy`
- `Mu.CS.C126_getters`
- `Mu.CS.C126_set_user_info`
- `Mu.CS.C126_install`
- `Mu.CS.C126_null`
- `Mu.CS.C126_call`
- `Mu.CS.C126_set_state`
- `Mu.CS.C126_transfer`
- `Mu.CS.C129_set`
- `Mu.CS.Conc.C132_access_by_access`
- `Mu.CS.C133_order_of_evaluation`
- `Mu.CS.C133_any_two_orders`
- `Mu.CS.C133_some_outcome`
