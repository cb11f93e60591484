{
 "claims": [
  {
   "property": "C01",
   "status": "proved",
   "theorems": [
    "Mu.Bisync.C01_encode_exact",
    "Mu.Bisync.C01_large_capacity_refused"
   ],
   "note": "Includes that a capacity above INT_MAX is converted modulo 2^ib (C01_large_capacity_refused)."
  },
  {
   "property": "C02",
   "status": "partial",
   "theorems": [
    "Mu.Bisync.C02_false",
    "Mu.Bisync.C02_decode_encode_partial",
    "Mu.Bisync.C02_encode_then_decode_partial"
   ],
   "note": "False of the code: mu_bisync_decode copies the SOH into the output (C02_false). Proved: decoding an encoded payload gives SOH followed by the payload, always. Exact behaviour: C63."
  },
  {
   "property": "C03",
   "status": "proved",
   "theorems": [
    "Mu.Bisync.C03_sent_injective",
    "Mu.Bisync.C03_sent_prefix_free",
    "Mu.Bisync.C03_trailing_bytes_ignored"
   ],
   "note": ""
  },
  {
   "property": "C04",
   "status": "partial",
   "theorems": [
    "Mu.Bisync.C04_false",
    "Mu.Bisync.C04_decode_accepts_partial"
   ],
   "note": "False of the code: [SOH, DLE, EOT] is accepted (C04_false). Proved: the exact set of accepted inputs. See C64."
  },
  {
   "property": "C05",
   "status": "proved",
   "theorems": [
    "Mu.Bisync.C05_encode_safe",
    "Mu.Bisync.C05_decode_safe"
   ],
   "note": ""
  },
  {
   "property": "C06",
   "status": "proved",
   "theorems": [
    "Mu.Queue.C06_queue_is_bounded_fifo",
    "Mu.Queue.C06_failed_calls_change_nothing"
   ],
   "note": ""
  },
  {
   "property": "C07",
   "status": "proved",
   "theorems": [
    "Mu.Queue.C07_queue_memory_safe",
    "Mu.Queue.C07_queue_exact_storage"
   ],
   "note": ""
  },
  {
   "property": "C08",
   "status": "proved",
   "theorems": [
    "Mu.Mqueue.C08_mqueue_is_bounded_fifo",
    "Mu.Mqueue.C08_conforms",
    "Mu.Mqueue.C08_get_delivers_oldest"
   ],
   "note": ""
  },
  {
   "property": "C09",
   "status": "proved",
   "theorems": [
    "Mu.Mqueue.C09_notification_order",
    "Mu.Mqueue.C09_notified_exactly_once"
   ],
   "note": ""
  },
  {
   "property": "C10",
   "status": "proved",
   "theorems": [
    "Mu.Mqueue.C10_counting_semaphore",
    "Mu.Mqueue.C10_returns_match_effects"
   ],
   "note": ""
  },
  {
   "property": "C11",
   "status": "proved",
   "theorems": [
    "Mu.Spsc.C11_sequential_fifo"
   ],
   "note": ""
  },
  {
   "property": "C12",
   "status": "proved",
   "theorems": [
    "Mu.Spsc.C12_fifo_all_interleavings",
    "Mu.Spsc.C12_nothing_lost"
   ],
   "note": ""
  },
  {
   "property": "C13",
   "status": "proved",
   "theorems": [
    "Mu.Spsc.C13_full_not_spurious",
    "Mu.Spsc.C13_empty_not_spurious",
    "Mu.Spsc.C13_wait_free"
   ],
   "note": ""
  },
  {
   "property": "C14",
   "status": "proved",
   "theorems": [
    "Mu.Spsc.C14_no_slot_race"
   ],
   "note": ""
  },
  {
   "property": "C15",
   "status": "proved",
   "theorems": [
    "Mu.Spsc.C15_init_iff_power_of_two",
    "Mu.Spsc.C15_init_failure",
    "Mu.Spsc.C15_init_success"
   ],
   "note": ""
  },
  {
   "property": "C16",
   "status": "proved",
   "theorems": [
    "Mu.Arr.C16_array_is_bounded_list",
    "Mu.Arr.C16_reachable",
    "Mu.Arr.C16_failed_calls_change_nothing"
   ],
   "note": ""
  },
  {
   "property": "C17",
   "status": "partial",
   "theorems": [
    "Mu.Arr.C17_delete_false",
    "Mu.Arr.C17_delete_oob_false",
    "Mu.Arr.C17_delete_partial"
   ],
   "note": "False of the code: deleting an item that is not the last leaves the count unchanged and reads past the used part (C17_delete_false), outside the storage if the array is full (C17_delete_oob_false). Proved: correct exactly for the last item and out-of-range indices. Exact behaviour: C65."
  },
  {
   "property": "C18",
   "status": "proved",
   "theorems": [
    "Mu.Arr.C18_index_rindex"
   ],
   "note": ""
  },
  {
   "property": "C19",
   "status": "partial",
   "theorems": [
    "Mu.Arr.C19_sort_single_item_false",
    "Mu.Arr.C19_sort_partial",
    "Mu.Arr.C19_sort_lp64"
   ],
   "note": "False for one item where size_t is as wide as int: signed overflow in heapify (C19_sort_single_item_false). Proved in every other case (up to (INT_MAX+1)/2 items). See C66."
  },
  {
   "property": "C20",
   "status": "partial",
   "theorems": [
    "Mu.Arr.C20_sort_single_item_false",
    "Mu.Arr.C20_sort_any_comparator_partial"
   ],
   "note": "As C19: false only for one item where size_t is as wide as int; proved in every other case. See C67."
  },
  {
   "property": "C21",
   "status": "proved",
   "theorems": [
    "Mu.Arr.C21_insert_sorted",
    "Mu.Arr.C21_insert_sorted_full",
    "Mu.Arr.C21_insert_sorted_safe"
   ],
   "note": ""
  },
  {
   "property": "C22",
   "status": "proved",
   "theorems": [
    "Mu.Sched.C22_no_fault",
    "Mu.Sched.C22_priority",
    "Mu.Sched.C22_one_task_per_step"
   ],
   "note": ""
  },
  {
   "property": "C23",
   "status": "proved",
   "theorems": [
    "Mu.Sched.C23_time_order",
    "Mu.Sched.C23_none_earlier"
   ],
   "note": ""
  },
  {
   "property": "C24",
   "status": "proved",
   "theorems": [
    "Mu.Sched.C24_never_early"
   ],
   "note": ""
  },
  {
   "property": "C25",
   "status": "proved",
   "theorems": [
    "Mu.Sched.C25_conservation",
    "Mu.Sched.C25_called_iff_taken"
   ],
   "note": ""
  },
  {
   "property": "C26",
   "status": "proved",
   "theorems": [
    "Mu.Sched.C26_full_iff",
    "Mu.Sched.C26_full_changes_nothing"
   ],
   "note": ""
  },
  {
   "property": "C27",
   "status": "proved",
   "theorems": [
    "Mu.Sched.C27_remove_result",
    "Mu.Sched.C27_not_run_after_removal",
    "Mu.Sched.C27_removes_exactly"
   ],
   "note": ""
  },
  {
   "property": "C28",
   "status": "proved",
   "theorems": [
    "Mu.Sched.C28_current_is_running",
    "Mu.Sched.C28_null_outside",
    "Mu.Sched.C28_steps_balanced"
   ],
   "note": ""
  },
  {
   "property": "C29",
   "status": "proved",
   "theorems": [
    "Mu.Sched.C29_reset_is_fresh"
   ],
   "note": ""
  },
  {
   "property": "C30",
   "status": "proved",
   "theorems": [
    "Mu.Sched.C30_isr_position",
    "Mu.Sched.C30_deferred_position",
    "Mu.Sched.C30_immediate_position",
    "Mu.Sched.C30_no_starvation"
   ],
   "note": ""
  },
  {
   "property": "C31",
   "status": "proved",
   "theorems": [
    "Mu.Sched.C31_isr_fifo",
    "Mu.Sched.C31_immed_fifo"
   ],
   "note": ""
  },
  {
   "property": "C32",
   "status": "proved",
   "theorems": [
    "Mu.Sched.C32_interrupted_step",
    "Mu.Sched.C32_reachable"
   ],
   "note": ""
  },
  {
   "property": "C33",
   "status": "proved",
   "theorems": [
    "Mu.Sched.C33_window_is_proper",
    "Mu.Sched.C33_wraparound"
   ],
   "note": ""
  },
  {
   "property": "C34",
   "status": "proved",
   "theorems": [
    "Mu.Task.C34_conforms",
    "Mu.Task.C34_safe",
    "Mu.Task.C34_exactly_once"
   ],
   "note": ""
  },
  {
   "property": "C35",
   "status": "partial",
   "theorems": [
    "Mu.Task.C35_no_effect_if_equal_false",
    "Mu.Task.C35_set_state_partial",
    "Mu.Task.C35_state_becomes_partial"
   ],
   "note": "False of the code: the hook is called and the state written even if the new state equals the old (C35_no_effect_if_equal_false). Proved: everything else. Exact behaviour: C68."
  },
  {
   "property": "C36",
   "status": "proved",
   "theorems": [
    "Mu.Log.C36_conforms",
    "Mu.Log.C36_level_in_logging_function"
   ],
   "note": ""
  },
  {
   "property": "C37",
   "status": "proved",
   "theorems": [
    "Mu.Log.C37_level_name"
   ],
   "note": ""
  },
  {
   "property": "C38",
   "status": "proved",
   "theorems": [
    "Mu.BBuf.C38_compare",
    "Mu.BBuf.C38_antisymmetric",
    "Mu.BBuf.C38_transitive",
    "Mu.BBuf.C38_matches",
    "Mu.BBuf.C38_cstr"
   ],
   "note": ""
  },
  {
   "property": "C39",
   "status": "partial",
   "theorems": [
    "Mu.BBuf.C39_false",
    "Mu.BBuf.C39_slice_partial"
   ],
   "note": "False of the code for start or end below -capacity (C39_false). Proved for indices from -capacity up. Exact behaviour: C69."
  },
  {
   "property": "C40",
   "status": "partial",
   "theorems": [
    "Mu.BBuf.C40_false",
    "Mu.BBuf.C40_bisect_partial"
   ],
   "note": "False of the code for an index below -capacity (C40_false). Proved from -capacity up. Exact behaviour: C70."
  },
  {
   "property": "C41",
   "status": "proved",
   "theorems": [
    "Mu.BBuf.C41_prefix_suffix",
    "Mu.BBuf.C41_cstr"
   ],
   "note": ""
  },
  {
   "property": "C42",
   "status": "proved",
   "theorems": [
    "Mu.BBuf.C42_find_substr",
    "Mu.BBuf.C42_find_subcstr",
    "Mu.BBuf.C42_not_found_iff"
   ],
   "note": "NOT_FOUND characterises absence for capacities below INT_MAX; at exactly INT_MAX a found position can equal MU_BBUF_NOT_FOUND."
  },
  {
   "property": "C43",
   "status": "proved",
   "theorems": [
    "Mu.BBuf.C43_byte",
    "Mu.BBuf.C43_predicate"
   ],
   "note": ""
  },
  {
   "property": "C44",
   "status": "partial",
   "theorems": [
    "Mu.BBuf.C44_false",
    "Mu.BBuf.C44_ltrim_partial"
   ],
   "note": "False of the code: if every byte matches, the whole buffer is returned (C44_false). Proved if some byte does not match. Exact behaviour: C71."
  },
  {
   "property": "C45",
   "status": "partial",
   "theorems": [
    "Mu.BBuf.C45_rtrim_false",
    "Mu.BBuf.C45_rtrim_partial",
    "Mu.BBuf.C45_trim_partial"
   ],
   "note": "False of the code: rtrim also drops the last byte that does not match, and returns everything if all match (C45_rtrim_false). Proved: what it returns. Exact behaviour: C72."
  },
  {
   "property": "C46",
   "status": "proved",
   "theorems": [
    "Mu.BBuf.C46_parse_uint",
    "Mu.BBuf.C46_none"
   ],
   "note": ""
  },
  {
   "property": "C47",
   "status": "partial",
   "theorems": [
    "Mu.BBuf.C47_false",
    "Mu.BBuf.C47_narrow_partial",
    "Mu.BBuf.C47_wide_partial"
   ],
   "note": "False of the code: the text of the least value of a type at least as wide as int overflows (C47_false). Proved: all values that do not overflow, and the modular result of the narrow types. Exact behaviour: C73."
  },
  {
   "property": "C48",
   "status": "proved",
   "theorems": [
    "Mu.BBuf.C48_parse_hex"
   ],
   "note": ""
  },
  {
   "property": "C49",
   "status": "proved",
   "theorems": [
    "Mu.BBuf.C49_get",
    "Mu.BBuf.C49_put",
    "Mu.BBuf.C49_ref",
    "Mu.BBuf.C49_clear"
   ],
   "note": ""
  },
  {
   "property": "C50",
   "status": "partial",
   "theorems": [
    "Mu.BBuf.C50_false",
    "Mu.BBuf.C50_no_overlap_partial"
   ],
   "note": "False of the code: every path that copies reads uninitialised variables (C50_false). Proved: only the paths that copy nothing are defined. Exact behaviour: C74."
  },
  {
   "property": "C51",
   "status": "partial",
   "theorems": [
    "Mu.BBuf.C51_reverse_partial",
    "Mu.BBuf.C51_empty_false"
   ],
   "note": "Proved for every non-empty buffer; for an empty one the code forms a pointer before the buffer (C51_empty_false). Exact: C75."
  },
  {
   "property": "C52",
   "status": "partial",
   "theorems": [
    "Mu.BBuf.C52_rrotate_partial",
    "Mu.BBuf.C52_empty_false"
   ],
   "note": "Proved for every non-empty buffer; for an empty one the code does not terminate (C52_empty_false). Exact: C76."
  },
  {
   "property": "C53",
   "status": "partial",
   "theorems": [
    "Mu.BBuf.C53_rshift_partial",
    "Mu.BBuf.C53_int_min_false"
   ],
   "note": "Proved for every shift except INT_MIN, which the code negates (C53_int_min_false). Exact: C77."
  },
  {
   "property": "C54",
   "status": "proved",
   "theorems": [
    "Mu.BVec.C54_write_read_back"
   ],
   "note": ""
  },
  {
   "property": "C55",
   "status": "proved",
   "theorems": [
    "Mu.BVec.C55_refines",
    "Mu.BVec.C55_bounds"
   ],
   "note": ""
  },
  {
   "property": "C56",
   "status": "proved",
   "theorems": [
    "Mu.Jems.C56_document",
    "Mu.Jems.C56_read_back",
    "Mu.Jems.C56_injective",
    "Mu.Jems.C56_sequence",
    "Mu.Jems.C56_item_limit"
   ],
   "note": "Domain: nesting below max_level, fewer items per level than SIZE_MAX (C56_item_limit shows what happens otherwise)."
  },
  {
   "property": "C57",
   "status": "proved",
   "theorems": [
    "Mu.Jems.C57_bytes",
    "Mu.Jems.C57_string"
   ],
   "note": ""
  },
  {
   "property": "C58",
   "status": "proved",
   "theorems": [
    "Mu.Jems.C58_levels",
    "Mu.Jems.C58_zero_levels"
   ],
   "note": "max_level 0 is undefined behaviour (C58_zero_levels); everything else is safe at every depth."
  },
  {
   "property": "C59",
   "status": "proved",
   "theorems": [
    "Mu.Jems.C59_integer"
   ],
   "note": ""
  },
  {
   "property": "C60",
   "status": "proved",
   "theorems": [
    "Mu.Jems.C60_positions"
   ],
   "note": ""
  },
  {
   "property": "C61",
   "status": "proved",
   "theorems": [
    "Mu.Jems.C61_integral",
    "Mu.Jems.C61_fraction",
    "Mu.Jems.C61_document"
   ],
   "note": ""
  },
  {
   "property": "C62",
   "status": "proved",
   "theorems": [
    "Mu.Jems.C62_out_of_range",
    "Mu.Jems.C62_defined_iff"
   ],
   "note": ""
  },
  {
   "property": "C63",
   "status": "proved",
   "theorems": [
    "Mu.Bisync.C63_decode_frame",
    "Mu.Bisync.C63_round_trip"
   ],
   "note": ""
  },
  {
   "property": "C64",
   "status": "proved",
   "theorems": [
    "Mu.Bisync.C64_no_soh",
    "Mu.Bisync.C64_decode_exact",
    "Mu.Bisync.C64_every_input"
   ],
   "note": ""
  },
  {
   "property": "C65",
   "status": "proved",
   "theorems": [
    "Mu.Arr.C65_delete_last",
    "Mu.Arr.C65_delete_inner",
    "Mu.Arr.C65_delete_then_pop"
   ],
   "note": ""
  },
  {
   "property": "C66",
   "status": "proved",
   "theorems": [
    "Mu.Arr.C66_sort",
    "Mu.Arr.C66_single_item"
   ],
   "note": ""
  },
  {
   "property": "C67",
   "status": "proved",
   "theorems": [
    "Mu.Arr.C67_sort_any_comparator"
   ],
   "note": ""
  },
  {
   "property": "C68",
   "status": "proved",
   "theorems": [
    "Mu.Task.C68_set_state"
   ],
   "note": ""
  },
  {
   "property": "C69",
   "status": "proved",
   "theorems": [
    "Mu.BBuf.C69_slice",
    "Mu.BBuf.C69_slice_below"
   ],
   "note": ""
  },
  {
   "property": "C70",
   "status": "proved",
   "theorems": [
    "Mu.BBuf.C70_bisect",
    "Mu.BBuf.C70_bisect_below"
   ],
   "note": ""
  },
  {
   "property": "C71",
   "status": "proved",
   "theorems": [
    "Mu.BBuf.C71_ltrim"
   ],
   "note": ""
  },
  {
   "property": "C72",
   "status": "proved",
   "theorems": [
    "Mu.BBuf.C72_rtrim"
   ],
   "note": ""
  },
  {
   "property": "C73",
   "status": "proved",
   "theorems": [
    "Mu.BBuf.C73_parse_int"
   ],
   "note": ""
  },
  {
   "property": "C74",
   "status": "proved",
   "theorems": [
    "Mu.BBuf.C74_copy_into"
   ],
   "note": ""
  },
  {
   "property": "C75",
   "status": "proved",
   "theorems": [
    "Mu.BBuf.C75_reverse"
   ],
   "note": ""
  },
  {
   "property": "C76",
   "status": "proved",
   "theorems": [
    "Mu.BBuf.C76_rrotate"
   ],
   "note": ""
  },
  {
   "property": "C77",
   "status": "proved",
   "theorems": [
    "Mu.BBuf.C77_rshift"
   ],
   "note": ""
  },
  {
   "property": "C78",
   "status": "proved",
   "theorems": [
    "Mu.Spsc.Lin.C78_linearizable"
   ],
   "note": ""
  },
  {
   "property": "C79",
   "status": "proved",
   "theorems": [
    "Mu.Spsc.Tso.C79_fifo_store_buffers",
    "Mu.Spsc.Tso.C79_nothing_lost"
   ],
   "note": "Store buffers are FIFO per thread (x86-TSO). With reordered stores FIFO fails: swapped_stores_break_fifo in Props/SpscTso."
  },
  {
   "property": "C80",
   "status": "proved",
   "theorems": [
    "Mu.Sched.C80_next_task",
    "Mu.Sched.C80_changes_nothing",
    "Mu.Sched.C80_predicts"
   ],
   "note": ""
  },
  {
   "property": "C81",
   "status": "proved",
   "theorems": [
    "Mu.Sched.C81_idle_is_last_set",
    "Mu.Sched.C81_null_if_never_set"
   ],
   "note": ""
  },
  {
   "property": "C82",
   "status": "proved",
   "theorems": [
    "Mu.Sched.C82_no_hidden_state"
   ],
   "note": ""
  },
  {
   "property": "C83",
   "status": "proved",
   "theorems": [
    "Mu.System.C83_scheduler_view",
    "Mu.System.C83_task_view",
    "Mu.System.C83_safe",
    "Mu.System.C83_call_sequence",
    "Mu.System.C83_one_run_per_choice",
    "Mu.System.C83_current"
   ],
   "note": ""
  },
  {
   "property": "C84",
   "status": "proved",
   "theorems": [
    "Mu.System.C84_transfer",
    "Mu.System.C84_wait"
   ],
   "note": ""
  },
  {
   "property": "C85",
   "status": "proved",
   "theorems": [
    "Mu.Sched.Smp.C85_linearizable",
    "Mu.Sched.Smp.C85_step_bounded",
    "Mu.Sched.Smp.C85_isr_bounded"
   ],
   "note": ""
  },
  {
   "property": "C86",
   "status": "proved",
   "theorems": [
    "Mu.Sched.C86_interrupted_reset",
    "Mu.Sched.C86_concurrent_reset_stale"
   ],
   "note": "Includes the negative part: with a producer on another core during the reset, a task can run twice (C86_concurrent_reset_stale)."
  },
  {
   "property": "C87",
   "status": "proved",
   "theorems": [
    "Mu.BBuf.C87_init",
    "Mu.BBuf.C87_init_cstr",
    "Mu.BBuf.C87_copy",
    "Mu.BVec.C87_bvec_init"
   ],
   "note": ""
  },
  {
   "property": "C88",
   "status": "proved",
   "theorems": [
    "Mu.Jems.C88_into_bvec",
    "Mu.Jems.C88_contents"
   ],
   "note": ""
  },
  {
   "property": "C89",
   "status": "proved",
   "theorems": [
    "Mu.BBuf.C89_rotations_compose",
    "Mu.BBuf.C89_rotate_back"
   ],
   "note": ""
  },
  {
   "property": "C90",
   "status": "proved",
   "theorems": [
    "Mu.BBuf.C90_bisect_slices"
   ],
   "note": ""
  },
  {
   "property": "C91",
   "status": "proved",
   "theorems": [
    "Mu.Jems.C91_integer_parse",
    "Mu.Jems.C91_int64_min",
    "Mu.Jems.C91_unsigned_parse"
   ],
   "note": ""
  },
  {
   "property": "C92",
   "status": "proved",
   "theorems": [
    "Mu.Arr.C92_sort_calls",
    "Mu.Arr.C92_sort_calls_observed",
    "Mu.Arr.C92_insert_sorted_calls"
   ],
   "note": ""
  },
  {
   "property": "C93",
   "status": "proved",
   "theorems": [
    "Mu.Spsc.C93_nested_put",
    "Mu.Spsc.C93_nested_put_full",
    "Mu.Spsc.C93_between_calls"
   ],
   "note": ""
  },
  {
   "property": "C94",
   "status": "proved",
   "theorems": [
    "Mu.Arr.C94_sort_compares_items",
    "Mu.Arr.C94_insert_sorted_compares_items"
   ],
   "note": ""
  },
  {
   "property": "C95",
   "status": "proved",
   "theorems": [
    "Mu.Arr.C95_sort_bbufs",
    "Mu.Arr.C95_insert_sorted_bbufs"
   ],
   "note": ""
  },
  {
   "property": "C96",
   "status": "proved",
   "theorems": [
    "Mu.BBuf.C96_slice_of_slice"
   ],
   "note": ""
  },
  {
   "property": "C97",
   "status": "proved",
   "theorems": [
    "Mu.Bisync.C97_stream_unambiguous",
    "Mu.Bisync.C97_decode_in_stream"
   ],
   "note": ""
  },
  {
   "property": "C98",
   "status": "proved",
   "theorems": [
    "Mu.Bisync.C98_truncated_frame",
    "Mu.Bisync.C98_no_eot_detected"
   ],
   "note": ""
  },
  {
   "property": "C99",
   "status": "proved",
   "theorems": [
    "Mu.System.C99_queue_view",
    "Mu.System.C99_notification_is_call",
    "Mu.System.C99_notified_once",
    "Mu.System.C99_isolated"
   ],
   "note": ""
  },
  {
   "property": "C100",
   "status": "proved",
   "theorems": [
    "Mu.System.C100_semaphore",
    "Mu.System.C100_mutex"
   ],
   "note": ""
  },
  {
   "property": "C101",
   "status": "proved",
   "theorems": [
    "Mu.Spsc.Re.C101_same_results",
    "Mu.Spsc.Re.C101_fifo",
    "Mu.Spsc.Re.C101_late_load",
    "Mu.Spsc.Re.C101_store_order_matters"
   ],
   "note": ""
  },
  {
   "property": "C102",
   "status": "proved",
   "theorems": [
    "Mu.Link.C102_link",
    "Mu.Link.C102_link_store_buffers",
    "Mu.Link.C102_all_received"
   ],
   "note": ""
  },
  {
   "property": "C103",
   "status": "proved",
   "theorems": [
    "Mu.System.C103_consumer_on_its_way",
    "Mu.System.C103_idle_means_empty"
   ],
   "note": ""
  },
  {
   "property": "C104",
   "status": "proved",
   "theorems": [
    "Mu.Sched.C104_only_comparisons_matter",
    "Mu.Sched.C104_wrapping_clock"
   ],
   "note": ""
  },
  {
   "property": "C105",
   "status": "proved",
   "theorems": [
    "Mu.Sched.C105_at_least_period",
    "Mu.Sched.C105_kth_run"
   ],
   "note": ""
  },
  {
   "property": "C106",
   "status": "proved",
   "theorems": [
    "Mu.Telemetry.C106_frame_is_text",
    "Mu.Telemetry.C106_truncation_detected",
    "Mu.Telemetry.C106_documents_arrive"
   ],
   "note": ""
  },
  {
   "property": "C107",
   "status": "proved",
   "theorems": [
    "Mu.Telemetry.C107_join_late"
   ],
   "note": ""
  },
  {
   "property": "C108",
   "status": "proved",
   "theorems": [
    "Mu.BBuf.C108_copies",
    "Mu.BBuf.C108_intended",
    "Mu.BBuf.C108_overruns"
   ],
   "note": ""
  },
  {
   "property": "C109",
   "status": "proved",
   "theorems": [
    "Mu.Arr.C109_priority_queue",
    "Mu.Arr.C109_after_sort"
   ],
   "note": ""
  },
  {
   "property": "C110",
   "status": "proved",
   "theorems": [
    "Mu.BBuf.C110_find",
    "Mu.BBuf.C110_calls",
    "Mu.BBuf.C110_ltrim",
    "Mu.BBuf.C110_rtrim",
    "Mu.BBuf.C110_trim",
    "Mu.BBuf.C110_stateless"
   ],
   "note": ""
  },
  {
   "property": "C111",
   "status": "proved",
   "theorems": [
    "Mu.Bisync.C111_decode_in_place",
    "Mu.Bisync.C111_encode_in_place",
    "Mu.Bisync.C111_frame_in_place",
    "Mu.Bisync.C111_encode_to_front",
    "Mu.Bisync.C111_overlap_matters"
   ],
   "note": ""
  },
  {
   "property": "C112",
   "status": "proved",
   "theorems": [
    "Mu.Sched.C112_isr_wait",
    "Mu.Sched.C112_immed_wait",
    "Mu.Sched.C112_starvation"
   ],
   "note": ""
  },
  {
   "property": "C113",
   "status": "proved",
   "theorems": [
    "Mu.Sched.C113_due_wait"
   ],
   "note": ""
  },
  {
   "property": "C114",
   "status": "proved",
   "theorems": [
    "Mu.Jems.C114_anywhere",
    "Mu.Jems.C114_finish"
   ],
   "note": ""
  },
  {
   "property": "C115",
   "status": "proved",
   "theorems": [
    "Mu.Jems.C115_truncated",
    "Mu.Jems.C115_buffer"
   ],
   "note": ""
  },
  {
   "property": "C116",
   "status": "proved",
   "theorems": [
    "Mu.Jems.C116_exact",
    "Mu.Jems.C116_order"
   ],
   "note": ""
  },
  {
   "property": "C117",
   "status": "proved",
   "theorems": [
    "Mu.CS.C117_queue_source_is_bounded_fifo"
   ],
   "note": ""
  },
  {
   "property": "C118",
   "status": "proved",
   "theorems": [
    "Mu.CS.C118_spsc_source_is_bounded_fifo",
    "Mu.CS.C118_spsc_source_refuses"
   ],
   "note": ""
  },
  {
   "property": "C119",
   "status": "proved",
   "theorems": [
    "Mu.CS.C119_encode_source",
    "Mu.CS.C119_decode_source",
    "Mu.CS.C119_decode_source_refuses",
    "Mu.CS.C119_decode_source_in_place"
   ],
   "note": ""
  },
  {
   "property": "C120",
   "status": "proved",
   "theorems": [
    "Mu.CS.C120_compare",
    "Mu.CS.C120_compare_cstr",
    "Mu.CS.C120_prefix_suffix",
    "Mu.CS.C120_prefix_suffix_cstr",
    "Mu.CS.C120_find_substr",
    "Mu.CS.C120_find_subcstr",
    "Mu.CS.C120_find_byte",
    "Mu.CS.C120_find_predicate",
    "Mu.CS.C120_parse_unsigned",
    "Mu.CS.C120_parse_signed",
    "Mu.CS.C120_accessors",
    "Mu.CS.C120_get_byte"
   ],
   "note": ""
  },
  {
   "property": "C121",
   "status": "proved",
   "theorems": [
    "Mu.CS.C121_init",
    "Mu.CS.C121_init_cstr",
    "Mu.CS.C121_copy",
    "Mu.CS.C121_slice",
    "Mu.CS.C121_slice_below",
    "Mu.CS.C121_bisect",
    "Mu.CS.C121_ltrim",
    "Mu.CS.C121_rtrim",
    "Mu.CS.C121_trim"
   ],
   "note": ""
  },
  {
   "property": "C122",
   "status": "proved",
   "theorems": [
    "Mu.CS.C122_put_byte",
    "Mu.CS.C122_clear",
    "Mu.CS.C122_rshift",
    "Mu.CS.C122_reverse",
    "Mu.CS.C122_rrotate",
    "Mu.CS.C122_copy_into"
   ],
   "note": ""
  },
  {
   "property": "C123",
   "status": "proved",
   "theorems": [
    "Mu.CS.C123_bvec_source",
    "Mu.CS.C123_at_end"
   ],
   "note": ""
  },
  {
   "property": "C124",
   "status": "proved",
   "theorems": [
    "Mu.CS.C124_array_source_is_bounded_list",
    "Mu.CS.C124_delete_last",
    "Mu.CS.C124_delete_inner"
   ],
   "note": ""
  },
  {
   "property": "C125",
   "status": "proved",
   "theorems": [
    "Mu.CS.C125_sort",
    "Mu.CS.C125_sort_writes_only_items",
    "Mu.CS.C125_sort_single_item",
    "Mu.CS.C125_insert_sorted",
    "Mu.CS.C125_insert_sorted_writes_only_array"
   ],
   "note": ""
  },
  {
   "property": "C126",
   "status": "proved",
   "theorems": [
    "Mu.CS.C126_init",
    "Mu.CS.C126_getters",
    "Mu.CS.C126_set_user_info",
    "Mu.CS.C126_install",
    "Mu.CS.C126_null",
    "Mu.CS.C126_call",
    "Mu.CS.C126_set_state",
    "Mu.CS.C126_transfer"
   ],
   "note": ""
  },
  {
   "property": "C127",
   "status": "proved",
   "theorems": [
    "Mu.CS.C127_init",
    "Mu.CS.C127_call",
    "Mu.CS.C127_history",
    "Mu.CS.C127_queue_without_tasks"
   ],
   "note": ""
  },
  {
   "property": "C128",
   "status": "proved",
   "theorems": [
    "Mu.CS.C128_init",
    "Mu.CS.C128_frame",
    "Mu.CS.C128_immed",
    "Mu.CS.C128_from_isr",
    "Mu.CS.C128_defer_until",
    "Mu.CS.C128_defer_for",
    "Mu.CS.C128_remove",
    "Mu.CS.C128_reset",
    "Mu.CS.C128_questions",
    "Mu.CS.C128_set_idle",
    "Mu.CS.C128_transfer",
    "Mu.CS.C128_step",
    "Mu.CS.C128_return",
    "Mu.CS.C128_step_returns"
   ],
   "note": ""
  },
  {
   "property": "C129",
   "status": "proved",
   "theorems": [
    "Mu.CS.C129_set",
    "Mu.CS.C129_get",
    "Mu.CS.C129_log",
    "Mu.CS.C129_quiet",
    "Mu.CS.C129_level_name",
    "Mu.CS.C129_history"
   ],
   "note": ""
  },
  {
   "property": "C130",
   "status": "proved",
   "theorems": [
    "Mu.CS.C130_document",
    "Mu.CS.C130_read_back",
    "Mu.CS.C130_calls",
    "Mu.CS.C130_counts"
   ],
   "note": ""
  },
  {
   "property": "C131",
   "status": "proved",
   "theorems": [
    "Mu.CS.C131_steps",
    "Mu.CS.C131_program",
    "Mu.CS.C131_moment",
    "Mu.CS.C131_accounts"
   ],
   "note": ""
  },
  {
   "property": "C132",
   "status": "proved",
   "theorems": [
    "Mu.CS.Conc.C132_access_by_access",
    "Mu.CS.Conc.C132_linearizable",
    "Mu.CS.Conc.C132_wait_free"
   ],
   "note": ""
  },
  {
   "property": "C133",
   "status": "proved",
   "theorems": [
    "Mu.CS.C133_order_of_evaluation",
    "Mu.CS.C133_any_two_orders",
    "Mu.CS.C133_some_outcome"
   ],
   "note": ""
  },
  {
   "property": "C134",
   "status": "proved",
   "theorems": [
    "Mu.CS.Isr.C134_interrupted",
    "Mu.CS.Isr.C134_finished",
    "Mu.CS.Isr.C134_accounts",
    "Mu.CS.Isr.C134_prompt"
   ],
   "note": ""
  },
  {
   "property": "C135",
   "status": "proved",
   "theorems": [
    "Mu.CS.Sys.C135_program",
    "Mu.CS.Sys.C135_moment",
    "Mu.CS.Sys.C135_init",
    "Mu.CS.Sys.C135_contents"
   ],
   "note": ""
  },
  {
   "property": "C136",
   "status": "proved",
   "theorems": [
    "Mu.CS.Tele.C136_emit",
    "Mu.CS.Tele.C136_received",
    "Mu.CS.Tele.C136_integer",
    "Mu.CS.Tele.C136_truncated"
   ],
   "note": ""
  },
  {
   "property": "C137",
   "status": "proved",
   "theorems": [
    "Mu.CS.C137_sort",
    "Mu.CS.C137_insert_sorted"
   ],
   "note": ""
  },
  {
   "property": "C138",
   "status": "proved",
   "theorems": [
    "Mu.CS.Conc.C138_fifo",
    "Mu.CS.Conc.C138_succeeds",
    "Mu.CS.Conc.C138_link"
   ],
   "note": ""
  },
  {
   "property": "C139",
   "status": "proved",
   "theorems": [
    "Mu.CS.Tso.C139_fifo",
    "Mu.CS.Tso.C139_succeeds",
    "Mu.CS.Tso.C139_link",
    "Mu.CS.Tso.C139_order_matters"
   ],
   "note": ""
  },
  {
   "property": "C140",
   "status": "proved",
   "theorems": [
    "Mu.CS.Story.C140_program",
    "Mu.CS.Story.C140_interrupted",
    "Mu.CS.Story.C140_hooks",
    "Mu.CS.Story.C140_hook_calls"
   ],
   "note": ""
  },
  {
   "property": "C141",
   "status": "proved",
   "theorems": [
    "Mu.CS.Kern.C141_program",
    "Mu.CS.Kern.C141_moment",
    "Mu.CS.Kern.C141_init",
    "Mu.CS.Kern.C141_contents",
    "Mu.CS.Kern.C141_hooked"
   ],
   "note": ""
  },
  {
   "property": "C142",
   "status": "proved",
   "theorems": [
    "Mu.CS.C142_containers",
    "Mu.CS.C142_each_alone"
   ],
   "note": ""
  },
  {
   "property": "C143",
   "status": "proved",
   "theorems": [
    "Mu.CS.Isr.C143_interrupted",
    "Mu.CS.Isr.C143_finished",
    "Mu.CS.Isr.C143_never_twice",
    "Mu.CS.Isr.C143_prompt",
    "Mu.CS.Isr.C143_forgets",
    "Mu.CS.Isr.C143_accounts"
   ],
   "note": ""
  }
 ]
}