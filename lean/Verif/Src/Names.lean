/-! Generated by tools/csrc.py from /repo/mulib/*.c.  The functions and file-scope variables of mulib
and the functions it calls that it does not define. -/

namespace Mu.CS

/-- Every function defined in /repo/mulib/*.c, then every undefined function called there. -/
inductive Fn where
  | mu_queue_init
  | mu_queue_reset
  | mu_queue_capacity
  | mu_queue_count
  | mu_queue_is_empty
  | mu_queue_is_full
  | mu_queue_put
  | mu_queue_get
  | mu_queue_peek
  | access_queue__queue
  | mu_spsc_init
  | mu_spsc_reset
  | mu_spsc_capacity
  | mu_spsc_put
  | mu_spsc_get
  | mu_bbuf_init_ro
  | mu_bbuf_init_rw
  | mu_bbuf_init_cstr
  | mu_bbuf_copy
  | mu_bbuf_bytes_ro
  | mu_bbuf_bytes_rw
  | mu_bbuf_capacity
  | mu_bbuf_ref_ro
  | mu_bbuf_ref_rw
  | mu_bbuf_compare
  | mu_bbuf_compare_cstr
  | mu_bbuf_slice
  | mu_bbuf_bisect
  | mu_bbuf_matches
  | mu_bbuf_matches_cstr
  | mu_bbuf_has_prefix
  | mu_bbuf_has_prefix_cstr
  | mu_bbuf_has_suffix
  | mu_bbuf_has_suffix_cstr
  | mu_bbuf_find_substr
  | mu_bbuf_find_subcstr
  | mu_bbuf_rfind_substr
  | mu_bbuf_rfind_subcstr
  | mu_bbuf_find_byte
  | mu_bbuf_rfind_byte
  | mu_bbuf_find_predicate
  | mu_bbuf_rfind_predicate
  | mu_bbuf_trim
  | mu_bbuf_ltrim
  | mu_bbuf_rtrim
  | mu_bbuf_parse_int
  | mu_bbuf_parse_unsigned_int
  | mu_bbuf_parse_int8
  | mu_bbuf_parse_uint8
  | mu_bbuf_parse_int16
  | mu_bbuf_parse_uint16
  | mu_bbuf_parse_int32
  | mu_bbuf_parse_uint32
  | mu_bbuf_parse_int64
  | mu_bbuf_parse_uint64
  | mu_bbuf_parse_hex
  | mu_bbuf_get_byte
  | mu_bbuf_put_byte
  | mu_bbuf_clear
  | mu_bbuf_copy_into
  | mu_bbuf_reverse
  | mu_bbuf_rrotate
  | mu_bbuf_rshift
  | str_compare_aux__bbuf
  | has_prefix__bbuf
  | has_suffix__bbuf
  | mu_bbuf_find_aux__bbuf
  | mu_bbuf_rfind_aux__bbuf
  | is_decimal__bbuf
  | mu_bvec_init
  | mu_bvec_init_ro
  | mu_bvec_init_rw
  | mu_bvec_reset
  | mu_bvec_get_bbuf
  | mu_bvec_get_capacity
  | mu_bvec_get_count
  | mu_bvec_set_count
  | mu_bvec_get_available
  | mu_bvec_ref_ro
  | mu_bvec_ref_rw
  | mu_bvec_read_byte
  | mu_bvec_write_byte
  | mu_bisync_encode
  | mu_bisync_decode
  | buffer_put__bisync
  | mu_array_init
  | mu_array_reset
  | mu_array_capacity
  | mu_array_count
  | mu_array_is_empty
  | mu_array_is_full
  | mu_array_push
  | mu_array_pop
  | mu_array_peek
  | mu_array_ref
  | mu_array_insert
  | mu_array_delete
  | mu_array_index
  | mu_array_rindex
  | mu_array_sort
  | mu_array_insert_sorted
  | find_insertion_index__array
  | heapify__array
  | sift_down__array
  | swap__array
  | mu_task_init
  | mu_task_install_set_state_hook
  | mu_task_install_call_hook
  | mu_task_install_transfer_hook
  | mu_task_call
  | mu_task_get_fn
  | mu_task_get_state
  | mu_task_set_state
  | mu_task_get_user_info
  | mu_task_set_user_info
  | mu_task_call_transfer_hook
  | mu_mqueue_init
  | mu_mqueue_reset
  | mu_mqueue_capacity
  | mu_mqueue_count
  | mu_mqueue_is_empty
  | mu_mqueue_is_full
  | mu_mqueue_put
  | mu_mqueue_get
  | mu_mqueue_peek
  | access_queue__mqueue
  | mu_sched_init
  | mu_sched_reset
  | mu_sched_step
  | mu_sched_get_idle_task
  | mu_sched_set_idle_task
  | mu_sched_current_task
  | mu_sched_next_task
  | mu_sched_wait
  | mu_sched_transfer
  | mu_sched_immed
  | mu_sched_from_isr
  | mu_sched_defer_until
  | mu_sched_defer_for
  | mu_sched_remove_deferred_task
  | next_deferred_task__sched
  | fetch_runnable_deferred_task__sched
  | defer_aux__sched
  | mu_log_init
  | mu_log_set_reporting_threshold
  | mu_log_get_reporting_threshold
  | mu_log_set_logging_function
  | mu_log_get_logging_function
  | mu_log_get_reporting_level
  | mu_log_is_reporting
  | mu_log_level_name
  | mu_log
  | mu_jems_init
  | mu_jems_reset
  | mu_jems_object_open
  | mu_jems_object_close
  | mu_jems_array_open
  | mu_jems_array_close
  | mu_jems_number
  | mu_jems_integer
  | mu_jems_string
  | mu_jems_bytes
  | mu_jems_bool
  | mu_jems_true
  | mu_jems_false
  | mu_jems_null
  | mu_jems_literal
  | mu_jems_key_object_open
  | mu_jems_key_array_open
  | mu_jems_key_number
  | mu_jems_key_integer
  | mu_jems_key_string
  | mu_jems_key_bytes
  | mu_jems_key_bool
  | mu_jems_key_true
  | mu_jems_key_false
  | mu_jems_key_null
  | mu_jems_key_literal
  | mu_jems_curr_level
  | mu_jems_item_count
  | push_level__jems
  | pop_level__jems
  | emit_char__jems
  | emit_quoted_byte__jems
  | emit_string__jems
  | emit_quoted_string__jems
  | emit_quoted_bytes__jems
  | commify__jems
  | level_ref__jems
  | memmove
  | memset
  | mu_time_now
  | mu_time_offset
  | mu_time_precedes
  | snprintf
  | sprintf
  | strlen

/-- The file-scope variables of /repo/mulib/*.c. -/
inductive Glob where
  | s_set_state_hook
  | s_call_hook
  | s_transfer_hook
  | s_irq_store
  | s_immed_store
  | s_deferred_tasks
  | s_sched
  | s_level_names
  | s_reporting_threshold
  | s_reporting_level
  | s_logging_fn
  deriving DecidableEq

end Mu.CS
