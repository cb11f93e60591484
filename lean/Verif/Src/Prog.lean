import Verif.Src.MuQueue
import Verif.Src.MuSpsc
import Verif.Src.MuBbuf
import Verif.Src.MuBvec
import Verif.Src.MuBisync
import Verif.Src.MuArray
import Verif.Src.MuTask
import Verif.Src.MuMqueue
import Verif.Src.MuSched
import Verif.Src.MuLog
import Verif.Src.MuJems

/-! Generated by tools/csrc.py: the whole library as one program. -/

namespace Mu.CS

/-- The body of every function defined in /repo/mulib/*.c. -/
def prog : Fn → Option FunDef
  | .mu_queue_init => some Src.mu_queue_init
  | .mu_queue_reset => some Src.mu_queue_reset
  | .mu_queue_capacity => some Src.mu_queue_capacity
  | .mu_queue_count => some Src.mu_queue_count
  | .mu_queue_is_empty => some Src.mu_queue_is_empty
  | .mu_queue_is_full => some Src.mu_queue_is_full
  | .mu_queue_put => some Src.mu_queue_put
  | .mu_queue_get => some Src.mu_queue_get
  | .mu_queue_peek => some Src.mu_queue_peek
  | .access_queue__queue => some Src.access_queue__queue
  | .mu_spsc_init => some Src.mu_spsc_init
  | .mu_spsc_reset => some Src.mu_spsc_reset
  | .mu_spsc_capacity => some Src.mu_spsc_capacity
  | .mu_spsc_put => some Src.mu_spsc_put
  | .mu_spsc_get => some Src.mu_spsc_get
  | .mu_bbuf_init_ro => some Src.mu_bbuf_init_ro
  | .mu_bbuf_init_rw => some Src.mu_bbuf_init_rw
  | .mu_bbuf_init_cstr => some Src.mu_bbuf_init_cstr
  | .mu_bbuf_copy => some Src.mu_bbuf_copy
  | .mu_bbuf_bytes_ro => some Src.mu_bbuf_bytes_ro
  | .mu_bbuf_bytes_rw => some Src.mu_bbuf_bytes_rw
  | .mu_bbuf_capacity => some Src.mu_bbuf_capacity
  | .mu_bbuf_ref_ro => some Src.mu_bbuf_ref_ro
  | .mu_bbuf_ref_rw => some Src.mu_bbuf_ref_rw
  | .mu_bbuf_compare => some Src.mu_bbuf_compare
  | .mu_bbuf_compare_cstr => some Src.mu_bbuf_compare_cstr
  | .mu_bbuf_slice => some Src.mu_bbuf_slice
  | .mu_bbuf_bisect => some Src.mu_bbuf_bisect
  | .mu_bbuf_matches => some Src.mu_bbuf_matches
  | .mu_bbuf_matches_cstr => some Src.mu_bbuf_matches_cstr
  | .mu_bbuf_has_prefix => some Src.mu_bbuf_has_prefix
  | .mu_bbuf_has_prefix_cstr => some Src.mu_bbuf_has_prefix_cstr
  | .mu_bbuf_has_suffix => some Src.mu_bbuf_has_suffix
  | .mu_bbuf_has_suffix_cstr => some Src.mu_bbuf_has_suffix_cstr
  | .mu_bbuf_find_substr => some Src.mu_bbuf_find_substr
  | .mu_bbuf_find_subcstr => some Src.mu_bbuf_find_subcstr
  | .mu_bbuf_rfind_substr => some Src.mu_bbuf_rfind_substr
  | .mu_bbuf_rfind_subcstr => some Src.mu_bbuf_rfind_subcstr
  | .mu_bbuf_find_byte => some Src.mu_bbuf_find_byte
  | .mu_bbuf_rfind_byte => some Src.mu_bbuf_rfind_byte
  | .mu_bbuf_find_predicate => some Src.mu_bbuf_find_predicate
  | .mu_bbuf_rfind_predicate => some Src.mu_bbuf_rfind_predicate
  | .mu_bbuf_trim => some Src.mu_bbuf_trim
  | .mu_bbuf_ltrim => some Src.mu_bbuf_ltrim
  | .mu_bbuf_rtrim => some Src.mu_bbuf_rtrim
  | .mu_bbuf_parse_int => some Src.mu_bbuf_parse_int
  | .mu_bbuf_parse_unsigned_int => some Src.mu_bbuf_parse_unsigned_int
  | .mu_bbuf_parse_int8 => some Src.mu_bbuf_parse_int8
  | .mu_bbuf_parse_uint8 => some Src.mu_bbuf_parse_uint8
  | .mu_bbuf_parse_int16 => some Src.mu_bbuf_parse_int16
  | .mu_bbuf_parse_uint16 => some Src.mu_bbuf_parse_uint16
  | .mu_bbuf_parse_int32 => some Src.mu_bbuf_parse_int32
  | .mu_bbuf_parse_uint32 => some Src.mu_bbuf_parse_uint32
  | .mu_bbuf_parse_int64 => some Src.mu_bbuf_parse_int64
  | .mu_bbuf_parse_uint64 => some Src.mu_bbuf_parse_uint64
  | .mu_bbuf_parse_hex => some Src.mu_bbuf_parse_hex
  | .mu_bbuf_get_byte => some Src.mu_bbuf_get_byte
  | .mu_bbuf_put_byte => some Src.mu_bbuf_put_byte
  | .mu_bbuf_clear => some Src.mu_bbuf_clear
  | .mu_bbuf_copy_into => some Src.mu_bbuf_copy_into
  | .mu_bbuf_reverse => some Src.mu_bbuf_reverse
  | .mu_bbuf_rrotate => some Src.mu_bbuf_rrotate
  | .mu_bbuf_rshift => some Src.mu_bbuf_rshift
  | .str_compare_aux__bbuf => some Src.str_compare_aux__bbuf
  | .has_prefix__bbuf => some Src.has_prefix__bbuf
  | .has_suffix__bbuf => some Src.has_suffix__bbuf
  | .mu_bbuf_find_aux__bbuf => some Src.mu_bbuf_find_aux__bbuf
  | .mu_bbuf_rfind_aux__bbuf => some Src.mu_bbuf_rfind_aux__bbuf
  | .is_decimal__bbuf => some Src.is_decimal__bbuf
  | .mu_bvec_init => some Src.mu_bvec_init
  | .mu_bvec_init_ro => some Src.mu_bvec_init_ro
  | .mu_bvec_init_rw => some Src.mu_bvec_init_rw
  | .mu_bvec_reset => some Src.mu_bvec_reset
  | .mu_bvec_get_bbuf => some Src.mu_bvec_get_bbuf
  | .mu_bvec_get_capacity => some Src.mu_bvec_get_capacity
  | .mu_bvec_get_count => some Src.mu_bvec_get_count
  | .mu_bvec_set_count => some Src.mu_bvec_set_count
  | .mu_bvec_get_available => some Src.mu_bvec_get_available
  | .mu_bvec_ref_ro => some Src.mu_bvec_ref_ro
  | .mu_bvec_ref_rw => some Src.mu_bvec_ref_rw
  | .mu_bvec_read_byte => some Src.mu_bvec_read_byte
  | .mu_bvec_write_byte => some Src.mu_bvec_write_byte
  | .mu_bisync_encode => some Src.mu_bisync_encode
  | .mu_bisync_decode => some Src.mu_bisync_decode
  | .buffer_put__bisync => some Src.buffer_put__bisync
  | .mu_array_init => some Src.mu_array_init
  | .mu_array_reset => some Src.mu_array_reset
  | .mu_array_capacity => some Src.mu_array_capacity
  | .mu_array_count => some Src.mu_array_count
  | .mu_array_is_empty => some Src.mu_array_is_empty
  | .mu_array_is_full => some Src.mu_array_is_full
  | .mu_array_push => some Src.mu_array_push
  | .mu_array_pop => some Src.mu_array_pop
  | .mu_array_peek => some Src.mu_array_peek
  | .mu_array_ref => some Src.mu_array_ref
  | .mu_array_insert => some Src.mu_array_insert
  | .mu_array_delete => some Src.mu_array_delete
  | .mu_array_index => some Src.mu_array_index
  | .mu_array_rindex => some Src.mu_array_rindex
  | .mu_array_sort => some Src.mu_array_sort
  | .mu_array_insert_sorted => some Src.mu_array_insert_sorted
  | .find_insertion_index__array => some Src.find_insertion_index__array
  | .heapify__array => some Src.heapify__array
  | .sift_down__array => some Src.sift_down__array
  | .swap__array => some Src.swap__array
  | .mu_task_init => some Src.mu_task_init
  | .mu_task_install_set_state_hook => some Src.mu_task_install_set_state_hook
  | .mu_task_install_call_hook => some Src.mu_task_install_call_hook
  | .mu_task_install_transfer_hook => some Src.mu_task_install_transfer_hook
  | .mu_task_call => some Src.mu_task_call
  | .mu_task_get_fn => some Src.mu_task_get_fn
  | .mu_task_get_state => some Src.mu_task_get_state
  | .mu_task_set_state => some Src.mu_task_set_state
  | .mu_task_get_user_info => some Src.mu_task_get_user_info
  | .mu_task_set_user_info => some Src.mu_task_set_user_info
  | .mu_task_call_transfer_hook => some Src.mu_task_call_transfer_hook
  | .mu_mqueue_init => some Src.mu_mqueue_init
  | .mu_mqueue_reset => some Src.mu_mqueue_reset
  | .mu_mqueue_capacity => some Src.mu_mqueue_capacity
  | .mu_mqueue_count => some Src.mu_mqueue_count
  | .mu_mqueue_is_empty => some Src.mu_mqueue_is_empty
  | .mu_mqueue_is_full => some Src.mu_mqueue_is_full
  | .mu_mqueue_put => some Src.mu_mqueue_put
  | .mu_mqueue_get => some Src.mu_mqueue_get
  | .mu_mqueue_peek => some Src.mu_mqueue_peek
  | .access_queue__mqueue => some Src.access_queue__mqueue
  | .mu_sched_init => some Src.mu_sched_init
  | .mu_sched_reset => some Src.mu_sched_reset
  | .mu_sched_step => some Src.mu_sched_step
  | .mu_sched_get_idle_task => some Src.mu_sched_get_idle_task
  | .mu_sched_set_idle_task => some Src.mu_sched_set_idle_task
  | .mu_sched_current_task => some Src.mu_sched_current_task
  | .mu_sched_next_task => some Src.mu_sched_next_task
  | .mu_sched_wait => some Src.mu_sched_wait
  | .mu_sched_transfer => some Src.mu_sched_transfer
  | .mu_sched_immed => some Src.mu_sched_immed
  | .mu_sched_from_isr => some Src.mu_sched_from_isr
  | .mu_sched_defer_until => some Src.mu_sched_defer_until
  | .mu_sched_defer_for => some Src.mu_sched_defer_for
  | .mu_sched_remove_deferred_task => some Src.mu_sched_remove_deferred_task
  | .next_deferred_task__sched => some Src.next_deferred_task__sched
  | .fetch_runnable_deferred_task__sched => some Src.fetch_runnable_deferred_task__sched
  | .defer_aux__sched => some Src.defer_aux__sched
  | .mu_log_init => some Src.mu_log_init
  | .mu_log_set_reporting_threshold => some Src.mu_log_set_reporting_threshold
  | .mu_log_get_reporting_threshold => some Src.mu_log_get_reporting_threshold
  | .mu_log_set_logging_function => some Src.mu_log_set_logging_function
  | .mu_log_get_logging_function => some Src.mu_log_get_logging_function
  | .mu_log_get_reporting_level => some Src.mu_log_get_reporting_level
  | .mu_log_is_reporting => some Src.mu_log_is_reporting
  | .mu_log_level_name => some Src.mu_log_level_name
  | .mu_log => some Src.mu_log
  | .mu_jems_init => some Src.mu_jems_init
  | .mu_jems_reset => some Src.mu_jems_reset
  | .mu_jems_object_open => some Src.mu_jems_object_open
  | .mu_jems_object_close => some Src.mu_jems_object_close
  | .mu_jems_array_open => some Src.mu_jems_array_open
  | .mu_jems_array_close => some Src.mu_jems_array_close
  | .mu_jems_number => some Src.mu_jems_number
  | .mu_jems_integer => some Src.mu_jems_integer
  | .mu_jems_string => some Src.mu_jems_string
  | .mu_jems_bytes => some Src.mu_jems_bytes
  | .mu_jems_bool => some Src.mu_jems_bool
  | .mu_jems_true => some Src.mu_jems_true
  | .mu_jems_false => some Src.mu_jems_false
  | .mu_jems_null => some Src.mu_jems_null
  | .mu_jems_literal => some Src.mu_jems_literal
  | .mu_jems_key_object_open => some Src.mu_jems_key_object_open
  | .mu_jems_key_array_open => some Src.mu_jems_key_array_open
  | .mu_jems_key_number => some Src.mu_jems_key_number
  | .mu_jems_key_integer => some Src.mu_jems_key_integer
  | .mu_jems_key_string => some Src.mu_jems_key_string
  | .mu_jems_key_bytes => some Src.mu_jems_key_bytes
  | .mu_jems_key_bool => some Src.mu_jems_key_bool
  | .mu_jems_key_true => some Src.mu_jems_key_true
  | .mu_jems_key_false => some Src.mu_jems_key_false
  | .mu_jems_key_null => some Src.mu_jems_key_null
  | .mu_jems_key_literal => some Src.mu_jems_key_literal
  | .mu_jems_curr_level => some Src.mu_jems_curr_level
  | .mu_jems_item_count => some Src.mu_jems_item_count
  | .push_level__jems => some Src.push_level__jems
  | .pop_level__jems => some Src.pop_level__jems
  | .emit_char__jems => some Src.emit_char__jems
  | .emit_quoted_byte__jems => some Src.emit_quoted_byte__jems
  | .emit_string__jems => some Src.emit_string__jems
  | .emit_quoted_string__jems => some Src.emit_quoted_string__jems
  | .emit_quoted_bytes__jems => some Src.emit_quoted_bytes__jems
  | .commify__jems => some Src.commify__jems
  | .level_ref__jems => some Src.level_ref__jems
  | _ => none

/-- Initial contents of the file-scope variables of /repo/mulib/*.c. -/
def globInit : Glob → List CVal
  | .s_set_state_hook => Src.init_s_set_state_hook
  | .s_call_hook => Src.init_s_call_hook
  | .s_transfer_hook => Src.init_s_transfer_hook
  | .s_irq_store => Src.init_s_irq_store
  | .s_immed_store => Src.init_s_immed_store
  | .s_deferred_tasks => Src.init_s_deferred_tasks
  | .s_sched => Src.init_s_sched
  | .s_level_names => Src.init_s_level_names
  | .s_reporting_threshold => Src.init_s_reporting_threshold
  | .s_reporting_level => Src.init_s_reporting_level
  | .s_logging_fn => Src.init_s_logging_fn

end Mu.CS
