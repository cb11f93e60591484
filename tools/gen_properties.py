#!/usr/bin/env python3
"""Regenerates /verif/properties.jsonl from the table below."""
import json, os
P = []
def p(title, statement, quantifier, why, *anchors):
    P.append(dict(id="C%02d" % (len(P)+1), title=title, statement=statement,
                  quantifier=quantifier, why_tests_cant=why, anchors=list(anchors)))

# ---------------------------------------------------------------- bisync
p("bisync encode writes exactly the framed, byte-stuffed payload",
  "mu_bisync_encode(dst, cap, src, n) returns the number of bytes written and leaves in dst exactly SOH, then every payload byte in order with one DLE inserted before each SOH/EOT/DLE, then EOT, whenever that frame fits in cap; otherwise it returns MU_BISYNC_ERR_OFLOW.",
  "every payload of every length and content, every destination capacity (0 included), every platform int/size_t width",
  "the frame length depends on the content of the payload, so the fits / does-not-fit boundary is different for each of infinitely many payloads",
  "mulib/mu_bisync.c:mu_bisync_encode", "mulib/mu_bisync.h")
p("bisync decode inverts encode",
  "Decoding the frame produced by mu_bisync_encode into a large enough buffer returns the payload length and the payload itself.",
  "every payload, every destination capacity at least as large as the payload",
  "a round trip over all byte strings; the existing tests fix one payload",
  "mulib/mu_bisync.c:mu_bisync_encode", "mulib/mu_bisync.c:mu_bisync_decode")
p("bisync frames are uniquely decodable and self-delimiting in a stream",
  "Two different payloads never produce the same frame, no frame is a proper prefix of another frame, and whatever bytes follow a frame in the receive buffer do not change what mu_bisync_decode returns or writes.",
  "every pair of payloads, every suffix of trailing bytes",
  "quantifies over pairs of payloads and arbitrary trailing garbage",
  "mulib/mu_bisync.c:mu_bisync_encode", "mulib/mu_bisync.c:mu_bisync_decode")
p("bisync decode rejects unterminated frames",
  "mu_bisync_decode succeeds only on input that starts with SOH and contains a terminating (unescaped) EOT; everything else returns MU_BISYNC_ERR_FORMAT (or MU_BISYNC_ERR_OFLOW if the destination is too small first).",
  "every input byte string",
  "truncation can happen at any byte of any frame, including right after an escape",
  "mulib/mu_bisync.c:mu_bisync_decode")
p("bisync never touches memory outside its buffers",
  "mu_bisync_encode and mu_bisync_decode write only dst[0..cap), read only the input bytes they are given, and leave every other byte unchanged, on success and on every error path; the decode output never has more bytes than the input.",
  "every input, every capacity, every error path",
  "an out-of-bounds access on one rare input is invisible to a unit test",
  "mulib/mu_bisync.c:buffer_put", "mulib/mu_bisync.c:mu_bisync_encode", "mulib/mu_bisync.c:mu_bisync_decode")
# ---------------------------------------------------------------- queue
p("mu_queue is a bounded FIFO under every history",
  "After mu_queue_init with any capacity, every sequence of put/get/peek/reset/count/capacity/is_empty/is_full calls returns exactly what a first-in first-out list bounded by the capacity would return; put on a full queue and get/peek on an empty queue return false, change nothing and (get/peek) deliver NULL.",
  "every capacity, every finite sequence of operations, every element value",
  "wrap-around bugs only show at particular alignments of index, count and capacity reached by long histories",
  "mulib/mu_queue.c", "mulib/mu_queue.h")
p("mu_queue never accesses storage outside the capacity it was given",
  "No sequence of mu_queue operations reads or writes a storage slot with index >= capacity, divides by zero (capacity 0 included) or loses the invariant count <= capacity.",
  "every capacity including 0, every operation history",
  "memory safety must hold on every history, not on the sampled ones",
  "mulib/mu_queue.c:mu_queue_put", "mulib/mu_queue.c:access_queue")
p("mu_mqueue is a bounded FIFO even when its callbacks re-enter it",
  "mu_mqueue behaves as a bounded FIFO list for every sequence of calls, where each on_put/on_get task may itself perform any further calls on the same queue before put/get returns; the element delivered by get is fixed before on_get runs.",
  "every capacity, every finite tree of (re-entrant) operations, every choice of on_put/on_get (NULL or not)",
  "re-entrancy gives unboundedly many nestings of callbacks inside calls",
  "mulib/mu_mqueue.c", "mulib/mu_mqueue.h")
p("mu_mqueue notifies exactly once per successful transfer",
  "The on_put task is invoked exactly once for each put that returned true, after the element has become visible in the queue, and the on_get task exactly once for each get that returned true, after the element was removed; peek, failed puts and failed gets, and NULL tasks never notify.",
  "every history of (re-entrant) operations",
  "an exactly-once claim over all histories",
  "mulib/mu_mqueue.c:mu_mqueue_put", "mulib/mu_mqueue.c:access_queue")
p("mu_mqueue counts like a semaphore",
  "At every point mu_mqueue_count equals the number of successful puts minus the number of successful gets since the last reset, and stays between 0 and the capacity, so the queue can be used as a counting semaphore or mutex.",
  "every history of operations",
  "conservation law over unbounded histories",
  "mulib/mu_mqueue.c", "mulib/mu_mqueue.h")
# ---------------------------------------------------------------- spsc
p("mu_spsc is a FIFO holding store_size-1 items",
  "After a successful mu_spsc_init with store_size N, every sequential history of put/get/reset behaves as a FIFO list bounded by N-1: put returns FULL exactly when N-1 items are queued, get returns EMPTY (and NULL) exactly when none is.",
  "every power-of-two store size from 2 to 32768, every history",
  "index masking must be right at every wrap position",
  "mulib/mu_spsc.c")
p("mu_spsc delivers every item exactly once and in order under every producer/consumer interleaving",
  "With one producer calling put and one consumer calling get, whatever the interleaving of their individual loads and stores, the sequence of items returned by get is a prefix of the sequence of items accepted by put: nothing lost, duplicated, reordered or torn, and what is accepted but not yet delivered is still in the queue.",
  "every interleaving of the individual shared-memory accesses of put and get, of any length",
  "interrupts can hit between any two memory accesses; tests run put and get atomically",
  "mulib/mu_spsc.c:mu_spsc_put", "mulib/mu_spsc.c:mu_spsc_get")
p("mu_spsc FULL and EMPTY are never spurious",
  "Under every interleaving, put returns FULL only if store_size-1 items were queued at some instant during the call, get returns EMPTY only if the queue was empty at some instant during the call, and a put (get) that runs while fewer than N-1 items (at least one item) are queued throughout succeeds.",
  "every interleaving of the individual shared-memory accesses",
  "needs reasoning about instants inside a call, which tests cannot observe",
  "mulib/mu_spsc.c:mu_spsc_put", "mulib/mu_spsc.c:mu_spsc_get")
p("mu_spsc producer and consumer never race on a slot and never leave the store",
  "Under every interleaving all indices stay inside the store, and at no instant are the producer about to write and the consumer about to read the same slot.",
  "every interleaving",
  "data-race freedom is a statement about all schedules",
  "mulib/mu_spsc.c")
p("mu_spsc_init accepts exactly powers of two",
  "mu_spsc_init succeeds iff store_size is a power of two and at least 2; on failure it returns MU_SPSC_ERR_SIZE and leaves the object untouched.",
  "all 65536 uint16_t values of store_size and every prior content of the object",
  "the bit trick has to be right for every value",
  "mulib/mu_spsc.c:mu_spsc_init", "mulib/mu_spsc.c:IS_POWER_OF_TWO")
# ---------------------------------------------------------------- array
p("mu_array behaves as a bounded list",
  "Every history of push/pop/peek/ref/insert/reset/count/is_empty/is_full on a mu_array returns what the same operations on a plain list bounded by the capacity return, with false and no change when full / empty / index out of range.",
  "every capacity, every history, every index",
  "shifting code has a boundary at every index",
  "mulib/mu_array.c", "mulib/mu_array.h")
p("mu_array_delete removes exactly the indexed item",
  "mu_array_delete with index < count delivers the item, moves all higher-indexed items down by one, reduces the count by one and touches no memory outside the array; otherwise it returns false and changes nothing.",
  "every array content and index",
  "the unit tests inspect the storage but never the count after deleting from head or middle, and never see the read past the end",
  "mulib/mu_array.c:mu_array_delete")
p("mu_array_index / rindex find the first / last occurrence",
  "mu_array_index returns the smallest and mu_array_rindex the largest index holding the item, and MU_ARRAY_NOT_FOUND iff the item is absent (empty array included).",
  "every content, every item",
  "extremal-index claim over all contents; the rindex loop relies on unsigned wrap-around",
  "mulib/mu_array.c:mu_array_index", "mulib/mu_array.c:mu_array_rindex")
p("mu_array_sort sorts",
  "For every comparison function that is a total preorder, mu_array_sort terminates, never leaves the array, and leaves the items in non-decreasing order, the result being a permutation of the original items.",
  "every array content and length, every total-preorder comparator",
  "heap order is violated only by particular shapes; tests sort three items",
  "mulib/mu_array.c:mu_array_sort", "mulib/mu_array.c:heapify", "mulib/mu_array.c:sift_down")
p("mu_array_sort is safe with any comparator",
  "Even if the comparator is inconsistent (not an order at all), mu_array_sort terminates, accesses only items 0..count-1 and the result is a permutation of the original items.",
  "every comparator function, every array",
  "quantifies over all comparator functions",
  "mulib/mu_array.c:mu_array_sort")
p("mu_array_insert_sorted keeps a sorted array sorted",
  "Inserting into an array sorted by a total preorder yields a sorted array that contains the old items in their old order plus the new item, placed after every item that does not compare greater; on a full array it returns false and changes nothing. (Up to (INT_MAX+1)/2 items.)",
  "every sorted array, every item, every total-preorder comparator",
  "binary-search boundaries differ for each length and position",
  "mulib/mu_array.c:mu_array_insert_sorted", "mulib/mu_array.c:find_insertion_index")
# ---------------------------------------------------------------- sched
p("scheduler priority: ISR, then due deferred, then immediate, then idle",
  "Each mu_sched_step calls the oldest queued ISR task if there is one; otherwise the first due deferred task; otherwise the oldest immediate task; otherwise the idle task (nothing if NULL); and calls exactly one of them.",
  "every reachable scheduler state and every time",
  "the choice depends on the joint contents of three queues and the clock",
  "mulib/mu_sched.c:mu_sched_step")
p("deferred tasks run in time order, ties in the order they were scheduled",
  "Whenever a deferred task is selected, no pending deferred task has an earlier time, and no pending deferred task with an equal time was scheduled before it.",
  "every history of defer_until/defer_for/remove/step calls, every assignment of times, every clock behaviour",
  "ordering claims over all insertion orders",
  "mulib/mu_sched.c:defer_aux", "mulib/mu_sched.c:fetch_runnable_deferred_task")
p("deferred tasks never run early",
  "A task deferred until time t is never called by a mu_sched_step whose clock reading precedes t.",
  "every history and clock behaviour",
  "negative claim over all histories",
  "mulib/mu_sched.c:fetch_runnable_deferred_task")
p("the scheduler neither loses nor duplicates tasks",
  "Counting with multiplicity, the tasks accepted by immed/from_isr/defer/transfer equal the tasks called from the queues plus those removed, those discarded by reset and those still pending.",
  "every history, tasks that reschedule themselves or others while running included",
  "conservation over unbounded histories with self-rescheduling tasks",
  "mulib/mu_sched.c")
p("scheduling into a full queue fails cleanly",
  "mu_sched_immed, mu_sched_from_isr and mu_sched_defer_* return MU_SCHED_ERR_FULL exactly when the corresponding queue holds MAX_IMMED, MAX_IRQ-1 or MAX_DEFERRED tasks, and then change nothing.",
  "every reachable state, every configuration of the queue sizes",
  "must hold at every wrap position and fill level",
  "mulib/mu_sched.c:mu_sched_immed", "mulib/mu_sched.c:mu_sched_from_isr", "mulib/mu_sched.c:defer_aux")
p("removing a deferred task removes all its entries and nothing else",
  "mu_sched_remove_deferred_task(t) removes every deferred entry of t, keeps all other entries in their order, and returns MU_SCHED_ERR_NOT_FOUND iff there was none; afterwards t is not called from the deferred queue until it is deferred again.",
  "every deferred-queue content, t occurring any number of times",
  "removal while iterating is position dependent",
  "mulib/mu_sched.c:mu_sched_remove_deferred_task")
p("mu_sched_current_task names the running task",
  "While mu_sched_step runs a task, mu_sched_current_task returns that task (until a nested step or reset), and outside of any step it returns NULL.",
  "every history, every task body",
  "depends on everything the task body does",
  "mulib/mu_sched.c:mu_sched_current_task", "mulib/mu_sched.c:mu_sched_step")
p("mu_sched_reset empties all queues and keeps the idle task",
  "After mu_sched_reset no previously scheduled task is ever called, all three queues accept a full load again, and the idle task is unchanged.",
  "every reachable state and every continuation",
  "claim about every continuation of every history",
  "mulib/mu_sched.c:mu_sched_reset")
p("pending tasks are reached in a bounded number of steps",
  "If no new tasks arrive, the immediate task at position k runs after exactly (queued ISR tasks + due deferred tasks + k) further steps, and a due deferred task preceded by n others after (queued ISR tasks + n); no pending runnable task starves.",
  "every reachable state and position",
  "liveness bound over all states",
  "mulib/mu_sched.c:mu_sched_step")
p("ISR tasks run in the order they were queued, immediate tasks likewise",
  "The subsequence of calls coming from mu_sched_from_isr (respectively mu_sched_immed / mu_sched_transfer) is in the order of the successful scheduling calls.",
  "every history",
  "order preservation over unbounded interleaved histories",
  "mulib/mu_sched.c", "mulib/mu_spsc.c", "mulib/mu_queue.c")
p("an interrupt may schedule a task at any point of mu_sched_step",
  "If mu_sched_from_isr runs (from an interrupt) between any two elementary actions of mu_sched_step, the outcome is the same as if it ran right after the step had chosen its task or right before the step: nothing is lost and the step still runs exactly one task.",
  "every interrupt arrival point, any number of interrupts",
  "the window between the empty check and the task call cannot be hit reliably by a test",
  "mulib/mu_sched.c:mu_sched_step", "mulib/mu_sched.c:mu_sched_from_isr")
p("deferred ordering survives clock wrap-around",
  "With a wrapping tick counter compared by signed difference, as the reference mu_time implementation does, the time-order and never-early guarantees hold as long as all pending times and the clock lie within half of the counter range.",
  "every position of the window on the counter circle, every history inside the window",
  "wrap-around happens once per counter period",
  "mulib/mu_platform.h:mu_time_precedes", "test/test_mu_sched/test_mu_sched.c:mu_time_precedes", "mulib/mu_sched.c:defer_aux")
# ---------------------------------------------------------------- task
p("mu_task_call calls the hook, then the task function, and ignores NULL",
  "mu_task_call(NULL) does nothing; mu_task_call(t) calls the installed call hook (if any) with t and then t's function with t, each exactly once, in that order.",
  "every task, every hook configuration history",
  "hook configuration is global mutable state changed at any time",
  "mulib/mu_task.c:mu_task_call")
p("mu_task_set_state has no effect when the state does not change",
  "mu_task_set_state(t, s) with s equal to the current state has no effect (no hook call); otherwise the hook sees the old state and the state becomes s; NULL tasks are ignored and returned.",
  "every task, state and hook configuration",
  "doc claim about all states; the tests never set an equal state with a hook installed",
  "mulib/mu_task.c:mu_task_set_state", "mulib/mu_task.h")
# ---------------------------------------------------------------- log
p("mu_log filters by threshold",
  "A mu_log call reaches the logging function iff its level is at least the threshold set most recently and the logging function set most recently is not NULL; inside the call mu_log_get_reporting_level returns that level (until a nested mu_log call).",
  "every history of configuration and logging calls, re-entrant logging included",
  "depends on global mutable configuration over arbitrary histories",
  "mulib/mu_log.c")
p("mu_log_level_name is total",
  "mu_log_level_name returns the documented name for each of the six levels and \"UNKNOWN\" for every other value, never reading outside the name table.",
  "every value of the level argument",
  "all values of an unsigned argument",
  "mulib/mu_log.c:mu_log_level_name")
# ---------------------------------------------------------------- bbuf
p("mu_bbuf_compare is the lexicographic order",
  "mu_bbuf_compare returns a negative, zero or positive value exactly as the first buffer is lexicographically (unsigned bytes, shorter first) less than, equal to, or greater than the second; it is antisymmetric and transitive, and mu_bbuf_matches is true iff the contents are equal; the _cstr variants agree.",
  "every pair (triple) of buffers",
  "order laws over all triples of byte strings",
  "mulib/mu_bbuf.c:str_compare_aux", "mulib/mu_bbuf.c:mu_bbuf_matches")
p("mu_bbuf_slice returns a sub-range of the source",
  "For every start and end (negative values counting from the end, MU_BBUF_END meaning the end) the slice is the corresponding sub-range of the source and never extends outside the source buffer.",
  "every source buffer, every int start and end",
  "start/end range over all ints; out-of-range negatives are not tested",
  "mulib/mu_bbuf.c:mu_bbuf_slice")
p("mu_bbuf_bisect splits without loss or overlap",
  "For every index, left followed by right is exactly the source, left having the clamped index as its length; left or right may be NULL or alias the source.",
  "every source, every int index, every aliasing of the three buffer objects",
  "index ranges over all ints; aliasing multiplies the cases",
  "mulib/mu_bbuf.c:mu_bbuf_bisect")
p("mu_bbuf prefix and suffix tests are exact",
  "mu_bbuf_has_prefix (has_suffix) is true iff the second buffer's bytes are a prefix (suffix) of the first's, the empty buffer included; the _cstr variants agree.",
  "every pair of buffers",
  "pairs of arbitrary byte strings",
  "mulib/mu_bbuf.c:has_prefix", "mulib/mu_bbuf.c:has_suffix")
p("mu_bbuf_find_substr finds the first, rfind_substr the last occurrence",
  "mu_bbuf_find_substr returns the smallest (rfind the largest) offset at which the substring occurs, plus the substring length if skip is requested, and MU_BBUF_NOT_FOUND iff it does not occur (capacities below INT_MAX).",
  "every haystack and needle",
  "naive search has failure modes only on periodic patterns",
  "mulib/mu_bbuf.c:mu_bbuf_find_aux", "mulib/mu_bbuf.c:mu_bbuf_rfind_aux")
p("byte and predicate searches return the extremal index",
  "find_byte/rfind_byte return the first/last index of the byte; find_predicate/rfind_predicate the first/last index whose byte fails the predicate; MU_BBUF_NOT_FOUND iff there is none.",
  "every buffer, byte and predicate",
  "all predicates and buffers",
  "mulib/mu_bbuf.c:mu_bbuf_find_byte", "mulib/mu_bbuf.c:mu_bbuf_rfind_byte", "mulib/mu_bbuf.c:mu_bbuf_find_predicate", "mulib/mu_bbuf.c:mu_bbuf_rfind_predicate")
p("mu_bbuf_ltrim removes exactly the matching leading bytes",
  "mu_bbuf_ltrim yields the source without its longest prefix of bytes satisfying the predicate.",
  "every buffer and predicate, dst aliasing src included",
  "all buffers and predicates; the tests never trim a buffer consisting only of matching bytes",
  "mulib/mu_bbuf.c:mu_bbuf_ltrim")
p("mu_bbuf_rtrim and trim remove exactly the matching trailing bytes",
  "mu_bbuf_rtrim yields the source without its longest suffix of bytes satisfying the predicate, and mu_bbuf_trim does both ends.",
  "every buffer and predicate, dst aliasing src included",
  "the test helper compares only as many bytes as the result has, so an over-trimmed result passes",
  "mulib/mu_bbuf.c:mu_bbuf_rtrim", "mulib/mu_bbuf.c:mu_bbuf_trim")
p("unsigned parsers return the decimal prefix modulo the type width",
  "mu_bbuf_parse_uint8/16/32/64/unsigned_int return the value of the longest leading run of decimal digits, reduced modulo 2^width, and 0 if there is none.",
  "every buffer of every length, every width",
  "digit strings are unbounded",
  "mulib/mu_bbuf.c:DEFINE_UINT_PARSER")
p("signed parsers return the signed decimal prefix, truncated to the type",
  "mu_bbuf_parse_int8/16/32/64/int return the value of the leading optional minus sign and digits, truncated to the width of the type when it overflows.",
  "every buffer, every width",
  "overflow behaviour is undefined in C for the wide types and looks right under tests",
  "mulib/mu_bbuf.c:DEFINE_INT_PARSER", "mulib/mu_bbuf.h")
p("mu_bbuf_parse_hex returns the hexadecimal prefix modulo 2^width of unsigned int",
  "The longest leading run of [0-9a-fA-F] is read as a base-16 number modulo 2^width; 0 if there is none.",
  "every buffer",
  "all byte strings",
  "mulib/mu_bbuf.c:mu_bbuf_parse_hex")
p("byte get/put are bounds checked",
  "mu_bbuf_get_byte/put_byte/ref succeed iff index < capacity; put changes exactly that byte; get after put returns the byte; a failed call changes nothing; mu_bbuf_clear zeroes exactly the buffer.",
  "every buffer, index and byte",
  "frame condition over all other bytes",
  "mulib/mu_bbuf.c:mu_bbuf_get_byte", "mulib/mu_bbuf.c:mu_bbuf_put_byte", "mulib/mu_bbuf.c:mu_bbuf_clear", "mulib/mu_bbuf.c:mu_bbuf_ref_ro")
p("mu_bbuf_copy_into copies the overlapping range and nothing else",
  "mu_bbuf_copy_into(dst, src, offset) copies src to dst shifted by offset (which may be negative), returns the number of bytes copied, and never reads outside src or writes outside dst.",
  "every pair of buffers, every int offset",
  "reads of uninitialised locals make the outcome depend on stack garbage that tests happen to get right",
  "mulib/mu_bbuf.c:mu_bbuf_copy_into")
p("mu_bbuf_reverse reverses in place",
  "mu_bbuf_reverse replaces the buffer contents by their reverse and touches nothing else; applying it twice restores the buffer; the empty buffer is unchanged.",
  "every buffer of every length",
  "odd/even lengths and the frame",
  "mulib/mu_bbuf.c:mu_bbuf_reverse")
p("mu_bbuf_rrotate rotates right by shift modulo the capacity",
  "mu_bbuf_rrotate(b, k) terminates and moves the byte at i to (i + k) mod capacity for every int k.",
  "every buffer, every int shift",
  "all shifts including negative and larger than the capacity, and the empty buffer",
  "mulib/mu_bbuf.c:mu_bbuf_rrotate")
p("mu_bbuf_rshift shifts with zero fill",
  "mu_bbuf_rshift(b, k) moves the byte at i to i + k, drops bytes leaving the buffer and zero-fills the vacated positions, for every int k.",
  "every buffer, every int shift",
  "all shifts including INT_MIN and beyond the capacity",
  "mulib/mu_bbuf.c:mu_bbuf_rshift")
# ---------------------------------------------------------------- bvec
p("mu_bvec writes then reads back the same bytes",
  "Writing bytes to a freshly initialised mu_bvec (up to SIZE_MAX calls, so that its count does not wrap) succeeds for exactly the first capacity bytes; after reset, reading returns those bytes in order, then the bytes that were in the buffer before, and fails from the capacity on.",
  "every capacity, every byte sequence, every number of reads, every previous contents",
  "all sequences and capacities",
  "mulib/mu_bvec.c:mu_bvec_write_byte", "mulib/mu_bvec.c:mu_bvec_read_byte")
p("mu_bvec never accesses outside its buffer whatever the count",
  "For every value of the count (settable to anything) reads and writes at or past the capacity return false and change no byte, and mu_bvec_get_available is max(0, capacity - count).",
  "every history of set_count/read/write/reset, every size_t count",
  "count can be set to any size_t value and wraps",
  "mulib/mu_bvec.c")
# ---------------------------------------------------------------- jems
p("jems emits well-formed JSON denoting the document",
  "Emitting a JSON document (nested arrays, objects with string keys, strings, integers, numbers with a fraction, booleans, null) of nesting depth below max_level through the corresponding mu_jems calls (with or without the key_ variants, integers by mu_jems_integer or mu_jems_number, numbers with a fraction by mu_jems_number, strings by mu_jems_string or mu_jems_bytes, anything by mu_jems_literal) passes exactly the compact JSON text of that document to the writer, which an independent JSON reader maps back to the same document. No array may have more than SIZE_MAX + 1 items, no object more keys and values than that, no byte string more than INT_MAX bytes.",
  "every JSON document of every size and every depth below max_level, every choice of calls that emit it, every int and size_t width",
  "documents are unbounded trees; separators depend on position and container at each level",
  "mulib/mu_jems.c", "mulib/mu_jems.h")
p("jems string escaping is lossless, pure printable ASCII",
  "Every byte string emitted by mu_jems_bytes (every NUL-free string by mu_jems_string) appears as a JSON string literal of printable ASCII characters which decodes to exactly the original bytes.",
  "all byte strings of every length",
  "all byte sequences",
  "mulib/mu_jems.c:emit_quoted_byte", "mulib/mu_jems.c:emit_quoted_bytes", "mulib/mu_jems.c:emit_quoted_string")
p("jems never leaves its level array",
  "With max_level >= 1, no sequence of jems calls, balanced or not, accesses a level outside [0, max_level), and mu_jems_curr_level is always below max_level.",
  "every sequence of jems calls",
  "all call sequences including unbalanced and over-deep ones",
  "mulib/mu_jems.c:push_level", "mulib/mu_jems.c:pop_level", "mulib/mu_jems.c:level_ref")
p("jems integers are exact",
  "mu_jems_integer emits the canonical decimal text of any int64_t, never truncated by its internal buffer, and it reads back as the same value.",
  "all 2^64 values",
  "2^64 values",
  "mulib/mu_jems.c:mu_jems_integer")
p("jems separators and level bookkeeping match the document position",
  "In every state of a well-nested emission mu_jems_curr_level is the number of currently open containers and mu_jems_item_count the number of items emitted so far at that level (modulo the range of size_t).",
  "every well-nested call sequence of depth below max_level",
  "all well-nested sequences",
  "mulib/mu_jems.c:commify", "mulib/mu_jems.c:mu_jems_curr_level", "mulib/mu_jems.c:mu_jems_item_count")

p("jems numbers: integral doubles exactly, others to within one unit of the last digit",
  "mu_jems_number of a finite double with an integral value that fits int64_t does exactly what mu_jems_integer does; for every double with a fraction it writes a JSON number with 3 to 6 digits after the point (6 unless the text fills the 21 characters of the internal buffer) whose value differs from the double by at most one unit of the last digit written.",
  "all finite doubles with a fraction and all integral ones in int64_t range, every state of the emitter",
  "2^64 bit patterns; the internal buffer cuts the text of large values",
  "mulib/mu_jems.c:mu_jems_number")
p("jems numbers: the defined domain",
  "For a finite double mu_jems_number has defined behaviour exactly if the value truncated towards zero is representable as int64_t.",
  "all finite doubles",
  "the boundary values -2^63 and 2^63 lie among 2^64 bit patterns; undefined behaviour is not observable by a test",
  "mulib/mu_jems.c:mu_jems_number")

# ------------------------------------------- exact behaviour where a promise above fails (see DESIGN.md, Findings)
p("bisync: decoding a frame yields SOH and the payload",
  "mu_bisync_decode applied to the frame of a payload followed by any bytes, with room for payload length + 1 bytes, returns payload length + 1 and writes SOH followed by exactly the payload, leaving the rest of the buffer unchanged; with less room it returns MU_BISYNC_ERR_OFLOW. In particular encode followed by decode restores every payload behind one leading SOH byte.",
  "every payload, every following bytes, every capacity up to INT_MAX, every platform width",
  "a round trip over all byte strings and capacities",
  "mulib/mu_bisync.c:mu_bisync_encode", "mulib/mu_bisync.c:mu_bisync_decode")
p("bisync: complete characterisation of decode",
  "Input that does not start with SOH is refused with MU_BISYNC_ERR_FORMAT and nothing is written. Any other input is SOH, complete (plain or DLE-escaped) tokens, and then nothing, a lone DLE, or an unescaped EOT with anything behind; mu_bisync_decode reports MU_BISYNC_ERR_OFLOW iff SOH and the token bytes do not fit, otherwise writes exactly them and succeeds iff an unescaped EOT follows the tokens or the input ends in an escaped EOT, and reports MU_BISYNC_ERR_FORMAT in all other cases.",
  "every input byte string up to INT_MAX bytes, every capacity up to INT_MAX, every platform width",
  "all byte strings; the outcome depends on arbitrarily long escape sequences",
  "mulib/mu_bisync.c:mu_bisync_decode")
p("mu_array_delete: exact effect",
  "Deleting the last item delivers it and removes exactly it; an index at or beyond the count returns false and changes nothing; deleting any other item delivers it and moves the higher items down by one, but the count stays and the last item becomes whatever the storage slot behind the items held, and if the storage has no such slot the call reads outside the storage.",
  "every array, every index, every capacity up to INT_MAX",
  "all arrays and indices, and an out-of-bounds read is not observable by a test",
  "mulib/mu_array.c:mu_array_delete")
p("mu_array_sort sorts, on its domain",
  "With a comparison function that is a total preorder, mu_array_sort terminates, never leaves the array, and leaves a sorted permutation of the items with everything behind them unchanged, for every array of up to (INT_MAX+1)/2 items, except arrays of exactly one item on platforms where size_t is as wide as int; there sorting one item always overflows.",
  "every array contents, every total preorder, every platform width",
  "all arrays and comparators; the exception is an overflow of an int index",
  "mulib/mu_array.c:mu_array_sort", "mulib/mu_array.c:heapify", "mulib/mu_array.c:sift_down")
p("mu_array_sort with any comparison function, on its domain",
  "On the same domain, whatever the comparison function answers (inconsistently, differently at each call), mu_array_sort terminates, permutes the items and neither reads nor writes an item at or beyond the count.",
  "every array contents, every comparison function (history dependent), every platform width",
  "ranges over all comparison functions",
  "mulib/mu_array.c:mu_array_sort", "mulib/mu_array.c:heapify", "mulib/mu_array.c:sift_down")
p("mu_task_set_state: exact effect",
  "mu_task_set_state(NULL, s) does nothing and returns NULL. Otherwise, whether or not the state is the same: the installed set-state hook, if any, is called exactly once with the task and the new state while the task still has its old state, and after it returned exactly the state of exactly this task becomes s; the task is returned.",
  "every task, state, hook behaviour (which may use the API itself)",
  "hooks run arbitrary code",
  "mulib/mu_task.c:mu_task_set_state")
p("mu_bbuf_slice: exact effect",
  "For start >= -capacity and every end the result is exactly the bytes from start to end (negative indices count from the end, out of range ones are clamped), a part of the source, and no other object changes, also if dst is src. For start < -capacity the result is never a part of the source: the call is undefined if the object does not begin early enough and otherwise the slice begins before the source.",
  "every buffer of capacity up to INT_MAX, every pair of int indices, aliasing included",
  "all pairs of indices including INT_MIN and INT_MAX",
  "mulib/mu_bbuf.c:mu_bbuf_slice")
p("mu_bbuf_bisect: exact effect",
  "For index >= -capacity left is the first k bytes and right the rest, k the clamped index (a NULL side is skipped, either may be the source), and together they are the source. For index < -capacity, if the call returns at all, a non-NULL left gets a capacity above INT_MAX and a non-NULL right begins before the source.",
  "every buffer of capacity up to INT_MAX, every int index, aliasing included",
  "all indices including INT_MIN and INT_MAX",
  "mulib/mu_bbuf.c:mu_bbuf_bisect")
p("mu_bbuf_ltrim: exact effect",
  "mu_bbuf_ltrim returns the source without its longest prefix of bytes satisfying the predicate if some byte fails it, and the whole source if none does; always a part of the source.",
  "every buffer of capacity up to INT_MAX, every predicate, aliasing included",
  "all buffers and predicates",
  "mulib/mu_bbuf.c:mu_bbuf_ltrim")
p("mu_bbuf_rtrim and mu_bbuf_trim: exact effect",
  "If every byte satisfies the predicate both return the whole source. Otherwise mu_bbuf_rtrim returns the source without its longest matching suffix and without the one byte before it, and mu_bbuf_trim does the same after removing the longest matching prefix; always a part of the source.",
  "every buffer of capacity up to INT_MAX, every predicate, aliasing included",
  "all buffers and predicates",
  "mulib/mu_bbuf.c:mu_bbuf_rtrim", "mulib/mu_bbuf.c:mu_bbuf_trim")
p("signed integer parsers: exact result",
  "The signed parsers for types narrower than int return the value of the optional '-' and the leading digits reduced to the width of the type, for every buffer; those for types at least as wide as int return the exact value if it lies in [-MAX, MAX] and otherwise (MIN included) overflow.",
  "every buffer of capacity up to INT_MAX, every width",
  "digit strings are unbounded; overflow is not observable by a test",
  "mulib/mu_bbuf.c:DEFINE_INT_PARSER")
p("mu_bbuf_copy_into: exact domain",
  "mu_bbuf_copy_into has a defined result exactly if offset > 0 and offset >= destination capacity, or INT_MIN < offset < 0 and -offset >= source capacity; then it returns 0 and changes nothing. In all other cases it reads an uninitialised variable (or overflows, for INT_MIN).",
  "every pair of buffers, every int offset",
  "reading an uninitialised variable is not observable by a test",
  "mulib/mu_bbuf.c:mu_bbuf_copy_into")
p("mu_bbuf_reverse: exact effect",
  "mu_bbuf_reverse reverses every non-empty buffer in place, changes nothing outside it, and reversing again restores it; on an empty buffer it forms an address outside the object.",
  "every buffer in an object smaller than the address space",
  "all buffers; the invalid address is not observable by a test",
  "mulib/mu_bbuf.c:mu_bbuf_reverse")
p("mu_bbuf_rrotate: exact effect",
  "mu_bbuf_rrotate with any int shift terminates on every non-empty buffer, moves the byte at i to (i + shift) mod capacity and changes nothing else; on an empty buffer it never returns.",
  "every buffer of capacity up to INT_MAX, every int shift",
  "all buffers and shifts; non-termination is not observable by a test",
  "mulib/mu_bbuf.c:mu_bbuf_rrotate")
p("mu_bbuf_rshift: exact effect",
  "mu_bbuf_rshift with any int shift but INT_MIN leaves at position j the byte that was at j - shift, or zero if there was none, and changes nothing else; with INT_MIN it overflows.",
  "every buffer, every int shift",
  "all buffers and shifts",
  "mulib/mu_bbuf.c:mu_bbuf_rshift")

p("mu_spsc is linearizable",
  "For every interleaving of the single memory accesses of mu_spsc_put and mu_spsc_get, each call can be assigned one instant between its invocation and its return such that, executing the calls atomically at those instants on a FIFO list bounded by N - 1, every call returns exactly what it returned: NONE, FULL or EMPTY, and the item.",
  "every capacity N accepted by mu_spsc_init, every schedule of the two threads, every item",
  "unboundedly many interleavings; linearization points are not observable",
  "mulib/mu_spsc.c:mu_spsc_put", "mulib/mu_spsc.c:mu_spsc_get")
p("mu_spsc between two cores with store buffers",
  "If producer and consumer run on two cores whose stores pass through FIFO store buffers and reach memory at arbitrary later moments (total store order), no access leaves the store, the sequence of delivered items is a prefix of the sequence of accepted items, at most N - 1 items are in between, and once the producer's buffer has drained a consumer running alone delivers everything that was accepted.",
  "every capacity N accepted by mu_spsc_init, every schedule of the threads and of the buffer releases",
  "store buffer timing cannot be controlled by a test",
  "mulib/mu_spsc.c:mu_spsc_put", "mulib/mu_spsc.c:mu_spsc_get", "mulib/mu_spsc.h:mu_spsc_t")

p("mu_sched_next_task predicts the next deferred task",
  "mu_sched_next_task returns NULL exactly when no task is deferred, and otherwise the deferred task that will be taken first: earliest time, oldest among equals. It changes nothing; and if no deferred task is added, removed or taken in between, the deferred task taken next is the one it returned.",
  "every reachable scheduler state, every clock whose pending times are ordered",
  "all histories",
  "mulib/mu_sched.c:mu_sched_next_task")
p("the idle task",
  "mu_sched_get_idle_task returns, and an idle step runs, the task set last by mu_sched_set_idle_task; before it is ever set both are NULL and an idle step runs nothing. mu_sched_reset does not change it.",
  "every history, including calls from inside tasks",
  "all histories",
  "mulib/mu_sched.c:mu_sched_set_idle_task", "mulib/mu_sched.c:mu_sched_get_idle_task", "mulib/mu_sched.c:mu_sched_step")
p("the scheduler has no hidden state",
  "If after two histories the same tasks wait in the same order in each queue and the idle task and the running task are the same, every further program behaves identically after both: same return values, same tasks run in the same order.",
  "every pair of histories, every further program",
  "all pairs of histories; ring-buffer positions and stale array entries differ between them",
  "mulib/mu_sched.c:mu_sched_step", "mulib/mu_sched.c:mu_sched_defer_until", "mulib/mu_sched.c:mu_sched_immed")
p("scheduler, tasks and hooks together",
  "When hooks and task functions themselves use the scheduler, the task API and message queues, to any nesting depth: programs that keep the rules never fault; what the scheduler does obeys all scheduler properties and what the task module does all task properties; a task the scheduler calls is entered at once through mu_task_call; mu_sched_current_task returns it inside its call hook and its function; and if only the scheduler and message queues call tasks, the function of each task runs exactly as often as a step chose it and queues notified it, together.",
  "every program over both APIs with arbitrary nesting, every hook installation",
  "unboundedly many nested call patterns",
  "mulib/mu_sched.c:mu_sched_step", "mulib/mu_task.c:mu_task_call", "mulib/mu_task.c:mu_task_set_state", "mulib/mu_task.c:mu_task_call_transfer_hook")
p("mu_sched_transfer and mu_sched_wait",
  "mu_sched_transfer(t) calls the transfer hook installed last, if any, once with t, and then, in the state the hook left, puts t at the end of the immediate queue, or returns FULL and puts nothing exactly if there is no room then. mu_sched_wait returns NONE and has no effect.",
  "every history, every behaviour of the hook",
  "the hook may itself fill or empty the queue",
  "mulib/mu_sched.c:mu_sched_transfer", "mulib/mu_sched.c:mu_sched_wait", "mulib/mu_task.c:mu_task_call_transfer_hook")

p("interrupts at every point of every execution",
  "Let the foreground run any code (steps, nested steps, tasks and hooks that use the scheduler, without mu_sched_reset) and let interrupts, or a producer on another core, call mu_sched_from_isr all the time, interleaved access by access. Nothing faults, and the calls and returns in their order are those of a sequential execution in which each mu_sched_from_isr takes effect at one instant between its call and its return and each mu_sched_step chooses at one instant between its call and the call of the task. In user code the foreground finds the state of that sequential execution. A step gets to the call of its task within eleven actions of its own, a mu_sched_from_isr returns within six, whatever the other side does.",
  "every foreground program, every sequence of interrupt tasks, every interleaving of the individual shared accesses",
  "all interleavings of unbounded executions",
  "mulib/mu_sched.c:mu_sched_step", "mulib/mu_sched.c:mu_sched_from_isr", "mulib/mu_spsc.c:mu_spsc_put", "mulib/mu_spsc.c:mu_spsc_get")
p("interrupts during mu_sched_reset",
  "Interrupts may call mu_sched_from_isr at any point of mu_sched_reset: nothing faults, and the outcome is that of an uninterrupted reset with some of the interrupts before and some after it; those that fall between the two stores of mu_spsc_reset are discarded even if mu_sched_from_isr reported success. This does not extend to a mu_sched_from_isr in progress on another core during the reset: then a task that was run before the reset can be run again.",
  "every reachable scheduler state, every list of tasks before, inside and after the reset, every further program",
  "all states and all positions of the interrupts",
  "mulib/mu_sched.c:mu_sched_reset", "mulib/mu_spsc.c:mu_spsc_reset", "mulib/mu_sched.c:mu_sched_from_isr")

p("initialising and copying views",
  "mu_bbuf_init makes a buffer describe exactly the given bytes, mu_bbuf_init_cstr exactly the characters before the NUL, mu_bbuf_copy the same bytes as the source; no other buffer object changes and no byte is written. A fresh bvec, however initialised and whatever was in the object, has count 0, the capacity of its buffer, all of it available, and n reads return its first n bytes and report failure past the end.",
  "every memory, every buffer, every string, every previous contents of the objects, every number of reads",
  "all buffers and all strings",
  "mulib/mu_bbuf.c:mu_bbuf_init", "mulib/mu_bbuf.c:mu_bbuf_init_cstr", "mulib/mu_bbuf.c:mu_bbuf_copy", "mulib/mu_bvec.c:mu_bvec_init", "mulib/mu_bvec.c:mu_bvec_get_available_count")
p("JSON written into a bvec",
  "If the byte writer of a mu_jems context appends each byte to a bvec, then after the calls that write a document the bvec's buffer holds the text of the document (which the JSON reader reads back as that document) with the rest of the buffer unchanged if it fits, and the first capacity bytes of the text if it does not; the count tells the full length of the text either way, and nothing outside the buffer changes.",
  "every document, every buffer of every capacity",
  "all documents and all capacities",
  "mulib/mu_jems.c:mu_jems_init", "mulib/mu_bvec.c:mu_bvec_write_byte")
p("rotations compose and undo",
  "Rotating by s1 and then by s2 gives the same bytes as rotating by any s3 congruent to s1+s2 modulo the capacity; rotating by s and then by -s restores memory exactly.",
  "every non-empty buffer, all shifts that are ints",
  "all buffers and all pairs of shifts",
  "mulib/mu_bbuf.c:mu_bbuf_rrotate")
p("mu_bbuf_bisect agrees with mu_bbuf_slice",
  "For an index not below -capacity the left part of mu_bbuf_bisect has the bytes of the slice [0, index) and the right part those of the slice [index, END).",
  "every buffer, every index from -capacity to INT_MAX",
  "all buffers and all indices",
  "mulib/mu_bbuf.c:mu_bbuf_bisect", "mulib/mu_bbuf.c:mu_bbuf_slice")
p("emitted integers parse back",
  "The text mu_jems_integer emits for n, followed by any non-digit or the end of the buffer, is parsed back to n by the signed mu_bbuf parsers of every type at least as wide as int whose range contains n and -n, and for non-negative n the unsigned parsers return n modulo the range of their type. The text of the least 64-bit integer, which mu_jems_integer emits, overflows in mu_bbuf_parse_int64.",
  "every 64-bit integer, every integer type, every following text",
  "all integers",
  "mulib/mu_jems.c:mu_jems_integer", "mulib/mu_bbuf.c:mu_bbuf_parse_int64", "mulib/mu_bbuf.c:mu_bbuf_parse_uint64")

p("how often the comparison function is called",
  "mu_array_sort of n items calls the comparison function at most 3 n log2 n and at least n/2 + (n-2) times, whatever it answers (so the header's O(log N) for the heap sort is not what the code does, and no answer can make it run longer). mu_array_insert_sorted into n items calls it at most log2 n + 1 times, always with the new item as second argument.",
  "every array, every comparison function including inconsistent and stateful ones, up to (INT_MAX+1)/2 items",
  "all sizes and all comparison functions",
  "mulib/mu_array.c:mu_array_sort", "mulib/mu_array.c:mu_array_insert_sorted", "mulib/mu_array.h:mu_array_sort")


p("nested interrupts on the spsc queue",
  "If mu_spsc_put (mu_sched_from_isr) is interrupted between its shared accesses by a handler that puts items into the same queue, nothing faults; a full queue stays as it is and every put says so; otherwise all puts report what a queue with that much room would report, but afterwards the queue holds its old items and exactly one more: the interrupted item if the interruption falls between the second load of the tail and the store of the item (or if the handler put nothing), else the first item of the handler. An interruption before the first or after the last shared access is harmless: the puts behave as made one after the other.",
  "every history before and after, every queue size, every position of the interruption, every number of nested puts",
  "all interruption points, histories and numbers of items",
  "mulib/mu_spsc.c:mu_spsc_put", "mulib/mu_sched.c:mu_sched_from_isr")
p("comparison functions see only items of the array",
  "mu_array_sort calls the comparison function with items of the array only, mu_array_insert_sorted with an item of the array and the new item (in this order): what the function would do on anything else, such as the unused part of the storage, is of no consequence. This holds for inconsistent and stateful comparison functions too.",
  "every array, every pair of comparison functions that agree on the items",
  "all arrays and all comparison functions",
  "mulib/mu_array.c:mu_array_sort", "mulib/mu_array.c:sift_down", "mulib/mu_array.c:mu_array_insert_sorted")
p("sorting byte buffers",
  "Sorting an array of pointers to byte buffers with mu_bbuf_compare never faults in a comparison and leaves the same pointers in lexicographic order of the bytes; mu_array_insert_sorted with mu_bbuf_compare keeps that order, the new buffer going behind equal ones.",
  "every array of valid buffers, shared and overlapping ones included",
  "all arrays of buffers of all contents and lengths",
  "mulib/mu_array.c:mu_array_sort", "mulib/mu_array.c:mu_array_insert_sorted", "mulib/mu_bbuf.c:mu_bbuf_compare")
p("a slice of a slice is a slice",
  "Slicing a slice gives the same address and capacity as slicing the source once with the indices counted from the start of the first slice.",
  "every buffer, all indices not below minus the capacity they refer to, MU_BBUF_END included",
  "all buffers and all quadruples of indices",
  "mulib/mu_bbuf.c:mu_bbuf_slice")
p("streams of frames",
  "Frames made by mu_bisync_encode and sent one after the other determine the payloads and their number, and mu_bisync_decode started at the beginning of any of them delivers exactly the payload of that frame after the SOH.",
  "every list of payloads, every frame of the stream",
  "all lists of payloads, including payloads that look like frames",
  "mulib/mu_bisync.c:mu_bisync_encode", "mulib/mu_bisync.c:mu_bisync_decode")
p("truncated frames",
  "mu_bisync_decode reports MU_BISYNC_ERR_FORMAT for a frame that was cut short, unless the cut falls right behind an escaped EOT of the payload, when it delivers the payload up to and including that EOT as if it were complete. So every truncation of a frame whose payload has no EOT byte is detected.",
  "every payload, every position of the cut",
  "all payloads and all cuts",
  "mulib/mu_bisync.c:mu_bisync_decode")

p("message queues inside a running program",
  "In a program in which the scheduler runs tasks, and tasks, hooks and the tasks that queues notify use any number of message queues, the scheduler and the tasks at any depth, what is observed of each queue is what a bounded first-in first-out list does: values leave in the order they entered, nothing is lost, duplicated or moved between queues, every successful put and get calls the queue's task at once by mu_task_call, exactly once, and a queue nobody touches does not change. No such program faults.",
  "every program (finite tree of calls of the three modules) from every initial state, every queue",
  "all programs, all numbers and capacities of queues, all nestings of callbacks",
  "mulib/mu_mqueue.c:mu_mqueue_put", "mulib/mu_mqueue.c:access_queue", "mulib/mu_task.c:mu_task_call", "mulib/mu_sched.c:mu_sched_step")
p("message queues as semaphores and mutexes",
  "In such a program, over any stretch without a reset, the successful puts to a queue exceed the successful gets by at most its capacity and vice versa. With capacity one, between two successful puts there is a get, and the first one takes the element of the first put: a lock made of such a queue has one holder at a time.",
  "every program of the three modules, every queue, every stretch of the execution",
  "all programs and all stretches",
  "mulib/mu_mqueue.c:mu_mqueue_put", "mulib/mu_mqueue.c:access_queue", "mulib/mu_mqueue.h")

p("moved accesses to the storage of the interrupt queue",
  "The storage of a mu_spsc is not volatile, so that a compiler may move the access to it across the accesses to head and tail. In mu_spsc_get this never matters: loading the item late, even after head was advanced, gives the same results under every interleaving. In mu_spsc_put it does not matter as long as the consumer does not run between the store to tail and the late store of the item, as when put is called by an interrupt handler and get by the main program: all puts and gets then have the results of an execution in source order. Otherwise a consumer can receive an item that was never put.",
  "every choice of the order in every call, every interleaving of the individual accesses, every queue size",
  "all interleavings of two threads and all choices of a compiler",
  "mulib/mu_spsc.c:mu_spsc_put", "mulib/mu_spsc.c:mu_spsc_get", "mulib/mu_spsc.h:mu_spsc_t")

p("frames sent through an interrupt queue",
  "When frames made by mu_bisync_encode are sent byte by byte through a mu_spsc, the producer sending a byte again as long as put returns FULL, then under every interleaving the bytes received so far are the beginning of the sent stream, every frame received completely decodes, at the place where it starts, to exactly its payload, and once all bytes have been accepted the consumer gets all of them. The same holds between two cores whose stores are delayed in store buffers.",
  "every list of payloads, every queue size, every interleaving of producer and consumer, every moment",
  "all interleavings and all streams; no test can enumerate the schedules",
  "mulib/mu_bisync.c:mu_bisync_encode", "mulib/mu_bisync.c:mu_bisync_decode", "mulib/mu_spsc.c:mu_spsc_put", "mulib/mu_spsc.c:mu_spsc_get")

p("no lost wakeups",
  "If every time a message is stored in a queue a consumer task is made runnable (mu_sched_immed or mu_sched_from_isr succeeds) before the scheduler next chooses a task, and every time the scheduler has chosen the consumer the queue is found empty by a get before the scheduler next chooses a task, then at every choice of the scheduler the queue is empty or the consumer is waiting in the interrupt or the immediate queue; in particular whenever the scheduler goes idle the queue is empty.",
  "every program of scheduler, tasks and message queues that keeps to this, at any nesting depth, every moment",
  "all programs and all interleavings of producers, consumer and scheduler",
  "mulib/mu_mqueue.c:mu_mqueue_put", "mulib/mu_mqueue.c:mu_mqueue_get", "mulib/mu_sched.c:mu_sched_step", "mulib/mu_sched.c:mu_sched_immed")
p("a wrapping clock cannot be told from one that never wraps",
  "Of the clock only the comparisons matter: a program does the same calls in the same order with the same results under two clocks that agree on the comparisons of each new time with the pending ones. In particular a w bit tick counter compared by signed difference behaves as an unbounded counter, if whenever the clock is read or a task is deferred, that time is within half of the range from each pending time.",
  "every program, every counter width, every execution, however often the counter wraps",
  "all programs and times; wrapping of a 32 bit counter takes weeks",
  "mulib/mu_sched.c:mu_sched_step", "mulib/mu_sched.c:defer_aux", "mulib/mu_sched.c:fetch_runnable_deferred_task", "mulib/mu_platform.h:mu_time_precedes")
p("periodic tasks do not run too often",
  "A task that is scheduled only by deferring it by at least a period from the current time, while it is not waiting already, runs at most once per period: the clock readings at which it is run are at least a period apart, and the k-th run is not earlier than k periods after the beginning, whatever other tasks and interrupts do.",
  "every history of the scheduler, every stretch in which the task keeps to this, every period, every k",
  "all histories and unboundedly many runs",
  "mulib/mu_sched.c:mu_sched_defer_for", "mulib/mu_sched.c:mu_sched_step", "mulib/mu_sched.c:fetch_runnable_deferred_task")

p("JSON telemetry: emitted, framed, queued, received",
  "Documents emitted with mu_jems into a mu_bvec, framed with mu_bisync_encode and sent byte by byte through a mu_spsc: the frame of a document is exactly two bytes longer than its text (nothing is ever stuffed); a frame cut short anywhere is refused by mu_bisync_decode; and under every interleaving of producer and consumer each completely received frame decodes to a text that a JSON reader reads as the document it was made from.",
  "all documents, all call sequences that emit them, all buffers they fit in, all cut points, all queue sizes and all interleavings of the put and get steps",
  "The three modules are never combined in the tests, and the documents, cut points and interleavings are unbounded.",
  "mulib/mu_jems.c", "mulib/mu_bvec.c:mu_bvec_write_byte", "mulib/mu_bisync.c:mu_bisync_encode", "mulib/mu_bisync.c:mu_bisync_decode", "mulib/mu_spsc.c")
p("A receiver that joins a telemetry stream late finds the next frame",
  "A receiver that starts listening anywhere in a stream of framed JSON documents and holds the received bytes in a mu_bbuf: mu_bbuf_find_byte(SOH) returns the beginning of the first frame that begins after it joined, and mu_bisync_decode from there delivers the text of that document; MU_BBUF_NOT_FOUND means that no frame has begun since.",
  "all lists of documents, all joining points, all buffers",
  "The joining point and the stream are arbitrary; a byte equal to SOH inside any document would break it.",
  "mulib/mu_bbuf.c:mu_bbuf_find_byte", "mulib/mu_bisync.c:mu_bisync_decode", "mulib/mu_jems.c")

p("mu_bbuf_copy_into, given what its two unset variables hold",
  "mu_bbuf_copy_into reads two local variables that it never sets on some paths. Whatever values they happen to hold: as long as the number of bytes attempted (the minimum of the two, one of them set from the offset) does not exceed what both buffers have left, exactly that many bytes are copied to the right place, their number is returned and nothing else changes; if each variable holds the length of its buffer the function does what its documentation says for every pair of buffers and every offset above INT_MIN; if they make it attempt more, it runs over the end of a buffer.",
  "all buffers (also overlapping ones, as far as an upward loop allows), all offsets, all values of the unset variables",
  "The outcome depends on leftover stack contents; a test sees one value of them.",
  "mulib/mu_bbuf.c:mu_bbuf_copy_into")

p("A sorted array is a priority queue",
  "An array filled only with mu_array_insert_sorted (always with the same comparison function) and emptied with mu_array_pop is a priority queue: after every history of such calls each pop and each peek delivers a greatest item among those in it, of several equal ones the one put last; a put fails exactly when the array is full and then changes nothing; the same holds starting from an array sorted with mu_array_sort.",
  "all capacities, all comparison functions that are total preorders, all sequences of insert_sorted, pop and peek",
  "The claim is about every history of calls and every comparison function, including ties.",
  "mulib/mu_array.c:mu_array_insert_sorted", "mulib/mu_array.c:mu_array_pop", "mulib/mu_array.c:mu_array_peek", "mulib/mu_array.c:mu_array_sort")

p("Searching and trimming with predicates that keep state",
  "mu_bbuf_find_predicate calls the predicate with the bytes in order from the first on, once each, and stops at the first one for which it returns false, whose index it returns (MU_BBUF_NOT_FOUND if there is none); mu_bbuf_rfind_predicate does the same from the last byte down. This holds also for predicates that keep state behind their argument and whose answers depend on the calls made before; mu_bbuf_ltrim, mu_bbuf_rtrim and mu_bbuf_trim cut accordingly, trim passing the state on from the front to the back.",
  "all buffers of at most INT_MAX bytes, all predicates with any kind of state, all initial states",
  "The order and number of the calls is visible to a stateful predicate; a test uses one predicate on one string.",
  "mulib/mu_bbuf.c:mu_bbuf_find_predicate", "mulib/mu_bbuf.c:mu_bbuf_rfind_predicate", "mulib/mu_bbuf.c:mu_bbuf_ltrim", "mulib/mu_bbuf.c:mu_bbuf_rtrim", "mulib/mu_bbuf.c:mu_bbuf_trim")

p("Encoding and decoding with overlapping buffers",
  "mu_bisync_decode may be given the same buffer for input and output: if the output begins at or before the input, or they do not overlap, it writes nothing it has not yet read, so return value and output are those of decoding into a separate buffer. mu_bisync_encode may write to the front of the buffer at whose end the payload lies, if the payload begins at least one byte more than it has control bytes behind the start of the output. Otherwise overlapping buffers give wrong results.",
  "all memory contents, all positions of the two buffers in the same or different objects, all lengths and capacities",
  "In-place use depends on how far writing gets ahead of reading, for every input.",
  "mulib/mu_bisync.c:mu_bisync_decode", "mulib/mu_bisync.c:mu_bisync_encode")

p("Waiting under load: interrupt and immediate tasks",
  "While tasks and interrupts go on scheduling other tasks: an interrupt task with k interrupt tasks ahead of it is taken after exactly those k, whatever is scheduled meanwhile; an immediate task with k immediate tasks ahead of it is taken after at most k tasks plus the interrupt and deferred tasks queued at that time plus those accepted meanwhile, immediate tasks scheduled later never delay it and the idle task is not used while it waits. No bound independent of the interrupts exists: an interrupt that schedules a task before every step keeps everything else waiting for ever.",
  "all configurations, all reachable histories, all continuations without a reset, all positions",
  "The interfering calls (by tasks, nested steps, hooks and interrupts) form unbounded sequences.",
  "mulib/mu_sched.c:mu_sched_step", "mulib/mu_sched.c:mu_sched_immed", "mulib/mu_sched.c:mu_sched_from_isr", "mulib/mu_sched.c:mu_sched_defer_until")

p("Waiting under load: a deferred task that is due",
  "A deferred task that is due and stays due (later clock readings are not before its time) is taken after at most: the interrupt tasks queued and those accepted meanwhile, the pending entries scheduled before it for the same or an earlier time, and the entries scheduled after it for a strictly earlier time. Until then steps take nothing else: immediate tasks, the idle task, and deferred tasks for a later time (or for the same time, scheduled later) do not delay it.",
  "all configurations, all ordered clocks, all reachable histories, all continuations without a reset and without removal of the task",
  "The interfering calls form unbounded sequences.",
  "mulib/mu_sched.c:mu_sched_step", "mulib/mu_sched.c:mu_sched_defer_until", "mulib/mu_sched.c:mu_sched_defer_for")



p("A partly emitted document can be completed at any point",
  "While a document is being emitted through mu_jems, after any of the calls, the characters passed to the writer so far, followed by ':null' if a key is waiting for its value and by one closing bracket per open container, are well-formed JSON; what it reads as is the document cut off at that place. The calls mu_jems_null (if a value is missing) and mu_jems_array_close/object_close for the open containers, innermost first, write exactly that text, so a program that runs into an error half way can always finish the document",
  "all documents that fit the level stack and counters, all ways of emitting them, all call boundaries, all platforms",
  "documents and the place of interruption are unbounded; a test sees a few of them",
  "mulib/mu_jems.c:mu_jems_array_open", "mulib/mu_jems.c:mu_jems_array_close", "mulib/mu_jems.c:mu_jems_object_open", "mulib/mu_jems.c:mu_jems_object_close", "mulib/mu_jems.c:mu_jems_null")
p("A truncated document is never mistaken for a complete one",
  "If the characters that mu_jems passes to its writer for a document that is not a bare number are cut off anywhere before the last one, what is left is not well-formed JSON; in particular, of a document emitted into a mu_bvec the bytes in the buffer are accepted by a JSON reader if and only if the count does not exceed the capacity, and then they denote the document",
  "all documents other than bare numbers, all ways of emitting them, all cut points, all buffer capacities",
  "every prefix of every document has to be rejected",
  "mulib/mu_jems.c:mu_jems_array_close", "mulib/mu_jems.c:mu_jems_object_close", "mulib/mu_jems.c:mu_jems_string", "mulib/mu_jems.c:mu_jems_bytes", "mulib/mu_jems.c:mu_jems_literal", "mulib/mu_bvec.c:mu_bvec_write_byte")


p("Emitted numbers: the exact text, and order is preserved",
  "For a double with a fraction mu_jems_number writes the nearest number of millionths (the even one of two), with a minus sign exactly for negative values, as many of the six digits as fit 21 characters, dropping the others without rounding again. If v <= w and both calls are defined, the number a JSON reader gets for v is not greater than the one it gets for w: rounding, cutting off and the switch between integers and fractions never invert the order",
  "all finite doubles in the defined range, all pairs of them, all states of the emitters",
  "2^128 pairs of bit patterns",
  "mulib/mu_jems.c:mu_jems_number")


p("The source of mu_queue.c, as parsed, is a bounded first-in first-out queue",
  "Take the functions of mu_queue.c exactly as written (their parsed syntax, executed by a semantics of C). After mu_queue_init on any struct and any storage of cap slots, every sequence of put, get, peek, reset, count, capacity, is_empty and is_full calls returns and delivers exactly what a first-in first-out list bounded by cap does, performs no undefined operation, and writes nothing except the struct, the cap slots and the variables passed to get and peek.",
  "All platforms (widths of int and size_t), all capacities up to half of SIZE_MAX, all memory contents and placements of the struct, storage and variables, all element values, all call sequences.",
  "The claim is about the program text for unboundedly many histories, capacities and memory layouts; tests run a few histories on one machine.",
  "mulib/mu_queue.c:mu_queue_init", "mulib/mu_queue.c:mu_queue_put", "mulib/mu_queue.c:access_queue", "mulib/mu_queue.c:mu_queue_reset")
p("The source of mu_spsc.c, as parsed, is a bounded first-in first-out queue when called sequentially",
  "Take the functions of mu_spsc.c exactly as written. mu_spsc_init refuses every store_size that is not a power of two of at least 2, without touching memory; otherwise, every sequence of put, get, reset and capacity calls returns and delivers what a first-in first-out list bounded by store_size - 1 does, performs no undefined operation, and writes nothing except the struct, the slots and the variables passed to get.",
  "All platforms (including those where uint16_t is promoted to unsigned int), all uint16_t sizes, all memory contents and placements, all items, all call sequences.",
  "The promotions of uint16_t differ between platforms and the wrap-around depends on the whole history; tests cover one platform and a few histories.",
  "mulib/mu_spsc.c:mu_spsc_init", "mulib/mu_spsc.c:mu_spsc_put", "mulib/mu_spsc.c:mu_spsc_get", "mulib/mu_spsc.c:mu_spsc_reset")

p("The source of mu_bisync.c, as parsed, frames and unframes correctly",
  "Take mu_bisync_encode and mu_bisync_decode exactly as written. Encoding any payload into any destination of any size returns the length of the frame and leaves the frame there if it fits, else MU_BISYNC_ERR_OFLOW; decoding any input that starts with SOH writes SOH and what the tokens stand for, as far as the destination reaches, and returns the count, MU_BISYNC_ERR_OFLOW or MU_BISYNC_ERR_FORMAT as determined by the grammar of the input; any other input is refused. A frame may also be decoded where it lies. No call performs an undefined operation, and none changes memory outside the destination.",
  "All platforms, all payloads and inputs, all destination sizes and contents, all placements in memory that do not overlap (or coincide, for decoding in place).",
  "The claim is about the program text for unboundedly many inputs, sizes and memory layouts.",
  "mulib/mu_bisync.c:mu_bisync_encode", "mulib/mu_bisync.c:mu_bisync_decode", "mulib/mu_bisync.c:buffer_put")

p("The parsed source of mu_bbuf.c: every function that only reads",
  "For the syntax trees read off mu_bbuf.c: with buffers (and C strings) anywhere in memory, overlapping or not, mu_bbuf_compare, matches, has_prefix, has_suffix, find/rfind_substr (and the cstr variants), find/rfind_byte, find/rfind_predicate, the ten decimal parsers, parse_hex, get_byte, ref_ro/rw, bytes_ro/rw and capacity return what the lists of bytes say: the lexicographic order, prefix, suffix, first and last occurrence, the first byte the predicate refuses, the leading number modulo the width (for signed types at least as wide as int: if the number fits in the type; otherwise the C arithmetic overflows, see C47). None of them faults or changes memory (except the variable given to get_byte and what the user's predicate does).",
  "every memory, every buffer content up to INT_MAX bytes, every needle, every predicate with state, every platform (width and signedness)",
  "buffers of any length and content at any address; predicates are arbitrary user code",
  "mulib/mu_bbuf.c:mu_bbuf_compare", "mulib/mu_bbuf.c:mu_bbuf_find_substr", "mulib/mu_bbuf.c:mu_bbuf_parse_int")

p("The parsed source of mu_bbuf.c: views",
  "For the syntax trees read off mu_bbuf.c: mu_bbuf_init_ro/rw/cstr, copy, slice, bisect, ltrim, rtrim and trim return buffers that cover exactly the bytes their lists say (the positions of start and end; before and behind the index; from the first byte a predicate refuses), at the same place in memory, with the destination being the source itself or any other mu_bbuf_t; they change the destination structs (and what the user's predicate changes) and nothing else. A slice that starts before the object is undefined behaviour.",
  "every memory, buffer, start, end and index not below -capacity, NULL results, aliased results, every predicate with state",
  "any content, any index, aliasing of source and destination; predicates are arbitrary user code",
  "mulib/mu_bbuf.c:mu_bbuf_slice", "mulib/mu_bbuf.c:mu_bbuf_bisect", "mulib/mu_bbuf.c:mu_bbuf_trim")

p("The parsed source of mu_bbuf.c: functions that write",
  "For the syntax trees read off mu_bbuf.c: put_byte replaces the byte at an index inside the buffer and refuses any other; clear zeroes; rshift moves the byte at j-shift to j and fills with zeros (INT_MIN overflows); reverse reverses a non-empty buffer (an empty one computes a pointer outside its object); rrotate moves the byte at i to (i+shift) mod capacity (on an empty buffer it never returns); copy_into never copies. In every case no cell of memory other than the bytes of the buffer changes, and the locals of the function are gone after the return.",
  "every memory, buffer that can be written, index, byte and shift",
  "any content, capacity and shift, including the extreme ones; that nothing else changes cannot be tested",
  "mulib/mu_bbuf.c:mu_bbuf_put_byte", "mulib/mu_bbuf.c:mu_bbuf_clear", "mulib/mu_bbuf.c:mu_bbuf_rshift", "mulib/mu_bbuf.c:mu_bbuf_reverse", "mulib/mu_bbuf.c:mu_bbuf_rrotate", "mulib/mu_bbuf.c:mu_bbuf_copy_into")

p("The parsed source of mu_bvec.c",
  "For the syntax trees read off mu_bvec.c: a vector initialised in any of the three ways answers every history of calls (set_count, reset, read_byte, write_byte, get_available, get_count, get_capacity, ref_ro, ref_rw, get_bbuf) as a list of bytes with a position does; the bytes and count in memory are those of the list; nothing else changes but the variables read into. At or past the capacity, reads and writes return false and change only the count.",
  "every memory, bytes, capacity and history of calls, including counts past the capacity and the wrap of the count at SIZE_MAX",
  "histories and memories are unbounded",
  "mulib/mu_bvec.c:mu_bvec_init", "mulib/mu_bvec.c:mu_bvec_read_byte", "mulib/mu_bvec.c:mu_bvec_write_byte", "mulib/mu_bvec.c:mu_bvec_get_available")

p("mu_array source is a bounded list, in memory",
  "Taking the C text of mu_array.c itself (parsed, with a semantics of memory cells and pointers): after mu_array_init on any struct and any storage, every history of push, pop, peek, ref, insert, index, rindex, reset, count, capacity, is_empty, is_full answers and delivers exactly what a list bounded by the capacity does, never faults, leaves that list in the slots, and changes no memory except the struct, the slots and the caller's variables. mu_array_delete: failing and last-item deletion as documented; in the middle the count stays and the slot behind the items becomes the last item, or memory behind the storage is read.",
  "all platforms, all positions of struct and storage in memory, all capacities up to INT_MAX, all contents, all histories and items, all behaviours of external functions",
  "needs every history at every capacity, and absence of stray reads and writes anywhere in memory",
  "mulib/mu_array.c:mu_array_init", "mulib/mu_array.c:mu_array_push", "mulib/mu_array.c:mu_array_pop", "mulib/mu_array.c:mu_array_insert", "mulib/mu_array.c:mu_array_delete", "mulib/mu_array.c:mu_array_index", "mulib/mu_array.c:mu_array_rindex")

p("mu_array source sorts, in memory",
  "Taking the C text of mu_array.c itself: for any array in memory and any comparison function that leaves the array alone (it may have state and use other memory, and its answers may be any ints, even inconsistent), mu_array_sort returns its argument, terminates without undefined behaviour and leaves a permutation of the items; when the answers are those of a total preorder the items are in order; with a comparison function that only looks at its arguments no other cell of memory changes. mu_array_insert_sorted returns true and has inserted the item when there is room (after every item not above it, before every other one, if the array was in order) and returns false and changes no item when there is none. The length must satisfy 2*count <= INT_MAX + 1, and where size_t is as wide as int an array of one item makes mu_array_sort overflow.",
  "all platforms, all positions of struct and storage in memory, all contents, all comparison functions including stateful and inconsistent ones",
  "needs every array of every length and every comparison function",
  "mulib/mu_array.c:mu_array_sort", "mulib/mu_array.c:mu_array_insert_sorted", "mulib/mu_array.c:find_insertion_index", "mulib/mu_array.c:heapify", "mulib/mu_array.c:sift_down", "mulib/mu_array.c:swap")

p("mu_task source: calls, states and hooks, in memory",
  "Taking the C text of mu_task.c itself: mu_task_init sets the three members and nothing else; the getters return them and change nothing; mu_task_set_user_info and the three hook installers change exactly one variable; mu_task_call and mu_task_set_state ignore NULL; mu_task_call calls the installed hook (if any) once with the task and then the function the task has at that moment, once, with the task, and memory is as that function leaves it; mu_task_set_state calls the hook with the task and the new state and then stores the state, nothing else; mu_task_call_transfer_hook calls the hook with its argument. If a hook does not return, nor does the call.",
  "all platforms, all positions of the task in memory, all functions and hooks including ones that change the task, call back into the library, fail or do not return",
  "needs every hook and task function",
  "mulib/mu_task.c:mu_task_init", "mulib/mu_task.c:mu_task_call", "mulib/mu_task.c:mu_task_set_state", "mulib/mu_task.c:mu_task_call_transfer_hook", "mulib/mu_task.c:mu_task_install_call_hook")

p("mu_mqueue source: FIFO and notifications, in memory",
  "Taking the C text of mu_mqueue.c itself: after mu_mqueue_init on any struct and storage, each call (put, get, peek, reset, count, capacity, is_empty, is_full) first does to the queue and to the caller's variable exactly what a first-in first-out list bounded by the capacity does, then - only after a successful put or get, and only if that task is not NULL - calls the put or get task, and does nothing after that but return what the list says; this whatever the task does, re-entrant use included. When the tasks return and leave the queue alone, every history answers as the list does, and the tasks called are in order exactly one per successful put and get.",
  "all platforms, all positions of struct and storage in memory, all capacities up to half of SIZE_MAX+1, all histories, all tasks and hooks (stateful, re-entrant, failing or not returning)",
  "needs every history, every task and absence of stray writes",
  "mulib/mu_mqueue.c:mu_mqueue_init", "mulib/mu_mqueue.c:mu_mqueue_put", "mulib/mu_mqueue.c:mu_mqueue_get", "mulib/mu_mqueue.c:access_queue", "mulib/mu_task.c:mu_task_call")

p("mu_sched source: the agenda, in memory",
  "Taking the C text of mu_sched.c itself: mu_sched_init establishes, in the file-scope variables, an empty agenda (interrupt list, immediate list, deferred list, current task, idle task); mu_sched_immed, mu_sched_from_isr, mu_sched_defer_until, mu_sched_defer_for, mu_sched_remove_deferred_task, mu_sched_reset, mu_sched_set_idle_task and mu_sched_transfer change the agenda exactly as operations on bounded lists (deferred sorted by time, equal times in order of the calls), return exactly the documented code, and write nothing outside the scheduler's variables; mu_sched_current_task, mu_sched_get_idle_task, mu_sched_next_task and mu_sched_wait answer and change nothing; mu_sched_step moves exactly one task (an interrupt task first, then a due deferred task, then an immediate task, then the idle task) into the current task and calls it once, whatever that task does, and clears the current task only when it returns; a change elsewhere in memory leaves the agenda alone.",
  "all platforms, all contents of the rest of memory, all agendas, all tasks, times, clock functions, hooks and task functions (stateful, failing, re-entrant)",
  "needs every agenda, every clock and every task function, and absence of stray writes anywhere in memory",
  "mulib/mu_sched.c:mu_sched_init", "mulib/mu_sched.c:mu_sched_step", "mulib/mu_sched.c:mu_sched_immed", "mulib/mu_sched.c:mu_sched_from_isr", "mulib/mu_sched.c:mu_sched_defer_until", "mulib/mu_sched.c:mu_sched_defer_for", "mulib/mu_sched.c:mu_sched_remove_deferred_task", "mulib/mu_sched.c:mu_sched_reset", "mulib/mu_sched.c:mu_sched_transfer")

p("mu_log source: filtering and delivery, in memory",
  "Taking the C text of mu_log.c itself: mu_log_init and the two setters change exactly their variables; the getters answer from them and change nothing; mu_log_is_reporting answers whether the level is at least the threshold; mu_log with a level at least the threshold and a logging function set calls that function exactly once, with the format and the variable arguments unchanged and the level of the message available through mu_log_get_reporting_level, whatever the function does; otherwise it does nothing at all; mu_log_level_name returns the documented name, or UNKNOWN for every other value of the type; every history of calls delivers exactly the messages at or above the threshold of the moment, in order, to the function of the moment.",
  "all platforms (signed or unsigned enumeration), all levels, formats, arguments, logging functions (stateful, re-entrant, failing), all histories",
  "needs every history, every logging function, every value of the level type and absence of stray writes",
  "mulib/mu_log.c:mu_log", "mulib/mu_log.c:mu_log_init", "mulib/mu_log.c:mu_log_is_reporting", "mulib/mu_log.c:mu_log_level_name", "mulib/mu_log.c:mu_log_set_reporting_threshold", "mulib/mu_log.c:mu_log_set_logging_function")

p("mu_jems source: the JSON emitted, in memory",
  "Taking the C text of mu_jems.c itself: mu_jems_init followed by calls that describe a JSON document nested less deep than there are levels passes exactly the text of that document, character after character, to the writer function, behind whatever it was passed before, and a JSON reader returns the document from it; any sequence of calls whatever (nested too deep, closed too often, in any order) returns the emitter and changes nothing in memory but the struct, its levels and what the writer itself changes; mu_jems_curr_level and mu_jems_item_count answer with the number of open containers and of the items in the innermost one.",
  "all platforms (signed or unsigned char), all positions of struct, levels and texts in memory, all documents and sequences of calls, all writer functions that return and keep to their own memory",
  "needs every document, every nesting, every writer and absence of stray writes",
  "mulib/mu_jems.c:mu_jems_init", "mulib/mu_jems.c:mu_jems_object_open", "mulib/mu_jems.c:mu_jems_number", "mulib/mu_jems.c:mu_jems_integer", "mulib/mu_jems.c:mu_jems_string", "mulib/mu_jems.c:mu_jems_bytes", "mulib/mu_jems.c:mu_jems_literal", "mulib/mu_jems.c:mu_jems_curr_level", "mulib/mu_jems.c:mu_jems_item_count")

p("Programs around the scheduler: for the source itself",
  "A program calls mu_sched_init and then, in any order, the functions of the scheduler; tasks are called by mu_sched_step, run arbitrary code of the user's and call the scheduler themselves, mu_sched_step included, to any depth. The program keeps a log, in memory of its own, of every call it makes with the answer, of every task function entered and of every clock reading. At every moment at which user code runs - whether or not what is running will ever return - the log is one that the abstract agenda (interrupt tasks first-in first-out, then the due deferred task of least time, then immediate tasks first-in first-out, then the idle task) explains entry by entry, and the agenda it leads to is the one in memory. A task that is not the idle task has been called exactly as often as it was scheduled with success, less what is waiting, as long as no reset or removal took tasks away. How many steps the execution is given does not matter: if it answers with some bound it answers the same with every larger one.",
  "all user programs, re-entrant tasks, platforms, clocks, histories and depths of nesting",
  "Tests run a handful of tasks that return; re-entrant steps at arbitrary depth and histories of arbitrary length cannot be enumerated.",
  "mulib/mu_sched.c: mu_sched_init, mu_sched_step, mu_sched_immed, mu_sched_from_isr, mu_sched_defer_until, mu_sched_defer_for, mu_sched_remove_deferred_task, mu_sched_reset",
  "mulib/mu_task.c: mu_task_call", "mulib/mu_queue.c", "mulib/mu_spsc.c")

p("mu_spsc as it is written, with producer and consumer at the same time",
  "Take the C text of mu_spsc.c and let every read and write of memory be a separate step. After a successful mu_spsc_init, let one thread call mu_spsc_put and another mu_spsc_get, any number of times, while between any two of the accesses of one thread the other makes any number of its own and anything else happens in memory that is not the queue's; and let the compiler evaluate operands in either order. Then the calls and results the threads see could have come from an atomic bounded first-in first-out queue, each call taking effect at one instant between its call and its return; no access faults; and each call makes at most 8 (put) or 10 (get) accesses whatever the other thread does.",
  "every size accepted by mu_spsc_init, place in memory, sequence of calls on each side, interleaving of accesses, operand order, platform width",
  "a test runs some interleavings of some calls, and only those the compiler and scheduler happen to produce",
  "mulib/mu_spsc.c: mu_spsc_init, mu_spsc_put, mu_spsc_get", "mulib/mu_spsc.h: mu_spsc_t")

p("no result depends on the order of evaluation",
  "C leaves open in which order the operands of an operator, the two sides of an assignment and the arguments of a call are evaluated. For no function of the library does it matter: whichever order the compiler picks, and however it picks anew at every evaluation, the result and the contents of memory are the same as with evaluation from left to right, and one order faults only if all do - provided the user's own functions have that property.",
  "every function of the library, all arguments, all contents of memory, every way to resolve every choice of order, platform width, user callbacks",
  "a test is run with the order one compiler chose",
  "mulib/mu_array.c: mu_array_push, mu_array_pop", "mulib/mu_bbuf.c: mu_bbuf_reverse, mu_bbuf_compare", "mulib/mu_bisync.c: buffer_put")

p("An interrupt may strike between any two memory accesses of the scheduler's C source",
  "For the parsed C source of mu_sched, mu_spsc, mu_queue and mu_task: after mu_sched_init, let a program of arbitrary user code and tasks call the scheduler (any of its functions but mu_sched_reset, for which see C143; mu_sched_step included, nested to any depth; a call hook and a transfer hook may have been installed, and their code is such user code too), and let interrupts call mu_sched_from_isr between any two memory accesses of all this, including in the middle of mu_sched_step and of the queue functions, any number of times, with operands evaluated in any order. At every moment the log of everything user code has seen (answers, clock readings, hooks and task functions entered, steps entered and left, interrupts) is one that the abstract agenda explains, with the interrupt taking effect where it occurred; no access faults; when the main program returns no step is left unfinished; each task has been called exactly as often as it was scheduled with success, less those still waiting (or removed); and a task scheduled by an interrupt has been called (or, if there is a call hook, the hook has been called with it, which precedes the call) by the time mu_sched_step has been entered eight more times.",
  "every user program and task functions, every call hook and transfer hook, every schedule of interrupts at single-access granularity, every order of evaluation, every nesting depth, every clock, every architecture with int of at least 16 bits",
  "the number of interleavings is unbounded and a race between mu_sched_step and an interrupt appears only at particular accesses; a test cannot place an interrupt at each of them in every history",
  "mulib/mu_sched.c:mu_sched_from_isr", "mulib/mu_sched.c:mu_sched_step", "mulib/mu_spsc.c:mu_spsc_get", "mulib/mu_spsc.c:mu_spsc_put", "mulib/mu_task.c:mu_task_call")

p("The scheduler and re-entrant message queues together, in any program, from the C source",
  "For the parsed C source of mu_sched, mu_mqueue, mu_queue, mu_spsc and mu_task: initialise the scheduler and any number of message queues with separate storage, and run any program whose main function and tasks call the scheduler (mu_sched_step included) and the queues, nested to any depth, the tasks of a queue being free to use that same queue, others and the scheduler. Whenever user code runs - in the main program or inside a task, even one that never returns - everything it has seen so far (answers, elements obtained, tasks called, clock readings) is what an agenda and first-in first-out lists would have done, each put or get taking effect before the task it wakes is called and exactly that task being called; memory holds precisely that agenda and those lists, each list being the result of applying to it the calls on its queue in the order in which they were made; the mu_..._init functions establish this.",
  "every program, every number and capacity of queues, every nesting of tasks in steps and queue calls, every history, every clock, every architecture with int of at least 16 bits",
  "re-entrant histories of several queues and a scheduler are unbounded in length and nesting",
  "mulib/mu_sched.c:mu_sched_step", "mulib/mu_mqueue.c:mu_mqueue_put", "mulib/mu_mqueue.c:mu_mqueue_get", "mulib/mu_task.c:mu_task_call", "mulib/mu_queue.c:mu_queue_put", "mulib/mu_spsc.c:mu_spsc_get")

p("JSON emitted into a vector, framed, deframed and parsed, from the C source",
  "For the parsed C source of mu_jems, mu_bvec, mu_bisync and mu_bbuf, with a writer function that does nothing but call mu_bvec_write_byte: emitting any document into a mu_bvec leaves exactly its text (cut off at the capacity) in the vector's bytes and the length of the text in its count, changing nothing else; if it fits, mu_bisync_encode of those bytes followed by mu_bisync_decode yields a buffer in which a JSON reader finds the same document, and mu_bbuf_parse_int finds the same integer if the document is one; if it does not fit, the count exceeds the capacity, nothing is available and (bare numbers apart) the cut text is not well-formed JSON, so the loss is noticed.",
  "every document, every way of calling mu_jems that emits it, every placement of the objects in memory, every capacity, every signedness of char, every architecture with int of at least 16 bits",
  "the documents, capacities and placements are unbounded; the composition of four modules involves the contents of buffers left over from before",
  "mulib/mu_jems.c:mu_jems_init", "mulib/mu_bvec.c:mu_bvec_write_byte", "mulib/mu_bisync.c:mu_bisync_encode", "mulib/mu_bisync.c:mu_bisync_decode", "mulib/mu_bbuf.c:mu_bbuf_parse_int")

p("Sorting byte buffers with mu_bbuf_compare, from the C source",
  "For the parsed C source of mu_array and mu_bbuf: an array of pointers to mu_bbuf_t, sorted by mu_array_sort with a comparison function that calls mu_bbuf_compare, holds the same pointers in lexicographic order of the buffers' bytes; nothing but the order of the items changes and the buffers show the same bytes as before. mu_array_insert_sorted with that function puts a new buffer behind all that are not greater and before all that are, and keeps the order.",
  "every array, every set of buffers (sharing bytes, repeated, empty), every placement in memory outside the array, every architecture (with a single item: int narrower than size_t)",
  "the contents and the number of the buffers are unbounded, and the sort calls the comparison function in an order that depends on them",
  "mulib/mu_array.c:mu_array_sort", "mulib/mu_array.c:mu_array_insert_sorted", "mulib/mu_bbuf.c:mu_bbuf_compare")

p("What flows through a mu_spsc, and frames sent through it, from the parsed source",
  "After mu_spsc_init, with a producer and a consumer whose memory accesses are interleaved in any way: the items received are the first of the items accepted, in order and each exactly once; at most N-1 accepted items wait in the queue; a mu_spsc_put called while fewer than N-1 items have been accepted and not received succeeds, and a mu_spsc_get called while an accepted item has not been received succeeds. When the producer sends, byte by byte and retrying a byte the queue refused, the frames that mu_bisync_encode made for a list of payloads, the bytes received so far are at every moment the beginning of that stream, and mu_bisync_decode given the received bytes from the start of a completely received frame returns exactly its payload.",
  "every queue of a power of two of slots, every interleaving of accesses of the two threads (and anything else happening elsewhere in memory), every order of evaluation of operands, every list of payloads",
  "the interleavings and payload lists are infinite in number and a test cannot choose the interleaving",
  "mulib/mu_spsc.c: mu_spsc_init, mu_spsc_put, mu_spsc_get", "mulib/mu_bisync.c: mu_bisync_encode, mu_bisync_decode")

p("mu_spsc on two cores with store buffers, from the parsed source",
  "After mu_spsc_init, with the producer and the consumer running the source of mu_spsc_put and mu_spsc_get on two cores whose stores go through first-in first-out store buffers and reach memory at any later moment (x86-TSO): neither thread ever faults; the items received are the first of the items accepted, in order and each exactly once; at most N-1 accepted items wait. Once the producer's stores have reached memory, a mu_spsc_get called later succeeds while an item accepted by then has not been received, and symmetrically for mu_spsc_put and the consumer's stores. Frames sent through the queue byte by byte are received and decoded as without store buffers. The order of the two stores of mu_spsc_put is needed: if the new tail may reach memory before the item, as C allows (the items are not volatile), mu_spsc_get can answer OK with what was never put.",
  "every queue of a power of two of slots, every interleaving of reads, writes and buffer flushes of the two cores (and anything else happening elsewhere in memory), every order of evaluation of operands, every list of payloads",
  "whether a missing barrier matters depends on when stores reach memory, which a test cannot choose or enumerate",
  "mulib/mu_spsc.c: mu_spsc_init, mu_spsc_put, mu_spsc_get", "mulib/mu_bisync.c: mu_bisync_encode, mu_bisync_decode")

p("What the log of a program shows",
  "For a program that schedules each task in one way only (from interrupts, deferred, immediately, or as the idle task) and notes its calls with their answers, the tasks called and the readings of the clock, the log alone shows: immediate tasks, and interrupt tasks, are called in the order in which they were accepted since the last mu_sched_reset, and FULL is answered exactly if 20 (7) of them wait; a deferred task is called only if the last reading of the clock does not precede the time it was deferred to, the pending deferral for the earliest time first and equal times in the order of the calls; no deferred, immediate or idle task is called by a step that began while an interrupt task waited, no immediate or idle task while a deferred one is due, no idle task while an immediate one waits; a step that calls nothing had nothing to call; mu_sched_remove_deferred_task succeeds exactly if the task waits, deferring answers FULL exactly if 20 wait, mu_sched_next_task, mu_sched_current_task, mu_sched_get_idle_task name the deferred task that will be due first, the task called last, the idle task set last. With interrupts between any two accesses to memory, and no call of mu_sched_reset, the same holds, except that one more interrupt task may wait, the one about to be called; and also if a call hook, a transfer hook or both are installed, a task then counting as called from when the call hook is called with it. In every interrupted program with a call hook, also one that calls mu_sched_reset, no task is called more often than the call hook was called with it, and when the program is finished exactly as often.",
  "every program (main program and task functions, nested steps included) around the parsed scheduler, every moment at which its code runs, every platform clock whose comparison is a strict weak order on the times used; and every moment of an interrupted program",
  "a test sees one log; that all logs of all programs have this shape is a statement about every history of calls, clock readings and interrupts",
  "mulib/mu_sched.c: mu_sched_step, mu_sched_immed, mu_sched_defer_until, mu_sched_defer_for, mu_sched_from_isr, mu_sched_remove_deferred_task, mu_sched_reset")

p("Programs with scheduler, tasks, hooks and message queues",
  "For the parsed C source of mu_sched, mu_task, mu_mqueue, mu_queue and mu_spsc together: let a program install and replace the three hooks of mu_task, initialise tasks, read them, set their states and user info, call them with mu_task_call, call the scheduler (mu_sched_transfer and mu_sched_step included), put to and get from message queues, and initialise the scheduler and the queues anew, in any order; and let task functions and hooks, called from within these calls, do all this themselves to any depth. Then at every moment at which user code runs, the log kept by the program is the one required: each call answers what the agenda, the first-in first-out lists and the tasks as left by the calls so far call for; a call runs exactly these user functions in this order: the call hook installed when the task is called, with the task as argument, and then the function the task has after the hook returned, with the task as argument; the state hook, with task and new state, before the state is set; the transfer hook, before the task is scheduled; nothing for NULL; and agenda, queue contents, task records, hooks and variables in memory are what the log leads to. In particular a queue always holds what the calls made on it so far leave in a first-in first-out list; and with a call hook installed for good (and no other hook), every task function is entered right after the hook has been entered with that task and has returned.",
  "every program of user code, task functions and hooks (nested calls to any depth, terminating or not), every number and placement of queues and tasks that do not overlap, every moment at which user code runs, every platform clock",
  "user code is arbitrary and re-entered from inside the library at unbounded depth; hooks may change tasks, hooks and queues while the library is in the middle of a call",
  "mulib/mu_task.c: mu_task_call, mu_task_set_state, mu_task_call_transfer_hook, mu_task_install_call_hook", "mulib/mu_sched.c: mu_sched_step, mu_sched_transfer", "mulib/mu_mqueue.c: mu_mqueue_put, mu_mqueue_get")

p("Many containers in one program, from the C source",
  "Take the parsed source of mu_queue.c, mu_mqueue.c (without tasks), mu_spsc.c and mu_array.c. A program with any number of these containers anywhere in memory may initialise them (again at any time, also in memory that held something else), call them in any order, write its own variables, and give containers up and reuse their memory. As long as containers in use do not overlap and variables lie outside of them, every call returns and delivers exactly what it would if each container were an independent list and each variable a plain value; nothing faults; every variable holds what was last written or delivered to it. In particular each container answers as if it were alone in the program.",
  "all platforms, all families of containers of all capacities (bounded by the limits of their type), all placements in memory, all histories, all contents of memory at the start",
  "Interference between objects - a write outside the own cells, a hidden static, a dependence on memory left over from a previous use - shows only for particular placements and interleavings; tests use one object at a time.",
  "mulib/mu_queue.c: mu_queue_init, mu_queue_put, mu_queue_get", "mulib/mu_mqueue.c: mu_mqueue_init, mu_mqueue_put, mu_mqueue_get", "mulib/mu_spsc.c: mu_spsc_init, mu_spsc_put, mu_spsc_get", "mulib/mu_array.c: mu_array_init, mu_array_push, mu_array_pop")

p("Interrupts between any two memory accesses of mu_sched_reset's C source",
  "As C134, for programs that also call mu_sched_reset, from the main program, from tasks and from hooks, with interrupts between any two memory accesses of mu_sched_reset too. At every moment the log of everything user code has seen is one that the abstract agenda explains, no access faults, and when the main program returns no step and no reset is left unfinished. Only while mu_sched_reset empties the interrupt queue may the task of an interrupt that was accepted be lost, or an interrupt find up to seven items in the queue; what an interrupt schedules after that, before mu_sched_reset returns, stays, and everything scheduled before is forgotten. No task is called more often than it was scheduled with success, whenever interrupts occur; after a mu_sched_reset returns a task (not the idle task) is called at most as often as it was scheduled with success since, or by interrupts after which nothing else was seen before the return, or as the call hook had been called with it and the call itself was outstanding - and since the last mu_sched_reset exactly as often as it was scheduled, less those waiting or removed, plus the outstanding calls and some of those of such interrupts; and a task scheduled by an interrupt has been called (or the call hook with it) by the time mu_sched_step has been entered eight more times, unless a mu_sched_reset returns in between.",
  "every user program, task functions and hooks, with calls of mu_sched_reset anywhere, every schedule of interrupts at single-access granularity, every order of evaluation, every nesting depth, every clock, every architecture with int of at least 16 bits",
  "mu_spsc_reset is two stores, and between them the queue holds items that were taken long ago; whether an interrupt that strikes there makes one of them run again depends on what the queue held, where its indices were and what follows - a test cannot place an interrupt there in every history",
  "mulib/mu_sched.c:mu_sched_reset", "mulib/mu_spsc.c:mu_spsc_reset", "mulib/mu_queue.c:mu_queue_reset", "mulib/mu_sched.c:mu_sched_from_isr", "mulib/mu_sched.c:mu_sched_step")

out = os.path.join(os.path.dirname(__file__), "..", "properties.jsonl")
with open(out, "w") as f:
    for x in P:
        f.write(json.dumps(x) + "\n")
print(len(P))
