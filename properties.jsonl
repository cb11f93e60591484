{"id": "C01", "title": "bisync encode writes exactly the framed, byte-stuffed payload", "statement": "mu_bisync_encode(dst, cap, src, n) returns the number of bytes written and leaves in dst exactly SOH, then every payload byte in order with one DLE inserted before each SOH/EOT/DLE, then EOT, whenever that frame fits in cap; otherwise it returns MU_BISYNC_ERR_OFLOW.", "quantifier": "every payload of every length and content, every destination capacity (0 included), every platform int/size_t width", "why_tests_cant": "the frame length depends on the content of the payload, so the fits / does-not-fit boundary is different for each of infinitely many payloads", "anchors": ["mulib/mu_bisync.c:mu_bisync_encode", "mulib/mu_bisync.h"]}
{"id": "C02", "title": "bisync decode inverts encode", "statement": "Decoding the frame produced by mu_bisync_encode into a large enough buffer returns the payload length and the payload itself.", "quantifier": "every payload, every destination capacity at least as large as the payload", "why_tests_cant": "a round trip over all byte strings; the existing tests fix one payload", "anchors": ["mulib/mu_bisync.c:mu_bisync_encode", "mulib/mu_bisync.c:mu_bisync_decode"]}
{"id": "C03", "title": "bisync frames are uniquely decodable and self-delimiting in a stream", "statement": "Two different payloads never produce the same frame, no frame is a proper prefix of another frame, and whatever bytes follow a frame in the receive buffer do not change what mu_bisync_decode returns or writes.", "quantifier": "every pair of payloads, every suffix of trailing bytes", "why_tests_cant": "quantifies over pairs of payloads and arbitrary trailing garbage", "anchors": ["mulib/mu_bisync.c:mu_bisync_encode", "mulib/mu_bisync.c:mu_bisync_decode"]}
{"id": "C04", "title": "bisync decode rejects unterminated frames", "statement": "mu_bisync_decode succeeds only on input that starts with SOH and contains a terminating (unescaped) EOT; everything else returns MU_BISYNC_ERR_FORMAT (or MU_BISYNC_ERR_OFLOW if the destination is too small first).", "quantifier": "every input byte string", "why_tests_cant": "truncation can happen at any byte of any frame, including right after an escape", "anchors": ["mulib/mu_bisync.c:mu_bisync_decode"]}
{"id": "C05", "title": "bisync never touches memory outside its buffers", "statement": "mu_bisync_encode and mu_bisync_decode write only dst[0..cap), read only the input bytes they are given, and leave every other byte unchanged, on success and on every error path; the decode output never has more bytes than the input.", "quantifier": "every input, every capacity, every error path", "why_tests_cant": "an out-of-bounds access on one rare input is invisible to a unit test", "anchors": ["mulib/mu_bisync.c:buffer_put", "mulib/mu_bisync.c:mu_bisync_encode", "mulib/mu_bisync.c:mu_bisync_decode"]}
{"id": "C06", "title": "mu_queue is a bounded FIFO under every history", "statement": "After mu_queue_init with any capacity, every sequence of put/get/peek/reset/count/capacity/is_empty/is_full calls returns exactly what a first-in first-out list bounded by the capacity would return; put on a full queue and get/peek on an empty queue return false, change nothing and (get/peek) deliver NULL.", "quantifier": "every capacity, every finite sequence of operations, every element value", "why_tests_cant": "wrap-around bugs only show at particular alignments of index, count and capacity reached by long histories", "anchors": ["mulib/mu_queue.c", "mulib/mu_queue.h"]}
{"id": "C07", "title": "mu_queue never accesses storage outside the capacity it was given", "statement": "No sequence of mu_queue operations reads or writes a storage slot with index >= capacity, divides by zero (capacity 0 included) or loses the invariant count <= capacity.", "quantifier": "every capacity including 0, every operation history", "why_tests_cant": "memory safety must hold on every history, not on the sampled ones", "anchors": ["mulib/mu_queue.c:mu_queue_put", "mulib/mu_queue.c:access_queue"]}
{"id": "C08", "title": "mu_mqueue is a bounded FIFO even when its callbacks re-enter it", "statement": "mu_mqueue behaves as a bounded FIFO list for every sequence of calls, where each on_put/on_get task may itself perform any further calls on the same queue before put/get returns; the element delivered by get is fixed before on_get runs.", "quantifier": "every capacity, every finite tree of (re-entrant) operations, every choice of on_put/on_get (NULL or not)", "why_tests_cant": "re-entrancy gives unboundedly many nestings of callbacks inside calls", "anchors": ["mulib/mu_mqueue.c", "mulib/mu_mqueue.h"]}
{"id": "C09", "title": "mu_mqueue notifies exactly once per successful transfer", "statement": "The on_put task is invoked exactly once for each put that returned true, after the element has become visible in the queue, and the on_get task exactly once for each get that returned true, after the element was removed; peek, failed puts and failed gets, and NULL tasks never notify.", "quantifier": "every history of (re-entrant) operations", "why_tests_cant": "an exactly-once claim over all histories", "anchors": ["mulib/mu_mqueue.c:mu_mqueue_put", "mulib/mu_mqueue.c:access_queue"]}
{"id": "C10", "title": "mu_mqueue counts like a semaphore", "statement": "At every point mu_mqueue_count equals the number of successful puts minus the number of successful gets since the last reset, and stays between 0 and the capacity, so the queue can be used as a counting semaphore or mutex.", "quantifier": "every history of operations", "why_tests_cant": "conservation law over unbounded histories", "anchors": ["mulib/mu_mqueue.c", "mulib/mu_mqueue.h"]}
{"id": "C11", "title": "mu_spsc is a FIFO holding store_size-1 items", "statement": "After a successful mu_spsc_init with store_size N, every sequential history of put/get/reset behaves as a FIFO list bounded by N-1: put returns FULL exactly when N-1 items are queued, get returns EMPTY (and NULL) exactly when none is.", "quantifier": "every power-of-two store size from 2 to 32768, every history", "why_tests_cant": "index masking must be right at every wrap position", "anchors": ["mulib/mu_spsc.c"]}
{"id": "C12", "title": "mu_spsc delivers every item exactly once and in order under every producer/consumer interleaving", "statement": "With one producer calling put and one consumer calling get, whatever the interleaving of their individual loads and stores, the sequence of items returned by get is a prefix of the sequence of items accepted by put: nothing lost, duplicated, reordered or torn, and what is accepted but not yet delivered is still in the queue.", "quantifier": "every interleaving of the individual shared-memory accesses of put and get, of any length", "why_tests_cant": "interrupts can hit between any two memory accesses; tests run put and get atomically", "anchors": ["mulib/mu_spsc.c:mu_spsc_put", "mulib/mu_spsc.c:mu_spsc_get"]}
{"id": "C13", "title": "mu_spsc FULL and EMPTY are never spurious", "statement": "Under every interleaving, put returns FULL only if store_size-1 items were queued at some instant during the call, get returns EMPTY only if the queue was empty at some instant during the call, and a put (get) that runs while fewer than N-1 items (at least one item) are queued throughout succeeds.", "quantifier": "every interleaving of the individual shared-memory accesses", "why_tests_cant": "needs reasoning about instants inside a call, which tests cannot observe", "anchors": ["mulib/mu_spsc.c:mu_spsc_put", "mulib/mu_spsc.c:mu_spsc_get"]}
{"id": "C14", "title": "mu_spsc producer and consumer never race on a slot and never leave the store", "statement": "Under every interleaving all indices stay inside the store, and at no instant are the producer about to write and the consumer about to read the same slot.", "quantifier": "every interleaving", "why_tests_cant": "data-race freedom is a statement about all schedules", "anchors": ["mulib/mu_spsc.c"]}
{"id": "C15", "title": "mu_spsc_init accepts exactly powers of two", "statement": "mu_spsc_init succeeds iff store_size is a power of two and at least 2; on failure it returns MU_SPSC_ERR_SIZE and leaves the object untouched.", "quantifier": "all 65536 uint16_t values of store_size and every prior content of the object", "why_tests_cant": "the bit trick has to be right for every value", "anchors": ["mulib/mu_spsc.c:mu_spsc_init", "mulib/mu_spsc.c:IS_POWER_OF_TWO"]}
{"id": "C16", "title": "mu_array behaves as a bounded list", "statement": "Every history of push/pop/peek/ref/insert/reset/count/is_empty/is_full on a mu_array returns what the same operations on a plain list bounded by the capacity return, with false and no change when full / empty / index out of range.", "quantifier": "every capacity, every history, every index", "why_tests_cant": "shifting code has a boundary at every index", "anchors": ["mulib/mu_array.c", "mulib/mu_array.h"]}
{"id": "C17", "title": "mu_array_delete removes exactly the indexed item", "statement": "mu_array_delete with index < count delivers the item, moves all higher-indexed items down by one, reduces the count by one and touches no memory outside the array; otherwise it returns false and changes nothing.", "quantifier": "every array content and index", "why_tests_cant": "the unit tests inspect the storage but never the count after deleting from head or middle, and never see the read past the end", "anchors": ["mulib/mu_array.c:mu_array_delete"]}
{"id": "C18", "title": "mu_array_index / rindex find the first / last occurrence", "statement": "mu_array_index returns the smallest and mu_array_rindex the largest index holding the item, and MU_ARRAY_NOT_FOUND iff the item is absent (empty array included).", "quantifier": "every content, every item", "why_tests_cant": "extremal-index claim over all contents; the rindex loop relies on unsigned wrap-around", "anchors": ["mulib/mu_array.c:mu_array_index", "mulib/mu_array.c:mu_array_rindex"]}
{"id": "C19", "title": "mu_array_sort sorts", "statement": "For every comparison function that is a total preorder, mu_array_sort terminates, never leaves the array, and leaves the items in non-decreasing order, the result being a permutation of the original items.", "quantifier": "every array content and length, every total-preorder comparator", "why_tests_cant": "heap order is violated only by particular shapes; tests sort three items", "anchors": ["mulib/mu_array.c:mu_array_sort", "mulib/mu_array.c:heapify", "mulib/mu_array.c:sift_down"]}
{"id": "C20", "title": "mu_array_sort is safe with any comparator", "statement": "Even if the comparator is inconsistent (not an order at all), mu_array_sort terminates, accesses only items 0..count-1 and the result is a permutation of the original items.", "quantifier": "every comparator function, every array", "why_tests_cant": "quantifies over all comparator functions", "anchors": ["mulib/mu_array.c:mu_array_sort"]}
{"id": "C21", "title": "mu_array_insert_sorted keeps a sorted array sorted", "statement": "Inserting into an array sorted by a total preorder yields a sorted array that contains the old items in their old order plus the new item, placed after every item that does not compare greater; on a full array it returns false and changes nothing. (Up to (INT_MAX+1)/2 items.)", "quantifier": "every sorted array, every item, every total-preorder comparator", "why_tests_cant": "binary-search boundaries differ for each length and position", "anchors": ["mulib/mu_array.c:mu_array_insert_sorted", "mulib/mu_array.c:find_insertion_index"]}
{"id": "C22", "title": "scheduler priority: ISR, then due deferred, then immediate, then idle", "statement": "Each mu_sched_step calls the oldest queued ISR task if there is one; otherwise the first due deferred task; otherwise the oldest immediate task; otherwise the idle task (nothing if NULL); and calls exactly one of them.", "quantifier": "every reachable scheduler state and every time", "why_tests_cant": "the choice depends on the joint contents of three queues and the clock", "anchors": ["mulib/mu_sched.c:mu_sched_step"]}
{"id": "C23", "title": "deferred tasks run in time order, ties in the order they were scheduled", "statement": "Whenever a deferred task is selected, no pending deferred task has an earlier time, and no pending deferred task with an equal time was scheduled before it.", "quantifier": "every history of defer_until/defer_for/remove/step calls, every assignment of times, every clock behaviour", "why_tests_cant": "ordering claims over all insertion orders", "anchors": ["mulib/mu_sched.c:defer_aux", "mulib/mu_sched.c:fetch_runnable_deferred_task"]}
{"id": "C24", "title": "deferred tasks never run early", "statement": "A task deferred until time t is never called by a mu_sched_step whose clock reading precedes t.", "quantifier": "every history and clock behaviour", "why_tests_cant": "negative claim over all histories", "anchors": ["mulib/mu_sched.c:fetch_runnable_deferred_task"]}
{"id": "C25", "title": "the scheduler neither loses nor duplicates tasks", "statement": "Counting with multiplicity, the tasks accepted by immed/from_isr/defer/transfer equal the tasks called from the queues plus those removed, those discarded by reset and those still pending.", "quantifier": "every history, tasks that reschedule themselves or others while running included", "why_tests_cant": "conservation over unbounded histories with self-rescheduling tasks", "anchors": ["mulib/mu_sched.c"]}
{"id": "C26", "title": "scheduling into a full queue fails cleanly", "statement": "mu_sched_immed, mu_sched_from_isr and mu_sched_defer_* return MU_SCHED_ERR_FULL exactly when the corresponding queue holds MAX_IMMED, MAX_IRQ-1 or MAX_DEFERRED tasks, and then change nothing.", "quantifier": "every reachable state, every configuration of the queue sizes", "why_tests_cant": "must hold at every wrap position and fill level", "anchors": ["mulib/mu_sched.c:mu_sched_immed", "mulib/mu_sched.c:mu_sched_from_isr", "mulib/mu_sched.c:defer_aux"]}
{"id": "C27", "title": "removing a deferred task removes all its entries and nothing else", "statement": "mu_sched_remove_deferred_task(t) removes every deferred entry of t, keeps all other entries in their order, and returns MU_SCHED_ERR_NOT_FOUND iff there was none; afterwards t is not called from the deferred queue until it is deferred again.", "quantifier": "every deferred-queue content, t occurring any number of times", "why_tests_cant": "removal while iterating is position dependent", "anchors": ["mulib/mu_sched.c:mu_sched_remove_deferred_task"]}
{"id": "C28", "title": "mu_sched_current_task names the running task", "statement": "While mu_sched_step runs a task, mu_sched_current_task returns that task (until a nested step or reset), and outside of any step it returns NULL.", "quantifier": "every history, every task body", "why_tests_cant": "depends on everything the task body does", "anchors": ["mulib/mu_sched.c:mu_sched_current_task", "mulib/mu_sched.c:mu_sched_step"]}
{"id": "C29", "title": "mu_sched_reset empties all queues and keeps the idle task", "statement": "After mu_sched_reset no previously scheduled task is ever called, all three queues accept a full load again, and the idle task is unchanged.", "quantifier": "every reachable state and every continuation", "why_tests_cant": "claim about every continuation of every history", "anchors": ["mulib/mu_sched.c:mu_sched_reset"]}
{"id": "C30", "title": "pending tasks are reached in a bounded number of steps", "statement": "If no new tasks arrive, the immediate task at position k runs after exactly (queued ISR tasks + due deferred tasks + k) further steps, and a due deferred task preceded by n others after (queued ISR tasks + n); no pending runnable task starves.", "quantifier": "every reachable state and position", "why_tests_cant": "liveness bound over all states", "anchors": ["mulib/mu_sched.c:mu_sched_step"]}
{"id": "C31", "title": "ISR tasks run in the order they were queued, immediate tasks likewise", "statement": "The subsequence of calls coming from mu_sched_from_isr (respectively mu_sched_immed / mu_sched_transfer) is in the order of the successful scheduling calls.", "quantifier": "every history", "why_tests_cant": "order preservation over unbounded interleaved histories", "anchors": ["mulib/mu_sched.c", "mulib/mu_spsc.c", "mulib/mu_queue.c"]}
{"id": "C32", "title": "an interrupt may schedule a task at any point of mu_sched_step", "statement": "If mu_sched_from_isr runs (from an interrupt) between any two elementary actions of mu_sched_step, the outcome is the same as if it ran right after the step had chosen its task or right before the step: nothing is lost and the step still runs exactly one task.", "quantifier": "every interrupt arrival point, any number of interrupts", "why_tests_cant": "the window between the empty check and the task call cannot be hit reliably by a test", "anchors": ["mulib/mu_sched.c:mu_sched_step", "mulib/mu_sched.c:mu_sched_from_isr"]}
{"id": "C33", "title": "deferred ordering survives clock wrap-around", "statement": "With a wrapping tick counter compared by signed difference, as the reference mu_time implementation does, the time-order and never-early guarantees hold as long as all pending times and the clock lie within half of the counter range.", "quantifier": "every position of the window on the counter circle, every history inside the window", "why_tests_cant": "wrap-around happens once per counter period", "anchors": ["mulib/mu_platform.h:mu_time_precedes", "test/test_mu_sched/test_mu_sched.c:mu_time_precedes", "mulib/mu_sched.c:defer_aux"]}
{"id": "C34", "title": "mu_task_call calls the hook, then the task function, and ignores NULL", "statement": "mu_task_call(NULL) does nothing; mu_task_call(t) calls the installed call hook (if any) with t and then t's function with t, each exactly once, in that order.", "quantifier": "every task, every hook configuration history", "why_tests_cant": "hook configuration is global mutable state changed at any time", "anchors": ["mulib/mu_task.c:mu_task_call"]}
{"id": "C35", "title": "mu_task_set_state has no effect when the state does not change", "statement": "mu_task_set_state(t, s) with s equal to the current state has no effect (no hook call); otherwise the hook sees the old state and the state becomes s; NULL tasks are ignored and returned.", "quantifier": "every task, state and hook configuration", "why_tests_cant": "doc claim about all states; the tests never set an equal state with a hook installed", "anchors": ["mulib/mu_task.c:mu_task_set_state", "mulib/mu_task.h"]}
{"id": "C36", "title": "mu_log filters by threshold", "statement": "A mu_log call reaches the logging function iff its level is at least the threshold set most recently and the logging function set most recently is not NULL; inside the call mu_log_get_reporting_level returns that level (until a nested mu_log call).", "quantifier": "every history of configuration and logging calls, re-entrant logging included", "why_tests_cant": "depends on global mutable configuration over arbitrary histories", "anchors": ["mulib/mu_log.c"]}
{"id": "C37", "title": "mu_log_level_name is total", "statement": "mu_log_level_name returns the documented name for each of the six levels and \"UNKNOWN\" for every other value, never reading outside the name table.", "quantifier": "every value of the level argument", "why_tests_cant": "all values of an unsigned argument", "anchors": ["mulib/mu_log.c:mu_log_level_name"]}
{"id": "C38", "title": "mu_bbuf_compare is the lexicographic order", "statement": "mu_bbuf_compare returns a negative, zero or positive value exactly as the first buffer is lexicographically (unsigned bytes, shorter first) less than, equal to, or greater than the second; it is antisymmetric and transitive, and mu_bbuf_matches is true iff the contents are equal; the _cstr variants agree.", "quantifier": "every pair (triple) of buffers", "why_tests_cant": "order laws over all triples of byte strings", "anchors": ["mulib/mu_bbuf.c:str_compare_aux", "mulib/mu_bbuf.c:mu_bbuf_matches"]}
{"id": "C39", "title": "mu_bbuf_slice returns a sub-range of the source", "statement": "For every start and end (negative values counting from the end, MU_BBUF_END meaning the end) the slice is the corresponding sub-range of the source and never extends outside the source buffer.", "quantifier": "every source buffer, every int start and end", "why_tests_cant": "start/end range over all ints; out-of-range negatives are not tested", "anchors": ["mulib/mu_bbuf.c:mu_bbuf_slice"]}
{"id": "C40", "title": "mu_bbuf_bisect splits without loss or overlap", "statement": "For every index, left followed by right is exactly the source, left having the clamped index as its length; left or right may be NULL or alias the source.", "quantifier": "every source, every int index, every aliasing of the three buffer objects", "why_tests_cant": "index ranges over all ints; aliasing multiplies the cases", "anchors": ["mulib/mu_bbuf.c:mu_bbuf_bisect"]}
{"id": "C41", "title": "mu_bbuf prefix and suffix tests are exact", "statement": "mu_bbuf_has_prefix (has_suffix) is true iff the second buffer's bytes are a prefix (suffix) of the first's, the empty buffer included; the _cstr variants agree.", "quantifier": "every pair of buffers", "why_tests_cant": "pairs of arbitrary byte strings", "anchors": ["mulib/mu_bbuf.c:has_prefix", "mulib/mu_bbuf.c:has_suffix"]}
{"id": "C42", "title": "mu_bbuf_find_substr finds the first, rfind_substr the last occurrence", "statement": "mu_bbuf_find_substr returns the smallest (rfind the largest) offset at which the substring occurs, plus the substring length if skip is requested, and MU_BBUF_NOT_FOUND iff it does not occur (capacities below INT_MAX).", "quantifier": "every haystack and needle", "why_tests_cant": "naive search has failure modes only on periodic patterns", "anchors": ["mulib/mu_bbuf.c:mu_bbuf_find_aux", "mulib/mu_bbuf.c:mu_bbuf_rfind_aux"]}
{"id": "C43", "title": "byte and predicate searches return the extremal index", "statement": "find_byte/rfind_byte return the first/last index of the byte; find_predicate/rfind_predicate the first/last index whose byte fails the predicate; MU_BBUF_NOT_FOUND iff there is none.", "quantifier": "every buffer, byte and predicate", "why_tests_cant": "all predicates and buffers", "anchors": ["mulib/mu_bbuf.c:mu_bbuf_find_byte", "mulib/mu_bbuf.c:mu_bbuf_rfind_byte", "mulib/mu_bbuf.c:mu_bbuf_find_predicate", "mulib/mu_bbuf.c:mu_bbuf_rfind_predicate"]}
{"id": "C44", "title": "mu_bbuf_ltrim removes exactly the matching leading bytes", "statement": "mu_bbuf_ltrim yields the source without its longest prefix of bytes satisfying the predicate.", "quantifier": "every buffer and predicate, dst aliasing src included", "why_tests_cant": "all buffers and predicates; the tests never trim a buffer consisting only of matching bytes", "anchors": ["mulib/mu_bbuf.c:mu_bbuf_ltrim"]}
{"id": "C45", "title": "mu_bbuf_rtrim and trim remove exactly the matching trailing bytes", "statement": "mu_bbuf_rtrim yields the source without its longest suffix of bytes satisfying the predicate, and mu_bbuf_trim does both ends.", "quantifier": "every buffer and predicate, dst aliasing src included", "why_tests_cant": "the test helper compares only as many bytes as the result has, so an over-trimmed result passes", "anchors": ["mulib/mu_bbuf.c:mu_bbuf_rtrim", "mulib/mu_bbuf.c:mu_bbuf_trim"]}
{"id": "C46", "title": "unsigned parsers return the decimal prefix modulo the type width", "statement": "mu_bbuf_parse_uint8/16/32/64/unsigned_int return the value of the longest leading run of decimal digits, reduced modulo 2^width, and 0 if there is none.", "quantifier": "every buffer of every length, every width", "why_tests_cant": "digit strings are unbounded", "anchors": ["mulib/mu_bbuf.c:DEFINE_UINT_PARSER"]}
{"id": "C47", "title": "signed parsers return the signed decimal prefix, truncated to the type", "statement": "mu_bbuf_parse_int8/16/32/64/int return the value of the leading optional minus sign and digits, truncated to the width of the type when it overflows.", "quantifier": "every buffer, every width", "why_tests_cant": "overflow behaviour is undefined in C for the wide types and looks right under tests", "anchors": ["mulib/mu_bbuf.c:DEFINE_INT_PARSER", "mulib/mu_bbuf.h"]}
{"id": "C48", "title": "mu_bbuf_parse_hex returns the hexadecimal prefix modulo 2^width of unsigned int", "statement": "The longest leading run of [0-9a-fA-F] is read as a base-16 number modulo 2^width; 0 if there is none.", "quantifier": "every buffer", "why_tests_cant": "all byte strings", "anchors": ["mulib/mu_bbuf.c:mu_bbuf_parse_hex"]}
{"id": "C49", "title": "byte get/put are bounds checked", "statement": "mu_bbuf_get_byte/put_byte/ref succeed iff index < capacity; put changes exactly that byte; get after put returns the byte; a failed call changes nothing; mu_bbuf_clear zeroes exactly the buffer.", "quantifier": "every buffer, index and byte", "why_tests_cant": "frame condition over all other bytes", "anchors": ["mulib/mu_bbuf.c:mu_bbuf_get_byte", "mulib/mu_bbuf.c:mu_bbuf_put_byte", "mulib/mu_bbuf.c:mu_bbuf_clear", "mulib/mu_bbuf.c:mu_bbuf_ref_ro"]}
{"id": "C50", "title": "mu_bbuf_copy_into copies the overlapping range and nothing else", "statement": "mu_bbuf_copy_into(dst, src, offset) copies src to dst shifted by offset (which may be negative), returns the number of bytes copied, and never reads outside src or writes outside dst.", "quantifier": "every pair of buffers, every int offset", "why_tests_cant": "reads of uninitialised locals make the outcome depend on stack garbage that tests happen to get right", "anchors": ["mulib/mu_bbuf.c:mu_bbuf_copy_into"]}
{"id": "C51", "title": "mu_bbuf_reverse reverses in place", "statement": "mu_bbuf_reverse replaces the buffer contents by their reverse and touches nothing else; applying it twice restores the buffer; the empty buffer is unchanged.", "quantifier": "every buffer of every length", "why_tests_cant": "odd/even lengths and the frame", "anchors": ["mulib/mu_bbuf.c:mu_bbuf_reverse"]}
{"id": "C52", "title": "mu_bbuf_rrotate rotates right by shift modulo the capacity", "statement": "mu_bbuf_rrotate(b, k) terminates and moves the byte at i to (i + k) mod capacity for every int k.", "quantifier": "every buffer, every int shift", "why_tests_cant": "all shifts including negative and larger than the capacity, and the empty buffer", "anchors": ["mulib/mu_bbuf.c:mu_bbuf_rrotate"]}
{"id": "C53", "title": "mu_bbuf_rshift shifts with zero fill", "statement": "mu_bbuf_rshift(b, k) moves the byte at i to i + k, drops bytes leaving the buffer and zero-fills the vacated positions, for every int k.", "quantifier": "every buffer, every int shift", "why_tests_cant": "all shifts including INT_MIN and beyond the capacity", "anchors": ["mulib/mu_bbuf.c:mu_bbuf_rshift"]}
{"id": "C54", "title": "mu_bvec writes then reads back the same bytes", "statement": "Writing bytes to a freshly initialised mu_bvec (up to SIZE_MAX calls, so that its count does not wrap) succeeds for exactly the first capacity bytes; after reset, reading returns those bytes in order, then the bytes that were in the buffer before, and fails from the capacity on.", "quantifier": "every capacity, every byte sequence, every number of reads, every previous contents", "why_tests_cant": "all sequences and capacities", "anchors": ["mulib/mu_bvec.c:mu_bvec_write_byte", "mulib/mu_bvec.c:mu_bvec_read_byte"]}
{"id": "C55", "title": "mu_bvec never accesses outside its buffer whatever the count", "statement": "For every value of the count (settable to anything) reads and writes at or past the capacity return false and change no byte, and mu_bvec_get_available is max(0, capacity - count).", "quantifier": "every history of set_count/read/write/reset, every size_t count", "why_tests_cant": "count can be set to any size_t value and wraps", "anchors": ["mulib/mu_bvec.c"]}
{"id": "C56", "title": "jems emits well-formed JSON denoting the document", "statement": "Emitting a JSON document (nested arrays, objects with string keys, strings, integers, numbers with a fraction, booleans, null) of nesting depth below max_level through the corresponding mu_jems calls (with or without the key_ variants, integers by mu_jems_integer or mu_jems_number, numbers with a fraction by mu_jems_number, strings by mu_jems_string or mu_jems_bytes, anything by mu_jems_literal) passes exactly the compact JSON text of that document to the writer, which an independent JSON reader maps back to the same document. No array may have more than SIZE_MAX + 1 items, no object more keys and values than that, no byte string more than INT_MAX bytes.", "quantifier": "every JSON document of every size and every depth below max_level, every choice of calls that emit it, every int and size_t width", "why_tests_cant": "documents are unbounded trees; separators depend on position and container at each level", "anchors": ["mulib/mu_jems.c", "mulib/mu_jems.h"]}
{"id": "C57", "title": "jems string escaping is lossless, pure printable ASCII", "statement": "Every byte string emitted by mu_jems_bytes (every NUL-free string by mu_jems_string) appears as a JSON string literal of printable ASCII characters which decodes to exactly the original bytes.", "quantifier": "all byte strings of every length", "why_tests_cant": "all byte sequences", "anchors": ["mulib/mu_jems.c:emit_quoted_byte", "mulib/mu_jems.c:emit_quoted_bytes", "mulib/mu_jems.c:emit_quoted_string"]}
{"id": "C58", "title": "jems never leaves its level array", "statement": "With max_level >= 1, no sequence of jems calls, balanced or not, accesses a level outside [0, max_level), and mu_jems_curr_level is always below max_level.", "quantifier": "every sequence of jems calls", "why_tests_cant": "all call sequences including unbalanced and over-deep ones", "anchors": ["mulib/mu_jems.c:push_level", "mulib/mu_jems.c:pop_level", "mulib/mu_jems.c:level_ref"]}
{"id": "C59", "title": "jems integers are exact", "statement": "mu_jems_integer emits the canonical decimal text of any int64_t, never truncated by its internal buffer, and it reads back as the same value.", "quantifier": "all 2^64 values", "why_tests_cant": "2^64 values", "anchors": ["mulib/mu_jems.c:mu_jems_integer"]}
{"id": "C60", "title": "jems separators and level bookkeeping match the document position", "statement": "In every state of a well-nested emission mu_jems_curr_level is the number of currently open containers and mu_jems_item_count the number of items emitted so far at that level (modulo the range of size_t).", "quantifier": "every well-nested call sequence of depth below max_level", "why_tests_cant": "all well-nested sequences", "anchors": ["mulib/mu_jems.c:commify", "mulib/mu_jems.c:mu_jems_curr_level", "mulib/mu_jems.c:mu_jems_item_count"]}
{"id": "C61", "title": "jems numbers: integral doubles exactly, others to within one unit of the last digit", "statement": "mu_jems_number of a finite double with an integral value that fits int64_t does exactly what mu_jems_integer does; for every double with a fraction it writes a JSON number with 3 to 6 digits after the point (6 unless the text fills the 21 characters of the internal buffer) whose value differs from the double by at most one unit of the last digit written.", "quantifier": "all finite doubles with a fraction and all integral ones in int64_t range, every state of the emitter", "why_tests_cant": "2^64 bit patterns; the internal buffer cuts the text of large values", "anchors": ["mulib/mu_jems.c:mu_jems_number"]}
{"id": "C62", "title": "jems numbers: the defined domain", "statement": "For a finite double mu_jems_number has defined behaviour exactly if the value truncated towards zero is representable as int64_t.", "quantifier": "all finite doubles", "why_tests_cant": "the boundary values -2^63 and 2^63 lie among 2^64 bit patterns; undefined behaviour is not observable by a test", "anchors": ["mulib/mu_jems.c:mu_jems_number"]}
{"id": "C63", "title": "bisync: decoding a frame yields SOH and the payload", "statement": "mu_bisync_decode applied to the frame of a payload followed by any bytes, with room for payload length + 1 bytes, returns payload length + 1 and writes SOH followed by exactly the payload, leaving the rest of the buffer unchanged; with less room it returns MU_BISYNC_ERR_OFLOW. In particular encode followed by decode restores every payload behind one leading SOH byte.", "quantifier": "every payload, every following bytes, every capacity up to INT_MAX, every platform width", "why_tests_cant": "a round trip over all byte strings and capacities", "anchors": ["mulib/mu_bisync.c:mu_bisync_encode", "mulib/mu_bisync.c:mu_bisync_decode"]}
{"id": "C64", "title": "bisync: complete characterisation of decode", "statement": "Input that does not start with SOH is refused with MU_BISYNC_ERR_FORMAT and nothing is written. Any other input is SOH, complete (plain or DLE-escaped) tokens, and then nothing, a lone DLE, or an unescaped EOT with anything behind; mu_bisync_decode reports MU_BISYNC_ERR_OFLOW iff SOH and the token bytes do not fit, otherwise writes exactly them and succeeds iff an unescaped EOT follows the tokens or the input ends in an escaped EOT, and reports MU_BISYNC_ERR_FORMAT in all other cases.", "quantifier": "every input byte string up to INT_MAX bytes, every capacity up to INT_MAX, every platform width", "why_tests_cant": "all byte strings; the outcome depends on arbitrarily long escape sequences", "anchors": ["mulib/mu_bisync.c:mu_bisync_decode"]}
{"id": "C65", "title": "mu_array_delete: exact effect", "statement": "Deleting the last item delivers it and removes exactly it; an index at or beyond the count returns false and changes nothing; deleting any other item delivers it and moves the higher items down by one, but the count stays and the last item becomes whatever the storage slot behind the items held, and if the storage has no such slot the call reads outside the storage.", "quantifier": "every array, every index, every capacity up to INT_MAX", "why_tests_cant": "all arrays and indices, and an out-of-bounds read is not observable by a test", "anchors": ["mulib/mu_array.c:mu_array_delete"]}
{"id": "C66", "title": "mu_array_sort sorts, on its domain", "statement": "With a comparison function that is a total preorder, mu_array_sort terminates, never leaves the array, and leaves a sorted permutation of the items with everything behind them unchanged, for every array of up to (INT_MAX+1)/2 items, except arrays of exactly one item on platforms where size_t is as wide as int; there sorting one item always overflows.", "quantifier": "every array contents, every total preorder, every platform width", "why_tests_cant": "all arrays and comparators; the exception is an overflow of an int index", "anchors": ["mulib/mu_array.c:mu_array_sort", "mulib/mu_array.c:heapify", "mulib/mu_array.c:sift_down"]}
{"id": "C67", "title": "mu_array_sort with any comparison function, on its domain", "statement": "On the same domain, whatever the comparison function answers (inconsistently, differently at each call), mu_array_sort terminates, permutes the items and neither reads nor writes an item at or beyond the count.", "quantifier": "every array contents, every comparison function (history dependent), every platform width", "why_tests_cant": "ranges over all comparison functions", "anchors": ["mulib/mu_array.c:mu_array_sort", "mulib/mu_array.c:heapify", "mulib/mu_array.c:sift_down"]}
{"id": "C68", "title": "mu_task_set_state: exact effect", "statement": "mu_task_set_state(NULL, s) does nothing and returns NULL. Otherwise, whether or not the state is the same: the installed set-state hook, if any, is called exactly once with the task and the new state while the task still has its old state, and after it returned exactly the state of exactly this task becomes s; the task is returned.", "quantifier": "every task, state, hook behaviour (which may use the API itself)", "why_tests_cant": "hooks run arbitrary code", "anchors": ["mulib/mu_task.c:mu_task_set_state"]}
{"id": "C69", "title": "mu_bbuf_slice: exact effect", "statement": "For start >= -capacity and every end the result is exactly the bytes from start to end (negative indices count from the end, out of range ones are clamped), a part of the source, and no other object changes, also if dst is src. For start < -capacity the result is never a part of the source: the call is undefined if the object does not begin early enough and otherwise the slice begins before the source.", "quantifier": "every buffer of capacity up to INT_MAX, every pair of int indices, aliasing included", "why_tests_cant": "all pairs of indices including INT_MIN and INT_MAX", "anchors": ["mulib/mu_bbuf.c:mu_bbuf_slice"]}
{"id": "C70", "title": "mu_bbuf_bisect: exact effect", "statement": "For index >= -capacity left is the first k bytes and right the rest, k the clamped index (a NULL side is skipped, either may be the source), and together they are the source. For index < -capacity, if the call returns at all, a non-NULL left gets a capacity above INT_MAX and a non-NULL right begins before the source.", "quantifier": "every buffer of capacity up to INT_MAX, every int index, aliasing included", "why_tests_cant": "all indices including INT_MIN and INT_MAX", "anchors": ["mulib/mu_bbuf.c:mu_bbuf_bisect"]}
{"id": "C71", "title": "mu_bbuf_ltrim: exact effect", "statement": "mu_bbuf_ltrim returns the source without its longest prefix of bytes satisfying the predicate if some byte fails it, and the whole source if none does; always a part of the source.", "quantifier": "every buffer of capacity up to INT_MAX, every predicate, aliasing included", "why_tests_cant": "all buffers and predicates", "anchors": ["mulib/mu_bbuf.c:mu_bbuf_ltrim"]}
{"id": "C72", "title": "mu_bbuf_rtrim and mu_bbuf_trim: exact effect", "statement": "If every byte satisfies the predicate both return the whole source. Otherwise mu_bbuf_rtrim returns the source without its longest matching suffix and without the one byte before it, and mu_bbuf_trim does the same after removing the longest matching prefix; always a part of the source.", "quantifier": "every buffer of capacity up to INT_MAX, every predicate, aliasing included", "why_tests_cant": "all buffers and predicates", "anchors": ["mulib/mu_bbuf.c:mu_bbuf_rtrim", "mulib/mu_bbuf.c:mu_bbuf_trim"]}
{"id": "C73", "title": "signed integer parsers: exact result", "statement": "The signed parsers for types narrower than int return the value of the optional '-' and the leading digits reduced to the width of the type, for every buffer; those for types at least as wide as int return the exact value if it lies in [-MAX, MAX] and otherwise (MIN included) overflow.", "quantifier": "every buffer of capacity up to INT_MAX, every width", "why_tests_cant": "digit strings are unbounded; overflow is not observable by a test", "anchors": ["mulib/mu_bbuf.c:DEFINE_INT_PARSER"]}
{"id": "C74", "title": "mu_bbuf_copy_into: exact domain", "statement": "mu_bbuf_copy_into has a defined result exactly if offset > 0 and offset >= destination capacity, or INT_MIN < offset < 0 and -offset >= source capacity; then it returns 0 and changes nothing. In all other cases it reads an uninitialised variable (or overflows, for INT_MIN).", "quantifier": "every pair of buffers, every int offset", "why_tests_cant": "reading an uninitialised variable is not observable by a test", "anchors": ["mulib/mu_bbuf.c:mu_bbuf_copy_into"]}
{"id": "C75", "title": "mu_bbuf_reverse: exact effect", "statement": "mu_bbuf_reverse reverses every non-empty buffer in place, changes nothing outside it, and reversing again restores it; on an empty buffer it forms an address outside the object.", "quantifier": "every buffer in an object smaller than the address space", "why_tests_cant": "all buffers; the invalid address is not observable by a test", "anchors": ["mulib/mu_bbuf.c:mu_bbuf_reverse"]}
{"id": "C76", "title": "mu_bbuf_rrotate: exact effect", "statement": "mu_bbuf_rrotate with any int shift terminates on every non-empty buffer, moves the byte at i to (i + shift) mod capacity and changes nothing else; on an empty buffer it never returns.", "quantifier": "every buffer of capacity up to INT_MAX, every int shift", "why_tests_cant": "all buffers and shifts; non-termination is not observable by a test", "anchors": ["mulib/mu_bbuf.c:mu_bbuf_rrotate"]}
{"id": "C77", "title": "mu_bbuf_rshift: exact effect", "statement": "mu_bbuf_rshift with any int shift but INT_MIN leaves at position j the byte that was at j - shift, or zero if there was none, and changes nothing else; with INT_MIN it overflows.", "quantifier": "every buffer, every int shift", "why_tests_cant": "all buffers and shifts", "anchors": ["mulib/mu_bbuf.c:mu_bbuf_rshift"]}
{"id": "C78", "title": "mu_spsc is linearizable", "statement": "For every interleaving of the single memory accesses of mu_spsc_put and mu_spsc_get, each call can be assigned one instant between its invocation and its return such that, executing the calls atomically at those instants on a FIFO list bounded by N - 1, every call returns exactly what it returned: NONE, FULL or EMPTY, and the item.", "quantifier": "every capacity N accepted by mu_spsc_init, every schedule of the two threads, every item", "why_tests_cant": "unboundedly many interleavings; linearization points are not observable", "anchors": ["mulib/mu_spsc.c:mu_spsc_put", "mulib/mu_spsc.c:mu_spsc_get"]}
{"id": "C79", "title": "mu_spsc between two cores with store buffers", "statement": "If producer and consumer run on two cores whose stores pass through FIFO store buffers and reach memory at arbitrary later moments (total store order), no access leaves the store, the sequence of delivered items is a prefix of the sequence of accepted items, at most N - 1 items are in between, and once the producer's buffer has drained a consumer running alone delivers everything that was accepted.", "quantifier": "every capacity N accepted by mu_spsc_init, every schedule of the threads and of the buffer releases", "why_tests_cant": "store buffer timing cannot be controlled by a test", "anchors": ["mulib/mu_spsc.c:mu_spsc_put", "mulib/mu_spsc.c:mu_spsc_get", "mulib/mu_spsc.h:mu_spsc_t"]}
{"id": "C80", "title": "mu_sched_next_task predicts the next deferred task", "statement": "mu_sched_next_task returns NULL exactly when no task is deferred, and otherwise the deferred task that will be taken first: earliest time, oldest among equals. It changes nothing; and if no deferred task is added, removed or taken in between, the deferred task taken next is the one it returned.", "quantifier": "every reachable scheduler state, every clock whose pending times are ordered", "why_tests_cant": "all histories", "anchors": ["mulib/mu_sched.c:mu_sched_next_task"]}
{"id": "C81", "title": "the idle task", "statement": "mu_sched_get_idle_task returns, and an idle step runs, the task set last by mu_sched_set_idle_task; before it is ever set both are NULL and an idle step runs nothing. mu_sched_reset does not change it.", "quantifier": "every history, including calls from inside tasks", "why_tests_cant": "all histories", "anchors": ["mulib/mu_sched.c:mu_sched_set_idle_task", "mulib/mu_sched.c:mu_sched_get_idle_task", "mulib/mu_sched.c:mu_sched_step"]}
{"id": "C82", "title": "the scheduler has no hidden state", "statement": "If after two histories the same tasks wait in the same order in each queue and the idle task and the running task are the same, every further program behaves identically after both: same return values, same tasks run in the same order.", "quantifier": "every pair of histories, every further program", "why_tests_cant": "all pairs of histories; ring-buffer positions and stale array entries differ between them", "anchors": ["mulib/mu_sched.c:mu_sched_step", "mulib/mu_sched.c:mu_sched_defer_until", "mulib/mu_sched.c:mu_sched_immed"]}
{"id": "C83", "title": "scheduler, tasks and hooks together", "statement": "When hooks and task functions themselves use the scheduler, the task API and message queues, to any nesting depth: programs that keep the rules never fault; what the scheduler does obeys all scheduler properties and what the task module does all task properties; a task the scheduler calls is entered at once through mu_task_call; mu_sched_current_task returns it inside its call hook and its function; and if only the scheduler and message queues call tasks, the function of each task runs exactly as often as a step chose it and queues notified it, together.", "quantifier": "every program over both APIs with arbitrary nesting, every hook installation", "why_tests_cant": "unboundedly many nested call patterns", "anchors": ["mulib/mu_sched.c:mu_sched_step", "mulib/mu_task.c:mu_task_call", "mulib/mu_task.c:mu_task_set_state", "mulib/mu_task.c:mu_task_call_transfer_hook"]}
{"id": "C84", "title": "mu_sched_transfer and mu_sched_wait", "statement": "mu_sched_transfer(t) calls the transfer hook installed last, if any, once with t, and then, in the state the hook left, puts t at the end of the immediate queue, or returns FULL and puts nothing exactly if there is no room then. mu_sched_wait returns NONE and has no effect.", "quantifier": "every history, every behaviour of the hook", "why_tests_cant": "the hook may itself fill or empty the queue", "anchors": ["mulib/mu_sched.c:mu_sched_transfer", "mulib/mu_sched.c:mu_sched_wait", "mulib/mu_task.c:mu_task_call_transfer_hook"]}
{"id": "C85", "title": "interrupts at every point of every execution", "statement": "Let the foreground run any code (steps, nested steps, tasks and hooks that use the scheduler, without mu_sched_reset) and let interrupts, or a producer on another core, call mu_sched_from_isr all the time, interleaved access by access. Nothing faults, and the calls and returns in their order are those of a sequential execution in which each mu_sched_from_isr takes effect at one instant between its call and its return and each mu_sched_step chooses at one instant between its call and the call of the task. In user code the foreground finds the state of that sequential execution. A step gets to the call of its task within eleven actions of its own, a mu_sched_from_isr returns within six, whatever the other side does.", "quantifier": "every foreground program, every sequence of interrupt tasks, every interleaving of the individual shared accesses", "why_tests_cant": "all interleavings of unbounded executions", "anchors": ["mulib/mu_sched.c:mu_sched_step", "mulib/mu_sched.c:mu_sched_from_isr", "mulib/mu_spsc.c:mu_spsc_put", "mulib/mu_spsc.c:mu_spsc_get"]}
{"id": "C86", "title": "interrupts during mu_sched_reset", "statement": "Interrupts may call mu_sched_from_isr at any point of mu_sched_reset: nothing faults, and the outcome is that of an uninterrupted reset with some of the interrupts before and some after it; those that fall between the two stores of mu_spsc_reset are discarded even if mu_sched_from_isr reported success. This does not extend to a mu_sched_from_isr in progress on another core during the reset: then a task that was run before the reset can be run again.", "quantifier": "every reachable scheduler state, every list of tasks before, inside and after the reset, every further program", "why_tests_cant": "all states and all positions of the interrupts", "anchors": ["mulib/mu_sched.c:mu_sched_reset", "mulib/mu_spsc.c:mu_spsc_reset", "mulib/mu_sched.c:mu_sched_from_isr"]}
{"id": "C87", "title": "initialising and copying views", "statement": "mu_bbuf_init makes a buffer describe exactly the given bytes, mu_bbuf_init_cstr exactly the characters before the NUL, mu_bbuf_copy the same bytes as the source; no other buffer object changes and no byte is written. A fresh bvec, however initialised and whatever was in the object, has count 0, the capacity of its buffer, all of it available, and n reads return its first n bytes and report failure past the end.", "quantifier": "every memory, every buffer, every string, every previous contents of the objects, every number of reads", "why_tests_cant": "all buffers and all strings", "anchors": ["mulib/mu_bbuf.c:mu_bbuf_init", "mulib/mu_bbuf.c:mu_bbuf_init_cstr", "mulib/mu_bbuf.c:mu_bbuf_copy", "mulib/mu_bvec.c:mu_bvec_init", "mulib/mu_bvec.c:mu_bvec_get_available_count"]}
{"id": "C88", "title": "JSON written into a bvec", "statement": "If the byte writer of a mu_jems context appends each byte to a bvec, then after the calls that write a document the bvec's buffer holds the text of the document (which the JSON reader reads back as that document) with the rest of the buffer unchanged if it fits, and the first capacity bytes of the text if it does not; the count tells the full length of the text either way, and nothing outside the buffer changes.", "quantifier": "every document, every buffer of every capacity", "why_tests_cant": "all documents and all capacities", "anchors": ["mulib/mu_jems.c:mu_jems_init", "mulib/mu_bvec.c:mu_bvec_write_byte"]}
{"id": "C89", "title": "rotations compose and undo", "statement": "Rotating by s1 and then by s2 gives the same bytes as rotating by any s3 congruent to s1+s2 modulo the capacity; rotating by s and then by -s restores memory exactly.", "quantifier": "every non-empty buffer, all shifts that are ints", "why_tests_cant": "all buffers and all pairs of shifts", "anchors": ["mulib/mu_bbuf.c:mu_bbuf_rrotate"]}
{"id": "C90", "title": "mu_bbuf_bisect agrees with mu_bbuf_slice", "statement": "For an index not below -capacity the left part of mu_bbuf_bisect has the bytes of the slice [0, index) and the right part those of the slice [index, END).", "quantifier": "every buffer, every index from -capacity to INT_MAX", "why_tests_cant": "all buffers and all indices", "anchors": ["mulib/mu_bbuf.c:mu_bbuf_bisect", "mulib/mu_bbuf.c:mu_bbuf_slice"]}
{"id": "C91", "title": "emitted integers parse back", "statement": "The text mu_jems_integer emits for n, followed by any non-digit or the end of the buffer, is parsed back to n by the signed mu_bbuf parsers of every type at least as wide as int whose range contains n and -n, and for non-negative n the unsigned parsers return n modulo the range of their type. The text of the least 64-bit integer, which mu_jems_integer emits, overflows in mu_bbuf_parse_int64.", "quantifier": "every 64-bit integer, every integer type, every following text", "why_tests_cant": "all integers", "anchors": ["mulib/mu_jems.c:mu_jems_integer", "mulib/mu_bbuf.c:mu_bbuf_parse_int64", "mulib/mu_bbuf.c:mu_bbuf_parse_uint64"]}
{"id": "C92", "title": "how often the comparison function is called", "statement": "mu_array_sort of n items calls the comparison function at most 3 n log2 n and at least n/2 + (n-2) times, whatever it answers (so the header's O(log N) for the heap sort is not what the code does, and no answer can make it run longer). mu_array_insert_sorted into n items calls it at most log2 n + 1 times, always with the new item as second argument.", "quantifier": "every array, every comparison function including inconsistent and stateful ones, up to (INT_MAX+1)/2 items", "why_tests_cant": "all sizes and all comparison functions", "anchors": ["mulib/mu_array.c:mu_array_sort", "mulib/mu_array.c:mu_array_insert_sorted", "mulib/mu_array.h:mu_array_sort"]}
{"id": "C93", "title": "nested interrupts on the spsc queue", "statement": "If mu_spsc_put (mu_sched_from_isr) is interrupted between its shared accesses by a handler that puts items into the same queue, nothing faults; a full queue stays as it is and every put says so; otherwise all puts report what a queue with that much room would report, but afterwards the queue holds its old items and exactly one more: the interrupted item if the interruption falls between the second load of the tail and the store of the item (or if the handler put nothing), else the first item of the handler. An interruption before the first or after the last shared access is harmless: the puts behave as made one after the other.", "quantifier": "every history before and after, every queue size, every position of the interruption, every number of nested puts", "why_tests_cant": "all interruption points, histories and numbers of items", "anchors": ["mulib/mu_spsc.c:mu_spsc_put", "mulib/mu_sched.c:mu_sched_from_isr"]}
{"id": "C94", "title": "comparison functions see only items of the array", "statement": "mu_array_sort calls the comparison function with items of the array only, mu_array_insert_sorted with an item of the array and the new item (in this order): what the function would do on anything else, such as the unused part of the storage, is of no consequence. This holds for inconsistent and stateful comparison functions too.", "quantifier": "every array, every pair of comparison functions that agree on the items", "why_tests_cant": "all arrays and all comparison functions", "anchors": ["mulib/mu_array.c:mu_array_sort", "mulib/mu_array.c:sift_down", "mulib/mu_array.c:mu_array_insert_sorted"]}
{"id": "C95", "title": "sorting byte buffers", "statement": "Sorting an array of pointers to byte buffers with mu_bbuf_compare never faults in a comparison and leaves the same pointers in lexicographic order of the bytes; mu_array_insert_sorted with mu_bbuf_compare keeps that order, the new buffer going behind equal ones.", "quantifier": "every array of valid buffers, shared and overlapping ones included", "why_tests_cant": "all arrays of buffers of all contents and lengths", "anchors": ["mulib/mu_array.c:mu_array_sort", "mulib/mu_array.c:mu_array_insert_sorted", "mulib/mu_bbuf.c:mu_bbuf_compare"]}
{"id": "C96", "title": "a slice of a slice is a slice", "statement": "Slicing a slice gives the same address and capacity as slicing the source once with the indices counted from the start of the first slice.", "quantifier": "every buffer, all indices not below minus the capacity they refer to, MU_BBUF_END included", "why_tests_cant": "all buffers and all quadruples of indices", "anchors": ["mulib/mu_bbuf.c:mu_bbuf_slice"]}
{"id": "C97", "title": "streams of frames", "statement": "Frames made by mu_bisync_encode and sent one after the other determine the payloads and their number, and mu_bisync_decode started at the beginning of any of them delivers exactly the payload of that frame after the SOH.", "quantifier": "every list of payloads, every frame of the stream", "why_tests_cant": "all lists of payloads, including payloads that look like frames", "anchors": ["mulib/mu_bisync.c:mu_bisync_encode", "mulib/mu_bisync.c:mu_bisync_decode"]}
{"id": "C98", "title": "truncated frames", "statement": "mu_bisync_decode reports MU_BISYNC_ERR_FORMAT for a frame that was cut short, unless the cut falls right behind an escaped EOT of the payload, when it delivers the payload up to and including that EOT as if it were complete. So every truncation of a frame whose payload has no EOT byte is detected.", "quantifier": "every payload, every position of the cut", "why_tests_cant": "all payloads and all cuts", "anchors": ["mulib/mu_bisync.c:mu_bisync_decode"]}
{"id": "C99", "title": "message queues inside a running program", "statement": "In a program in which the scheduler runs tasks, and tasks, hooks and the tasks that queues notify use any number of message queues, the scheduler and the tasks at any depth, what is observed of each queue is what a bounded first-in first-out list does: values leave in the order they entered, nothing is lost, duplicated or moved between queues, every successful put and get calls the queue's task at once by mu_task_call, exactly once, and a queue nobody touches does not change. No such program faults.", "quantifier": "every program (finite tree of calls of the three modules) from every initial state, every queue", "why_tests_cant": "all programs, all numbers and capacities of queues, all nestings of callbacks", "anchors": ["mulib/mu_mqueue.c:mu_mqueue_put", "mulib/mu_mqueue.c:access_queue", "mulib/mu_task.c:mu_task_call", "mulib/mu_sched.c:mu_sched_step"]}
{"id": "C100", "title": "message queues as semaphores and mutexes", "statement": "In such a program, over any stretch without a reset, the successful puts to a queue exceed the successful gets by at most its capacity and vice versa. With capacity one, between two successful puts there is a get, and the first one takes the element of the first put: a lock made of such a queue has one holder at a time.", "quantifier": "every program of the three modules, every queue, every stretch of the execution", "why_tests_cant": "all programs and all stretches", "anchors": ["mulib/mu_mqueue.c:mu_mqueue_put", "mulib/mu_mqueue.c:access_queue", "mulib/mu_mqueue.h"]}
{"id": "C101", "title": "moved accesses to the storage of the interrupt queue", "statement": "The storage of a mu_spsc is not volatile, so that a compiler may move the access to it across the accesses to head and tail. In mu_spsc_get this never matters: loading the item late, even after head was advanced, gives the same results under every interleaving. In mu_spsc_put it does not matter as long as the consumer does not run between the store to tail and the late store of the item, as when put is called by an interrupt handler and get by the main program: all puts and gets then have the results of an execution in source order. Otherwise a consumer can receive an item that was never put.", "quantifier": "every choice of the order in every call, every interleaving of the individual accesses, every queue size", "why_tests_cant": "all interleavings of two threads and all choices of a compiler", "anchors": ["mulib/mu_spsc.c:mu_spsc_put", "mulib/mu_spsc.c:mu_spsc_get", "mulib/mu_spsc.h:mu_spsc_t"]}
{"id": "C102", "title": "frames sent through an interrupt queue", "statement": "When frames made by mu_bisync_encode are sent byte by byte through a mu_spsc, the producer sending a byte again as long as put returns FULL, then under every interleaving the bytes received so far are the beginning of the sent stream, every frame received completely decodes, at the place where it starts, to exactly its payload, and once all bytes have been accepted the consumer gets all of them. The same holds between two cores whose stores are delayed in store buffers.", "quantifier": "every list of payloads, every queue size, every interleaving of producer and consumer, every moment", "why_tests_cant": "all interleavings and all streams; no test can enumerate the schedules", "anchors": ["mulib/mu_bisync.c:mu_bisync_encode", "mulib/mu_bisync.c:mu_bisync_decode", "mulib/mu_spsc.c:mu_spsc_put", "mulib/mu_spsc.c:mu_spsc_get"]}
{"id": "C103", "title": "no lost wakeups", "statement": "If every time a message is stored in a queue a consumer task is made runnable (mu_sched_immed or mu_sched_from_isr succeeds) before the scheduler next chooses a task, and every time the scheduler has chosen the consumer the queue is found empty by a get before the scheduler next chooses a task, then at every choice of the scheduler the queue is empty or the consumer is waiting in the interrupt or the immediate queue; in particular whenever the scheduler goes idle the queue is empty.", "quantifier": "every program of scheduler, tasks and message queues that keeps to this, at any nesting depth, every moment", "why_tests_cant": "all programs and all interleavings of producers, consumer and scheduler", "anchors": ["mulib/mu_mqueue.c:mu_mqueue_put", "mulib/mu_mqueue.c:mu_mqueue_get", "mulib/mu_sched.c:mu_sched_step", "mulib/mu_sched.c:mu_sched_immed"]}
{"id": "C104", "title": "a wrapping clock cannot be told from one that never wraps", "statement": "Of the clock only the comparisons matter: a program does the same calls in the same order with the same results under two clocks that agree on the comparisons of each new time with the pending ones. In particular a w bit tick counter compared by signed difference behaves as an unbounded counter, if whenever the clock is read or a task is deferred, that time is within half of the range from each pending time.", "quantifier": "every program, every counter width, every execution, however often the counter wraps", "why_tests_cant": "all programs and times; wrapping of a 32 bit counter takes weeks", "anchors": ["mulib/mu_sched.c:mu_sched_step", "mulib/mu_sched.c:defer_aux", "mulib/mu_sched.c:fetch_runnable_deferred_task", "mulib/mu_platform.h:mu_time_precedes"]}
{"id": "C105", "title": "periodic tasks do not run too often", "statement": "A task that is scheduled only by deferring it by at least a period from the current time, while it is not waiting already, runs at most once per period: the clock readings at which it is run are at least a period apart, and the k-th run is not earlier than k periods after the beginning, whatever other tasks and interrupts do.", "quantifier": "every history of the scheduler, every stretch in which the task keeps to this, every period, every k", "why_tests_cant": "all histories and unboundedly many runs", "anchors": ["mulib/mu_sched.c:mu_sched_defer_for", "mulib/mu_sched.c:mu_sched_step", "mulib/mu_sched.c:fetch_runnable_deferred_task"]}
{"id": "C106", "title": "JSON telemetry: emitted, framed, queued, received", "statement": "Documents emitted with mu_jems into a mu_bvec, framed with mu_bisync_encode and sent byte by byte through a mu_spsc: the frame of a document is exactly two bytes longer than its text (nothing is ever stuffed); a frame cut short anywhere is refused by mu_bisync_decode; and under every interleaving of producer and consumer each completely received frame decodes to a text that a JSON reader reads as the document it was made from.", "quantifier": "all documents, all call sequences that emit them, all buffers they fit in, all cut points, all queue sizes and all interleavings of the put and get steps", "why_tests_cant": "The three modules are never combined in the tests, and the documents, cut points and interleavings are unbounded.", "anchors": ["mulib/mu_jems.c", "mulib/mu_bvec.c:mu_bvec_write_byte", "mulib/mu_bisync.c:mu_bisync_encode", "mulib/mu_bisync.c:mu_bisync_decode", "mulib/mu_spsc.c"]}
{"id": "C107", "title": "A receiver that joins a telemetry stream late finds the next frame", "statement": "A receiver that starts listening anywhere in a stream of framed JSON documents and holds the received bytes in a mu_bbuf: mu_bbuf_find_byte(SOH) returns the beginning of the first frame that begins after it joined, and mu_bisync_decode from there delivers the text of that document; MU_BBUF_NOT_FOUND means that no frame has begun since.", "quantifier": "all lists of documents, all joining points, all buffers", "why_tests_cant": "The joining point and the stream are arbitrary; a byte equal to SOH inside any document would break it.", "anchors": ["mulib/mu_bbuf.c:mu_bbuf_find_byte", "mulib/mu_bisync.c:mu_bisync_decode", "mulib/mu_jems.c"]}
{"id": "C108", "title": "mu_bbuf_copy_into, given what its two unset variables hold", "statement": "mu_bbuf_copy_into reads two local variables that it never sets on some paths. Whatever values they happen to hold: as long as the number of bytes attempted (the minimum of the two, one of them set from the offset) does not exceed what both buffers have left, exactly that many bytes are copied to the right place, their number is returned and nothing else changes; if each variable holds the length of its buffer the function does what its documentation says for every pair of buffers and every offset above INT_MIN; if they make it attempt more, it runs over the end of a buffer.", "quantifier": "all buffers (also overlapping ones, as far as an upward loop allows), all offsets, all values of the unset variables", "why_tests_cant": "The outcome depends on leftover stack contents; a test sees one value of them.", "anchors": ["mulib/mu_bbuf.c:mu_bbuf_copy_into"]}
{"id": "C109", "title": "A sorted array is a priority queue", "statement": "An array filled only with mu_array_insert_sorted (always with the same comparison function) and emptied with mu_array_pop is a priority queue: after every history of such calls each pop and each peek delivers a greatest item among those in it, of several equal ones the one put last; a put fails exactly when the array is full and then changes nothing; the same holds starting from an array sorted with mu_array_sort.", "quantifier": "all capacities, all comparison functions that are total preorders, all sequences of insert_sorted, pop and peek", "why_tests_cant": "The claim is about every history of calls and every comparison function, including ties.", "anchors": ["mulib/mu_array.c:mu_array_insert_sorted", "mulib/mu_array.c:mu_array_pop", "mulib/mu_array.c:mu_array_peek", "mulib/mu_array.c:mu_array_sort"]}
{"id": "C110", "title": "Searching and trimming with predicates that keep state", "statement": "mu_bbuf_find_predicate calls the predicate with the bytes in order from the first on, once each, and stops at the first one for which it returns false, whose index it returns (MU_BBUF_NOT_FOUND if there is none); mu_bbuf_rfind_predicate does the same from the last byte down. This holds also for predicates that keep state behind their argument and whose answers depend on the calls made before; mu_bbuf_ltrim, mu_bbuf_rtrim and mu_bbuf_trim cut accordingly, trim passing the state on from the front to the back.", "quantifier": "all buffers of at most INT_MAX bytes, all predicates with any kind of state, all initial states", "why_tests_cant": "The order and number of the calls is visible to a stateful predicate; a test uses one predicate on one string.", "anchors": ["mulib/mu_bbuf.c:mu_bbuf_find_predicate", "mulib/mu_bbuf.c:mu_bbuf_rfind_predicate", "mulib/mu_bbuf.c:mu_bbuf_ltrim", "mulib/mu_bbuf.c:mu_bbuf_rtrim", "mulib/mu_bbuf.c:mu_bbuf_trim"]}
{"id": "C111", "title": "Encoding and decoding with overlapping buffers", "statement": "mu_bisync_decode may be given the same buffer for input and output: if the output begins at or before the input, or they do not overlap, it writes nothing it has not yet read, so return value and output are those of decoding into a separate buffer. mu_bisync_encode may write to the front of the buffer at whose end the payload lies, if the payload begins at least one byte more than it has control bytes behind the start of the output. Otherwise overlapping buffers give wrong results.", "quantifier": "all memory contents, all positions of the two buffers in the same or different objects, all lengths and capacities", "why_tests_cant": "In-place use depends on how far writing gets ahead of reading, for every input.", "anchors": ["mulib/mu_bisync.c:mu_bisync_decode", "mulib/mu_bisync.c:mu_bisync_encode"]}
{"id": "C112", "title": "Waiting under load: interrupt and immediate tasks", "statement": "While tasks and interrupts go on scheduling other tasks: an interrupt task with k interrupt tasks ahead of it is taken after exactly those k, whatever is scheduled meanwhile; an immediate task with k immediate tasks ahead of it is taken after at most k tasks plus the interrupt and deferred tasks queued at that time plus those accepted meanwhile, immediate tasks scheduled later never delay it and the idle task is not used while it waits. No bound independent of the interrupts exists: an interrupt that schedules a task before every step keeps everything else waiting for ever.", "quantifier": "all configurations, all reachable histories, all continuations without a reset, all positions", "why_tests_cant": "The interfering calls (by tasks, nested steps, hooks and interrupts) form unbounded sequences.", "anchors": ["mulib/mu_sched.c:mu_sched_step", "mulib/mu_sched.c:mu_sched_immed", "mulib/mu_sched.c:mu_sched_from_isr", "mulib/mu_sched.c:mu_sched_defer_until"]}
{"id": "C113", "title": "Waiting under load: a deferred task that is due", "statement": "A deferred task that is due and stays due (later clock readings are not before its time) is taken after at most: the interrupt tasks queued and those accepted meanwhile, the pending entries scheduled before it for the same or an earlier time, and the entries scheduled after it for a strictly earlier time. Until then steps take nothing else: immediate tasks, the idle task, and deferred tasks for a later time (or for the same time, scheduled later) do not delay it.", "quantifier": "all configurations, all ordered clocks, all reachable histories, all continuations without a reset and without removal of the task", "why_tests_cant": "The interfering calls form unbounded sequences.", "anchors": ["mulib/mu_sched.c:mu_sched_step", "mulib/mu_sched.c:mu_sched_defer_until", "mulib/mu_sched.c:mu_sched_defer_for"]}
{"id": "C114", "title": "A partly emitted document can be completed at any point", "statement": "While a document is being emitted through mu_jems, after any of the calls, the characters passed to the writer so far, followed by ':null' if a key is waiting for its value and by one closing bracket per open container, are well-formed JSON; what it reads as is the document cut off at that place. The calls mu_jems_null (if a value is missing) and mu_jems_array_close/object_close for the open containers, innermost first, write exactly that text, so a program that runs into an error half way can always finish the document", "quantifier": "all documents that fit the level stack and counters, all ways of emitting them, all call boundaries, all platforms", "why_tests_cant": "documents and the place of interruption are unbounded; a test sees a few of them", "anchors": ["mulib/mu_jems.c:mu_jems_array_open", "mulib/mu_jems.c:mu_jems_array_close", "mulib/mu_jems.c:mu_jems_object_open", "mulib/mu_jems.c:mu_jems_object_close", "mulib/mu_jems.c:mu_jems_null"]}
{"id": "C115", "title": "A truncated document is never mistaken for a complete one", "statement": "If the characters that mu_jems passes to its writer for a document that is not a bare number are cut off anywhere before the last one, what is left is not well-formed JSON; in particular, of a document emitted into a mu_bvec the bytes in the buffer are accepted by a JSON reader if and only if the count does not exceed the capacity, and then they denote the document", "quantifier": "all documents other than bare numbers, all ways of emitting them, all cut points, all buffer capacities", "why_tests_cant": "every prefix of every document has to be rejected", "anchors": ["mulib/mu_jems.c:mu_jems_array_close", "mulib/mu_jems.c:mu_jems_object_close", "mulib/mu_jems.c:mu_jems_string", "mulib/mu_jems.c:mu_jems_bytes", "mulib/mu_jems.c:mu_jems_literal", "mulib/mu_bvec.c:mu_bvec_write_byte"]}
{"id": "C116", "title": "Emitted numbers: the exact text, and order is preserved", "statement": "For a double with a fraction mu_jems_number writes the nearest number of millionths (the even one of two), with a minus sign exactly for negative values, as many of the six digits as fit 21 characters, dropping the others without rounding again. If v <= w and both calls are defined, the number a JSON reader gets for v is not greater than the one it gets for w: rounding, cutting off and the switch between integers and fractions never invert the order", "quantifier": "all finite doubles in the defined range, all pairs of them, all states of the emitters", "why_tests_cant": "2^128 pairs of bit patterns", "anchors": ["mulib/mu_jems.c:mu_jems_number"]}
{"id": "C117", "title": "The source of mu_queue.c, as parsed, is a bounded first-in first-out queue", "statement": "Take the functions of mu_queue.c exactly as written (their parsed syntax, executed by a semantics of C). After mu_queue_init on any struct and any storage of cap slots, every sequence of put, get, peek, reset, count, capacity, is_empty and is_full calls returns and delivers exactly what a first-in first-out list bounded by cap does, performs no undefined operation, and writes nothing except the struct, the cap slots and the variables passed to get and peek.", "quantifier": "All platforms (widths of int and size_t), all capacities up to half of SIZE_MAX, all memory contents and placements of the struct, storage and variables, all element values, all call sequences.", "why_tests_cant": "The claim is about the program text for unboundedly many histories, capacities and memory layouts; tests run a few histories on one machine.", "anchors": ["mulib/mu_queue.c:mu_queue_init", "mulib/mu_queue.c:mu_queue_put", "mulib/mu_queue.c:access_queue", "mulib/mu_queue.c:mu_queue_reset"]}
{"id": "C118", "title": "The source of mu_spsc.c, as parsed, is a bounded first-in first-out queue when called sequentially", "statement": "Take the functions of mu_spsc.c exactly as written. mu_spsc_init refuses every store_size that is not a power of two of at least 2, without touching memory; otherwise, every sequence of put, get, reset and capacity calls returns and delivers what a first-in first-out list bounded by store_size - 1 does, performs no undefined operation, and writes nothing except the struct, the slots and the variables passed to get.", "quantifier": "All platforms (including those where uint16_t is promoted to unsigned int), all uint16_t sizes, all memory contents and placements, all items, all call sequences.", "why_tests_cant": "The promotions of uint16_t differ between platforms and the wrap-around depends on the whole history; tests cover one platform and a few histories.", "anchors": ["mulib/mu_spsc.c:mu_spsc_init", "mulib/mu_spsc.c:mu_spsc_put", "mulib/mu_spsc.c:mu_spsc_get", "mulib/mu_spsc.c:mu_spsc_reset"]}
{"id": "C119", "title": "The source of mu_bisync.c, as parsed, frames and unframes correctly", "statement": "Take mu_bisync_encode and mu_bisync_decode exactly as written. Encoding any payload into any destination of any size returns the length of the frame and leaves the frame there if it fits, else MU_BISYNC_ERR_OFLOW; decoding any input that starts with SOH writes SOH and what the tokens stand for, as far as the destination reaches, and returns the count, MU_BISYNC_ERR_OFLOW or MU_BISYNC_ERR_FORMAT as determined by the grammar of the input; any other input is refused. A frame may also be decoded where it lies. No call performs an undefined operation, and none changes memory outside the destination.", "quantifier": "All platforms, all payloads and inputs, all destination sizes and contents, all placements in memory that do not overlap (or coincide, for decoding in place).", "why_tests_cant": "The claim is about the program text for unboundedly many inputs, sizes and memory layouts.", "anchors": ["mulib/mu_bisync.c:mu_bisync_encode", "mulib/mu_bisync.c:mu_bisync_decode", "mulib/mu_bisync.c:buffer_put"]}
{"id": "C120", "title": "The parsed source of mu_bbuf.c: every function that only reads", "statement": "For the syntax trees read off mu_bbuf.c: with buffers (and C strings) anywhere in memory, overlapping or not, mu_bbuf_compare, matches, has_prefix, has_suffix, find/rfind_substr (and the cstr variants), find/rfind_byte, find/rfind_predicate, the ten decimal parsers, parse_hex, get_byte, ref_ro/rw, bytes_ro/rw and capacity return what the lists of bytes say: the lexicographic order, prefix, suffix, first and last occurrence, the first byte the predicate refuses, the leading number modulo the width (for signed types at least as wide as int: if the number fits in the type; otherwise the C arithmetic overflows, see C47). None of them faults or changes memory (except the variable given to get_byte and what the user's predicate does).", "quantifier": "every memory, every buffer content up to INT_MAX bytes, every needle, every predicate with state, every platform (width and signedness)", "why_tests_cant": "buffers of any length and content at any address; predicates are arbitrary user code", "anchors": ["mulib/mu_bbuf.c:mu_bbuf_compare", "mulib/mu_bbuf.c:mu_bbuf_find_substr", "mulib/mu_bbuf.c:mu_bbuf_parse_int"]}
{"id": "C121", "title": "The parsed source of mu_bbuf.c: views", "statement": "For the syntax trees read off mu_bbuf.c: mu_bbuf_init_ro/rw/cstr, copy, slice, bisect, ltrim, rtrim and trim return buffers that cover exactly the bytes their lists say (the positions of start and end; before and behind the index; from the first byte a predicate refuses), at the same place in memory, with the destination being the source itself or any other mu_bbuf_t; they change the destination structs (and what the user's predicate changes) and nothing else. A slice that starts before the object is undefined behaviour.", "quantifier": "every memory, buffer, start, end and index not below -capacity, NULL results, aliased results, every predicate with state", "why_tests_cant": "any content, any index, aliasing of source and destination; predicates are arbitrary user code", "anchors": ["mulib/mu_bbuf.c:mu_bbuf_slice", "mulib/mu_bbuf.c:mu_bbuf_bisect", "mulib/mu_bbuf.c:mu_bbuf_trim"]}
{"id": "C122", "title": "The parsed source of mu_bbuf.c: functions that write", "statement": "For the syntax trees read off mu_bbuf.c: put_byte replaces the byte at an index inside the buffer and refuses any other; clear zeroes; rshift moves the byte at j-shift to j and fills with zeros (INT_MIN overflows); reverse reverses a non-empty buffer (an empty one computes a pointer outside its object); rrotate moves the byte at i to (i+shift) mod capacity (on an empty buffer it never returns); copy_into never copies. In every case no cell of memory other than the bytes of the buffer changes, and the locals of the function are gone after the return.", "quantifier": "every memory, buffer that can be written, index, byte and shift", "why_tests_cant": "any content, capacity and shift, including the extreme ones; that nothing else changes cannot be tested", "anchors": ["mulib/mu_bbuf.c:mu_bbuf_put_byte", "mulib/mu_bbuf.c:mu_bbuf_clear", "mulib/mu_bbuf.c:mu_bbuf_rshift", "mulib/mu_bbuf.c:mu_bbuf_reverse", "mulib/mu_bbuf.c:mu_bbuf_rrotate", "mulib/mu_bbuf.c:mu_bbuf_copy_into"]}
{"id": "C123", "title": "The parsed source of mu_bvec.c", "statement": "For the syntax trees read off mu_bvec.c: a vector initialised in any of the three ways answers every history of calls (set_count, reset, read_byte, write_byte, get_available, get_count, get_capacity, ref_ro, ref_rw, get_bbuf) as a list of bytes with a position does; the bytes and count in memory are those of the list; nothing else changes but the variables read into. At or past the capacity, reads and writes return false and change only the count.", "quantifier": "every memory, bytes, capacity and history of calls, including counts past the capacity and the wrap of the count at SIZE_MAX", "why_tests_cant": "histories and memories are unbounded", "anchors": ["mulib/mu_bvec.c:mu_bvec_init", "mulib/mu_bvec.c:mu_bvec_read_byte", "mulib/mu_bvec.c:mu_bvec_write_byte", "mulib/mu_bvec.c:mu_bvec_get_available"]}
{"id": "C124", "title": "mu_array source is a bounded list, in memory", "statement": "Taking the C text of mu_array.c itself (parsed, with a semantics of memory cells and pointers): after mu_array_init on any struct and any storage, every history of push, pop, peek, ref, insert, index, rindex, reset, count, capacity, is_empty, is_full answers and delivers exactly what a list bounded by the capacity does, never faults, leaves that list in the slots, and changes no memory except the struct, the slots and the caller's variables. mu_array_delete: failing and last-item deletion as documented; in the middle the count stays and the slot behind the items becomes the last item, or memory behind the storage is read.", "quantifier": "all platforms, all positions of struct and storage in memory, all capacities up to INT_MAX, all contents, all histories and items, all behaviours of external functions", "why_tests_cant": "needs every history at every capacity, and absence of stray reads and writes anywhere in memory", "anchors": ["mulib/mu_array.c:mu_array_init", "mulib/mu_array.c:mu_array_push", "mulib/mu_array.c:mu_array_pop", "mulib/mu_array.c:mu_array_insert", "mulib/mu_array.c:mu_array_delete", "mulib/mu_array.c:mu_array_index", "mulib/mu_array.c:mu_array_rindex"]}
{"id": "C125", "title": "mu_array source sorts, in memory", "statement": "Taking the C text of mu_array.c itself: for any array in memory and any comparison function that leaves the array alone (it may have state and use other memory, and its answers may be any ints, even inconsistent), mu_array_sort returns its argument, terminates without undefined behaviour and leaves a permutation of the items; when the answers are those of a total preorder the items are in order; with a comparison function that only looks at its arguments no other cell of memory changes. mu_array_insert_sorted returns true and has inserted the item when there is room (after every item not above it, before every other one, if the array was in order) and returns false and changes no item when there is none. The length must satisfy 2*count <= INT_MAX + 1, and where size_t is as wide as int an array of one item makes mu_array_sort overflow.", "quantifier": "all platforms, all positions of struct and storage in memory, all contents, all comparison functions including stateful and inconsistent ones", "why_tests_cant": "needs every array of every length and every comparison function", "anchors": ["mulib/mu_array.c:mu_array_sort", "mulib/mu_array.c:mu_array_insert_sorted", "mulib/mu_array.c:find_insertion_index", "mulib/mu_array.c:heapify", "mulib/mu_array.c:sift_down", "mulib/mu_array.c:swap"]}
{"id": "C126", "title": "mu_task source: calls, states and hooks, in memory", "statement": "Taking the C text of mu_task.c itself: mu_task_init sets the three members and nothing else; the getters return them and change nothing; mu_task_set_user_info and the three hook installers change exactly one variable; mu_task_call and mu_task_set_state ignore NULL; mu_task_call calls the installed hook (if any) once with the task and then the function the task has at that moment, once, with the task, and memory is as that function leaves it; mu_task_set_state calls the hook with the task and the new state and then stores the state, nothing else; mu_task_call_transfer_hook calls the hook with its argument. If a hook does not return, nor does the call.", "quantifier": "all platforms, all positions of the task in memory, all functions and hooks including ones that change the task, call back into the library, fail or do not return", "why_tests_cant": "needs every hook and task function", "anchors": ["mulib/mu_task.c:mu_task_init", "mulib/mu_task.c:mu_task_call", "mulib/mu_task.c:mu_task_set_state", "mulib/mu_task.c:mu_task_call_transfer_hook", "mulib/mu_task.c:mu_task_install_call_hook"]}
{"id": "C127", "title": "mu_mqueue source: FIFO and notifications, in memory", "statement": "Taking the C text of mu_mqueue.c itself: after mu_mqueue_init on any struct and storage, each call (put, get, peek, reset, count, capacity, is_empty, is_full) first does to the queue and to the caller's variable exactly what a first-in first-out list bounded by the capacity does, then - only after a successful put or get, and only if that task is not NULL - calls the put or get task, and does nothing after that but return what the list says; this whatever the task does, re-entrant use included. When the tasks return and leave the queue alone, every history answers as the list does, and the tasks called are in order exactly one per successful put and get.", "quantifier": "all platforms, all positions of struct and storage in memory, all capacities up to half of SIZE_MAX+1, all histories, all tasks and hooks (stateful, re-entrant, failing or not returning)", "why_tests_cant": "needs every history, every task and absence of stray writes", "anchors": ["mulib/mu_mqueue.c:mu_mqueue_init", "mulib/mu_mqueue.c:mu_mqueue_put", "mulib/mu_mqueue.c:mu_mqueue_get", "mulib/mu_mqueue.c:access_queue", "mulib/mu_task.c:mu_task_call"]}
{"id": "C128", "title": "mu_sched source: the agenda, in memory", "statement": "Taking the C text of mu_sched.c itself: mu_sched_init establishes, in the file-scope variables, an empty agenda (interrupt list, immediate list, deferred list, current task, idle task); mu_sched_immed, mu_sched_from_isr, mu_sched_defer_until, mu_sched_defer_for, mu_sched_remove_deferred_task, mu_sched_reset, mu_sched_set_idle_task and mu_sched_transfer change the agenda exactly as operations on bounded lists (deferred sorted by time, equal times in order of the calls), return exactly the documented code, and write nothing outside the scheduler's variables; mu_sched_current_task, mu_sched_get_idle_task, mu_sched_next_task and mu_sched_wait answer and change nothing; mu_sched_step moves exactly one task (an interrupt task first, then a due deferred task, then an immediate task, then the idle task) into the current task and calls it once, whatever that task does, and clears the current task only when it returns; a change elsewhere in memory leaves the agenda alone.", "quantifier": "all platforms, all contents of the rest of memory, all agendas, all tasks, times, clock functions, hooks and task functions (stateful, failing, re-entrant)", "why_tests_cant": "needs every agenda, every clock and every task function, and absence of stray writes anywhere in memory", "anchors": ["mulib/mu_sched.c:mu_sched_init", "mulib/mu_sched.c:mu_sched_step", "mulib/mu_sched.c:mu_sched_immed", "mulib/mu_sched.c:mu_sched_from_isr", "mulib/mu_sched.c:mu_sched_defer_until", "mulib/mu_sched.c:mu_sched_defer_for", "mulib/mu_sched.c:mu_sched_remove_deferred_task", "mulib/mu_sched.c:mu_sched_reset", "mulib/mu_sched.c:mu_sched_transfer"]}
{"id": "C129", "title": "mu_log source: filtering and delivery, in memory", "statement": "Taking the C text of mu_log.c itself: mu_log_init and the two setters change exactly their variables; the getters answer from them and change nothing; mu_log_is_reporting answers whether the level is at least the threshold; mu_log with a level at least the threshold and a logging function set calls that function exactly once, with the format and the variable arguments unchanged and the level of the message available through mu_log_get_reporting_level, whatever the function does; otherwise it does nothing at all; mu_log_level_name returns the documented name, or UNKNOWN for every other value of the type; every history of calls delivers exactly the messages at or above the threshold of the moment, in order, to the function of the moment.", "quantifier": "all platforms (signed or unsigned enumeration), all levels, formats, arguments, logging functions (stateful, re-entrant, failing), all histories", "why_tests_cant": "needs every history, every logging function, every value of the level type and absence of stray writes", "anchors": ["mulib/mu_log.c:mu_log", "mulib/mu_log.c:mu_log_init", "mulib/mu_log.c:mu_log_is_reporting", "mulib/mu_log.c:mu_log_level_name", "mulib/mu_log.c:mu_log_set_reporting_threshold", "mulib/mu_log.c:mu_log_set_logging_function"]}
{"id": "C130", "title": "mu_jems source: the JSON emitted, in memory", "statement": "Taking the C text of mu_jems.c itself: mu_jems_init followed by calls that describe a JSON document nested less deep than there are levels passes exactly the text of that document, character after character, to the writer function, behind whatever it was passed before, and a JSON reader returns the document from it; any sequence of calls whatever (nested too deep, closed too often, in any order) returns the emitter and changes nothing in memory but the struct, its levels and what the writer itself changes; mu_jems_curr_level and mu_jems_item_count answer with the number of open containers and of the items in the innermost one.", "quantifier": "all platforms (signed or unsigned char), all positions of struct, levels and texts in memory, all documents and sequences of calls, all writer functions that return and keep to their own memory", "why_tests_cant": "needs every document, every nesting, every writer and absence of stray writes", "anchors": ["mulib/mu_jems.c:mu_jems_init", "mulib/mu_jems.c:mu_jems_object_open", "mulib/mu_jems.c:mu_jems_number", "mulib/mu_jems.c:mu_jems_integer", "mulib/mu_jems.c:mu_jems_string", "mulib/mu_jems.c:mu_jems_bytes", "mulib/mu_jems.c:mu_jems_literal", "mulib/mu_jems.c:mu_jems_curr_level", "mulib/mu_jems.c:mu_jems_item_count"]}
{"id": "C131", "title": "Programs around the scheduler: for the source itself", "statement": "A program calls mu_sched_init and then, in any order, the functions of the scheduler; tasks are called by mu_sched_step, run arbitrary code of the user's and call the scheduler themselves, mu_sched_step included, to any depth. The program keeps a log, in memory of its own, of every call it makes with the answer, of every task function entered and of every clock reading. At every moment at which user code runs - whether or not what is running will ever return - the log is one that the abstract agenda (interrupt tasks first-in first-out, then the due deferred task of least time, then immediate tasks first-in first-out, then the idle task) explains entry by entry, and the agenda it leads to is the one in memory. A task that is not the idle task has been called exactly as often as it was scheduled with success, less what is waiting, as long as no reset or removal took tasks away. How many steps the execution is given does not matter: if it answers with some bound it answers the same with every larger one.", "quantifier": "all user programs, re-entrant tasks, platforms, clocks, histories and depths of nesting", "why_tests_cant": "Tests run a handful of tasks that return; re-entrant steps at arbitrary depth and histories of arbitrary length cannot be enumerated.", "anchors": ["mulib/mu_sched.c: mu_sched_init, mu_sched_step, mu_sched_immed, mu_sched_from_isr, mu_sched_defer_until, mu_sched_defer_for, mu_sched_remove_deferred_task, mu_sched_reset", "mulib/mu_task.c: mu_task_call", "mulib/mu_queue.c", "mulib/mu_spsc.c"]}
{"id": "C132", "title": "mu_spsc as it is written, with producer and consumer at the same time", "statement": "Take the C text of mu_spsc.c and let every read and write of memory be a separate step. After a successful mu_spsc_init, let one thread call mu_spsc_put and another mu_spsc_get, any number of times, while between any two of the accesses of one thread the other makes any number of its own and anything else happens in memory that is not the queue's; and let the compiler evaluate operands in either order. Then the calls and results the threads see could have come from an atomic bounded first-in first-out queue, each call taking effect at one instant between its call and its return; no access faults; and each call makes at most 8 (put) or 10 (get) accesses whatever the other thread does.", "quantifier": "every size accepted by mu_spsc_init, place in memory, sequence of calls on each side, interleaving of accesses, operand order, platform width", "why_tests_cant": "a test runs some interleavings of some calls, and only those the compiler and scheduler happen to produce", "anchors": ["mulib/mu_spsc.c: mu_spsc_init, mu_spsc_put, mu_spsc_get", "mulib/mu_spsc.h: mu_spsc_t"]}
{"id": "C133", "title": "no result depends on the order of evaluation", "statement": "C leaves open in which order the operands of an operator, the two sides of an assignment and the arguments of a call are evaluated. For no function of the library does it matter: whichever order the compiler picks, and however it picks anew at every evaluation, the result and the contents of memory are the same as with evaluation from left to right, and one order faults only if all do - provided the user's own functions have that property.", "quantifier": "every function of the library, all arguments, all contents of memory, every way to resolve every choice of order, platform width, user callbacks", "why_tests_cant": "a test is run with the order one compiler chose", "anchors": ["mulib/mu_array.c: mu_array_push, mu_array_pop", "mulib/mu_bbuf.c: mu_bbuf_reverse, mu_bbuf_compare", "mulib/mu_bisync.c: buffer_put"]}
{"id": "C134", "title": "An interrupt may strike between any two memory accesses of the scheduler's C source", "statement": "For the parsed C source of mu_sched, mu_spsc, mu_queue and mu_task: after mu_sched_init, let a program of arbitrary user code and tasks call the scheduler (any of its functions but mu_sched_reset, for which see C143; mu_sched_step included, nested to any depth; a call hook and a transfer hook may have been installed, and their code is such user code too), and let interrupts call mu_sched_from_isr between any two memory accesses of all this, including in the middle of mu_sched_step and of the queue functions, any number of times, with operands evaluated in any order. At every moment the log of everything user code has seen (answers, clock readings, hooks and task functions entered, steps entered and left, interrupts) is one that the abstract agenda explains, with the interrupt taking effect where it occurred; no access faults; when the main program returns no step is left unfinished; each task has been called exactly as often as it was scheduled with success, less those still waiting (or removed); and a task scheduled by an interrupt has been called (or, if there is a call hook, the hook has been called with it, which precedes the call) by the time mu_sched_step has been entered eight more times.", "quantifier": "every user program and task functions, every call hook and transfer hook, every schedule of interrupts at single-access granularity, every order of evaluation, every nesting depth, every clock, every architecture with int of at least 16 bits", "why_tests_cant": "the number of interleavings is unbounded and a race between mu_sched_step and an interrupt appears only at particular accesses; a test cannot place an interrupt at each of them in every history", "anchors": ["mulib/mu_sched.c:mu_sched_from_isr", "mulib/mu_sched.c:mu_sched_step", "mulib/mu_spsc.c:mu_spsc_get", "mulib/mu_spsc.c:mu_spsc_put", "mulib/mu_task.c:mu_task_call"]}
{"id": "C135", "title": "The scheduler and re-entrant message queues together, in any program, from the C source", "statement": "For the parsed C source of mu_sched, mu_mqueue, mu_queue, mu_spsc and mu_task: initialise the scheduler and any number of message queues with separate storage, and run any program whose main function and tasks call the scheduler (mu_sched_step included) and the queues, nested to any depth, the tasks of a queue being free to use that same queue, others and the scheduler. Whenever user code runs - in the main program or inside a task, even one that never returns - everything it has seen so far (answers, elements obtained, tasks called, clock readings) is what an agenda and first-in first-out lists would have done, each put or get taking effect before the task it wakes is called and exactly that task being called; memory holds precisely that agenda and those lists, each list being the result of applying to it the calls on its queue in the order in which they were made; the mu_..._init functions establish this.", "quantifier": "every program, every number and capacity of queues, every nesting of tasks in steps and queue calls, every history, every clock, every architecture with int of at least 16 bits", "why_tests_cant": "re-entrant histories of several queues and a scheduler are unbounded in length and nesting", "anchors": ["mulib/mu_sched.c:mu_sched_step", "mulib/mu_mqueue.c:mu_mqueue_put", "mulib/mu_mqueue.c:mu_mqueue_get", "mulib/mu_task.c:mu_task_call", "mulib/mu_queue.c:mu_queue_put", "mulib/mu_spsc.c:mu_spsc_get"]}
{"id": "C136", "title": "JSON emitted into a vector, framed, deframed and parsed, from the C source", "statement": "For the parsed C source of mu_jems, mu_bvec, mu_bisync and mu_bbuf, with a writer function that does nothing but call mu_bvec_write_byte: emitting any document into a mu_bvec leaves exactly its text (cut off at the capacity) in the vector's bytes and the length of the text in its count, changing nothing else; if it fits, mu_bisync_encode of those bytes followed by mu_bisync_decode yields a buffer in which a JSON reader finds the same document, and mu_bbuf_parse_int finds the same integer if the document is one; if it does not fit, the count exceeds the capacity, nothing is available and (bare numbers apart) the cut text is not well-formed JSON, so the loss is noticed.", "quantifier": "every document, every way of calling mu_jems that emits it, every placement of the objects in memory, every capacity, every signedness of char, every architecture with int of at least 16 bits", "why_tests_cant": "the documents, capacities and placements are unbounded; the composition of four modules involves the contents of buffers left over from before", "anchors": ["mulib/mu_jems.c:mu_jems_init", "mulib/mu_bvec.c:mu_bvec_write_byte", "mulib/mu_bisync.c:mu_bisync_encode", "mulib/mu_bisync.c:mu_bisync_decode", "mulib/mu_bbuf.c:mu_bbuf_parse_int"]}
{"id": "C137", "title": "Sorting byte buffers with mu_bbuf_compare, from the C source", "statement": "For the parsed C source of mu_array and mu_bbuf: an array of pointers to mu_bbuf_t, sorted by mu_array_sort with a comparison function that calls mu_bbuf_compare, holds the same pointers in lexicographic order of the buffers' bytes; nothing but the order of the items changes and the buffers show the same bytes as before. mu_array_insert_sorted with that function puts a new buffer behind all that are not greater and before all that are, and keeps the order.", "quantifier": "every array, every set of buffers (sharing bytes, repeated, empty), every placement in memory outside the array, every architecture (with a single item: int narrower than size_t)", "why_tests_cant": "the contents and the number of the buffers are unbounded, and the sort calls the comparison function in an order that depends on them", "anchors": ["mulib/mu_array.c:mu_array_sort", "mulib/mu_array.c:mu_array_insert_sorted", "mulib/mu_bbuf.c:mu_bbuf_compare"]}
{"id": "C138", "title": "What flows through a mu_spsc, and frames sent through it, from the parsed source", "statement": "After mu_spsc_init, with a producer and a consumer whose memory accesses are interleaved in any way: the items received are the first of the items accepted, in order and each exactly once; at most N-1 accepted items wait in the queue; a mu_spsc_put called while fewer than N-1 items have been accepted and not received succeeds, and a mu_spsc_get called while an accepted item has not been received succeeds. When the producer sends, byte by byte and retrying a byte the queue refused, the frames that mu_bisync_encode made for a list of payloads, the bytes received so far are at every moment the beginning of that stream, and mu_bisync_decode given the received bytes from the start of a completely received frame returns exactly its payload.", "quantifier": "every queue of a power of two of slots, every interleaving of accesses of the two threads (and anything else happening elsewhere in memory), every order of evaluation of operands, every list of payloads", "why_tests_cant": "the interleavings and payload lists are infinite in number and a test cannot choose the interleaving", "anchors": ["mulib/mu_spsc.c: mu_spsc_init, mu_spsc_put, mu_spsc_get", "mulib/mu_bisync.c: mu_bisync_encode, mu_bisync_decode"]}
{"id": "C139", "title": "mu_spsc on two cores with store buffers, from the parsed source", "statement": "After mu_spsc_init, with the producer and the consumer running the source of mu_spsc_put and mu_spsc_get on two cores whose stores go through first-in first-out store buffers and reach memory at any later moment (x86-TSO): neither thread ever faults; the items received are the first of the items accepted, in order and each exactly once; at most N-1 accepted items wait. Once the producer's stores have reached memory, a mu_spsc_get called later succeeds while an item accepted by then has not been received, and symmetrically for mu_spsc_put and the consumer's stores. Frames sent through the queue byte by byte are received and decoded as without store buffers. The order of the two stores of mu_spsc_put is needed: if the new tail may reach memory before the item, as C allows (the items are not volatile), mu_spsc_get can answer OK with what was never put.", "quantifier": "every queue of a power of two of slots, every interleaving of reads, writes and buffer flushes of the two cores (and anything else happening elsewhere in memory), every order of evaluation of operands, every list of payloads", "why_tests_cant": "whether a missing barrier matters depends on when stores reach memory, which a test cannot choose or enumerate", "anchors": ["mulib/mu_spsc.c: mu_spsc_init, mu_spsc_put, mu_spsc_get", "mulib/mu_bisync.c: mu_bisync_encode, mu_bisync_decode"]}
{"id": "C140", "title": "What the log of a program shows", "statement": "For a program that schedules each task in one way only (from interrupts, deferred, immediately, or as the idle task) and notes its calls with their answers, the tasks called and the readings of the clock, the log alone shows: immediate tasks, and interrupt tasks, are called in the order in which they were accepted since the last mu_sched_reset, and FULL is answered exactly if 20 (7) of them wait; a deferred task is called only if the last reading of the clock does not precede the time it was deferred to, the pending deferral for the earliest time first and equal times in the order of the calls; no deferred, immediate or idle task is called by a step that began while an interrupt task waited, no immediate or idle task while a deferred one is due, no idle task while an immediate one waits; a step that calls nothing had nothing to call; mu_sched_remove_deferred_task succeeds exactly if the task waits, deferring answers FULL exactly if 20 wait, mu_sched_next_task, mu_sched_current_task, mu_sched_get_idle_task name the deferred task that will be due first, the task called last, the idle task set last. With interrupts between any two accesses to memory, and no call of mu_sched_reset, the same holds, except that one more interrupt task may wait, the one about to be called; and also if a call hook, a transfer hook or both are installed, a task then counting as called from when the call hook is called with it. In every interrupted program with a call hook, also one that calls mu_sched_reset, no task is called more often than the call hook was called with it, and when the program is finished exactly as often.", "quantifier": "every program (main program and task functions, nested steps included) around the parsed scheduler, every moment at which its code runs, every platform clock whose comparison is a strict weak order on the times used; and every moment of an interrupted program", "why_tests_cant": "a test sees one log; that all logs of all programs have this shape is a statement about every history of calls, clock readings and interrupts", "anchors": ["mulib/mu_sched.c: mu_sched_step, mu_sched_immed, mu_sched_defer_until, mu_sched_defer_for, mu_sched_from_isr, mu_sched_remove_deferred_task, mu_sched_reset"]}
{"id": "C141", "title": "Programs with scheduler, tasks, hooks and message queues", "statement": "For the parsed C source of mu_sched, mu_task, mu_mqueue, mu_queue and mu_spsc together: let a program install and replace the three hooks of mu_task, initialise tasks, read them, set their states and user info, call them with mu_task_call, call the scheduler (mu_sched_transfer and mu_sched_step included), put to and get from message queues, and initialise the scheduler and the queues anew, in any order; and let task functions and hooks, called from within these calls, do all this themselves to any depth. Then at every moment at which user code runs, the log kept by the program is the one required: each call answers what the agenda, the first-in first-out lists and the tasks as left by the calls so far call for; a call runs exactly these user functions in this order: the call hook installed when the task is called, with the task as argument, and then the function the task has after the hook returned, with the task as argument; the state hook, with task and new state, before the state is set; the transfer hook, before the task is scheduled; nothing for NULL; and agenda, queue contents, task records, hooks and variables in memory are what the log leads to. In particular a queue always holds what the calls made on it so far leave in a first-in first-out list; and with a call hook installed for good (and no other hook), every task function is entered right after the hook has been entered with that task and has returned.", "quantifier": "every program of user code, task functions and hooks (nested calls to any depth, terminating or not), every number and placement of queues and tasks that do not overlap, every moment at which user code runs, every platform clock", "why_tests_cant": "user code is arbitrary and re-entered from inside the library at unbounded depth; hooks may change tasks, hooks and queues while the library is in the middle of a call", "anchors": ["mulib/mu_task.c: mu_task_call, mu_task_set_state, mu_task_call_transfer_hook, mu_task_install_call_hook", "mulib/mu_sched.c: mu_sched_step, mu_sched_transfer", "mulib/mu_mqueue.c: mu_mqueue_put, mu_mqueue_get"]}
{"id": "C142", "title": "Many containers in one program, from the C source", "statement": "Take the parsed source of mu_queue.c, mu_mqueue.c (without tasks), mu_spsc.c and mu_array.c. A program with any number of these containers anywhere in memory may initialise them (again at any time, also in memory that held something else), call them in any order, write its own variables, and give containers up and reuse their memory. As long as containers in use do not overlap and variables lie outside of them, every call returns and delivers exactly what it would if each container were an independent list and each variable a plain value; nothing faults; every variable holds what was last written or delivered to it. In particular each container answers as if it were alone in the program.", "quantifier": "all platforms, all families of containers of all capacities (bounded by the limits of their type), all placements in memory, all histories, all contents of memory at the start", "why_tests_cant": "Interference between objects - a write outside the own cells, a hidden static, a dependence on memory left over from a previous use - shows only for particular placements and interleavings; tests use one object at a time.", "anchors": ["mulib/mu_queue.c: mu_queue_init, mu_queue_put, mu_queue_get", "mulib/mu_mqueue.c: mu_mqueue_init, mu_mqueue_put, mu_mqueue_get", "mulib/mu_spsc.c: mu_spsc_init, mu_spsc_put, mu_spsc_get", "mulib/mu_array.c: mu_array_init, mu_array_push, mu_array_pop"]}
{"id": "C143", "title": "Interrupts between any two memory accesses of mu_sched_reset's C source", "statement": "As C134, for programs that also call mu_sched_reset, from the main program, from tasks and from hooks, with interrupts between any two memory accesses of mu_sched_reset too. At every moment the log of everything user code has seen is one that the abstract agenda explains, no access faults, and when the main program returns no step and no reset is left unfinished. Only while mu_sched_reset empties the interrupt queue may the task of an interrupt that was accepted be lost, or an interrupt find up to seven items in the queue; what an interrupt schedules after that, before mu_sched_reset returns, stays, and everything scheduled before is forgotten. No task is called more often than it was scheduled with success, whenever interrupts occur; after a mu_sched_reset returns a task (not the idle task) is called at most as often as it was scheduled with success since, or by interrupts after which nothing else was seen before the return, or as the call hook had been called with it and the call itself was outstanding - and since the last mu_sched_reset exactly as often as it was scheduled, less those waiting or removed, plus the outstanding calls and some of those of such interrupts; and a task scheduled by an interrupt has been called (or the call hook with it) by the time mu_sched_step has been entered eight more times, unless a mu_sched_reset returns in between.", "quantifier": "every user program, task functions and hooks, with calls of mu_sched_reset anywhere, every schedule of interrupts at single-access granularity, every order of evaluation, every nesting depth, every clock, every architecture with int of at least 16 bits", "why_tests_cant": "mu_spsc_reset is two stores, and between them the queue holds items that were taken long ago; whether an interrupt that strikes there makes one of them run again depends on what the queue held, where its indices were and what follows - a test cannot place an interrupt there in every history", "anchors": ["mulib/mu_sched.c:mu_sched_reset", "mulib/mu_spsc.c:mu_spsc_reset", "mulib/mu_queue.c:mu_queue_reset", "mulib/mu_sched.c:mu_sched_from_isr", "mulib/mu_sched.c:mu_sched_step"]}
