# Formal model of rdpoor/mulib in Lean 4

Build: `cd lean && lake build`.  Properties: `properties.jsonl`.  Which theorem proves which property:
`MANIFEST.json`.  Axioms per theorem: section 5 and `AXIOMS.md`.  Wrong programs tried against the
theorems: `seeded/LOG.jsonl`.

## 1. What is modelled, and how

Every public function defined in `/repo/mulib/*.c` is transcribed, function by function, into a
total, executable Lean definition.  Each definition cites the file and lines it models.

| C file | Lean model | style |
|---|---|---|
| mu_bisync.c | `Model/Bisync.lean` | byte buffers with checked access, `int` index checked for overflow |
| mu_queue.c | `Model/Queue.lean` | state record + `List` storage, `size_t` arithmetic modulo 2^sb |
| mu_mqueue.c | `Model/Mqueue.lean` | as mu_queue, plus re-entrant callbacks given as *operation trees* |
| mu_spsc.c | `Model/Spsc.lean` | sequential functions + a small-step machine of two threads, one shared access per step |
| mu_spsc.c, accesses to `store[]` moved by the compiler | `Model/SpscReorder.lean` | the accesses of `micro`, with every legal position of the non-volatile access |
| mu_spsc.c, two producers | `Model/SpscNested.lean` | a put stopped at any access by complete puts of a nested interrupt |
| mu_spsc.c with store buffers | `Model/SpscTso.lean` | the same machine with one FIFO store buffer per thread (x86-TSO) |
| mu_array.c | `Model/Array.lean` | state record + `List` storage, `int`/`size_t` arithmetic checked; comparison functions may depend on the number of the call |
| mu_task.c | `Model/Task.lean` | hooks as optional identifiers, trace of calls, hooks and task functions as trees of calls |
| mu_log.c | `Model/Log.lean` | global state, trace of calls, re-entrant logging functions as trees |
| mu_sched.c | `Model/Sched.lean` | deferred array / immed ring / ISR ring (models of mu_queue and mu_spsc), task bodies as trees of calls |
| mu_sched_step, access by access | `Model/SchedIsr.lean`, `Model/Preempt.lean`, `Model/ResetIsr.lean` | a foreground that runs any code and an interrupt side that runs mu_sched_from_isr, interleaved access by access |
| mu_sched + mu_task + mu_mqueue | `Model/System.lean` | one state, one trace; any number of message queues, initialised before the program starts, with distinct objects and storage; hooks, task functions and notified tasks use all three APIs to any depth |
| mu_bbuf.c | `Model/BBuf.lean` | buffer objects pointing into a block memory, checked loads, stores and pointer arithmetic |
| mu_bvec.c | `Model/BVec.lean` | state record over a bbuf |
| mu_jems.c | `Model/Jems.lean` | level array + log of emitted characters (writer, argument, character) |
| mu_jems writing into a mu_bvec | `Model/JemsVec.lean` | a writer that appends to a bvec |

Directories: `C/` the C fragment (faults, integers, memory), `Model/` the code, `Spec/` what the
properties are stated with (lists, grammars, monitors: no model helpers), `Lemmas/` proofs, `Props/` the
property theorems (`Cnn_...`) with, beside each, an `example` of a concrete case that meets the
hypotheses.

**Platform.**  `Plat` gives the width of `int` (`ib ≥ 16`) and of `size_t` (`sb ≥ ib`);
theorems quantify over all platforms.

**Undefined behaviour is an outcome.**  Functions run in `Except Fault`, where `Fault` is one of
out-of-bounds access, bad pointer arithmetic, signed overflow, indeterminate read, NULL
dereference, division by zero, divergence.  "Memory safe" means: the result is never `.error`.
Unsigned arithmetic wraps modulo 2^sb; conversion of an unsigned value to a signed type that
cannot hold it is implementation-defined in C and modelled as reduction modulo 2^N (all compilers
mulib targets).  Loops are structural recursions on a fuel; the fuel is computed from the input by the
wrapper function, running out of it is the fault `diverge`, and the theorems show that it never happens
(or, for `mu_bbuf_rrotate` on an empty buffer, that it happens for every fuel).

**User code is universally quantified.**  Task functions, hooks, notification callbacks, logging
functions, comparison functions and predicates are arbitrary: either functions of their arguments (and
of the number of the call, where they may be stateful), or arbitrary finite trees of calls back into the
API.

### 1a. The source itself as a syntax tree

`tools/csrc.py` parses `/repo/mulib/*.c` (with a small preprocessor and a type checker, which makes the
conversions explicit) and writes one syntax tree per function to `lean/Verif/Src/*.lean`; `Verif/C/Src.lean`
gives these trees a meaning: integer types with their widths and conversions, memory as objects of scalar
cells, locals, calls by name and through pointers, `memmove`/`memset`/`strlen`/`sprintf`.  `sem A X prog fuel f`
is the function `f` of the program; `X` is what mulib does not define (the clock, and every function of the
user).  Properties C117 and following are stated about `sem … prog` only, so that the hand-written models
are a proof device there; conversely the lemmas `Lemmas/Src*.lean` prove, function by function, that the
hand-written model does what the source does.  To check that the trees are those of a given source:
`python3 tools/csrc.py SRC_DIR OUT_DIR` and compare.

## 2. Plan per property

| id | what is modelled | how it is proved |
|---|---|---|
| C01 | encode over a dst list of bytes | loop invariant: written prefix = SOH :: stuff(done); equality with independent `frame` |
| C02 | decode∘encode | FALSE of the code (decode copies the SOH): witness; `_partial`: the result is always SOH :: payload |
| C03 | encode, decode | stated about the bytes `mu_bisync_encode` produces (`Sent`): different payloads, different frames, none a prefix of another; decode on a produced frame followed by anything is independent of what follows |
| C04 | decode | FALSE (`SOH DLE EOT` is accepted): witness; `_partial`: exact accepted set |
| C05 | encode/decode with checked memory | no fault, bytes at and above the written count unchanged, length bound |
| C06, C07 | queue ops | refinement to a bounded list, invariant, induction over op lists |
| C08–C10 | mqueue op trees | refinement to a list specification run on the same trees; trace monitors |
| C11, C15 | spsc sequential | refinement; power-of-two characterisation for every 16 bit value (by bit reasoning, not enumeration) |
| C12–C14 | spsc small-step machine with histories of the calls | inductive invariant over all interleavings |
| C16–C18 | array ops | refinement to `List` operations; C17 FALSE: witnesses + `_partial` |
| C19, C20 | heapsort as written | permutation and termination for any comparator; heap invariant for sortedness; FALSE for one item where `size_t` is as wide as `int` |
| C21 | insert_sorted (binary search) | binary-search invariant |
| C22–C31 | scheduler op trees | refinement of the array and rings to a list specification; monitors over the traces |
| C32 | step split in elementary actions with from_isr interleaved | case analysis over the arrival point, induction over the bursts |
| C33 | abstract time instantiated by wrapping 64 bit counters | window argument |
| C34, C35 | task | monitors over the traces; C35 FALSE: witness + `_partial` |
| C36, C37 | log | traces of re-entrant trees; all values of level |
| C38–C53 | bbuf | each function against a list specification; FALSE ones by witness + `_partial` |
| C54, C55 | bvec | refinement to a list with a cursor, histories |
| C56–C60 | jems | emitted text = rendering of a JSON tree; an independent JSON reader reads it back |
| C61, C62 | mu_jems_number over IEEE doubles given as sign, mantissa, exponent | text of integral values; definedness |
| C63–C77 | the functions of the FALSE properties | exact behaviour for every input, including what happens outside the documented domain |
| C78 | spsc machine | every execution linearizable: forward simulation to a list with call and return events |
| C79 | spsc machine with store buffers | invariant extended to the buffered stores |
| C80–C82, C84 | scheduler trees | next_task predicts the next step; idle task; states with equal abstract content behave equally |
| C83 | `Model/System` | projections to the scheduler, the task and the message queue models commute with execution |
| C85, C86 | `Model/Preempt`, `Model/ResetIsr` | simulation of the interleaved machine by sequential executions, with the instants at which operations take effect |
| C87–C91 | bbuf, bvec, jems together | composition of the exact theorems |
| C92 | call counter of the comparison function | cost invariants of sift-down, heapify and the binary search |
| C93 | `mu_spsc_put` cut open by complete puts of another producer (`Model/SpscNested.lean`) | the ring with its tail moved back: truncation and replacement lemmas of the representation |
| C94 | mu_array with two comparison functions that agree on the items | simulation of the two runs; every compared value was loaded from the items |
| C95 | mu_array + mu_bbuf | C94 + C66/C21 + C38 |
| C96 | mu_bbuf_slice twice | exact slice theorem, position arithmetic |
| C97 | framing | induction on the stream from prefix-freeness |
| C99, C100 | `Model/System` | projection to each queue; event monitor of a bounded FIFO list with notifications; tally over segments |
| C101 | `Model/SpscReorder` | simulation by the source order: a late load or store is matched with the moment at which `head` or `tail` moves; the free slot of the ring keeps a late load valid |
| C102 | `Model/Bisync`, `Model/Spsc`, `Model/SpscTso` | C12/C79 (delivered is a prefix of accepted, accepted a prefix of the stream) and C63 (a frame followed by anything decodes to its payload) |
| C103 | `Model/System` | induction over the trace with the scheduler's books and the queue's monitor: queue empty, or consumer waiting, or one of the two obligations (wake, drain) still open before the next choice |
| C104 | `Model/Sched` | simulation of the list machine under a translation of times; `BitVec.toInt` of a difference for the wrapping counter |
| C105 | `Model/Sched` | invariant: every pending entry of the task is due at least a period after its last run, and there is at most one |
| C106 | `Model/JemsVec`, `Model/Bisync`, `Model/Spsc` | composition of C88, C98, C102: the message of a document is the contents of the vector the emitter wrote to; every byte of the text of a document is at least 32 (structural induction over documents), so nothing is stuffed and no truncation passes; spsc interleavings from C12. `Props/Telemetry`. |
| C107 | `Model/BBuf`, `Model/Bisync` | byte 1 occurs in a stream of such frames exactly where a frame begins (induction over the stream); `mu_bbuf_find_byte` by C43, decoding by C63. `Props/Telemetry`. |
| C108 | `Model/BBuf` (`copyIntoFrom`: the initial contents of the two locals as parameters; `copyInto` passes none) | induction over the copying loop, upward copy with overlap; out-of-bounds access otherwise |
| C109 | `Model/Array` (`PqOp`, `pqStep`, `pqRun`: sequences of insert_sorted, pop, peek), `Spec/Array` (`takeGreatest`, `pqRun`: a list in the order of the puts) | invariant: the array holds the items arranged by repeated insertion; what is last is greatest and, among equals, put last |
| C110 | `Model/BBuf` (`findPredicateS`, `rfindPredicateS`, `ltrimS`, `rtrimS`, `trimS`: the predicate as a function from state and byte to answer and state) | induction over the scanning loops against `ask`, a recursion over the list of bytes; instantiated with a predicate that records its calls |
| C111 | `Model/BisyncMem` (the functions of mu_bisync.c on pointers into one memory) | simulation by the list model (`Model/Bisync`): the bytes from the write position on are still the original ones and reading is never behind writing; hence C01, C05, C63, C64 carry over |
| C112 | events of `Model/Sched`, arbitrary histories | induction over the events of the waiting period with the observer's monitor (`legal`): every selection is paid for by a queued or newly accepted task; the starvation schedule is constructed for every length |
| C113 | as C112 | the pending list is split at the entry (`p ++ d :: q`); the potential irq + not-later in `p` + earlier in `q` drops with each selection and grows only with accepted interrupt tasks and strictly earlier entries |
| C114 | the `mu_jems` model as in C56; `Spec/JemsCut.lean`: places in a document, text up to a place, closing text, `Cut` | the calls of C56 are small steps between places; an invariant ties the level stack and the text passed to the writer to the place after each call; text + closing text is the rendering of the cut document |
| C115 | as C56, C88 | mutual induction on the document: the reader fails on every proper prefix of an item list, member list, string or word, and consumes all of a number's prefix or fails |
| C116 | `mu_jems_number` as in C61; `Spec/JemsRound.lean`: nearest (ties to even) millionth, digits that fit | the text is computed from the rounded number of millionths; rounding is monotone, and so is dropping digits because the number dropped depends on the integer part only |
| C117 | the syntax trees of mu_queue.c (section 1a), called on any queue in any memory; specification `Spec/SrcQueue.lean` | symbolic execution of each tree gives the step of `Model/Queue.lean` on the memory that represents it (`Lemmas/SrcQueue.lean`); then the ring invariant of C06; induction over the calls |
| C118 | the syntax trees of mu_spsc.c, called sequentially; specification `Spec/SrcSpsc.lean` | as C117, with the integer promotions of `uint16_t` for every width of `int` |
| C119 | the syntax trees of mu_bisync.c on byte arrays anywhere in memory (`Spec/SrcMem.lean`), the struct local of each call being an object of its own | each tree is executed symbolically along a run of `Model/BisyncMem.lean` (`Lemmas/SrcBisync.lean`, loops by induction on the fuel); then C01, C64, C111 |
| C120 | the syntax trees of the reading functions of mu_bbuf.c, on `mu_bbuf_t` objects and bytes anywhere in memory (`Spec/SrcBBuf.lean`) | each tree is executed symbolically along a run of `Model/BBuf.lean` (`Lemmas/SrcBBuf*.lean`; counted loops by `rounds_forLoop`); then C38, C41–C43, C46, C48, C73, C110 |
| C121 | the syntax trees of the view-making functions of mu_bbuf.c | symbolic execution of each tree (`Lemmas/SrcBBufView.lean`); the index arithmetic by the lemmas of C39/C40, the predicates by C120 |
| C122 | the syntax trees of the writing functions of mu_bbuf.c | memmove/memset on lists of bytes (`Lemmas/SrcBytes.lean`); the exchange loop of reverse and the reduction loops of rrotate by induction; rrotate composed from the results for reverse and bisect |
| C123 | the syntax trees of mu_bvec.c | symbolic execution of each tree against `VCall.spec`; induction over the history |
| C124 | the syntax trees of mu_array.c except sorting | symbolic execution of each tree against `ACall.spec`; memmove on lists of cells; the search loops by induction; induction over the history |
| C125 | the syntax trees of mu_array_sort, mu_array_insert_sorted and their static helpers, with a comparison function given by its observable behaviour | the loops of the source simulate the loops of the model (Model/Array.lean) round by round on the numbers of the items; C66, C67 and the search lemma transport back |
| C126 | the syntax trees of mu_task.c, hooks and task functions arbitrary | symbolic execution of each tree, by cases on whether a hook is installed |
| C127 | the syntax trees of mu_mqueue.c, tasks arbitrary | symbolic execution of each tree up to the call of the task; ring positions by modular arithmetic; induction over the history with the list of tasks called as ghost state |
| C128 | the syntax trees of mu_sched.c (with mu_task.c and mu_spsc.c), memory cells, clock functions and tasks arbitrary | symbolic execution of each tree against the sequential model, the representation of the two rings and the sorted list of deferred tasks in the file-scope variables, then the list facts of C22-C31 carried over to an abstract agenda |
| C129 | the syntax trees of mu_log.c, logging function arbitrary | symbolic execution of each tree up to the call of the logging function (variable arguments as an object); induction over the history with the list of messages delivered as ghost state |
| C130 | the syntax trees of mu_jems.c, writer function arbitrary (returns, touches its own memory, keeps an invariant of the text it has been passed) | symbolic execution of each tree against the model of Model/Jems.lean, whose struct and levels are read off the memory; then C56, C60 of the model |
| C131 | the parsed mu_sched.c, mu_task.c, mu_queue.c, mu_spsc.c inside an arbitrary program: user functions are functions of the semantics of the library (`Ext.cb`), restricted only to touching library variables through the library and to keeping a log in their own memory (Spec/SrcProgram.lean) | the semantics is monotone in its step bound (Lemmas/SrcFuel.lean); user functions frozen at a smaller bound give an induction on the bound; invariant: the log replays on the abstract agenda to the agenda in memory; moments inside never-returning tasks by probing the first call of a step |
| C132 | The parsed source executed one memory access at a time (C/SrcAct.lean: `Act`, with the choice of operand order left open); producer, consumer and foreign writes interleaved (Spec/SrcConc.lean) | Adequacy: run without interference it is C/Src.lean. Rely-guarantee (Lemmas/SrcRg, SrcSpscConc): each access keeps the representation and changes the atomic queue by at most one effect; induction on the interleaving. Accesses counted by a cost function on syntax (Lemmas/SrcWithin) |
| C133 | All results of `Act` over every resolution of its choices (Spec/SrcOrder.lean: `Act.Out`, `Act.Confluent`) for every function of the parsed library | A syntactic check of independence of operands (locals and memory used and set; fields of one struct told apart), proved sound by a relational frame argument over the semantics, evaluated on every function body by `rfl`; induction on fuel and syntax |
| C134 | The generated trees of mu_sched.c, mu_spsc.c, mu_queue.c, mu_task.c, executed one memory access at a time (`C/SrcAct.lean`); user code is an arbitrary tree of accesses and calls (`Spec/SrcIsr.lean`, `Code`), interrupts are complete runs of the parsed `mu_sched_from_isr` between any two accesses (`Outside.isr`); programs that call mu_sched_reset are C143's. The call hook and the transfer hook are NULL or user code of the same kind, constant after mu_sched_init; the hook that changes a task's state is not called by these functions. | A program logic with interference (`Act.safe`): the interrupt queue by the rely/guarantee proof of C132, all other scheduler code by a type-like check (`Lemmas/SrcLocal.lean`) showing that it touches only cells interrupts leave alone, so that its sequential specification C128 applies to a frozen copy of memory; then induction on user code and nesting depth. Accounts and the bound of eight steps by induction on right logs. |
| C135 | The parsed mu_sched.c, mu_task.c, mu_queue.c, mu_spsc.c and mu_mqueue.c inside an arbitrary program, as in C131; user code also calls any number of message queues, whose put and get tasks are user code again and may call the same queue, other queues and the scheduler (Spec/SrcSystem.lean). Both hooks are NULL. | Induction on the step bound with user functions frozen at a smaller bound; invariant: the log replays on agenda, lists and variables to what memory holds, a message-queue call being done before its task is called; never-returning tasks by probing the first user call. |
| C136 | The parsed mu_jems.c, mu_bvec.c, mu_bisync.c and mu_bbuf.c connected into one program: a writer function that calls mu_bvec_write_byte, then mu_bisync_encode, mu_bisync_decode, a mu_bbuf_t on the received text, mu_bbuf_parse_int (Spec/SrcTelemetry.lean). | The invariant of the writer (text so far, cut at the capacity, then the old bytes; the count is its length) instantiates C130; then C119, C121, C120 on the resulting memory; truncation by C115. |
| C137 | The parsed mu_array.c and mu_bbuf.c together: an array of pointers to mu_bbuf_t and a comparison function that calls mu_bbuf_compare (Spec/SrcArrayBBuf.lean). | mu_bbuf_compare instantiates the comparison function of C125, by C120 and the order it defines; the buffers are in memory that sorting does not write. |
| C138 | Parsed `mu_spsc.c` run access by access by two threads (as C132) and parsed `mu_bisync.c`; `Spec/SrcFlow.lean` reads accepted and received items off the visible history | Every history is one of the atomic queue (C132); invariant over its steps relating items taken in, waiting and given out to the visible flow; the call that finds no room or no item is compared with the flow at its call; frames by C119 |
| C139 | Parsed `mu_spsc.c`, each access of `C/SrcAct.lean` a read of the core's view or a write appended to its store buffer (`C/SrcAccess.lean`, `Spec/SrcTso.lean`); flushes at any moment. Assumes the compiler keeps the order of accesses within a thread | The rely/guarantee proof of C132 reused per core on its own view of memory; invariant describing each buffer as the sequence of pending item, tail and head stores; every step of `Spec/SrcTso.lean` preserves it |
| C140 | The programs of C131 and the interrupted programs of C134 around the parsed scheduler; the property is about their logs only (`Spec/SrcStory.lean`), no agenda appears in it. Tasks keep to one way of being scheduled each; hooks are NULL, or (`C140_hooks`, interrupted programs) installed, the log then being read with `unhook` (`Spec/SrcUnhook.lean`) | Invariant relating every right log (`Isr.Replays`, into which the logs of C131 embed) to the agenda, with the deferred tasks as a list sorted by time and position in the log; read off at every entry of the log. With hooks: a right log of a program with hooks is, unhooked, a right log of one without |
| C141 | The parsed mu_sched.c, mu_task.c, mu_mqueue.c, mu_queue.c, mu_spsc.c, with arbitrary user code (`UserRun`, `Honest` in `Spec/SrcKernel.lean`) that keeps a log; hooks and task functions are user code. The specification replays the log on an agenda, lists, task records and hooks with a stack of calls under way, each with what it has still to call | For every call that may run user code, a plan (`Lemmas/SrcKernelDeep.lean`, `SrcKernelUser.lean`): what it does before, which user functions it calls, what it does after; induction on the fuel of user functions for `C141_program`, on moments, with user functions that stop the program when a given call is reached, for `C141_moment`; `C141_init`, `C141_contents`; `C141_hooked` (`Props/SrcKernelHook.lean`) by an invariant relating the calls under way to the parts of the log they made |
| C142 | Any family of parsed queues, message queues without tasks, single-producer queues and arrays in one memory, with initialisation, calls, writes of the program and reuse of memory as events (`Spec/SrcBoxes.lean`); the specification is a list per container and a value per known cell | Per container: the call lemmas of C117, C118, C124, C127 with their frames (`Lemmas/SrcBoxes.lean`); invariant over the history that containers in use do not overlap and known cells are outside of them |
| C143 | The programs of C134, in which user code may also call mu_sched_reset (`User.resets`). Its effect on the log is two further moments that are not in the log (`Spec/SrcIsr.lean`, `Retold`): from the first on the interrupt queue holds up to seven old items, from the second on it is empty, and at the return the other lists are emptied. mu_sched_reset called by an interrupt, or interrupted by another core, is not modelled (C86 says why not) | The proof of C134 is generic in what is said about logs (`Tale`); the two stores of mu_spsc_reset by rely/guarantee (after the first the queue holds what its first slots held, whatever interrupts append), the rest by the frozen copy of memory; then accounts and the bound of eight steps by induction on right logs |
| C98 | mu_bisync_decode on prefixes of frames | where a cut through the stuffed payload falls; C64 |

Nothing in the list turned out not to be expressible in the model.

## 3. Findings: where the code does not do what its users may rely on

Each of these is a theorem about the model (the `_false` theorem, or the theorem named), with a concrete
witness; the corresponding exact theorem (C63–C77) says what happens for every input.

1. `mu_bisync_decode` (mu_bisync.c:96-129) copies the SOH into the output, so decode∘encode is not the
   identity (C02, C63); it accepts `SOH DLE EOT` — a frame whose end is escaped — and an unescaped SOH
   inside a frame (C04, C64).
2. `mu_bisync_encode` treats the capacity as `int`: a capacity above INT_MAX is reduced modulo 2^ib, e.g.
   refused (C01_large_capacity_refused).
3. `mu_array_delete` (mu_array.c:134-151) does not decrement the count when the item is not the last, and
   reads one item past the used part, which is outside the storage if the array is full (C17, C65).
4. `mu_array_sort` (mu_array.c:171-187, 219-226) of exactly one item overflows a signed multiplication
   wherever `size_t` is as wide as `int`, e.g. every 32 bit microcontroller (C19, C20, C66).
5. The header claims O(log N) for the heap sort (mu_array.h:241); the code needs between n/2 + (n-2) and
   3 n log2 n comparisons (C92).  `find_insertion_index` is commented "leftmost" but finds the position
   after all equal items (C21).
6. `mu_task_set_state` (mu_task.c:88-99) calls the hook and writes the state even if the state is
   unchanged; the documentation says it then has no effect (C35, C68).
7. `mu_bbuf_slice` and `mu_bbuf_bisect` (mu_bbuf.c:120-164) with an index below -capacity give a view that
   starts before the buffer, or a huge capacity (C39, C40, C69, C70).
8. `mu_bbuf_ltrim` (mu_bbuf.c:253-262) returns the whole buffer if every byte matches; `mu_bbuf_rtrim`
   (271-280) drops one byte too many, for every non-empty buffer (C44, C45, C71, C72).
9. The signed parsers (mu_bbuf.c:282-298) overflow on the text of the least value of the type, which
   `mu_jems_integer` does emit (C47, C73, C91).
10. `mu_bbuf_copy_into` (mu_bbuf.c:370-406) reads two uninitialised variables on every path that copies
    (C50, C74).
11. `mu_bbuf_reverse` on an empty buffer computes a pointer before the buffer; `mu_bbuf_rrotate` on an
    empty buffer does not terminate; `mu_bbuf_rshift` with INT_MIN negates INT_MIN (C51–C53, C75–C77).
12. `mu_bbuf_find_substr` with a skip count and a capacity of exactly INT_MAX can return the position
    that also means "not found" (hypothesis of C42_not_found_iff).
13. `mu_bvec_read`/`write_byte` increment the count also when they fail; after SIZE_MAX calls the count
    wraps to 0 and writing starts over (domain of C54, C55).
14. `mu_jems_init` with max_level 0 writes outside the level array (C58_zero_levels); nesting deeper than
    max_level writes wrong separators (domain of C56); the item count of a level wraps (C56_item_limit);
    `mu_jems_number` is undefined from 2^63 up (C62) and may cut the text of a fraction (C61).
15. `mu_sched_init` ignores the result of `mu_spsc_init`: if MU_SCHED_MAX_IRQ_TASKS is not a power of two,
    `mu_sched_from_isr` always reports FULL.  "NULL runs the default idle task" is not what
    `mu_sched_set_idle_task(NULL)` does (C81).  A step takes one interrupt task, not all of them as
    docs/RunToCompletion says (C22).  A nested `mu_sched_step` or `mu_sched_reset` leaves the current
    task NULL for the rest of the outer task (C28).
16. `mu_spsc_reset` (called by `mu_sched_reset`) discards interrupts that arrive between its two stores
    although they were reported as queued; with a producer running on another core during the reset a
    task can run twice (C86; on the parsed source C143).  The items of the spsc queue are not volatile while head and tail are:
    FIFO needs the store of the item before the store of the head (`swapped_stores_break_fifo`); the model
    takes the accesses in program order (section 5).
17. `mu_sched_from_isr` is not safe for nested interrupts (`mu_spsc_put` has one producer): an interrupt
    handler interrupted inside it by another one that also calls it loses all but one of the tasks
    although every call reports success (C93); nothing in mu_sched.h says so.
18. A bisync frame cut right behind an escaped EOT of its payload is accepted as complete (C98).
19. `mu_log_is_reporting` ignores that no logging function is installed; the reporting level is left as
    set by a nested `mu_log` (C36).
20. `mu_spsc_t.store` is not volatile and there is no barrier: a compiler (or a processor that reorders
    stores) may make the new `tail` visible before the item. Harmless for interrupt handler → main program
    (`C101_same_results`), wrong between threads (`C101_store_order_matters`, and for the parsed source `C139_order_matters`).

## 4. What a reader should know about the statements

* Capacities are at most INT_MAX where the code stores them in an `int` (`Fits`), at most half of SIZE_MAX
  for the rings of mu_queue and mu_mqueue (`2 * capacity ≤ 2^sb`: the index computation
  `capacity + index - count` wraps otherwise), and arrays to be sorted or searched have at most
  (INT_MAX+1)/2 items (`root * 2 + 1`, `low + high`).
* `Rep a l`: array `a` holds exactly the items `l`.  `Reachable`/`Reached`: produced by API calls from
  init.  `view m b`: the bytes of buffer `b` in memory `m`.  `IsCstr m p s`: at `p` stand the bytes `s`
  without NUL, then a NUL.
* `_partial` theorems belong to properties that are false as stated in `properties.jsonl`; the text of the
  theorem says which part holds.

## 5. Trusted base

* Lean's kernel (4.33.0), and the axioms `propext`, `Classical.choice` and `Quot.sound`, or fewer:
  `AXIOMS.md` lists the axioms of every theorem in the manifest (regenerate with `tools/axioms.py`).  No
  axiom is added, nothing rests on compiled code.
* The transcription of the C text into Lean by hand (`Model/`), and the C fragment in `C/`: unsigned
  arithmetic modulo 2^sb; checked signed arithmetic; conversions modulo 2^N; objects are lists of bytes or
  words with checked access; a pointer is a block and an offset and may be formed from the first byte to
  one past the last.
* As evidence (tests, not proofs) that this transcription is faithful, the project's own unit tests
  (`/repo/test/test_mu_*/*.c`) are transcribed assertion by assertion in `Verif/UnitTests/` and run on the model by
  the kernel; no property rests on them. All assertions hold, except where the test itself relies on undefined
  behaviour, which the model reports instead: `mu_array_delete` from the head or middle of a full array (reads one
  item past the storage, finding 3), `mu_bbuf_copy_into` (uninitialised variables, finding 10) and
  `mu_bbuf_parse_int` / `_int32` of "4294967295" (signed overflow). The rtrim/trim assertions hold only because the
  test's helper `cstr_eq` accepts a buffer that is too short (finding 8).
* Likewise `Verif/UnitTests/Json.lean` (generated by `tools/jsontests.py`) runs the JSON reader of the specification of
  mu_jems on the repository's `test/json_test_files`: it rejects all 188 texts that are not JSON and accepts all
  that are, except those with exponents, non-ASCII characters or escapes above 255, which mu_jems never emits.
* For the properties about the parsed source (C117 and following) instead of the transcription by hand: the
  parser `tools/csrc.py`, and the semantics `C/Src.lean` (evaluation from left to right, which C133
  proves to be immaterial; sizes in cells instead of bytes, which mulib does not distinguish since `sizeof` occurs only in
  arguments of `memset` and `memmove`; `"%" PRId64` is `"%lld"`).
* For concurrency (C12–C14, C32, C78, C79, C85, C86; on the parsed source C132, C134, C138, C139, C143): each load or store of head, tail and an item is one
  atomic action; accesses happen in program order (the compiler does not move the item access across the
  volatile access of head or tail) and are sequentially consistent — except C79 and C139, where stores
  may be delayed in FIFO store buffers.  Interrupts do not nest with each other on the producer side: one
  producer at a time, as the documentation demands.
* Identifiers of tasks, functions and hooks are opaque numbers, 0 is NULL.  Task, hook and callback bodies
  are finite trees of calls, so a callback that never returns is not covered.
* `snprintf("%lld")`, `snprintf("%lf")`, `memmove`, `memset`, `memcmp`, `strlen` behave as the C standard says;
  `%lf` rounds half to even on the exact binary value.

**Modelled**: every function with a body in mulib/*.c.  **Not modelled**: `mu_platform_init`, `mu_time_now`,
`mu_time_offset`, `mu_time_precedes`, `mu_time_difference`, `mu_time_equals`, `mu_time_ms_to_rel`,
`mu_time_rel_to_ms`, `mu_time_s_to_rel`, `mu_time_rel_to_s`: declared in mu_platform.h, defined by the user.
now/offset/precedes appear as parameters of the scheduler model (arbitrary clock; C33 instantiates them
with the definitions in test/test_mu_sched.c).  The version macros and the C++ linkage blocks carry no behaviour.
A jems writer that calls mu_jems on the same context is not modelled.  Variadic formatting by the user's
logging function is the user's.
