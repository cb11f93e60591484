import Verif.UnitTests.Basic
import Verif.Model.Bisync
import Verif.Model.Spsc
import Verif.Model.Queue
import Verif.Model.Mqueue
import Verif.Model.BVec
import Verif.Model.Task
import Verif.Model.Log

/-! # Unit tests of mu_bisync, mu_spsc, mu_queue, mu_mqueue, mu_bvec, mu_task and mu_log, run on the model -/

set_option linter.unusedVariables false

namespace Mu.UnitTests

/-! ## test/test_mu_bisync/test_mu_bisync.c -/

section bisync
open Bisync

/-- test_mu_bisync_encode_normal, lines 15-25 -/
example : encode host (List.replicate 11 0) 11 [1, 2, 3, 4, 5, 1] 6
    = .ok (11, [1, 16, 1, 2, 3, 16, 4, 5, 16, 1, 4]) := by decide

/-- test_mu_bisync_decode_normal, lines 27-37 -/
example : decode host (List.replicate 6 0) 6 [1, 2, 3, 16, 4, 5, 16, 1, 4] 9
    = .ok (6, [1, 2, 3, 4, 5, 1]) := by decide

/-- test_mu_bisync_encode_oflow, lines 39-48 -/
example : (do
    let mut encoded := List.replicate 11 0
    for cap in [0, 1, 2, 10] do
      let (r, e) ← encode host encoded cap [1, 2, 3, 4, 5, 1] 6
      encoded := e
      assertEq errOflow r : C Unit) = .ok () := by decide

/-- test_mu_bisync_decode_oflow, lines 50-57 -/
example : (do
    let (r, dst) ← decode host (List.replicate 6 0) 4 [1, 2, 3, 16, 4, 5, 16, 1, 4] 9
    assertEq errOflow r
    let (r, _) ← decode host dst 5 [1, 2, 3, 16, 4, 5, 16, 1, 4] 9
    assertEq errOflow r : C Unit) = .ok () := by decide

/-- test_mu_bisync_decode_format, lines 59-66; the destination is not initialised: any contents -/
example (a b c d e f g : UInt8) : (do
    let (r, dst) ← decode host [a, b, c, d, e, f, g] 7 [2, 3, 16, 4, 5, 16, 1, 6] 8
    assertEq errFormat r
    let (r, _) ← decode host dst 7 [1, 2, 3, 16, 4, 5, 16, 1, 6] 9
    assertEq errFormat r : C Unit) = .ok () := by with_unfolding_all rfl

end bisync

/-! ## test/test_mu_spsc/test_mu_spsc.c

An uninitialised `mu_spsc_t` and its storage have arbitrary contents (81, …, 91, …). -/

section spsc
open Spsc

/-- test_spsc_init, lines 15-24 -/
example (q : Spsc) (a b c d : Val) : (do
    let (r, q) := init q [a, b, c, d] 4
    assertEq Err.none r
    assertEq 3 (capacity q)
    assertEq Err.size (init q [a, b, c, d] 5).1 : C Unit) = .ok () := by with_unfolding_all rfl

/-- test_spsc_put, lines 26-39 -/
example : (do
    let (_, q) := init ⟨81, 82, 83, []⟩ [91, 92, 93, 94] 4
    let (r, q) ← put q 1; assertEq Err.none r
    let (r, q) ← put q 2; assertEq Err.none r
    let (r, q) ← put q 3; assertEq Err.none r
    let (r, _) ← put q 4; assertEq Err.full r : C Unit) = .ok () := by decide +kernel

/-- test_spsc_get, lines 41-62 -/
example : (do
    let (_, q) := init ⟨81, 82, 83, []⟩ [91, 92, 93, 94] 4
    let (r, q) ← put q 1; assertEq Err.none r
    let (r, q) ← put q 2; assertEq Err.none r
    let (r, q) ← put q 3; assertEq Err.none r
    let (r, obj, q) ← get q; assertEq Err.none r; assertEq 1 obj
    let (r, obj, q) ← get q; assertEq Err.none r; assertEq 2 obj
    let (r, obj, q) ← get q; assertEq Err.none r; assertEq 3 obj
    let (r, obj, _) ← get q; assertEq Err.empty r; assertEq NULL obj : C Unit) = .ok () := by decide +kernel

/-- test_spsc_ordering, lines 64-92 -/
example : (do
    let (_, q) := init ⟨81, 82, 83, []⟩ [91, 92, 93, 94] 4
    let (r, q) ← put q 1; assertEq Err.none r
    let (r, q) ← put q 2; assertEq Err.none r
    let (r, q) ← put q 3; assertEq Err.none r
    let (r, obj, q) ← get q; assertEq Err.none r; assertEq 1 obj
    let (r, q) ← put q 4; assertEq Err.none r
    let (r, obj, q) ← get q; assertEq Err.none r; assertEq 2 obj
    let (r, q) ← put q 5; assertEq Err.none r
    let (r, obj, q) ← get q; assertEq Err.none r; assertEq 3 obj
    let (r, obj, q) ← get q; assertEq Err.none r; assertEq 4 obj
    let (r, obj, q) ← get q; assertEq Err.none r; assertEq 5 obj
    let (r, _, _) ← get q; assertEq Err.empty r : C Unit) = .ok () := by decide +kernel

end spsc

/-! ## test/test_mu_queue/test_mu_queue.c -/

section queue
open Queue

/-- test_queue_init, lines 17-23 -/
example (q : Queue) (a b c : Val) : capacity (init q [a, b, c] 3) = 3 := by with_unfolding_all rfl

/-- test_queue_put, lines 25-55 -/
example : (do
    let q := init ⟨[], 81, 82, 83⟩ [91, 92, 93] 3
    assert (isEmpty q); assert (!isFull q); assertEq (count q) 0
    let (r, q) ← put host q 1
    assert r; assert (!isEmpty q); assert (!isFull q); assertEq (count q) 1
    let (r, q) ← put host q 2
    assert r; assert (!isEmpty q); assert (!isFull q); assertEq (count q) 2
    let (r, q) ← put host q 3
    assert r; assert (!isEmpty q); assert (isFull q); assertEq (count q) 3
    let (r, q) ← put host q 4
    assert (!r); assertEq (count q) 3 : C Unit) = .ok () := by decide +kernel

/-- test_queue_get, lines 57-90 -/
example : (do
    let q := init ⟨[], 81, 82, 83⟩ [91, 92, 93] 3
    let (_, q) ← put host q 1
    let (_, q) ← put host q 2
    let (_, q) ← put host q 3
    assert (!isEmpty q); assert (isFull q)
    let (r, obj, q) ← get host q
    assert r; assertEq obj 1; assert (!isEmpty q); assert (!isFull q)
    let (r, obj, q) ← get host q
    assert r; assertEq obj 2; assert (!isEmpty q); assert (!isFull q)
    let (r, obj, q) ← get host q
    assert r; assertEq obj 3; assert (isEmpty q); assert (!isFull q)
    let (r, _, _) ← get host q
    assert (!r) : C Unit) = .ok () := by decide +kernel

/-- test_queue_peek, lines 92-117 -/
example : (do
    let q := init ⟨[], 81, 82, 83⟩ [91, 92, 93] 3
    let (_, q) ← put host q 1
    let (_, q) ← put host q 2
    let (_, q) ← put host q 3
    let (r, obj, q) ← peek host q; assert r; assertEq obj 1
    let (_, _, q) ← get host q
    let (r, obj, q) ← peek host q; assert r; assertEq obj 2
    let (_, _, q) ← get host q
    let (r, obj, q) ← peek host q; assert r; assertEq obj 3
    let (_, _, q) ← get host q
    let (r, _, _) ← peek host q
    assert (!r) : C Unit) = .ok () := by decide +kernel

/-- test_queue_wraparaound, lines 119-153 -/
example : (do
    let q := init ⟨[], 81, 82, 83⟩ [91, 92, 93] 3
    assertEq q.index 0
    let (r, q) ← put host q 1; assert r; assertEq q.index 1
    let (r, obj, q) ← get host q; assert r; assertEq q.index 1; assertEq obj 1
    let (r, q) ← put host q 2; assert r; assertEq q.index 2
    let (r, obj, q) ← get host q; assert r; assertEq q.index 2; assertEq obj 2
    let (r, q) ← put host q 3; assert r; assertEq q.index 0
    let (r, obj, q) ← get host q; assert r; assertEq q.index 0; assertEq obj 3
    let (r, q) ← put host q 4; assert r; assertEq q.index 1 : C Unit) = .ok () := by decide +kernel

/-- test_queue_reset, lines 156-177 -/
example : (do
    let q := init ⟨[], 81, 82, 83⟩ [91, 92, 93] 3
    let (_, q) ← put host q 1
    let (_, q) ← put host q 2
    let (_, q) ← put host q 3
    assert (!isEmpty q); assert (isFull q); assertEq (count q) 3
    let q := reset q
    assert (isEmpty q); assert (!isFull q); assertEq (count q) 0 : C Unit) = .ok () := by decide +kernel

end queue

/-! ## test/test_mu_mqueue/test_mu_mqueue.c

`mu_task_call` is a fake that does nothing (`Prog.done`); its calls appear as `called` events. -/

section mqueue
open Mqueue

/-- test_mqueue_init, lines 19-29 -/
example (q : Mqueue) (a b c : Val) :
    let q := init q [a, b, c] 3 NULL NULL
    capacity q = 3 ∧ count q = 0 ∧ isEmpty q = true ∧ isFull q = false := ⟨rfl, rfl, rfl, rfl⟩

/-- test_mqueue_count, lines 31-60 -/
example :
    (run host (init ⟨[], 81, 82, 83, 84, 85⟩ [91, 92, 93] 3 NULL NULL)
      (.count <| .isEmpty <| .isFull <| .put 1 .done <| .count <| .isEmpty <| .isFull <|
       .put 2 .done <| .count <| .isEmpty <| .isFull <| .put 3 .done <| .count <| .isEmpty <| .isFull <|
       .put 4 .done <| .count <| .isEmpty <| .isFull .done)).map (·.1)
    = .ok [.countRet 0, .emptyRet true, .fullRet false,
       .stored 1, .putRet 1 true, .countRet 1, .emptyRet false, .fullRet false,
       .stored 2, .putRet 2 true, .countRet 2, .emptyRet false, .fullRet false,
       .stored 3, .putRet 3 true, .countRet 3, .emptyRet false, .fullRet true,
       .putRet 4 false, .countRet 3, .emptyRet false, .fullRet true] := by decide +kernel

/-- test_mqueue_ordering, lines 62-109 -/
example :
    (run host (init ⟨[], 81, 82, 83, 84, 85⟩ [91, 92, 93] 3 NULL NULL)
      (.put 1 .done <| .put 2 .done <| .put 3 .done <| .put 4 .done <| .count <|
       .get .done <| .count <| .get .done <| .count <| .put 5 .done <| .count <| .put 6 .done <| .count <|
       .get .done <| .count <| .get .done <| .count <| .get .done <| .count <|
       .get .done <| .count .done)).map (·.1)
    = .ok [.stored 1, .putRet 1 true, .stored 2, .putRet 2 true, .stored 3, .putRet 3 true, .putRet 4 false,
       .countRet 3, .fetched 1, .getRet true 1, .countRet 2, .fetched 2, .getRet true 2, .countRet 1,
       .stored 5, .putRet 5 true, .countRet 2, .stored 6, .putRet 6 true, .countRet 3,
       .fetched 3, .getRet true 3, .countRet 2, .fetched 5, .getRet true 5, .countRet 1,
       .fetched 6, .getRet true 6, .countRet 0, .getRet false NULL, .countRet 0] := by decide +kernel

/-- test_mqueue_peek, lines 111-127 -/
example :
    (run host (init ⟨[], 81, 82, 83, 84, 85⟩ [91, 92, 93] 3 NULL NULL)
      (.peek <| .count <| .put 1 .done <| .peek <| .count .done)).map (·.1)
    = .ok [.peekRet false NULL, .countRet 0, .stored 1, .putRet 1 true, .peekRet true 1, .countRet 1] := by decide +kernel

/-- test_mqueue_on_put, lines 129-158: `mu_task_call(&on_put)` after each put that succeeds -/
example :
    (run host (init ⟨[], 81, 82, 83, 84, 85⟩ [91, 92, 93] 3 77 NULL)
      (.put 1 .done <| .put 2 .done <| .put 3 .done <| .put 4 .done .done)).map (·.1)
    = .ok [.stored 1, .called 77, .putRet 1 true, .stored 2, .called 77, .putRet 2 true,
       .stored 3, .called 77, .putRet 3 true, .putRet 4 false] := by decide +kernel

/-- test_mqueue_on_get, lines 160-190 -/
example :
    (run host (init ⟨[], 81, 82, 83, 84, 85⟩ [91, 92, 93] 3 NULL 88)
      (.put 1 .done <| .put 2 .done <| .put 3 .done <|
       .get .done <| .get .done <| .get .done <| .get .done .done)).map (·.1)
    = .ok [.stored 1, .putRet 1 true, .stored 2, .putRet 2 true, .stored 3, .putRet 3 true,
       .fetched 1, .called 88, .getRet true 1, .fetched 2, .called 88, .getRet true 2,
       .fetched 3, .called 88, .getRet true 3, .getRet false NULL] := by decide +kernel

end mqueue

/-! ## test/test_mu_bvec/test_mu_bvec.c -/

section bvec
open BVec

/-- `s_ro_bytes` is block 1, `s_rw_bytes` block 2, lines 16-17. -/
def bvecMem : Mem := fun k => if k = 1 then [97, 98, 99, 100, 101] else if k = 2 then [0, 0, 0, 0, 0] else []

/-- The vector over `s_ro_bytes` / `s_rw_bytes`. -/
def ro (v : BVec) : BVec := init v ⟨1, 0⟩ 5
def rw' (v : BVec) : BVec := init v ⟨2, 0⟩ 5

/-- test_mu_bvec_init_ro, init_rw, get_bbuf, get_capacity, lines 22-74 -/
example (v : BVec) : getBbuf (ro v) = ⟨⟨1, 0⟩, 5⟩ ∧ getCount (ro v) = 0 ∧ getBbuf (rw' v) = ⟨⟨2, 0⟩, 5⟩ ∧
    getCount (rw' v) = 0 ∧ getCapacity (ro v) = 5 ∧ getBbuf (initB v ⟨⟨1, 0⟩, 5⟩) = ⟨⟨1, 0⟩, 5⟩ :=
  ⟨rfl, rfl, rfl, rfl, rfl, rfl⟩

/-- test_mu_bvec_reset, lines 48-54; test_mu_bvec_set_count, lines 77-86 (-1 is SIZE_MAX as a `size_t`) -/
example (v : BVec) : getCount (setCount (rw' v) 2) = 2 ∧ getCount (reset (setCount (rw' v) 2)) = 0 ∧
    getCount (setCount (rw' v) 5) = 5 ∧ getCount (setCount (rw' v) (host.toSz (-1))) = 2 ^ 64 - 1 ∧
    getCount (setCount (rw' v) 99999999) = 99999999 := ⟨rfl, rfl, rfl, rfl, rfl⟩

/-- test_mu_bvec_get_available, lines 89-98 -/
example (v : BVec) : getAvailable host (rw' v) = 5 ∧ getAvailable host (setCount (rw' v) 5) = 0 ∧
    getAvailable host (setCount (rw' v) 6) = 0 ∧ getAvailable host (setCount (rw' v) (host.toSz (-1))) = 0 :=
  ⟨rfl, rfl, rfl, rfl⟩

/-- test_mu_bvec_ref_ro, test_mu_bvec_ref_rw, lines 100-110 -/
example (v : BVec) : refAt bvecMem (ro v) 2 = .ok (some ⟨1, 2⟩) ∧ refAt bvecMem (ro v) 5 = .ok none ∧
    refAt bvecMem (rw' v) 2 = .ok (some ⟨2, 2⟩) ∧ refAt bvecMem (rw' v) 5 = .ok none := ⟨rfl, rfl, rfl, rfl⟩

/-- test_mu_bvec_read_byte, lines 113-127 -/
example (v : BVec) (b : UInt8) :
    (calls host bvecMem (ro v) [.read b, .read 97, .read 98, .read 99, .read 100, .read 101]).map (·.1)
    = .ok [.read true 97, .read true 98, .read true 99, .read true 100, .read true 101, .read false 101] := by with_unfolding_all rfl

/-- test_mu_bvec_write_byte, lines 130-144 -/
example (v : BVec) : (do
    let (r, m, v) ← writeByte host bvecMem (rw' v) 102; assert r; assertEq (← m.ld ⟨2, 0⟩ 0) 102
    let (r, m, v) ← writeByte host m v 103; assert r; assertEq (← m.ld ⟨2, 0⟩ 1) 103
    let (r, m, v) ← writeByte host m v 104; assert r; assertEq (← m.ld ⟨2, 0⟩ 2) 104
    let (r, m, v) ← writeByte host m v 105; assert r; assertEq (← m.ld ⟨2, 0⟩ 3) 105
    let (r, m, v) ← writeByte host m v 106; assert r; assertEq (← m.ld ⟨2, 0⟩ 4) 106
    let (r, _, _) ← writeByte host m v 107; assert (!r) : C Unit) = .ok () := by with_unfolding_all rfl

end bvec

/-! ## test/test_mu_task/test_mu_task.c

The fakes do nothing.  The task is at address 1, `test_task_fn` at 10, the hooks at 21, 22, 23, `user_obj` at 30. -/

section task
open Task

/-- No hook is installed initially (static variables, mu_task.c:42-46). -/
def w0 (t : Val → Task) : World := ⟨t, NULL, NULL, NULL⟩

/-- test_task_init, lines 23-33 -/
example (t : Val → Task) :
    (run (w0 t) (.init 1 10 22 30 <| .getFn 1 <| .getState 1 <| .getInfo 1 .done)).map (·.1)
    = .ok [.initRet 1 10 22 30 1, .getFnRet 1 10, .getStateRet 1 22, .getInfoRet 1 30] := by with_unfolding_all rfl

/-- test_task_call, lines 35-60 -/
example (t : Val → Task) :
    (run (w0 t) (.init 1 10 22 NULL <| .call 1 .done .done <| .call NULL .done .done <| .installCall 22 <|
      .call 1 .done .done .done)).map (·.1)
    = .ok [.initRet 1 10 22 NULL 1, .callEnter 1, .fnCalled 10 1, .fnDone, .callRet 1,
      .callEnter NULL, .callRet NULL, .callHookRet 22,
      .callEnter 1, .hookCalled 22 1, .hookDone, .fnCalled 10 1, .fnDone, .callRet 1] := by with_unfolding_all rfl

/-- user_info_can_be_updated, lines 62-69, and test_task_user_info, lines 101-109 -/
example (t : Val → Task) :
    (run (w0 t) (.init 1 10 22 NULL <| .getInfo 1 <| .setInfo 1 30 <| .getInfo 1 .done)).map (·.1)
    = .ok [.initRet 1 10 22 NULL 1, .getInfoRet 1 NULL, .setInfoRet 1 30, .getInfoRet 1 30] := by with_unfolding_all rfl

/-- test_task_set_state, lines 71-99 -/
example (t : Val → Task) :
    (run (w0 t) (.installState 21 <| .init 1 10 22 NULL <| .getState 1 <| .setState 1 33 .done <| .getState 1 <|
      .installState NULL <| .setState 1 44 .done <| .setState 1 11 .done <| .setState NULL 11 .done .done)).map (·.1)
    = .ok [.stateHookRet 21, .initRet 1 10 22 NULL 1, .getStateRet 1 22,
      .setEnter 1 33, .setHookCalled 21 1 33, .setHookDone, .setRet 1 33 1, .getStateRet 1 33,
      .stateHookRet NULL, .setEnter 1 44, .setRet 1 44 1, .setEnter 1 11, .setRet 1 11 1,
      .setEnter NULL 11, .setRet NULL 11 NULL] := by with_unfolding_all rfl

/-- test_transfer_hook, lines 111-124 -/
example (t : Val → Task) :
    (run (w0 t) (.init 1 10 0 NULL <| .installTransfer NULL <| .transfer 1 .done <| .installTransfer 23 <|
      .transfer 1 .done .done)).map (·.1)
    = .ok [.initRet 1 10 0 NULL 1, .transferHookRet NULL, .transferEnter 1, .transferRet 1,
      .transferHookRet 23, .transferEnter 1, .transferCalled 23 1, .transferDone, .transferRet 1] := by with_unfolding_all rfl

end task

/-! ## test/test_mu_log/test_mu_log.c

The levels are TRACE 0 … FATAL 5.  The logging function `tprint` (address 9) asks for the reporting level. -/

section log
open Log

/-- The part of test_mu_log_set_reporting_threshold for one threshold, lines 41-194: all six macros in turn, each
followed by `mu_log_is_reporting`. -/
def round (l : Int) (next : Prog) : Prog :=
  .setThreshold l <| .getThreshold <|
  .log 0 1 (.getLevel .done) <| .isReporting 0 <| .log 1 2 (.getLevel .done) <| .isReporting 1 <|
  .log 2 3 (.getLevel .done) <| .isReporting 2 <| .log 3 4 (.getLevel .done) <| .isReporting 3 <|
  .log 4 5 (.getLevel .done) <| .isReporting 4 <| .log 5 6 (.getLevel .done) <| .isReporting 5 next

/-- What the test expects for one message: printed with its level if reported, nothing otherwise. -/
def expected (l k : Int) (m : Val) : List Ev :=
  if k ≥ l then [.logEnter k m, .fnCalled 9 m, .getLevelRet k, .fnDone, .logRet, .isReportingRet k true]
  else [.logEnter k m, .logRet, .isReportingRet k false]

/-- What the test expects for one threshold. -/
def expectedRound (l : Int) : List Ev :=
  .setThresholdRet l :: .getThresholdRet l ::
    (expected l 0 1 ++ expected l 1 2 ++ expected l 2 3 ++ expected l 3 4 ++ expected l 4 5 ++ expected l 5 6)

/-- test_mu_log_set_reporting_threshold, lines 41-194: thresholds FATAL, ERROR, WARN, INFO, DEBUG, TRACE -/
example (w : World) :
    (run w (.init 5 9 <| round 5 <| round 4 <| round 3 <| round 2 <| round 1 <| round 0 .done)).1
    = .initRet 5 9 :: (expectedRound 5 ++ expectedRound 4 ++ expectedRound 3 ++ expectedRound 2 ++
        expectedRound 1 ++ expectedRound 0) := by with_unfolding_all rfl

/-- test_mu_log_get_logging_function, lines 196-200 -/
example (w : World) : (run w (.init 5 9 <| .getFn .done)).1 = [.initRet 5 9, .getFnRet 9] := by with_unfolding_all rfl

/-- test_mu_log_level_name, lines 202-214 -/
example : levelName host 0 = .ok "TRACE" ∧ levelName host 1 = .ok "DEBUG" ∧ levelName host 2 = .ok "INFO" ∧
    levelName host 3 = .ok "WARN" ∧ levelName host 4 = .ok "ERROR" ∧ levelName host 5 = .ok "FATAL" ∧
    levelName host (-1) = .ok "UNKNOWN" :=
  ⟨rfl, rfl, rfl, rfl, rfl, rfl, rfl⟩

end log

end Mu.UnitTests
