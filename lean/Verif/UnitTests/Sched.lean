import Verif.UnitTests.Basic
import Verif.Model.Sched

/-! # Unit tests of mu_sched (test/test_mu_sched/test_mu_sched.c), run on the model

`s_idle_task` is at address 100, `s_task1`, …, `s_task3` at 1, 2, 3, `s_basic_task` at 9.  The fakes do nothing.  Every
test starts with `setUp`, lines 366-383.  The queue sizes are the defaults of mu_sched.h:102-112. -/

namespace Mu.UnitTests
open Sched

/-- The clock functions, lines 398-408: `uint32_t` times, `int32_t` differences. -/
def cfg : Cfg (BitVec 32) (BitVec 32) where
  P := host
  precedes a b := decide ((a - b).toInt < 0)
  offset t dt := t + dt
  maxIrq := 8
  maxImmed := 20
  maxDeferred := 20

/-- `setUp`: `mu_sched_init` on whatever the previous test left, then `mu_sched_set_idle_task(&s_idle_task)`. -/
def s0 : Sched (BitVec 32) :=
  { init cfg ⟨⟨81, 82, 83, []⟩, ⟨[], 84, 85, 86⟩, List.replicate 20 ⟨87, 88⟩, 5, 89, 90⟩
      (List.replicate 8 91) (List.replicate 20 92) with idle := 100 }

/-- What the tests look at: which task functions were called, and what the API functions returned. -/
def seen : Ev (BitVec 32) → Bool
  | .stepEnter | .stepRet | .clock _ | .sel _ _ => false
  | _ => true

/-- The observations made during a test. -/
def obs (p : Prog (BitVec 32) (BitVec 32)) : C (List (Ev (BitVec 32))) :=
  (run cfg s0 p).map (fun r => r.1.filter seen)

/-- `mu_sched_step()` at a time, with tasks that do nothing. -/
abbrev stp (now : BitVec 32) (next : Prog (BitVec 32) (BitVec 32)) : Prog (BitVec 32) (BitVec 32) :=
  .step now .done next

/-- idle_task_runs_if_sched_is_empty, lines 70-74, and idle_task_is_accessible, lines 76-78 -/
example : obs (stp 0 .done) = .ok [.called 100] ∧ obs (.getIdle .done) = .ok [.getIdleRet 100] := by decide +kernel

/-- priorities_favor_isr_over_deferred_over_immed, lines 80-108 -/
example : obs (.immed 1 <| .fromIsr 2 <| .deferFor 3 0 0 <| stp 0 <| stp 0 <| stp 0 <| stp 0 .done)
    = .ok [.immedRet 1 .none, .isrRet 2 .none, .deferRet 3 0 .none,
        .called 2, .called 3, .called 1, .called 100] := by decide +kernel

/-- reset_empties_all_queues, lines 110-126 -/
example : obs (.immed 1 <| .fromIsr 2 <| .deferFor 3 0 0 <| .reset <| stp 0 .done)
    = .ok [.immedRet 1 .none, .isrRet 2 .none, .deferRet 3 0 .none, .resetRet, .called 100] := by decide +kernel

/-- A call repeated. -/
def times (f : Prog (BitVec 32) (BitVec 32) → Prog (BitVec 32) (BitVec 32)) : Nat → Prog (BitVec 32) (BitVec 32)
  | 0 => .done
  | n + 1 => f (times f n)

/-- fill_to_overflowing_from_isr, lines 128-134 -/
example : obs (times (.fromIsr 1) 8) = .ok (List.replicate 7 (.isrRet 1 .none) ++ [.isrRet 1 .full]) := by
  decide +kernel

/-- fill_to_overflowing_immed, lines 136-141 -/
example : obs (times (.immed 1) 21) = .ok (List.replicate 20 (.immedRet 1 .none) ++ [.immedRet 1 .full]) := by
  decide +kernel

/-- fill_to_overflowing_deferred, lines 143-149 -/
example : obs (times (.deferFor 1 0 1) 21)
    = .ok (List.replicate 20 (.deferRet 1 1 .none) ++ [.deferRet 1 1 .full]) := by decide +kernel

/-- immediate_task_runs_first_then_idle_task, lines 151-160 -/
example : obs (.immed 1 <| stp 0 <| stp 0 .done) = .ok [.immedRet 1 .none, .called 1, .called 100] := by
  decide +kernel

/-- mu_sched_immediate_preserves_order, lines 162-177 -/
example : obs (.immed 1 <| .immed 2 <| stp 0 <| stp 0 <| stp 0 .done)
    = .ok [.immedRet 1 .none, .immedRet 2 .none, .called 1, .called 2, .called 100] := by decide +kernel

/-- mu_sched_from_isr_preserves_order, lines 179-194 -/
example : obs (.fromIsr 1 <| .fromIsr 2 <| stp 0 <| stp 0 <| stp 0 .done)
    = .ok [.isrRet 1 .none, .isrRet 2 .none, .called 1, .called 2, .called 100] := by decide +kernel

/-- isr_tasks_run_before_regular_tasks, lines 196-211 -/
example : obs (.immed 1 <| .fromIsr 2 <| stp 0 <| stp 0 <| stp 0 .done)
    = .ok [.immedRet 1 .none, .isrRet 2 .none, .called 2, .called 1, .called 100] := by decide +kernel

/-- mu_sched_wait_returns_no_error, lines 213-215, and mu_sched_transfer_calls_transfer_hook, lines 217-221 -/
example : obs (.wait 1 .done) = .ok [.waitRet 1 .none] ∧
    obs (.transfer 1 .done .done) = .ok [.transferHook 1, .immedRet 1 .none] := by decide +kernel

/-- deferred_tasks_with_same_time_maintain_strict_ordering_a and _b, lines 223-253 -/
example : obs (.deferUntil 1 10 <| .deferUntil 2 10 <| stp 10 <| stp 10 .done)
      = .ok [.deferRet 1 10 .none, .deferRet 2 10 .none, .called 1, .called 2] ∧
    obs (.deferUntil 2 10 <| .deferUntil 1 10 <| stp 10 <| stp 10 .done)
      = .ok [.deferRet 2 10 .none, .deferRet 1 10 .none, .called 2, .called 1] := by decide +kernel

/-- defer_until_tasks_run_when_their_times_arrive, lines 255-275 -/
example : obs (.deferUntil 2 12 <| .deferUntil 1 10 <| stp 8 <| stp 10 <| stp 12 .done)
    = .ok [.deferRet 2 12 .none, .deferRet 1 10 .none, .called 100, .called 1, .called 2] := by decide +kernel

/-- defer_for_tasks_run_when_their_times_arrive, lines 277-295 -/
example : obs (.deferFor 1 8 2 <| .deferFor 2 8 4 <| stp 8 <| stp 10 <| stp 12 .done)
    = .ok [.deferRet 1 10 .none, .deferRet 2 12 .none, .called 100, .called 1, .called 2] := by decide +kernel

/-- deferred_tasks_can_be_removed, lines 297-324 -/
example : obs (.deferUntil 1 10 <| .deferUntil 2 12 <| .remove 2 <| .remove 2 <| stp 8 <| stp 10 <| stp 12 .done)
    = .ok [.deferRet 1 10 .none, .deferRet 2 12 .none, .removeRet 2 .none, .removeRet 2 .notFound,
        .called 100, .called 1, .called 100] := by decide +kernel

/-- current_task_is_bound_inside_mu_sched_step, lines 326-333 -/
example : obs (.immed 9 <| .step 0 (.current .done) <| .current .done)
    = .ok [.immedRet 9 .none, .called 9, .currentRet 9, .currentRet NULL] := by decide +kernel

/-- next_deferred_task_is_accessible, lines 335-339 -/
example : obs (.nextTask <| .deferFor 1 0 1 <| .nextTask .done)
    = .ok [.nextRet NULL, .deferRet 1 1 .none, .nextRet 1] := by decide +kernel

end Mu.UnitTests
