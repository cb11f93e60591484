import Verif.Props.Task

/-! # Property C68: what `mu_task_set_state` does, completely (C35 as documented is false) -/

namespace Mu.Task
open Spec

/-- **C68.**  For every world, task, state and hook body: `mu_task_set_state(NULL, s)` returns NULL,
calls nothing and changes nothing.  For any other task, whether or not the new state equals the
present one: without a hook exactly the state field of exactly this task becomes `s`; with a hook, the
hook is called exactly once, with the task and the new state, while everything is still as before
(`body` is what the hook does, it starts in the unchanged world `w`), and after the hook has returned
exactly the state field of exactly this task becomes `s`.  The task is returned. -/
theorem C68_set_state (w : World) (t : Val) (s : Nat) (body : Prog) :
    (t = NULL → run w (.setState t s body .done) = .ok ([.setEnter t s, .setRet t s t], w)) ∧
    (t ≠ NULL → w.stateHook = NULL → ∃ w', run w (.setState t s body .done) =
        .ok ([.setEnter t s, .setRet t s t], w') ∧
      (∀ u, w'.task u = if u = t then { w.task t with state := s } else w.task u) ∧
      w'.callHook = w.callHook ∧ w'.stateHook = w.stateHook ∧ w'.transferHook = w.transferHook) ∧
    (t ≠ NULL → w.stateHook ≠ NULL → ∀ trb wb, run w body = .ok (trb, wb) →
      ∃ w', run w (.setState t s body .done) = .ok
        (.setEnter t s :: .setHookCalled w.stateHook t s :: trb ++ [.setHookDone, .setRet t s t], w') ∧
      (∀ u, w'.task u = if u = t then { wb.task t with state := s } else wb.task u) ∧
      w'.callHook = wb.callHook ∧ w'.stateHook = wb.stateHook ∧ w'.transferHook = wb.transferHook) := by
  refine ⟨fun ht => ?_, fun ht hk => ?_, fun ht hk trb wb hb => ?_⟩
  · subst ht
    simp [run, setState]
  · simp only [run, setState, ht, hk, ne_eq, not_true_eq_false, not_false_eq_true, if_true, if_false,
      World.deref]
    exact ⟨_, rfl, fun u => rfl, rfl, hk, rfl⟩
  · simp only [run, setState, ht, hk, hb, ne_eq, not_false_eq_true, if_true, World.deref, C.ok_bind,
      if_false]
    exact ⟨wb.put t { wb.task t with state := s }, by simp, fun u => rfl, rfl, rfl, rfl⟩

/-- Non-vacuity: the hook is called although the state stays 3, and it sees the old state of the
task (`getState` inside the hook returns 3 while 4 is being set). -/
example : (match run (World.start fun _ => ⟨5, 0, 0⟩) (.installState 9 <| .init 1 5 3 0 <|
      .setState 1 3 .done <| .setState 1 4 (.getState 1 .done) .done) with
    | .ok (tr, w) => tr.drop 2 = [.setEnter 1 3, .setHookCalled 9 1 3, .setHookDone, .setRet 1 3 1,
        .setEnter 1 4, .setHookCalled 9 1 4, .getStateRet 1 3, .setHookDone, .setRet 1 4 1] ∧
        (w.task 1).state = 4
    | .error _ => False) := by
  show _ ∧ _
  decide

end Mu.Task
