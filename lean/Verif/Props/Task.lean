import Verif.Lemmas.Task

/-! # Properties of mu_task: C34, C35 -/

namespace Mu.Task
open Spec

/-- The state at program start: no hook installed. -/
def World.start (mem : Val → Task) : World := ⟨mem, NULL, NULL, NULL⟩

/-- C34 (with the true half of C35).  Whatever the main program, the hooks and the task functions
do, every event is one the monitor allows at its point: `mu_task_call(t)` calls the call hook
installed last (if any) with `t`, once, then the function the task has at that moment, with `t`, once,
and then returns; `mu_task_call(NULL)` calls nothing; `mu_task_set_state` calls the hook installed
last with the task and the new state before the state changes; every getter returns what was stored
last.  All calls have returned at the end. -/
theorem C34_conforms (mem : Val → Task) (p : Prog) {tr : List Ev} {w : World}
    (h : run (World.start mem) p = .ok (tr, w)) :
    Conforms (St.start mem) tr ∧ (track (St.start mem) tr).stack = [] ∧
      (track (St.start mem) tr).task = w.task := by
  obtain ⟨g1, g2, g3⟩ := run_good p _ (St.start mem) _ ⟨rfl, rfl, rfl, rfl⟩ trivial h
  exact ⟨g1, g3, g2.task⟩

/-- C34, safety: if no task is left without a function and no NULL task is dereferenced by the user,
nothing faults. -/
theorem C34_safe (mem : Val → Task) (hm : ∀ t, t ≠ NULL → (mem t).fn ≠ NULL) (p : Prog)
    (hp : Sane p) : ∃ r, run (World.start mem) p = .ok r := by
  obtain ⟨r, h, -⟩ := run_ok p (World.start mem) hp hm
  exact ⟨r, h⟩

/-- Calls of `t` entered whose function has not been called yet. -/
def owed (t : Val) (st : List Phase) : Nat := st.countP fun
  | .entered u | .hooking u | .hooked u => u == t
  | _ => false

theorem owed_track {t : Val} (ht : t ≠ NULL) (tr : List Ev) : ∀ σ : St, Conforms σ tr →
    runsOf t tr + owed t (track σ tr).stack = callsOf t tr + owed t σ.stack := by
  induction tr with
  | nil => intro σ _; simp [runsOf, callsOf, track]
  | cons e tr ih =>
    intro σ h
    obtain ⟨hl, hc⟩ := h
    have h1 := ih _ hc
    have h2 : track σ (e :: tr) = track (next σ e) tr := rfl
    rw [h2]
    have hr : runsOf t (e :: tr) = runsOf t tr + runsOf t [e] := by
      simp [runsOf, List.countP_cons]
    have hcl : callsOf t (e :: tr) = callsOf t tr + callsOf t [e] := by
      simp [callsOf, List.countP_cons]
    have key : runsOf t [e] + owed t (next σ e).stack = callsOf t [e] + owed t σ.stack := by
      cases e with
      | initRet => simp [runsOf, callsOf, next]
      | callHookRet => simp [runsOf, callsOf, next]
      | stateHookRet => simp [runsOf, callsOf, next]
      | transferHookRet => simp [runsOf, callsOf, next]
      | callEnter u => simp [runsOf, callsOf, next, owed, List.countP_cons]; omega
      | hookCalled k u =>
        obtain ⟨-, hl, -⟩ := hl
        cases hs : σ.stack with
        | nil => rw [hs] at hl; cases hl
        | cons a l =>
          rw [hs] at hl; cases hl
          simp [runsOf, callsOf, next, owed, St.top, hs, List.countP_cons]
      | hookDone =>
        obtain ⟨u, hl⟩ := hl
        cases hs : σ.stack with
        | nil => rw [hs] at hl; cases hl
        | cons a l =>
          rw [hs] at hl; cases hl
          simp [runsOf, callsOf, next, owed, St.top, hs, List.countP_cons]
      | fnCalled f u =>
        obtain ⟨-, -, hl⟩ := hl
        cases hs : σ.stack with
        | nil => rw [hs] at hl; simp at hl
        | cons a l =>
          rw [hs] at hl
          rcases hl with hl | ⟨hl, -⟩ <;> cases hl <;>
          · simp [runsOf, callsOf, next, owed, St.top, hs, List.countP_cons]; omega
      | fnDone =>
        obtain ⟨u, hl⟩ := hl
        cases hs : σ.stack with
        | nil => rw [hs] at hl; cases hl
        | cons a l =>
          rw [hs] at hl; cases hl
          simp [runsOf, callsOf, next, owed, St.top, hs, List.countP_cons]
      | callRet u =>
        cases hs : σ.stack with
        | nil => rcases hl with ⟨-, hl⟩ | ⟨-, hl⟩ <;> (rw [hs] at hl; cases hl)
        | cons a l =>
          rcases hl with ⟨-, hl⟩ | ⟨-, hl⟩
          · rw [hs] at hl; cases hl
            simp [runsOf, callsOf, next, owed, hs, List.countP_cons]
          · rw [hs] at hl; cases hl
            simp [runsOf, callsOf, next, owed, hs, List.countP_cons, Ne.symm ht]
      | setEnter => simp [runsOf, callsOf, next, owed, List.countP_cons]
      | setHookCalled k u s =>
        obtain ⟨-, hl, -⟩ := hl
        cases hs : σ.stack with
        | nil => rw [hs] at hl; cases hl
        | cons a l =>
          rw [hs] at hl; cases hl
          simp [runsOf, callsOf, next, owed, St.top, hs, List.countP_cons]
      | setHookDone =>
        obtain ⟨u, s, hl⟩ := hl
        cases hs : σ.stack with
        | nil => rw [hs] at hl; cases hl
        | cons a l =>
          rw [hs] at hl; cases hl
          simp [runsOf, callsOf, next, owed, St.top, hs, List.countP_cons]
      | setRet u s r =>
        obtain ⟨-, hl⟩ := hl
        cases hs : σ.stack with
        | nil => rw [hs] at hl; simp at hl
        | cons a l =>
          rw [hs] at hl
          rcases hl with ⟨-, hl⟩ | ⟨-, hl | ⟨hl, -⟩⟩ <;> cases hl <;>
            simp [runsOf, callsOf, next, owed, hs, List.countP_cons]
      | transferEnter => simp [runsOf, callsOf, next, owed, List.countP_cons]
      | transferCalled k u =>
        obtain ⟨hl, -⟩ := hl
        cases hs : σ.stack with
        | nil => rw [hs] at hl; cases hl
        | cons a l =>
          rw [hs] at hl; cases hl
          simp [runsOf, callsOf, next, owed, St.top, hs, List.countP_cons]
      | transferDone =>
        obtain ⟨u, hl⟩ := hl
        cases hs : σ.stack with
        | nil => rw [hs] at hl; cases hl
        | cons a l =>
          rw [hs] at hl; cases hl
          simp [runsOf, callsOf, next, owed, St.top, hs, List.countP_cons]
      | transferRet u =>
        cases hs : σ.stack with
        | nil => rcases hl with hl | ⟨hl, -⟩ <;> (rw [hs] at hl; cases hl)
        | cons a l =>
          rcases hl with hl | ⟨hl, -⟩ <;> (rw [hs] at hl; cases hl) <;>
            simp [runsOf, callsOf, next, owed, hs, List.countP_cons]
      | getFnRet => simp [runsOf, callsOf, next]
      | getStateRet => simp [runsOf, callsOf, next]
      | getInfoRet => simp [runsOf, callsOf, next]
      | setInfoRet => simp [runsOf, callsOf, next]
    rw [hr, hcl]
    omega

/-- C34, in numbers: over any complete execution, however nested, each task's function is called as
often as `mu_task_call` is called with the task. -/
theorem C34_exactly_once (mem : Val → Task) (p : Prog) {tr : List Ev} {w : World}
    (h : run (World.start mem) p = .ok (tr, w)) {t : Val} (ht : t ≠ NULL) :
    runsOf t tr = callsOf t tr := by
  obtain ⟨h1, h2, -⟩ := C34_conforms mem p h
  have := owed_track ht tr _ h1
  rw [h2] at this
  simpa [owed, St.start] using this

/-- C35 as documented (mu_task.h:123-126) is false: setting the state a task already has does have
an effect when a hook is installed: the hook is called. -/
theorem C35_no_effect_if_equal_false :
    ¬ ∀ (mem : Val → Task) (p : Prog) (tr : List Ev) (w : World) (t : Val) (s : Nat),
      run (World.start mem) p = .ok (tr, w) → t ≠ NULL → (w.task t).state = s →
      ∀ r, run w (.setState t s .done .done) = .ok r → noSetHook r.1 := by
  intro h
  have := h (fun _ => ⟨5, 0, 0⟩) (.installState 9 <| .init 1 5 3 0 .done)
    [.stateHookRet 9, .initRet 1 5 3 0 1] _ 1 3 rfl (by decide) rfl _ rfl
    (.setHookCalled 9 1 3) (by decide) 9 1 3
  exact this rfl

/-- C35, the part that holds: `mu_task_set_state` ignores and returns NULL; otherwise it first calls
the hook installed last, if any, with the task and the new state, while the task still has its old
state (`body` is whatever the hook does, starting in the unchanged world `w`), and then exactly the
state field is replaced.  Missing from C35: no hook call when the state is the same. -/
theorem C35_set_state_partial (w : World) (t : Val) (s : Nat) (body : Prog) {tr : List Ev}
    {w' : World} (h : run w (.setState t s body .done) = .ok (tr, w')) :
    (t = NULL → tr = [.setEnter t s, .setRet t s t] ∧ w' = w) ∧
    (t ≠ NULL → w.stateHook = NULL → tr = [.setEnter t s, .setRet t s t] ∧
      ∀ u, w'.task u = if u = t then { w.task t with state := s } else w.task u) ∧
    (t ≠ NULL → w.stateHook ≠ NULL → ∃ trb wb, run w body = .ok (trb, wb) ∧
      tr = .setEnter t s :: .setHookCalled w.stateHook t s :: trb ++ [.setHookDone, .setRet t s t] ∧
      ∀ u, w'.task u = if u = t then { wb.task t with state := s } else wb.task u) := by
  simp only [run, setState] at h
  refine ⟨fun ht => ?_, fun ht hk => ?_, fun ht hk => ?_⟩
  · simp only [ht, ne_eq, not_true_eq_false, if_false] at h
    cases h
    rw [ht]; exact ⟨rfl, rfl⟩
  · simp only [ht, hk, ne_eq, not_true_eq_false, not_false_eq_true, if_true, if_false, World.deref]
      at h
    cases h
    exact ⟨rfl, fun u => rfl⟩
  · simp only [ht, hk, ne_eq, not_false_eq_true, if_true, World.deref] at h
    cases hb : run w body with
    | error e => rw [hb] at h; cases h
    | ok x =>
      rw [hb] at h
      simp only [C.ok_bind, ht, if_false] at h
      cases h
      exact ⟨x.1, x.2, rfl, by simp, fun u => rfl⟩

/-- C35, the state itself: after `mu_task_set_state(t, s)` the state is `s`; in particular a call
with the present state leaves every task object as the hook left it. -/
theorem C35_state_becomes_partial (w : World) {t : Val} (ht : t ≠ NULL) (s : Nat) (body : Prog)
    {tr : List Ev} {w' : World} (h : run w (.setState t s body .done) = .ok (tr, w')) :
    (w'.task t).state = s ∧
      (w.stateHook = NULL → (w.task t).state = s → w'.task = w.task) := by
  obtain ⟨-, h2, h3⟩ := C35_set_state_partial w t s body h
  by_cases hk : w.stateHook = NULL
  · obtain ⟨-, h⟩ := h2 ht hk
    refine ⟨by simp [h], fun _ hs => ?_⟩
    funext u
    rw [h u]
    split
    · rename_i hu
      rw [hu, ← hs]
    · rfl
  · obtain ⟨_, wb, -, -, h⟩ := h3 ht hk
    exact ⟨by simp [h], fun hn => absurd hn hk⟩

/-! ## A concrete run: two tasks, both hooks; the call hook re-installs itself as NULL; the task
changes its own state and calls the other task. -/

namespace Example

def mem : Val → Task := fun _ => ⟨99, 7, 0⟩

def prog : Prog :=
  .init 1 11 0 5 <| .init 2 12 0 6 <| .installCall 21 <| .installState 22 <|
  .call 1 (.installCall 0 .done)
    (.setState 1 4 (.getState 1 .done) <| .call 2 .done (.getInfo 2 .done) .done) <|
  .call 0 .done .done <| .getState 1 .done

theorem runs : (run (World.start mem) prog).map (·.1) = .ok
    [.initRet 1 11 0 5 1, .initRet 2 12 0 6 2, .callHookRet 21, .stateHookRet 22,
     .callEnter 1, .hookCalled 21 1, .callHookRet 0, .hookDone, .fnCalled 11 1,
       .setEnter 1 4, .setHookCalled 22 1 4, .getStateRet 1 0, .setHookDone, .setRet 1 4 1,
       .callEnter 2, .fnCalled 12 2, .getInfoRet 2 6, .fnDone, .callRet 2,
     .fnDone, .callRet 1,
     .callEnter 0, .callRet 0, .getStateRet 1 4] := by decide +kernel

example : Sane prog ∧ ∀ t, t ≠ NULL → (mem t).fn ≠ NULL :=
  ⟨by simp [Sane, prog, NULL], by intro t _; simp [mem, NULL]⟩

end Example

end Mu.Task
