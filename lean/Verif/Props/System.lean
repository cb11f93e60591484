import Verif.Lemmas.System
import Verif.Props.SchedMore

/-! # C83, C84: the scheduler and the tasks together

In the other files `mu_task_call` is "the task does something" for the scheduler, and the task module
does not know the scheduler.  Here they are one program (`Model/System.lean`). -/

namespace Mu.System
open Mu Mu.System.Spec

variable {T R : Type} [DecidableEq T] {cfg : Sched.Cfg T R}

/-! ## C83 -/

/-- What the scheduler does in a program of both modules is a history in the sense of the scheduler's
properties: C22–C33 and C80–C82 hold of it. -/
theorem C83_scheduler_view {mem : Val → Task.Task} {qs : Val → QConf} {x x' : Sys T} (hb : Boot cfg mem qs x)
    (p : Prog T R) {tr : List (Ev T)} (h : run cfg x p = .ok (tr, x')) :
    Sched.Spec.Reach cfg x'.sched (schedPart tr) := by
  obtain ⟨q, hq⟩ := (run_proj p _ _ _ h).sched
  simpa using Sched.Spec.Reach.calls q (.boot hb.sched) hq

/-- What the tasks and hooks do conforms to the task module's specification (C34, C35): every call of a
task, by the scheduler or by the user, first calls the call hook installed last, then the task's
function, once; and all calls have returned at the end. -/
theorem C83_task_view {mem : Val → Task.Task} {qs : Val → QConf} {x x' : Sys T} (hb : Boot cfg mem qs x)
    (p : Prog T R) {tr : List (Ev T)} (h : run cfg x p = .ok (tr, x')) :
    Task.Spec.Conforms (Task.Spec.St.start mem) (taskPart tr) ∧
    (Task.Spec.track (Task.Spec.St.start mem) (taskPart tr)).stack = [] ∧
    (Task.Spec.track (Task.Spec.St.start mem) (taskPart tr)).task = x'.world.task := by
  obtain ⟨q, hq⟩ := (run_proj p _ _ _ h).task
  rw [hb.world] at hq
  exact Task.C34_conforms mem q hq

/-- Programs that keep the rules of mu_task never fault, whatever hooks and tasks do to either module
and however deeply calls and steps are nested. -/
theorem C83_safe (hw : cfg.Wf) {mem : Val → Task.Task} (hm : ∀ t, t ≠ NULL → (mem t).fn ≠ NULL)
    {qs : Val → QConf} (hq : ∀ q, (qs q).Wf cfg.P) {x : Sys T} (hb : Boot cfg mem qs x) (p : Prog T R) (hp : Sane p) :
    ∃ tr x', run cfg x p = .ok (tr, x') := by
  obtain ⟨L, hi⟩ := Sched.reach_inv hw (.boot hb.sched)
  have hqs : ∀ q, ∃ l, Mqueue.Rep (x.queues q) l ∧ 2 * (x.queues q).capacity ≤ cfg.P.szMod := by
    intro q
    obtain ⟨q0, e⟩ := hb.queues q
    rw [e]
    exact ⟨[], Mqueue.init_rep _ _ _ _ _ (hq q).1, (hq q).2⟩
  obtain ⟨tr, x', h, -⟩ := run_ok hw p x hp ⟨⟨L, hi.rep⟩, by rw [hb.world]; exact hm, hqs⟩
  exact ⟨tr, x', h⟩

/-- The scheduler's calling of `t` is a `mu_task_call(t)`, at once. -/
theorem C83_call_sequence {x x' : Sys T} (p : Prog T R) {a b : List (Ev T)} {t : Val}
    (h : run cfg x p = .ok (a ++ .sched (.called t) :: b, x')) :
    ∃ c, b = .task (.callEnter t) :: c := by
  have key := trace_induction (cfg := cfg)
    (fun tr => ∀ (a b : List (Ev T)) (t : Val), tr = a ++ .sched (.called t) :: b →
      ∃ c, b = .task (.callEnter t) :: c) ?_ ?_ ?_ ?_ ?_ ?_ p ?_ x _ x' h
  · exact key a b t rfl
  · intro a b t h; simp at h
  · intro u v hu hv a b t h
    rcases List.append_eq_append_iff.mp h with ⟨w, h1, h2⟩ | ⟨w, h1, h2⟩
    · exact hv w b t h2
    · cases w with
      | nil => exact hv [] b t (by simpa using h2.symm)
      | cons e w =>
        simp only [List.cons_append, List.cons.injEq] at h2
        obtain ⟨rfl, rfl⟩ := h2
        obtain ⟨c, rfl⟩ := hu a w t h1
        exact ⟨c ++ v, rfl⟩
  · intro e he _ _ a b t h
    cases a with
    | nil => simp only [List.nil_append, List.cons.injEq] at h; exact absurd h.1 (he t)
    | cons _ a => simp at h
  · intro u tr _ hq a b t h
    rcases a with _ | ⟨e, _ | ⟨e', a⟩⟩
    · simp only [List.nil_append, List.cons.injEq, Ev.sched.injEq, Sched.Ev.called.injEq] at h
      obtain ⟨rfl, rfl⟩ := h; exact ⟨_, rfl⟩
    · simp at h
    · simp only [List.cons_append, List.cons.injEq] at h
      exact hq a b t h.2.2
  · intro q u tr _ hq a b t h
    rcases a with _ | ⟨e, _ | ⟨e', a⟩⟩
    · simp at h
    · simp at h
    · simp only [List.cons_append, List.cons.injEq] at h
      exact hq a b t h.2.2
  · intro a b t h
    rcases a with _ | ⟨e, a⟩ <;> simp at h
  · refine .inr fun u a b t h => ?_
    rcases a with _ | ⟨e, a⟩ <;> simp at h

/-- In a program that leaves the running of tasks to the scheduler and to message queues, the function
of every task runs exactly as often as a step has taken that task from a queue of the scheduler (or as
the idle task) and message queues have notified it, together. -/
theorem C83_one_run_per_choice (hw : cfg.Wf) {mem : Val → Task.Task} {qs : Val → QConf} {x x' : Sys T}
    (hb : Boot cfg mem qs x) (p : Prog T R) (hp : schedOnly p) {tr : List (Ev T)}
    (h : run cfg x p = .ok (tr, x')) {t : Val} (ht : t ≠ NULL) :
    Task.Spec.runsOf t (taskPart tr) =
      ((Sched.Spec.sels (schedPart tr)).map (·.2)).count t + notified t tr := by
  obtain ⟨q, hq⟩ := (run_proj p _ _ _ h).task
  rw [hb.world] at hq
  rw [Task.C34_exactly_once mem q hq ht]
  have hc := Sched.C25_called_iff_taken hw (C83_scheduler_view hb p h)
  have hn : ((Sched.Spec.sels (schedPart tr)).map (·.2)).count t =
      (Sched.Spec.calls (schedPart tr)).count t := by
    rw [hc, List.count_filter (by simpa using ht)]
  rw [hn]
  refine trace_induction (cfg := cfg)
    (fun tr => Task.Spec.callsOf t (taskPart tr) =
      (Sched.Spec.calls (schedPart tr)).count t + notified t tr)
    rfl ?_ ?_ ?_ ?_ ?_ p (.inl hp) x tr x' h
  · intro a b h1 h2
    simp only [taskPart_append, schedPart_append, Task.Spec.callsOf, Sched.Spec.calls,
      List.countP_append, List.filterMap_append, List.count_append, notified] at h1 h2 ⊢
    omega
  · intro e h1 h2 h3
    cases e with
    | sched e => cases e <;> first | rfl | exact absurd rfl (h1 _)
    | task e => cases e <;> first | rfl | exact absurd rfl (h2 _)
    | queue q e => cases e <;> first | rfl | exact absurd rfl (h3 _ _)
  · intro u tr _ hq
    simp only [taskPart, schedPart, Task.Spec.callsOf, Sched.Spec.calls, List.filterMap_cons,
      List.countP_cons, List.count_cons, notified] at hq ⊢
    simp at hq ⊢; omega
  · intro q u tr _ hq
    simp only [taskPart, schedPart, Task.Spec.callsOf, Sched.Spec.calls, List.filterMap_cons,
      List.countP_cons, List.count_cons, notified] at hq ⊢
    simp at hq ⊢; omega
  · simp [notified, taskPart, schedPart, Task.Spec.callsOf, Sched.Spec.calls, Ne.symm ht]

/-- Whoever asks for the current task after the scheduler has called `t` — the call hook, the task's
function, functions they call — gets `t`, until the step returns, the scheduler is reset or another
task is called by the scheduler. -/
theorem C83_current (hw : cfg.Wf) {mem : Val → Task.Task} {qs : Val → QConf} {x x' : Sys T} (hb : Boot cfg mem qs x)
    (p : Prog T R) {a b c : List (Ev T)} {t v : Val}
    (h : run cfg x p = .ok (a ++ .sched (.called t) :: b ++ .sched (.currentRet v) :: c, x'))
    (hn : ∀ e ∈ b, e ≠ .sched .stepRet ∧ e ≠ .sched .resetRet ∧ ∀ u, e ≠ .sched (.called u)) :
    v = t := by
  have hr := C83_scheduler_view hb p h
  simp only [schedPart_append] at hr
  refine Sched.C28_current_is_running (a := schedPart a) (b := schedPart b) (c := schedPart c) hw
    (by simpa [schedPart] using hr) ?_
  intro e he
  have hm : Ev.sched e ∈ b := by
    simp only [schedPart, List.mem_filterMap] at he
    obtain ⟨y, hy, he⟩ := he
    cases y with
    | sched e' => simp only [Option.some.injEq] at he; exact he ▸ hy
    | task _ => simp at he
    | queue _ _ => simp at he
  obtain ⟨h1, h2, h3⟩ := hn _ hm
  exact ⟨fun hc => h1 (by rw [hc]), fun hc => h2 (by rw [hc]), fun u hc => h3 u (by rw [hc])⟩

/-! ## C84 -/

/-- `mu_sched_transfer(t)` after any history `h`: the transfer hook installed last, if there is one, is
called with `t`, once; then, in the state the hook has left, `t` is put at the end of the immediate
queue if there is room, and FULL is returned if there is none. -/
theorem C84_transfer (hw : cfg.Wf) {mem : Val → Task.Task} {qs : Val → QConf} {x0 x x' : Sys T} (hb : Boot cfg mem qs x0)
    (p : Prog T R) {h : List (Ev T)} (hp : run cfg x0 p = .ok (h, x))
    (t : Val) (hook : Prog T R) {tr : List (Ev T)}
    (ht : run cfg x (.transfer t hook .done) = .ok (tr, x')) :
    ∃ (m : List (Ev T)) (e : Sched.Err) (k : Val),
      k = (Task.Spec.track (Task.Spec.St.start mem) (taskPart h)).transferHook ∧
      ((k = NULL ∧ m = []) ∨
       (k ≠ NULL ∧ ∃ mh x1, run cfg x hook = .ok (mh, x1) ∧
          m = .task (.transferCalled k t) :: mh ++ [.task .transferDone])) ∧
      tr = .sched (.transferHook t) :: .task (.transferEnter t) :: m ++
        [.task (.transferRet t), .sched (.immedRet t e)] ∧
      (e = .none ∨ e = .full) ∧
      (e = .full ↔ (Sched.Spec.books (schedPart (h ++ m))).immed.length = cfg.maxImmed) ∧
      (Sched.Spec.books (schedPart (h ++ tr))).immed =
        (Sched.Spec.books (schedPart (h ++ m))).immed ++ (if e = .none then [t] else []) := by
  obtain ⟨q0, hq0⟩ := (run_proj p _ _ _ hp).task
  rw [hb.world] at hq0
  have hk : (Task.Spec.track (Task.Spec.St.start mem) (taskPart h)).transferHook =
      x.world.transferHook := by
    obtain ⟨-, g2, -⟩ := Task.run_good q0 _ (Task.Spec.St.start mem) _ ⟨rfl, rfl, rfl, rfl⟩ trivial hq0
    exact g2.th
  have hreach : Sched.Spec.Reach cfg x'.sched (schedPart h ++ schedPart tr) := by
    obtain ⟨q, hq⟩ := (run_proj (.transfer t hook .done) _ _ _ ht).sched
    exact .calls q (C83_scheduler_view hb p hp) hq
  simp only [run] at ht
  obtain ⟨⟨tr1, x1⟩, e1, ht⟩ := C.bind_eq_ok ht
  simp only [C.ok_bind, List.append_nil] at ht
  cases ht
  unfold transfer at e1
  obtain ⟨⟨tr2, x2⟩, e2, e1⟩ := C.bind_eq_ok e1
  obtain ⟨⟨er, s⟩, e3, e1⟩ := C.bind_eq_ok e1
  simp only at e3 e1
  cases e1
  -- the last event
  have finish : ∀ m : List (Ev T), tr2 = .task (.transferEnter t) :: m ++ [.task (.transferRet t)] →
      (er = .none ∨ er = .full) ∧
      (er = .full ↔ (Sched.Spec.books (schedPart (h ++ m))).immed.length = cfg.maxImmed) ∧
      (Sched.Spec.books (schedPart (h ++ (Ev.sched (.transferHook t) :: tr2 ++
        [.sched (.immedRet t er)])))).immed =
        (Sched.Spec.books (schedPart (h ++ m))).immed ++ (if er = .none then [t] else []) := by
    rintro m rfl
    have hs : schedPart h ++ schedPart (Ev.sched (.transferHook t) :: (.task (.transferEnter t) :: m ++
        [.task (.transferRet t)]) ++ [.sched (.immedRet t er)]) =
        (schedPart h ++ .transferHook t :: schedPart m) ++ .immedRet t er :: [] := by
      simp [schedPart]
    have hbk : (Sched.Spec.books (schedPart h ++ Sched.Ev.transferHook t :: schedPart m)) =
        Sched.Spec.books (schedPart (h ++ m)) := by
      rw [schedPart_append, Sched.books_append, Sched.books_append]; rfl
    rw [hs] at hreach
    have hfull := (Sched.C26_full_iff hw hreach).1 _ _ _ _ rfl
    rw [hbk] at hfull
    refine ⟨hfull.2, hfull.1, ?_⟩
    rw [schedPart_append h, hs, Sched.books_append, hbk]
    rcases hfull.2 with rfl | rfl <;> simp [Sched.Spec.track, Sched.Spec.next]
  unfold callTransfer at e2
  by_cases hc : x.world.transferHook = NULL
  · simp only [hc, ne_eq, not_true_eq_false, if_false] at e2
    cases e2
    exact ⟨[], er, NULL, by rw [hk, hc], .inl ⟨rfl, rfl⟩, by simp, finish [] (by simp)⟩
  · simp only [hc, ne_eq, not_false_eq_true, if_true] at e2
    obtain ⟨⟨mh, x3⟩, e4, e2⟩ := C.bind_eq_ok e2
    cases e2
    exact ⟨.task (.transferCalled x.world.transferHook t) :: mh ++ [.task .transferDone], er,
      x.world.transferHook, hk.symm, .inr ⟨hc, mh, _, e4, rfl⟩, by simp, finish _ (by simp)⟩

/-- `mu_sched_wait` returns NONE and has no effect: the program `q` after it does what it would have
done without it. -/
theorem C84_wait (x : Sys T) (t : Val) (q : Prog T R) :
    (∀ tr x', run cfg x q = .ok (tr, x') →
      run cfg x (.wait t q) = .ok (.sched (.waitRet t .none) :: tr, x')) ∧
    (∀ tr x', run cfg x (.wait t q) = .ok (tr, x') → ∃ tr', tr = .sched (.waitRet t .none) :: tr' ∧
      run cfg x q = .ok (tr', x')) := by
  constructor
  · intro tr x' h; simp [run, h]
  · intro tr x' h
    simp only [run] at h
    obtain ⟨⟨tr', x1⟩, e, h⟩ := C.bind_eq_ok h
    cases h
    exact ⟨tr', rfl, e⟩

/-! ## A concrete case -/

namespace Example

abbrev cfg0 := Sched.Example.cfg0

def mem : Val → Task.Task := fun t => if t = NULL then ⟨NULL, 0, 0⟩ else ⟨5, 0, 0⟩

/-- Two message queues with two places, one with one place, the others with none; queue 41 notifies task
23 of puts and task 24 of gets, queue 42 notifies task 22 of puts, queue 44 task 24 of gets. -/
def qs : Val → QConf := fun q =>
  if q = 41 then ⟨[0, 0, 7], 2, 23, 24⟩ else if q = 42 then ⟨[0, 0], 2, 22, NULL⟩
  else if q = 44 then ⟨[0], 1, NULL, 24⟩ else ⟨[], 0, NULL, NULL⟩

theorem qsWf : ∀ q, (qs q).Wf cfg0.P := by
  intro q
  unfold qs QConf.Wf
  split
  · decide
  · split
    · decide
    · split <;> decide

def boot : Sys Nat := ⟨Sched.Example.boot, ⟨mem, NULL, NULL, NULL⟩,
  fun q => Mqueue.init ⟨[], 0, 0, 0, 0, 0⟩ (qs q).storage (qs q).cap (qs q).onPut (qs q).onGet⟩

theorem isBoot : Boot cfg0 mem qs boot := ⟨Sched.Example.isBoot, rfl, fun _ => ⟨_, rfl⟩⟩

/-- A call hook that asks who is running, a transfer hook that schedules something itself, a task that
changes its state and transfers control, a nested step. -/
def prog : Prog Nat Nat :=
  .init 21 6 0 0 <| .installCall 31 <| .installTransfer 32 <| .immed 21 <|
  .step 4 (.current .done) (.setState 21 3 .done <| .transfer 22 (.immed 23 .done) .done) <|
  .step 5 (.current .done) (.wait 22 <| .step 5 .done .done .done) <|
  .setIdle 24 <| .step 5 .done .done .done

def trace : List (Ev Nat) :=
  [.task (.initRet 21 6 0 0 21), .task (.callHookRet 31), .task (.transferHookRet 32),
   .sched (.immedRet 21 .none),
   .sched .stepEnter, .sched (.clock 4), .sched (.sel .immed 21), .sched (.called 21),
   .task (.callEnter 21), .task (.hookCalled 31 21), .sched (.currentRet 21), .task .hookDone,
   .task (.fnCalled 6 21), .task (.setEnter 21 3), .task (.setRet 21 3 21),
   .sched (.transferHook 22), .task (.transferEnter 22), .task (.transferCalled 32 22),
   .sched (.immedRet 23 .none), .task .transferDone, .task (.transferRet 22),
   .sched (.immedRet 22 .none),
   .task .fnDone, .task (.callRet 21), .sched .stepRet,
   .sched .stepEnter, .sched (.clock 5), .sched (.sel .immed 23), .sched (.called 23),
   .task (.callEnter 23), .task (.hookCalled 31 23), .sched (.currentRet 23), .task .hookDone,
   .task (.fnCalled 5 23), .sched (.waitRet 22 .none),
   .sched .stepEnter, .sched (.clock 5), .sched (.sel .immed 22), .sched (.called 22),
   .task (.callEnter 22), .task (.hookCalled 31 22), .task .hookDone,
   .task (.fnCalled 5 22), .task .fnDone, .task (.callRet 22), .sched .stepRet,
   .task .fnDone, .task (.callRet 23), .sched .stepRet,
   .sched (.setIdleRet 24),
   .sched .stepEnter, .sched (.clock 5), .sched (.sel .idle 24), .sched (.called 24),
   .task (.callEnter 24), .task (.hookCalled 31 24), .task .hookDone,
   .task (.fnCalled 5 24), .task .fnDone, .task (.callRet 24), .sched .stepRet]

example : (run cfg0 boot prog).map (·.1) = .ok trace := by decide +kernel

example : schedOnly prog ∧ Sane prog ∧ ∀ t, t ≠ NULL → (mem t).fn ≠ NULL :=
  ⟨by simp [schedOnly, prog], by simp [Sane, prog, NULL], by intro t h; simp [mem, h]; decide⟩

/-- `t = 23` runs once, and the stretch of `C83_current` occurs twice. -/
example : Task.Spec.runsOf 23 (taskPart trace) = 1 ∧
    ((Sched.Spec.sels (schedPart trace)).map (·.2)).count 23 = 1 ∧
    trace = trace.take 7 ++ .sched (.called 21) :: (trace.drop 8).take 2 ++
      .sched (.currentRet 21) :: trace.drop 11 := by decide

/-- A transfer that fails, because its own hook fills the queue (two places). -/
example : (run cfg0 boot (.installTransfer 32 <| .transfer 22 (.immed 23 <| .immed 24 .done) .done)).map
    (·.1) = .ok [.task (.transferHookRet 32), .sched (.transferHook 22), .task (.transferEnter 22),
      .task (.transferCalled 32 22), .sched (.immedRet 23 .none), .sched (.immedRet 24 .none),
      .task .transferDone, .task (.transferRet 22), .sched (.immedRet 22 .full)] := by decide +kernel

end Example

end Mu.System
