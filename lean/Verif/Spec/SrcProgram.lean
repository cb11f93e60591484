import Verif.Spec.SrcSched
import Verif.Spec.SrcFuel
import Verif.Src.Prog

/-! # Programs around the scheduler, for the parsed source

User code - the main program and the functions of the tasks - is arbitrary, except that it touches the variables of the
library only through the functions of the library, and that it keeps a log, in its own memory: of every call it makes, of
every task function that is entered, and of every reading of the clock.  `replay` says which logs are right. -/

namespace Mu.CS

/-- The functions of the scheduler that do not call user code. -/
inductive Req where
  | immed (t : CVal)
  | transfer (t : CVal)
  | fromIsr (t : CVal)
  | deferUntil (t time : CVal)
  | deferFor (t delay : CVal)
  | remove (t : CVal)
  | reset
  | setIdle (t : CVal)
  | getIdle
  | current
  | next
  | wait (t : CVal)
  deriving DecidableEq

/-- The call. -/
def Req.call (S : Fn → SemFn) (h : Heap) : Req → C (CVal × Heap)
  | .immed t => S .mu_sched_immed h [t]
  | .transfer t => S .mu_sched_transfer h [t]
  | .fromIsr t => S .mu_sched_from_isr h [t]
  | .deferUntil t time => S .mu_sched_defer_until h [t, time]
  | .deferFor t delay => S .mu_sched_defer_for h [t, delay]
  | .remove t => S .mu_sched_remove_deferred_task h [t]
  | .reset => S .mu_sched_reset h []
  | .setIdle t => S .mu_sched_set_idle_task h [t]
  | .getIdle => S .mu_sched_get_idle_task h []
  | .current => S .mu_sched_current_task h []
  | .next => S .mu_sched_next_task h []
  | .wait t => S .mu_sched_wait h [t]

/-- No argument is indeterminate. -/
def Req.Defined : Req → Prop
  | .immed t | .transfer t | .fromIsr t | .remove t | .setIdle t | .wait t => t ≠ .undef
  | .deferUntil t x | .deferFor t x => t ≠ .undef ∧ x ≠ .undef
  | _ => True

/-- What the call answers and makes of the agenda; `clock` is the last reading of the clock. -/
def Req.answer (prec : CVal → CVal → Bool) (off : CVal → CVal → CVal) (clock : CVal) (σ : Agenda) : Req → CVal × Agenda
  | .immed t | .transfer t => ((σ.schedule t).1.val, (σ.schedule t).2)
  | .fromIsr t => ((σ.interrupt t).1.val, (σ.interrupt t).2)
  | .deferUntil t time => ((σ.defer prec t time).1.val, (σ.defer prec t time).2)
  | .deferFor t delay => ((σ.defer prec t (off clock delay)).1.val, (σ.defer prec t (off clock delay)).2)
  | .remove t => ((σ.cancel t).1.val, (σ.cancel t).2)
  | .reset => (.undef, σ.reset)
  | .setIdle t => (.undef, { σ with idle := t })
  | .getIdle => (σ.idle, σ)
  | .current => (σ.cur, σ)
  | .next => (σ.next, σ)
  | .wait _ => (SErr.val .none, σ)

/-- Entries of the log. -/
inductive Seen where
  | did (c : Req) (r : CVal)
  | clock (now : CVal)
  | step
  /-- a task function is entered -/
  | called (t : CVal)
  | stepped
  /-- the call hook is entered, a task is about to be called -/
  | hooked (t : CVal)
  /-- the transfer hook is entered -/
  | transferring (t : CVal)
  deriving DecidableEq

/-- How far a `mu_sched_step` has come: looking for a task, about to call one (NULL: none), or running it. -/
inductive Phase where
  | looking
  | chosen (t : CVal)
  | running
  deriving DecidableEq

/-- The agenda, the steps that have not returned yet, innermost first, and the last reading of the clock. -/
structure Replay where
  σ : Agenda
  steps : List Phase
  clock : CVal
  deriving DecidableEq

/-- Right after `mu_sched_init`. -/
def Replay.start : Replay := ⟨⟨[], [], [], .null, .null⟩, [], .undef⟩

/-- User code is running. -/
def Replay.user (s : Replay) : Bool := s.steps = [] || s.steps.head? = some .running

/-- The next entry of a log: `none` if it is not what the library must do. -/
def Replay.see (prec : CVal → CVal → Bool) (off : CVal → CVal → CVal) (s : Replay) : Seen → Option Replay
  | .did c r =>
    if s.user && r = (c.answer prec off s.clock s.σ).1 then some { s with σ := (c.answer prec off s.clock s.σ).2 } else none
  | .clock now =>
    match s.steps with
    | .looking :: l =>
      some ⟨s.σ.choose prec now, .chosen (s.σ.choose prec now).cur :: l, now⟩
    | _ => if s.user then some { s with clock := now } else none
  | .step =>
    if s.user then
      match s.σ.irq with
      | t :: l => some { s with σ := { s.σ with irq := l, cur := t }, steps := .chosen t :: s.steps }
      | [] => some { s with steps := .looking :: s.steps }
    else none
  | .called t =>
    match s.steps with
    | .chosen u :: l => if u = t && t ≠ .null then some { s with steps := .running :: l } else none
    | _ => none
  | .stepped =>
    match s.steps with
    | .chosen .null :: l | .running :: l => some { s with σ := { s.σ with cur := .null }, steps := l }
    | _ => none
  | .hooked _ | .transferring _ => none

/-- A whole log. -/
def replay (prec : CVal → CVal → Bool) (off : CVal → CVal → CVal) : Replay → List Seen → Option Replay
  | s, [] => some s
  | s, e :: l =>
    match s.see prec off e with
    | some s => replay prec off s l
    | none => none

/-- The log, as a function of memory, and a property of the user's memory that user code maintains. -/
structure User where
  log : Heap → List Seen
  inv : Heap → Prop

/-- Memory that is not the scheduler's and holds no hook the scheduler uses. -/
def Free (b : Base) : Prop := ¬ SchedVar b ∧ b ≠ .glob .s_call_hook ∧ b ≠ .glob .s_transfer_hook

/-- User code changes its own memory, and adds `es` to the log. -/
structure User.Adds (U : User) (es : List Seen) (h h' : Heap) : Prop where
  only : Heap.Only (fun b _ => Free b) h h'
  inv : U.inv h'
  log : U.log h' = U.log h ++ es

/-- What user code does from memory `h` to memory `h'`, `S` being the library: changes of its own memory, calls of the
scheduler, each entered in the log, in any number and order. -/
inductive UserRun (S : Fn → SemFn) (U : User) : Heap → Heap → Prop
  | done (h : Heap) : UserRun S U h h
  | own {h h1 h2 : Heap} : U.Adds [] h h1 → UserRun S U h1 h2 → UserRun S U h h2
  | call {h h1 h2 h3 : Heap} {r : CVal} (c : Req) : c.Defined → c.call S h = .ok (r, h1) → U.Adds [.did c r] h1 h2 →
      UserRun S U h2 h3 → UserRun S U h h3
  | step {h h1 h2 h3 h4 : Heap} {r : CVal} : U.Adds [.step] h h1 → S .mu_sched_step h1 [] = .ok (r, h2) →
      U.Adds [.stepped] h2 h3 → UserRun S U h3 h4 → UserRun S U h h4

/-- The user's side: the library's variables are not where the log is; every user function is the function of a task, notes
that it has been called, and then does what user code does; the clock notes every reading. -/
structure Honest (A : Arch) (X : Ext) (U : User) (prec : CVal → CVal → Bool) (off : CVal → CVal → CVal) : Prop where
  clock : Clock X prec off
  mono : X.Monotone
  frame : ∀ h h', Heap.Only (fun b _ => SchedVar b) h h' → U.inv h → U.inv h' ∧ U.log h' = U.log h
  task : ∀ n f h args v h', U.inv h → X.cb (sem A X prog n) f h args = .ok (v, h') →
    ∃ t h1, args = [t] ∧ U.Adds [.called t] h h1 ∧ UserRun (sem A X prog n) U h1 h'
  reads : ∀ h now h', U.inv h → X.fn .mu_time_now h [] = .ok (now, h') → U.Adds [.clock now] h h'

/-- The platform of `X`, and user functions that stop the program: with a division by zero if it is function `f` that is called, in
memory `h`, with `args`, and as if they never returned otherwise. -/
noncomputable def Ext.probe (X : Ext) (f : Nat) (h : Heap) (args : List CVal) : Ext where
  fn := X.fn
  cb _ f' h' args' := open Classical in if f' = f ∧ h' = h ∧ args' = args then .error .divZero else .error .diverge

/-- The first user function that `mu_sched_step`, called in memory `h`, calls is `f`, in memory `h'`, with `args`. -/
def StepCalls (A : Arch) (X : Ext) (h : Heap) (f : Nat) (h' : Heap) (args : List CVal) : Prop :=
  ∃ n, sem A (X.probe f h' args) prog n .mu_sched_step h [] = .error .divZero

/-- The moments at which user code runs: after `mu_sched_init`; after anything user code has done; and in a task, which notes
that it has been called. -/
inductive Moment (A : Arch) (X : Ext) (U : User) : Heap → Prop
  | init {h h1 : Heap} {n : Nat} {r : CVal} : h.SchedVars → U.inv h → U.log h = [] → h.at (.glob .s_call_hook) 0 = some .null →
      h.at (.glob .s_transfer_hook) 0 = some .null → sem A X prog n .mu_sched_init h [] = .ok (r, h1) → Moment A X U h1
  | run {h h1 : Heap} {n : Nat} : Moment A X U h → UserRun (sem A X prog n) U h h1 → Moment A X U h1
  | task {h h1 h2 h3 : Heap} {f : Nat} {t : CVal} : Moment A X U h → U.Adds [.step] h h1 → StepCalls A X h1 f h2 [t] →
      U.Adds [.called t] h2 h3 → Moment A X U h3

/-- The entry says that `t` has been scheduled, in whatever way, with success. -/
def Seen.scheduled (t : CVal) : Seen → Bool
  | .did (.immed u) r | .did (.transfer u) r | .did (.fromIsr u) r | .did (.deferUntil u _) r | .did (.deferFor u _) r =>
    u = t && r = SErr.val .none
  | _ => false

/-- The entry says that tasks have been taken off the agenda, `t` possibly among them. -/
def Seen.dropped (t : CVal) : Seen → Bool
  | .did .reset _ => true
  | .did (.remove u) _ => u = t
  | _ => false

/-- How often `t` is on the agenda. -/
def Agenda.waiting (σ : Agenda) (t : CVal) : Nat :=
  σ.irq.count t + σ.due.countP (fun d => d.task = t) + σ.immed.count t

end Mu.CS
