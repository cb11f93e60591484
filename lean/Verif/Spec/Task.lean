import Verif.Model.Task

/-! # Specification of the task module: a monitor of event traces -/

namespace Mu.Task.Spec
open Mu.Task

/-- Where a call in progress is. -/
inductive Phase where
  /-- `mu_task_call(t)`: entered; in the hook; hook returned; in the function; function returned -/
  | entered (t : Val)
  | hooking (t : Val)
  | hooked (t : Val)
  | running (t : Val)
  | ran (t : Val)
  /-- `mu_task_set_state(t, s)`: entered; in the hook; hook returned -/
  | setting (t : Val) (s : Nat)
  | setHooking (t : Val) (s : Nat)
  | setHooked (t : Val) (s : Nat)
  /-- `mu_task_call_transfer_hook(t)`: entered; in the hook; hook returned -/
  | transferring (t : Val)
  | transHooking (t : Val)
  | transHooked (t : Val)
  deriving DecidableEq

/-- The observer's books: what each task was given last, the hooks installed last, the calls in
progress (innermost first). -/
structure St where
  task : Val → Task
  stateHook : Val
  callHook : Val
  transferHook : Val
  stack : List Phase

/-- User code is running: the main program, a hook or a task function. -/
def userCode : List Phase → Prop
  | [] => True
  | .hooking _ :: _ | .running _ :: _ | .setHooking _ _ :: _ | .transHooking _ :: _ => True
  | _ => False

/-- The innermost call is now in phase `p`. -/
def St.top (σ : St) (p : Phase) : St := { σ with stack := p :: σ.stack.tail }

def upd (f : Val → Task) (t : Val) (x : Task) : Val → Task := fun u => if u = t then x else f u

/-- Bookkeeping. -/
def next (σ : St) : Ev → St
  | .initRet t fn state info _ => { σ with task := upd σ.task t ⟨fn, state, info⟩ }
  | .callHookRet h => { σ with callHook := h }
  | .stateHookRet h => { σ with stateHook := h }
  | .transferHookRet h => { σ with transferHook := h }
  | .callEnter t => { σ with stack := .entered t :: σ.stack }
  | .hookCalled _ t => σ.top (.hooking t)
  | .hookDone => match σ.stack with
    | .hooking t :: _ => σ.top (.hooked t)
    | _ => σ
  | .fnCalled _ t => σ.top (.running t)
  | .fnDone => match σ.stack with
    | .running t :: _ => σ.top (.ran t)
    | _ => σ
  | .callRet _ => { σ with stack := σ.stack.tail }
  | .setEnter t s => { σ with stack := .setting t s :: σ.stack }
  | .setHookCalled _ t s => σ.top (.setHooking t s)
  | .setHookDone => match σ.stack with
    | .setHooking t s :: _ => σ.top (.setHooked t s)
    | _ => σ
  | .setRet t s _ =>
    { σ with stack := σ.stack.tail
             task := if t = NULL then σ.task else upd σ.task t { σ.task t with state := s } }
  | .transferEnter t => { σ with stack := .transferring t :: σ.stack }
  | .transferCalled _ t => σ.top (.transHooking t)
  | .transferDone => match σ.stack with
    | .transHooking t :: _ => σ.top (.transHooked t)
    | _ => σ
  | .transferRet _ => { σ with stack := σ.stack.tail }
  | .getFnRet _ _ | .getStateRet _ _ | .getInfoRet _ _ => σ
  | .setInfoRet t u => { σ with task := upd σ.task t { σ.task t with info := u } }

/-- Which events may happen next. -/
def legal (σ : St) : Ev → Prop
  | .initRet t _ _ _ r => userCode σ.stack ∧ t ≠ NULL ∧ r = t
  | .callHookRet _ | .stateHookRet _ | .transferHookRet _ => userCode σ.stack
  | .callEnter _ | .setEnter _ _ | .transferEnter _ => userCode σ.stack
  -- the call hook: the one installed last, with the task, as the first thing
  | .hookCalled h t => t ≠ NULL ∧ σ.stack.head? = some (.entered t) ∧ h = σ.callHook ∧ h ≠ NULL
  | .hookDone => ∃ t, σ.stack.head? = some (.hooking t)
  -- the function: the task's present one, with the task, once, after the hook if there is one
  | .fnCalled f t => t ≠ NULL ∧ f = (σ.task t).fn ∧
      (σ.stack.head? = some (.hooked t) ∨
        (σ.stack.head? = some (.entered t) ∧ σ.callHook = NULL))
  | .fnDone => ∃ t, σ.stack.head? = some (.running t)
  -- the return: once the function has returned; immediately for NULL
  | .callRet t => (t ≠ NULL ∧ σ.stack.head? = some (.ran t)) ∨
      (t = NULL ∧ σ.stack.head? = some (.entered NULL))
  | .setHookCalled h t s =>
      t ≠ NULL ∧ σ.stack.head? = some (.setting t s) ∧ h = σ.stateHook ∧ h ≠ NULL
  | .setHookDone => ∃ t s, σ.stack.head? = some (.setHooking t s)
  | .setRet t s r => r = t ∧
      ((t = NULL ∧ σ.stack.head? = some (.setting NULL s)) ∨
       (t ≠ NULL ∧ (σ.stack.head? = some (.setHooked t s) ∨
        (σ.stack.head? = some (.setting t s) ∧ σ.stateHook = NULL))))
  | .transferCalled h t =>
      σ.stack.head? = some (.transferring t) ∧ h = σ.transferHook ∧ h ≠ NULL
  | .transferDone => ∃ t, σ.stack.head? = some (.transHooking t)
  | .transferRet t => σ.stack.head? = some (.transHooked t) ∨
      (σ.stack.head? = some (.transferring t) ∧ σ.transferHook = NULL)
  | .getFnRet t f => userCode σ.stack ∧ t ≠ NULL ∧ f = (σ.task t).fn
  | .getStateRet t s => userCode σ.stack ∧ t ≠ NULL ∧ s = (σ.task t).state
  | .getInfoRet t u => userCode σ.stack ∧ t ≠ NULL ∧ u = (σ.task t).info
  | .setInfoRet t _ => userCode σ.stack ∧ t ≠ NULL

/-- Every event of the trace is legal at its point. -/
def Conforms : St → List Ev → Prop
  | _, [] => True
  | σ, e :: tr => legal σ e ∧ Conforms (next σ e) tr

def track (σ : St) (tr : List Ev) : St := tr.foldl next σ

/-- The books at program start: the task objects hold whatever memory holds, no hook is installed
(static initialisers, mu_task.c:42-46). -/
def St.start (mem : Val → Task) : St := ⟨mem, NULL, NULL, NULL, []⟩

/-- A program that keeps the rules: no access through a NULL task pointer (other than
`mu_task_call` and `mu_task_set_state`, which allow it), no task without a function. -/
def Sane : Prog → Prop
  | .done => True
  | .init t fn _ _ next => t ≠ NULL ∧ fn ≠ NULL ∧ Sane next
  | .installCall _ next | .installState _ next | .installTransfer _ next => Sane next
  | .call _ hook body next => Sane hook ∧ Sane body ∧ Sane next
  | .setState _ _ hook next => Sane hook ∧ Sane next
  | .transfer _ hook next => Sane hook ∧ Sane next
  | .getFn t next | .getState t next | .getInfo t next => t ≠ NULL ∧ Sane next
  | .setInfo t _ next => t ≠ NULL ∧ Sane next

/-- How often `mu_task_call` was entered with a task that is not NULL, how often a task function was
called, how often a set-state hook was called (in a trace). -/
def callsOf (t : Val) (tr : List Ev) : Nat := tr.countP fun | .callEnter u => u == t | _ => false
def runsOf (t : Val) (tr : List Ev) : Nat := tr.countP fun | .fnCalled _ u => u == t | _ => false

/-- A trace without a call of the set-state hook. -/
def noSetHook (tr : List Ev) : Prop := ∀ e ∈ tr, ∀ h t s, e ≠ .setHookCalled h t s

end Mu.Task.Spec
