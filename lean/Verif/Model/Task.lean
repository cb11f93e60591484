import Verif.C.Basic
import Verif.C.Val

/-! # Model of /repo/mulib/mu_task.c

Task functions and hooks are user code: what they do to the task module is an arbitrary finite tree
of API calls (`Prog`). -/

namespace Mu.Task

/-- `mu_task_t`, mu_task.h:65-69. -/
structure Task where
  fn : Val
  state : Nat
  info : Val
  deriving DecidableEq

/-- The three hook variables, mu_task.c:42-46, and all task objects, by address. -/
structure World where
  task : Val → Task
  stateHook : Val
  callHook : Val
  transferHook : Val

/-- Events in order of occurrence: calls of user code with their arguments, and calls of and returns
from the API functions. -/
inductive Ev where
  | initRet (t fn : Val) (state : Nat) (info r : Val)
  | callHookRet (h : Val)
  | stateHookRet (h : Val)
  | transferHookRet (h : Val)
  /-- `mu_task_call(t)` entered -/
  | callEnter (t : Val)
  /-- the call hook `h` called with `t` -/
  | hookCalled (h t : Val)
  | hookDone
  /-- the function `f` called with `t` -/
  | fnCalled (f t : Val)
  | fnDone
  | callRet (t : Val)
  /-- `mu_task_set_state(t, s)` entered -/
  | setEnter (t : Val) (s : Nat)
  /-- the set-state hook `h` called with `t`, `s` -/
  | setHookCalled (h t : Val) (s : Nat)
  | setHookDone
  /-- returned `r` -/
  | setRet (t : Val) (s : Nat) (r : Val)
  | transferEnter (t : Val)
  | transferCalled (h t : Val)
  | transferDone
  | transferRet (t : Val)
  | getFnRet (t f : Val)
  | getStateRet (t : Val) (s : Nat)
  | getInfoRet (t u : Val)
  | setInfoRet (t u : Val)
  deriving DecidableEq

/-- Finite trees of API calls.  The bodies are what the hook or task function does if it is
called. -/
inductive Prog where
  | done
  | init (t fn : Val) (state : Nat) (info : Val) (next : Prog)
  | installCall (h : Val) (next : Prog)
  | installState (h : Val) (next : Prog)
  | installTransfer (h : Val) (next : Prog)
  | call (t : Val) (hook body next : Prog)
  | setState (t : Val) (s : Nat) (hook next : Prog)
  | transfer (t : Val) (hook next : Prog)
  | getFn (t : Val) (next : Prog)
  | getState (t : Val) (next : Prog)
  | getInfo (t : Val) (next : Prog)
  | setInfo (t u : Val) (next : Prog)
  deriving DecidableEq

/-- Assignment to a task object. -/
def World.put (w : World) (t : Val) (x : Task) : World :=
  { w with task := fun u => if u = t then x else w.task u }

/-- `t->...`. -/
def World.deref (w : World) (t : Val) : C Task :=
  if t = NULL then .error .null else .ok (w.task t)

/-- `mu_task_init`, mu_task.c:51-58. -/
def init (w : World) (t fn : Val) (state : Nat) (info : Val) : C World := do
  let _ ← w.deref t
  .ok (w.put t ⟨fn, state, info⟩)

/-- `mu_task_call`, mu_task.c:72-82; `hook` and `body` are what the call hook and the task function
do. -/
def call (w : World) (t : Val) (hook body : World → C (List Ev × World)) :
    C (List Ev × World) :=
  if t ≠ NULL then do
    let (tr1, w) ←
      if w.callHook ≠ NULL then do
        let (tr, w') ← hook w
        .ok (.hookCalled w.callHook t :: tr ++ [.hookDone], w')
      else .ok ([], w)
    let x ← w.deref t
    if x.fn = NULL then .error .null
    else do
      let (tr2, w) ← body w
      .ok (.callEnter t :: tr1 ++ .fnCalled x.fn t :: tr2 ++ [.fnDone, .callRet t], w)
  else .ok ([.callEnter t, .callRet t], w)

/-- `mu_task_set_state`, mu_task.c:88-99. -/
def setState (w : World) (t : Val) (s : Nat) (hook : World → C (List Ev × World)) :
    C (List Ev × World) :=
  if t ≠ NULL then do
    let (tr1, w) ←
      if w.stateHook ≠ NULL then do
        let (tr, w') ← hook w
        .ok (.setHookCalled w.stateHook t s :: tr ++ [.setHookDone], w')
      else .ok ([], w)
    let x ← w.deref t
    .ok (.setEnter t s :: tr1 ++ [.setRet t s t], w.put t { x with state := s })
  else .ok ([.setEnter t s, .setRet t s t], w)

/-- `mu_task_call_transfer_hook`, mu_task.c:109-114. -/
def transfer (w : World) (t : Val) (hook : World → C (List Ev × World)) : C (List Ev × World) :=
  if w.transferHook ≠ NULL then do
    let (tr, w') ← hook w
    .ok (.transferEnter t :: .transferCalled w.transferHook t :: tr ++
      [.transferDone, .transferRet t], w')
  else .ok ([.transferEnter t, .transferRet t], w)

/-- Execution of a tree of calls.  In place: `mu_task_install_call_hook`,
`mu_task_install_set_state_hook`, `mu_task_install_transfer_hook`, mu_task.c:60-70;
`mu_task_get_fn`, mu_task.c:84; `mu_task_get_state`, mu_task.c:86; `mu_task_get_user_info`,
mu_task.c:101-103; `mu_task_set_user_info`, mu_task.c:105-107. -/
def run (w : World) : Prog → C (List Ev × World)
  | .done => .ok ([], w)
  | .init t fn state info next => do
    let w ← init w t fn state info
    let (tr, w) ← run w next
    .ok (.initRet t fn state info t :: tr, w)
  | .installCall h next => do
    let (tr, w) ← run { w with callHook := h } next
    .ok (.callHookRet h :: tr, w)
  | .installState h next => do
    let (tr, w) ← run { w with stateHook := h } next
    .ok (.stateHookRet h :: tr, w)
  | .installTransfer h next => do
    let (tr, w) ← run { w with transferHook := h } next
    .ok (.transferHookRet h :: tr, w)
  | .call t hook body next => do
    let (tr1, w) ← call w t (fun w => run w hook) (fun w => run w body)
    let (tr2, w) ← run w next
    .ok (tr1 ++ tr2, w)
  | .setState t s hook next => do
    let (tr1, w) ← setState w t s (fun w => run w hook)
    let (tr2, w) ← run w next
    .ok (tr1 ++ tr2, w)
  | .transfer t hook next => do
    let (tr1, w) ← transfer w t (fun w => run w hook)
    let (tr2, w) ← run w next
    .ok (tr1 ++ tr2, w)
  | .getFn t next => do
    let x ← w.deref t
    let (tr, w) ← run w next
    .ok (.getFnRet t x.fn :: tr, w)
  | .getState t next => do
    let x ← w.deref t
    let (tr, w) ← run w next
    .ok (.getStateRet t x.state :: tr, w)
  | .getInfo t next => do
    let x ← w.deref t
    let (tr, w) ← run w next
    .ok (.getInfoRet t x.info :: tr, w)
  | .setInfo t u next => do
    let x ← w.deref t
    let (tr, w) ← run (w.put t { x with info := u }) next
    .ok (.setInfoRet t u :: tr, w)

end Mu.Task
