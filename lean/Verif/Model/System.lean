import Verif.Model.Sched
import Verif.Model.Task
import Verif.Model.Mqueue

/-! # mu_sched.c, mu_task.c and mu_mqueue.c together

`Model/Sched.lean` treats `mu_task_call` as "the task does something", `Model/Task.lean` knows nothing
of the scheduler.  Here both modules run in one program: `mu_sched_step` calls `mu_task_call`
(mu_sched.c:127), `mu_sched_transfer` calls `mu_task_call_transfer_hook` (mu_sched.c:151), and the call
hook, the transfer hook, the set-state hook and the task functions may call any function of either
module.  The functions of the two modules are those of the two models.

Message queues are part of the program too: any number of them, each with its own object and storage,
initialised before the program starts (`mu_mqueue_init` is in `Model/Mqueue.lean`).  `mu_mqueue_put`
and `mu_mqueue_get` call `mu_task_call` on the queue's task (mu_mqueue.c:84, :116), so the call hook and
the task's function run inside them and may use everything again: other queues, the same queue, the
scheduler. -/

namespace Mu.System
open Mu

/-- The state of the modules; `queues q` is the message queue object at address `q`. -/
structure Sys (T : Type) where
  sched : Sched.Sched T
  world : Task.World
  queues : Val → Mqueue.Mqueue

/-- Events of the modules, in order of occurrence; `queue q e`: event `e` of the message queue `q`. -/
inductive Ev (T : Type) where
  | sched (e : Sched.Ev T)
  | task (e : Task.Ev)
  | queue (q : Val) (e : Mqueue.Ev)
  deriving DecidableEq

/-- The functions of mu_mqueue that call no task: mu_mqueue.c:58-72 and :96-98. -/
inductive QOp where
  | peek | reset | count | capacity | isEmpty | isFull
  deriving DecidableEq

/-- Finite trees of calls of both modules.  `step now hook body next`: `hook` is what the call hook
does, if it is called, `body` what the task function does. -/
inductive Prog (T R : Type) where
  | done
  -- mu_sched
  | step (now : T) (hook body next : Prog T R)
  | immed (t : Val) (next : Prog T R)
  | transfer (t : Val) (hook next : Prog T R)
  | fromIsr (t : Val) (next : Prog T R)
  | deferUntil (t : Val) (time : T) (next : Prog T R)
  | deferFor (t : Val) (now : T) (delay : R) (next : Prog T R)
  | remove (t : Val) (next : Prog T R)
  | reset (next : Prog T R)
  | setIdle (t : Val) (next : Prog T R)
  | getIdle (next : Prog T R)
  | current (next : Prog T R)
  | nextTask (next : Prog T R)
  | wait (t : Val) (next : Prog T R)
  -- mu_task
  | init (t fn : Val) (state : Nat) (info : Val) (next : Prog T R)
  | installCall (h : Val) (next : Prog T R)
  | installState (h : Val) (next : Prog T R)
  | installTransfer (h : Val) (next : Prog T R)
  | call (t : Val) (hook body next : Prog T R)
  | setState (t : Val) (s : Nat) (hook next : Prog T R)
  | callTransfer (t : Val) (hook next : Prog T R)
  | getFn (t : Val) (next : Prog T R)
  | getState (t : Val) (next : Prog T R)
  | getInfo (t : Val) (next : Prog T R)
  | setInfo (t u : Val) (next : Prog T R)
  -- mu_mqueue
  | qPut (q e : Val) (hook body next : Prog T R)
  | qGet (q : Val) (hook body next : Prog T R)
  | qOp (q : Val) (op : QOp) (next : Prog T R)
  deriving DecidableEq

variable {T R : Type}

/-- What user code does to both modules. -/
abbrev Act (T : Type) := Sys T → C (List (Ev T) × Sys T)

/-- `mu_task_call`, mu_task.c:72-82, with user code that may use both modules. -/
def call (x : Sys T) (t : Val) (hook body : Act T) : C (List (Ev T) × Sys T) :=
  if t ≠ NULL then do
    let (tr1, x) ←
      if x.world.callHook ≠ NULL then do
        let (tr, x') ← hook x
        .ok (.task (.hookCalled x.world.callHook t) :: tr ++ [.task .hookDone], x')
      else .ok ([], x)
    let y ← x.world.deref t
    if y.fn = NULL then .error .null
    else do
      let (tr2, x) ← body x
      .ok (.task (.callEnter t) :: tr1 ++ .task (.fnCalled y.fn t) :: tr2 ++
        [.task .fnDone, .task (.callRet t)], x)
  else .ok ([.task (.callEnter t), .task (.callRet t)], x)

/-- `mu_task_set_state`, mu_task.c:88-99. -/
def setState (x : Sys T) (t : Val) (s : Nat) (hook : Act T) : C (List (Ev T) × Sys T) :=
  if t ≠ NULL then do
    let (tr1, x) ←
      if x.world.stateHook ≠ NULL then do
        let (tr, x') ← hook x
        .ok (.task (.setHookCalled x.world.stateHook t s) :: tr ++ [.task .setHookDone], x')
      else .ok ([], x)
    let y ← x.world.deref t
    .ok (.task (.setEnter t s) :: tr1 ++ [.task (.setRet t s t)],
      { x with world := x.world.put t { y with state := s } })
  else .ok ([.task (.setEnter t s), .task (.setRet t s t)], x)

/-- `mu_task_call_transfer_hook`, mu_task.c:109-114. -/
def callTransfer (x : Sys T) (t : Val) (hook : Act T) : C (List (Ev T) × Sys T) :=
  if x.world.transferHook ≠ NULL then do
    let (tr, x') ← hook x
    .ok (.task (.transferEnter t) :: .task (.transferCalled x.world.transferHook t) :: tr ++
      [.task .transferDone, .task (.transferRet t)], x')
  else .ok ([.task (.transferEnter t), .task (.transferRet t)], x)

/-- `mu_sched_step`, mu_sched.c:105-129: the choice, `mu_task_call(curr_task)`, `curr_task = NULL`. -/
def step (cfg : Sched.Cfg T R) (now : T) (hook body : Act T) (x : Sys T) :
    C (List (Ev T) × Sys T) := do
  let (evs, s) ← Sched.select cfg now x.sched
  let (tr, x) ← call { x with sched := s } s.curr hook body
  .ok (.sched .stepEnter :: evs.map .sched ++
    (if s.curr ≠ NULL then [.sched (.called s.curr)] else []) ++ tr ++ [.sched .stepRet],
    { x with sched := { x.sched with curr := NULL } })

/-- `mu_sched_transfer`, mu_sched.c:150-153. -/
def transfer (cfg : Sched.Cfg T R) (t : Val) (hook : Act T) (x : Sys T) :
    C (List (Ev T) × Sys T) := do
  let (tr, x) ← callTransfer x t hook
  let (e, s) ← Sched.immed cfg x.sched t
  .ok (.sched (.transferHook t) :: tr ++ [.sched (.immedRet t e)], { x with sched := s })

/-- The object at `q` becomes `m`. -/
def Sys.putQ (x : Sys T) (q : Val) (m : Mqueue.Mqueue) : Sys T :=
  { x with queues := fun r => if r = q then m else x.queues r }

/-- `mqueue->…`: the object at `q`. -/
def Sys.derefQ (x : Sys T) (q : Val) : C Mqueue.Mqueue :=
  if q = NULL then .error .null else .ok (x.queues q)

/-- `mu_mqueue_put`, mu_mqueue.c:74-90, with user code that may use all modules. -/
def qPut (P : Plat) (x : Sys T) (q e : Val) (hook body : Act T) : C (List (Ev T) × Sys T) := do
  let m ← x.derefQ q
  if Mqueue.isFull m = false then do
    let storage ← stN m.storage m.index e
    let index ← if m.capacity = 0 then .error .divZero else .ok (P.sz (m.index + 1) % m.capacity)
    let x := x.putQ q { m with storage := storage, index := index, count := P.sz (m.count + 1) }
    if m.onPut ≠ NULL then do
      let (tr, x) ← call x m.onPut hook body
      .ok (.queue q (.stored e) :: .queue q (.called m.onPut) :: tr ++ [.queue q (.putRet e true)], x)
    else .ok ([.queue q (.stored e), .queue q (.putRet e true)], x)
  else .ok ([.queue q (.putRet e false)], x)

/-- `mu_mqueue_get`, mu_mqueue.c:92-94 and `access_queue(…, true)`, :103-123. -/
def qGet (P : Plat) (x : Sys T) (q : Val) (hook body : Act T) : C (List (Ev T) × Sys T) := do
  let m ← x.derefQ q
  if Mqueue.isEmpty m = false then do
    let idx := P.szSub (P.sz (m.capacity + m.index)) m.count
    let idx := if idx ≥ m.capacity then P.szSub idx m.capacity else idx
    let element ← ldN m.storage idx
    let x := x.putQ q { m with count := P.szSub m.count 1 }
    if m.onGet ≠ NULL then do
      let (tr, x) ← call x m.onGet hook body
      .ok (.queue q (.fetched element) :: .queue q (.called m.onGet) :: tr ++
        [.queue q (.getRet true element)], x)
    else .ok ([.queue q (.fetched element), .queue q (.getRet true element)], x)
  else .ok ([.queue q (.getRet false NULL)], x)

/-- The functions that call no task, as in `Mqueue.run`. -/
def qOp (P : Plat) (m : Mqueue.Mqueue) : QOp → C (Mqueue.Ev × Mqueue.Mqueue)
  | .peek => do
    let (b, v, _, m) ← Mqueue.accessQueue P (fun m => .ok ([], m)) m false
    .ok (.peekRet b v, m)
  | .reset => .ok (.resetRet, Mqueue.reset m)
  | .count => .ok (.countRet (Mqueue.count m), m)
  | .capacity => .ok (.capacityRet (Mqueue.capacity m), m)
  | .isEmpty => .ok (.emptyRet (Mqueue.isEmpty m), m)
  | .isFull => .ok (.fullRet (Mqueue.isFull m), m)

/-- Execution of a tree of calls; in place as in `Sched.run` and `Task.run`. -/
def run (cfg : Sched.Cfg T R) (x : Sys T) : Prog T R → C (List (Ev T) × Sys T)
  | .done => .ok ([], x)
  | .step now hook body next => do
    let (tr1, x) ← step cfg now (fun x => run cfg x hook) (fun x => run cfg x body) x
    let (tr2, x) ← run cfg x next
    .ok (tr1 ++ tr2, x)
  | .immed t next => do
    let (e, s) ← Sched.immed cfg x.sched t
    let (tr, x) ← run cfg { x with sched := s } next
    .ok (.sched (.immedRet t e) :: tr, x)
  | .transfer t hook next => do
    let (tr1, x) ← transfer cfg t (fun x => run cfg x hook) x
    let (tr2, x) ← run cfg x next
    .ok (tr1 ++ tr2, x)
  | .fromIsr t next => do
    let (e, s) ← Sched.fromIsr x.sched t
    let (tr, x) ← run cfg { x with sched := s } next
    .ok (.sched (.isrRet t e) :: tr, x)
  | .deferUntil t time next => do
    let (e, s) ← Sched.deferAux cfg x.sched t time
    let (tr, x) ← run cfg { x with sched := s } next
    .ok (.sched (.deferRet t time e) :: tr, x)
  | .deferFor t now delay next => do
    let time := cfg.offset now delay
    let (e, s) ← Sched.deferAux cfg x.sched t time
    let (tr, x) ← run cfg { x with sched := s } next
    .ok (.sched (.clock now) :: .sched (.deferRet t time e) :: tr, x)
  | .remove t next => do
    let (e, s) ← Sched.remove cfg x.sched t
    let (tr, x) ← run cfg { x with sched := s } next
    .ok (.sched (.removeRet t e) :: tr, x)
  | .reset next => do
    let (tr, x) ← run cfg { x with sched := Sched.reset x.sched } next
    .ok (.sched .resetRet :: tr, x)
  | .setIdle t next => do
    let (tr, x) ← run cfg { x with sched := { x.sched with idle := t } } next
    .ok (.sched (.setIdleRet t) :: tr, x)
  | .getIdle next => do
    let (tr, x') ← run cfg x next
    .ok (.sched (.getIdleRet x.sched.idle) :: tr, x')
  | .current next => do
    let (tr, x') ← run cfg x next
    .ok (.sched (.currentRet x.sched.curr) :: tr, x')
  | .nextTask next => do
    let v ← Sched.nextTask cfg x.sched
    let (tr, x) ← run cfg x next
    .ok (.sched (.nextRet v) :: tr, x)
  | .wait t next => do
    let (tr, x) ← run cfg x next
    .ok (.sched (.waitRet t .none) :: tr, x)
  | .init t fn state info next => do
    let w ← Task.init x.world t fn state info
    let (tr, x) ← run cfg { x with world := w } next
    .ok (.task (.initRet t fn state info t) :: tr, x)
  | .installCall h next => do
    let (tr, x) ← run cfg { x with world := { x.world with callHook := h } } next
    .ok (.task (.callHookRet h) :: tr, x)
  | .installState h next => do
    let (tr, x) ← run cfg { x with world := { x.world with stateHook := h } } next
    .ok (.task (.stateHookRet h) :: tr, x)
  | .installTransfer h next => do
    let (tr, x) ← run cfg { x with world := { x.world with transferHook := h } } next
    .ok (.task (.transferHookRet h) :: tr, x)
  | .call t hook body next => do
    let (tr1, x) ← call x t (fun x => run cfg x hook) (fun x => run cfg x body)
    let (tr2, x) ← run cfg x next
    .ok (tr1 ++ tr2, x)
  | .setState t s hook next => do
    let (tr1, x) ← setState x t s (fun x => run cfg x hook)
    let (tr2, x) ← run cfg x next
    .ok (tr1 ++ tr2, x)
  | .callTransfer t hook next => do
    let (tr1, x) ← callTransfer x t (fun x => run cfg x hook)
    let (tr2, x) ← run cfg x next
    .ok (tr1 ++ tr2, x)
  | .getFn t next => do
    let y ← x.world.deref t
    let (tr, x) ← run cfg x next
    .ok (.task (.getFnRet t y.fn) :: tr, x)
  | .getState t next => do
    let y ← x.world.deref t
    let (tr, x) ← run cfg x next
    .ok (.task (.getStateRet t y.state) :: tr, x)
  | .getInfo t next => do
    let y ← x.world.deref t
    let (tr, x) ← run cfg x next
    .ok (.task (.getInfoRet t y.info) :: tr, x)
  | .setInfo t u next => do
    let y ← x.world.deref t
    let (tr, x) ← run cfg { x with world := x.world.put t { y with info := u } } next
    .ok (.task (.setInfoRet t u) :: tr, x)
  | .qPut q e hook body next => do
    let (tr1, x) ← qPut cfg.P x q e (fun x => run cfg x hook) (fun x => run cfg x body)
    let (tr2, x) ← run cfg x next
    .ok (tr1 ++ tr2, x)
  | .qGet q hook body next => do
    let (tr1, x) ← qGet cfg.P x q (fun x => run cfg x hook) (fun x => run cfg x body)
    let (tr2, x) ← run cfg x next
    .ok (tr1 ++ tr2, x)
  | .qOp q op next => do
    let m ← x.derefQ q
    let (e, m) ← qOp cfg.P m op
    let (tr, x) ← run cfg (x.putQ q m) next
    .ok (.queue q e :: tr, x)

end Mu.System
