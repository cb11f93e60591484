import Verif.Model.Queue
import Verif.Model.Spsc

/-! # Model of /repo/mulib/mu_sched.c

The scheduler calls user tasks; what a task does to the scheduler (schedule, cancel, reset, even
step again) is an arbitrary finite sequence of API calls, some of which run further tasks: `Prog`.
In any one execution the calls made form one such tree, and the theorems quantify over all trees.
The clock is an input: each step or `defer_for` carries the reading `mu_time_now()` returns in it.
The time type and `mu_time_precedes`/`mu_time_offset` are parameters, as in mu_platform.h. -/

namespace Mu.Sched

/-- The platform's clock arithmetic (mu_platform.h:117,141) and the compile-time configuration
(mu_sched.h:102-112). -/
structure Cfg (T R : Type) where
  P : Plat
  precedes : T → T → Bool
  offset : T → R → T
  maxIrq : Nat
  maxImmed : Nat
  maxDeferred : Nat

/-- `deferred_task_t`, mu_sched.c:47-50. -/
structure Entry (T : Type) where
  time : T
  task : Val
  deriving DecidableEq

/-- `mu_sched_t` with the static arrays, mu_sched.c:52-58,81-84.  (`s_irq_store` and
`s_immed_store` are the storage objects of the two queues.) -/
structure Sched (T : Type) where
  irq : Spsc.Spsc
  immed : Queue.Queue
  deferred : List (Entry T)
  count : Nat
  curr : Val
  idle : Val
  deriving DecidableEq

/-- `mu_sched_err_t`, mu_sched.h:114-118. -/
inductive Err where
  | none
  | full
  | notFound
  deriving DecidableEq

/-- Where `mu_sched_step` found a task. -/
inductive Src (T : Type) where
  | irq
  | deferred (time : T)
  | immed
  | idle
  deriving DecidableEq

/-- Events, in order of occurrence.  `stepEnter`/`stepRet` bracket a call of `mu_sched_step`;
`clock` is a call of `mu_time_now`; `sel src t` is the instant at which the step takes `t` out of a
queue (or decides for the idle task); `called t` is `mu_task_call(t)` of a task that is not NULL;
the others are returns of the API calls, with arguments and results. -/
inductive Ev (T : Type) where
  | stepEnter
  | clock (now : T)
  | sel (src : Src T) (t : Val)
  | called (t : Val)
  | stepRet
  | immedRet (t : Val) (e : Err)
  | transferHook (t : Val)
  | isrRet (t : Val) (e : Err)
  | deferRet (t : Val) (time : T) (e : Err)
  | removeRet (t : Val) (e : Err)
  | resetRet
  | setIdleRet (t : Val)
  | getIdleRet (t : Val)
  | currentRet (t : Val)
  | nextRet (t : Val)
  | waitRet (t : Val) (e : Err)
  deriving DecidableEq

variable {T R : Type}

/-- `mu_sched_init`, mu_sched.c:89-96.  The three lists are the present contents of the static
arrays.  The result of `mu_spsc_init` is ignored, as in the code. -/
def init (cfg : Cfg T R) (s : Sched T) (irqStore immedStore : List Val) : Sched T :=
  { s with
    irq := (Spsc.init s.irq irqStore cfg.maxIrq).2
    immed := Queue.init s.immed immedStore cfg.maxImmed
    count := 0
    curr := NULL
    idle := NULL }

/-- `mu_sched_reset`, mu_sched.c:98-103. -/
def reset (s : Sched T) : Sched T :=
  { s with
    irq := (Spsc.reset s.irq).2
    immed := Queue.reset s.immed
    count := 0
    curr := NULL }

/-- `fetch_runnable_deferred_task` with `next_deferred_task`, mu_sched.c:205-228. -/
def fetch (cfg : Cfg T R) (now : T) (s : Sched T) : C (Val × List (Ev T) × Sched T) :=
  if s.count > 0 then do
    let d ← ldN s.deferred (cfg.P.szSub s.count 1)
    if cfg.precedes now d.time = false then
      .ok (d.task, [.clock now, .sel (.deferred d.time) d.task],
        { s with count := cfg.P.szSub s.count 1 })
    else .ok (NULL, [.clock now], s)
  else .ok (NULL, [.clock now], s)

/-- The choice `mu_sched_step` makes, mu_sched.c:105-125 (everything before the task is called).
The chosen task is left in `curr_task`. -/
def select (cfg : Cfg T R) (now : T) (s : Sched T) : C (List (Ev T) × Sched T) := do
  let (r, item, irq) ← Spsc.get s.irq
  let s := { s with irq := irq, curr := item }
  if r = .none then .ok ([.sel .irq item], s)
  else do
    let (task, evs, s) ← fetch cfg now s
    let s := { s with curr := task }
    if task ≠ NULL then .ok (evs, s)
    else do
      let (b, e, immed) ← Queue.get cfg.P s.immed
      let s := { s with immed := immed, curr := e }
      if b then .ok (evs ++ [.sel .immed e], s)
      else .ok (evs ++ [.sel .idle s.idle], { s with curr := s.idle })

/-- `mu_sched_step`, mu_sched.c:105-129; `mu_task_call` ignores NULL (mu_task.c:72-82).  `call` is
what the task does. -/
def step (cfg : Cfg T R) (now : T) (call : Sched T → C (List (Ev T) × Sched T)) (s : Sched T) :
    C (List (Ev T) × Sched T) := do
  let (evs, s) ← select cfg now s
  let (evs', s) ←
    if s.curr ≠ NULL then do
      let (t, s') ← call s
      .ok (.called s.curr :: t, s')
    else .ok ([], s)
  .ok (.stepEnter :: evs ++ evs' ++ [.stepRet], { s with curr := NULL })

/-- `mu_sched_next_task`, mu_sched.c:137-143. -/
def nextTask (cfg : Cfg T R) (s : Sched T) : C Val :=
  if s.count > 0 then do
    let d ← ldN s.deferred (cfg.P.szSub s.count 1)
    .ok d.task
  else .ok NULL

/-- `mu_sched_immed`, mu_sched.c:155-162. -/
def immed (cfg : Cfg T R) (s : Sched T) (t : Val) : C (Err × Sched T) := do
  let (b, q) ← Queue.put cfg.P s.immed t
  if b = false then .ok (.full, { s with immed := q }) else .ok (.none, { s with immed := q })

/-- `mu_sched_from_isr`, mu_sched.c:164-170. -/
def fromIsr (s : Sched T) (t : Val) : C (Err × Sched T) := do
  let (e, q) ← Spsc.put s.irq t
  if e = .full then .ok (.full, { s with irq := q }) else .ok (.none, { s with irq := q })

/-- The search loop of `defer_aux`, mu_sched.c:239-248. -/
def searchLoop (cfg : Cfg T R) (deferred : List (Entry T)) (time : T) : Nat → C Nat
  | 0 => .ok 0
  | i + 1 => do
    let d ← ldN deferred i
    if cfg.precedes time d.time then .ok (i + 1) else searchLoop cfg deferred time i

/-- `defer_aux`, mu_sched.c:230-265. -/
def deferAux (cfg : Cfg T R) (s : Sched T) (t : Val) (time : T) : C (Err × Sched T) :=
  if s.count = cfg.maxDeferred then .ok (.full, s)
  else do
    let i ← searchLoop cfg s.deferred time s.count
    let toMove := cfg.P.toInt (cfg.P.szSub s.count i)
    let deferred ←
      if toMove > 0 then memmove s.deferred (cfg.P.sz (i + 1)) i (cfg.P.toSz toMove)
      else .ok s.deferred
    let deferred ← stN deferred i ⟨time, t⟩
    .ok (.none, { s with deferred := deferred, count := cfg.P.sz (s.count + 1) })

/-- The loop of `mu_sched_remove_deferred_task`, mu_sched.c:184-198. -/
def removeLoop (cfg : Cfg T R) (t : Val) : Nat → Err → Sched T → C (Err × Sched T)
  | 0, err, s => .ok (err, s)
  | i + 1, err, s => do
    let d ← ldN s.deferred i
    if d.task = t then do
      let toMove := cfg.P.szSub s.count (i + 1)
      let deferred ←
        if toMove > 0 then memmove s.deferred i (i + 1) toMove else .ok s.deferred
      removeLoop cfg t i .none
        { s with deferred := deferred, count := cfg.P.szSub s.count 1 }
    else removeLoop cfg t i err s

/-- `mu_sched_remove_deferred_task`, mu_sched.c:181-200. -/
def remove (cfg : Cfg T R) (s : Sched T) (t : Val) : C (Err × Sched T) :=
  removeLoop cfg t s.count .notFound s

/-- Finite trees of API calls.  `step now body next`: call `mu_sched_step`; the clock, if read,
reads `now`; the task (or the task call hook), if one is called, performs `body`; afterwards `next`
is performed.  `transfer t hook next`: the transfer hook (if installed) performs `hook`. -/
inductive Prog (T R : Type) where
  | done
  | step (now : T) (body next : Prog T R)
  | immed (t : Val) (next : Prog T R)
  | transfer (t : Val) (hook next : Prog T R)
  | fromIsr (t : Val) (next : Prog T R)
  | deferUntil (t : Val) (time : T) (next : Prog T R)
  | deferFor (t : Val) (now : T) (delay : R) (next : Prog T R)
  | remove (t : Val) (next : Prog T R)
  | reset (next : Prog T R)
  | setIdle (t : Val) (next : Prog T R)
  | getIdle (next : Prog T R)
  | current (next : Prog T R)
  | nextTask (next : Prog T R)
  | wait (t : Val) (next : Prog T R)
  deriving DecidableEq

/-- Execution of a tree of calls: the events in order of occurrence and the final state.
Simple functions modelled in place: `mu_sched_get_idle_task` mu_sched.c:131,
`mu_sched_set_idle_task` mu_sched.c:133, `mu_sched_current_task` mu_sched.c:135,
`mu_sched_wait` mu_sched.c:145-148, `mu_sched_transfer` mu_sched.c:150-153,
`mu_sched_defer_until` mu_sched.c:172-174, `mu_sched_defer_for` mu_sched.c:176-179. -/
def run (cfg : Cfg T R) (s : Sched T) : Prog T R → C (List (Ev T) × Sched T)
  | .done => .ok ([], s)
  | .step now body next => do
    let (evs, s) ← step cfg now (fun s => run cfg s body) s
    let (t, s) ← run cfg s next
    .ok (evs ++ t, s)
  | .immed t next => do
    let (e, s) ← immed cfg s t
    let (tr, s) ← run cfg s next
    .ok (.immedRet t e :: tr, s)
  | .transfer t hook next => do
    let (h, s) ← run cfg s hook
    let (e, s) ← immed cfg s t
    let (tr, s) ← run cfg s next
    .ok (.transferHook t :: h ++ .immedRet t e :: tr, s)
  | .fromIsr t next => do
    let (e, s) ← fromIsr s t
    let (tr, s) ← run cfg s next
    .ok (.isrRet t e :: tr, s)
  | .deferUntil t time next => do
    let (e, s) ← deferAux cfg s t time
    let (tr, s) ← run cfg s next
    .ok (.deferRet t time e :: tr, s)
  | .deferFor t now delay next => do
    let time := cfg.offset now delay
    let (e, s) ← deferAux cfg s t time
    let (tr, s) ← run cfg s next
    .ok (.clock now :: .deferRet t time e :: tr, s)
  | .remove t next => do
    let (e, s) ← remove cfg s t
    let (tr, s) ← run cfg s next
    .ok (.removeRet t e :: tr, s)
  | .reset next => do
    let (tr, s) ← run cfg (reset s) next
    .ok (.resetRet :: tr, s)
  | .setIdle t next => do
    let (tr, s) ← run cfg { s with idle := t } next
    .ok (.setIdleRet t :: tr, s)
  | .getIdle next => do
    let (tr, s') ← run cfg s next
    .ok (.getIdleRet s.idle :: tr, s')
  | .current next => do
    let (tr, s') ← run cfg s next
    .ok (.currentRet s.curr :: tr, s')
  | .nextTask next => do
    let v ← nextTask cfg s
    let (tr, s) ← run cfg s next
    .ok (.nextRet v :: tr, s)
  | .wait t next => do
    let (tr, s) ← run cfg s next
    .ok (.waitRet t .none :: tr, s)

end Mu.Sched
