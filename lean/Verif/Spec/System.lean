import Verif.Model.System
import Verif.Spec.Sched
import Verif.Spec.Task
import Verif.Spec.Mqueue

/-! # Vocabulary for mu_sched, mu_task and mu_mqueue together -/

namespace Mu.System.Spec
open Mu.System

variable {T R : Type}

/-- What an observer of the scheduler only sees. -/
def schedPart (tr : List (Ev T)) : List (Sched.Ev T) :=
  tr.filterMap fun | .sched e => some e | _ => none

/-- What an observer of the task module only sees. -/
def taskPart (tr : List (Ev T)) : List Task.Ev :=
  tr.filterMap fun | .task e => some e | _ => none

/-- What an observer of the message queue `q` only sees. -/
def queuePart (q : Val) (tr : List (Ev T)) : List Mqueue.Ev :=
  tr.filterMap fun | .queue r e => if r = q then some e else none | _ => none

/-- How often message queues have notified `t`, all queues together. -/
def notified (t : Val) (tr : List (Ev T)) : Nat :=
  tr.countP fun | .queue _ (.called u) => u = t | _ => false

/-- A program whose code never calls `mu_task_call` itself: tasks are run by the scheduler and
by message queues only. -/
def schedOnly : Prog T R → Prop
  | .done => True
  | .step _ hook body next | .qPut _ _ hook body next | .qGet _ hook body next =>
    schedOnly hook ∧ schedOnly body ∧ schedOnly next
  | .transfer _ hook next | .setState _ _ hook next | .callTransfer _ hook next =>
    schedOnly hook ∧ schedOnly next
  | .call _ _ _ _ => False
  | .immed _ next | .fromIsr _ next | .deferUntil _ _ next | .deferFor _ _ _ next | .remove _ next
  | .reset next | .setIdle _ next | .getIdle next | .current next | .nextTask next | .wait _ next
  | .init _ _ _ _ next | .installCall _ next | .installState _ next | .installTransfer _ next
  | .getFn _ next | .getState _ next | .getInfo _ next | .setInfo _ _ next | .qOp _ _ next => schedOnly next

/-- A program that keeps the rules of mu_task: no access through a NULL task pointer where it is not
allowed, no task without a function. -/
def Sane : Prog T R → Prop
  | .done => True
  | .step _ hook body next | .call _ hook body next => Sane hook ∧ Sane body ∧ Sane next
  | .transfer _ hook next | .setState _ _ hook next | .callTransfer _ hook next =>
    Sane hook ∧ Sane next
  | .init t fn _ _ next => t ≠ NULL ∧ fn ≠ NULL ∧ Sane next
  | .qPut q _ hook body next | .qGet q hook body next => q ≠ NULL ∧ Sane hook ∧ Sane body ∧ Sane next
  | .getFn t next | .getState t next | .getInfo t next | .setInfo t _ next | .qOp t _ next => t ≠ NULL ∧ Sane next
  | .immed _ next | .fromIsr _ next | .deferUntil _ _ next | .deferFor _ _ _ next | .remove _ next
  | .reset next | .setIdle _ next | .getIdle next | .current next | .nextTask next | .wait _ next
  | .installCall _ next | .installState _ next | .installTransfer _ next => Sane next

/-- What `mu_mqueue_init` was given for a queue. -/
structure QConf where
  storage : List Val
  cap : Nat
  onPut : Val
  onGet : Val

/-- Enough storage, and the capacity fits in half the range of `size_t` (`2 * cap` is computed). -/
def QConf.Wf (P : Plat) (c : QConf) : Prop := c.cap ≤ c.storage.length ∧ 2 * c.cap ≤ P.szMod

/-- Program start: `mu_sched_init` has been called, no hook is installed, the task objects hold
`mem`, and every message queue `q` has been initialised with `qs q`. -/
structure Boot (cfg : Sched.Cfg T R) (mem : Val → Task.Task) (qs : Val → QConf) (x : Sys T) :
    Prop where
  sched : Sched.Boot cfg x.sched
  world : x.world = ⟨mem, NULL, NULL, NULL⟩
  queues : ∀ q, ∃ q0, x.queues q =
    Mqueue.init q0 (qs q).storage (qs q).cap (qs q).onPut (qs q).onGet

end Mu.System.Spec
