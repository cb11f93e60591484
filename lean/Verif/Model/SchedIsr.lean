import Verif.Model.Sched

/-! # `mu_sched_step` interrupted

The choice made by `mu_sched_step` cut into elementary actions, so that interrupts which call
`mu_sched_from_isr` (and run to completion) can be placed anywhere.  The call of `mu_spsc_get` is cut
into its individual accesses to the shared variables, as in Model/Spsc.lean.  The later parts touch
only data that `mu_sched_from_isr` does not touch (the deferred array, the immediate queue, the idle
task, `curr_task`); each is one action. -/

namespace Mu.Sched.Isr

variable {T R : Type}

/-- Where `mu_sched_step` is, mu_sched.c:105-125. -/
inductive Pc where
  /-- inside `mu_spsc_get`, mu_sched.c:108 -/
  | get (c : Spsc.CPc)
  /-- about to look for a due deferred task, mu_sched.c:112 -/
  | fetch
  /-- about to call `mu_queue_get`, mu_sched.c:116-117 -/
  | queue
  /-- about to take the idle task, mu_sched.c:123 -/
  | idle
  /-- about to call the chosen task, mu_sched.c:127 -/
  | chosen
  deriving DecidableEq

structure M (T : Type) where
  s : Sched T
  pc : Pc
  log : List (Ev T)
  deriving DecidableEq

/-- The next elementary action of `mu_sched_step`, mu_sched.c:105-125.  `tf`: in the comparison of
head and tail in `mu_spsc_get`, tail is loaded first.  (`curr_task` is assigned by `mu_spsc_get`
before its last access; here with it.) -/
def main (cfg : Cfg T R) (now : T) (tf : Bool) (m : M T) : C (M T) :=
  match m.pc with
  | .get c => do
    let r ← Spsc.micro ⟨m.s.irq, .idle, c, []⟩ (.cons tf)
    match r.log with
    | [] => .ok ⟨{ m.s with irq := r.q }, .get r.c, m.log⟩
    | .getRet true v :: _ =>
      .ok ⟨{ m.s with irq := r.q, curr := v }, .chosen, m.log ++ [.sel .irq v]⟩
    | .getRet false v :: _ => .ok ⟨{ m.s with irq := r.q, curr := v }, .fetch, m.log⟩
    | .putRet _ _ :: _ => .ok m
  | .fetch => do
    let (task, evs, s) ← fetch cfg now m.s
    let s := { s with curr := task }
    if task ≠ NULL then .ok ⟨s, .chosen, m.log ++ evs⟩ else .ok ⟨s, .queue, m.log ++ evs⟩
  | .queue => do
    let (b, e, immed) ← Queue.get cfg.P m.s.immed
    let s := { m.s with immed := immed, curr := e }
    if b then .ok ⟨s, .chosen, m.log ++ [.sel .immed e]⟩ else .ok ⟨s, .idle, m.log⟩
  | .idle => .ok ⟨{ m.s with curr := m.s.idle }, .chosen, m.log ++ [.sel .idle m.s.idle]⟩
  | .chosen => .ok m

/-- An interrupt: `mu_sched_from_isr(t)`, mu_sched.c:164-170, to completion. -/
def isr (t : Val) (m : M T) : C (M T) := do
  let (e, s) ← fromIsr m.s t
  .ok ⟨s, m.pc, m.log ++ [.isrRet t e]⟩

/-- What happens next: the step goes on, or an interrupt queues `t`. -/
inductive Act where
  | main (tf : Bool)
  | isr (t : Val)
  deriving DecidableEq

def exec (cfg : Cfg T R) (now : T) (m : M T) : List Act → C (M T)
  | [] => .ok m
  | .main tf :: as => do let m ← main cfg now tf m; exec cfg now m as
  | .isr t :: as => do let m ← isr t m; exec cfg now m as

/-- `mu_sched_step` has just been called. -/
def start (s : Sched T) : M T := ⟨s, .get .idle, []⟩

/-- The tasks queued by the interrupts of a schedule. -/
def isrTasks (as : List Act) : List Val :=
  as.filterMap fun | .isr t => some t | _ => none

/-- The number of actions of the step in a schedule. -/
def mains (as : List Act) : Nat := as.countP fun | .main _ => true | _ => false

end Mu.Sched.Isr
