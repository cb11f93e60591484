import Verif.Model.SchedIsr

/-! # The whole scheduler with a concurrent interrupt side

The foreground program (main loop and tasks, with nested steps) runs in single actions; the interrupt
side calls `mu_sched_from_isr` again and again, also in single actions.  Schedules interleave the two
sides arbitrarily; this covers interrupts that preempt the foreground at any point and run to completion
(all actions of a put adjacent) as well as a producer on another core.

What both sides share is the interrupt queue (mu_sched.c:53), and that is accessed by the foreground
only in `mu_spsc_get` (mu_sched.c:108), which is cut into its accesses (Model/SchedIsr.lean), and in
`mu_sched_reset` (mu_sched.c:100-103), which foreground programs considered here do not call (see
Props/Preempt.lean for what happens otherwise).  All other functions touch foreground data only and are
single actions here. -/

namespace Mu.Sched.Smp
open Mu.Sched.Isr (Pc)

variable {T R : Type}

/-- What can be seen from outside: calls and returns.  `main .stepEnter` is the call of
`mu_sched_step`, `main (.clock n)` its reading of the clock,
`main (.called t)` the call of a task by it. -/
inductive Obs (T : Type) where
  | main (e : Ev T)
  | isrCall (t : Val)
  | isrRet (t : Val) (e : Err)
  deriving DecidableEq

/-- What is to be done when the present piece of user code is finished. -/
inductive Frame (T R : Type) where
  /-- the task returns to `mu_sched_step`, which returns to `next`, mu_sched.c:127-128 -/
  | task (next : Prog T R)
  /-- the transfer hook returns to `mu_sched_transfer(t)`, mu_sched.c:150-153 -/
  | hook (t : Val) (next : Prog T R)
  deriving DecidableEq

inductive Mode (T R : Type) where
  /-- executing user code -/
  | user (code : Prog T R)
  /-- inside `mu_sched_step`, which will run `body` if it finds a task, and then `next` -/
  | step (now : T) (body next : Prog T R) (pc : Pc)
  deriving DecidableEq

structure M (T R : Type) where
  s : Sched T
  mode : Mode T R
  stack : List (Frame T R)
  p : Spsc.PPc
  log : List (Obs T)

/-- User code that begins with a call of a function other than `mu_sched_step` and
`mu_sched_transfer`: that call, and the rest. -/
def split : Prog T R → Option (Prog T R × Prog T R)
  | .done | .step _ _ _ | .transfer _ _ _ => none
  | .immed t next => some (.immed t .done, next)
  | .fromIsr t next => some (.fromIsr t .done, next)
  | .deferUntil t time next => some (.deferUntil t time .done, next)
  | .deferFor t now d next => some (.deferFor t now d .done, next)
  | .remove t next => some (.remove t .done, next)
  | .reset next => some (.reset .done, next)
  | .setIdle t next => some (.setIdle t .done, next)
  | .getIdle next => some (.getIdle .done, next)
  | .current next => some (.current .done, next)
  | .nextTask next => some (.nextTask .done, next)
  | .wait t next => some (.wait t .done, next)

/-- What can be seen of the inside of `mu_sched_step`: the reading of the clock. -/
def seen : Ev T → Option (Obs T)
  | .clock n => some (.main (.clock n))
  | _ => none

/-- The next action of the foreground.  `tf`: which operand of the comparison in `mu_spsc_get` is
loaded first. -/
def main (cfg : Cfg T R) (tf : Bool) (m : M T R) : C (M T R) :=
  match m.mode with
  | .user code =>
    match split code with
    | some (op, next) => do
      let (evs, s) ← run cfg m.s op
      .ok { m with s := s, mode := .user next, log := m.log ++ evs.map .main }
    | none =>
      match code with
      | .step now body next =>
        .ok { m with mode := .step now body next (.get .idle), log := m.log ++ [.main .stepEnter] }
      | .transfer t hook next =>
        .ok { m with mode := .user hook, stack := .hook t next :: m.stack,
                     log := m.log ++ [.main (.transferHook t)] }
      | _ =>
        match m.stack with
        | [] => .ok m
        | .task next :: st =>
          .ok { m with s := { m.s with curr := NULL }, mode := .user next, stack := st,
                       log := m.log ++ [.main .stepRet] }
        | .hook t next :: st => do
          let (e, s) ← immed cfg m.s t
          .ok { m with s := s, mode := .user next, stack := st,
                       log := m.log ++ [.main (.immedRet t e)] }
  | .step now body next pc =>
    if pc = .chosen then
      if m.s.curr ≠ NULL then
        .ok { m with mode := .user body, stack := .task next :: m.stack,
                     log := m.log ++ [.main (.called m.s.curr)] }
      else
        .ok { m with s := { m.s with curr := NULL }, mode := .user next,
                     log := m.log ++ [.main .stepRet] }
    else do
      let r ← Isr.main cfg now tf ⟨m.s, pc, []⟩
      .ok { m with s := r.s, mode := .step now body next r.pc,
                   log := m.log ++ r.log.filterMap seen }

/-- The next action of the interrupt side: of the `mu_sched_from_isr` in progress (mu_sched.c:164-170),
or else the call of `mu_sched_from_isr(t)`. -/
def prod (t : Val) (m : M T R) : C (M T R) := do
  let r ← Spsc.micro ⟨m.s.irq, m.p, .idle, []⟩ (.prod t)
  .ok { m with
    s := { m.s with irq := r.q }
    p := r.p
    log := m.log ++ (if m.p = .idle then [.isrCall t] else []) ++
      r.log.filterMap fun
        | .putRet u ok => some (.isrRet u (if ok then .none else .full))
        | .getRet _ _ => none }

inductive Act where
  | main (tf : Bool)
  | prod (t : Val)
  deriving DecidableEq

def act (cfg : Cfg T R) (m : M T R) : Act → C (M T R)
  | .main tf => main cfg tf m
  | .prod t => prod t m

def exec (cfg : Cfg T R) (m : M T R) : List Act → C (M T R)
  | [] => .ok m
  | a :: as => do let m ← act cfg m a; exec cfg m as

/-- The foreground is about to run `p`, the interrupt side is idle. -/
def start (s : Sched T) (p : Prog T R) : M T R := ⟨s, .user p, [], .idle, []⟩

end Mu.Sched.Smp
