import Verif.Model.Sched

/-! # Specification of the scheduler: a monitor of event traces

`next` follows a trace of events and keeps the books an observer would keep: which tasks have been
accepted and not yet taken, what the clock last read, which steps are in progress.  `legal` says
which events may happen next.  Neither mentions how the scheduler stores its queues. -/

namespace Mu.Sched

/-- Acceptable configurations: MU_SCHED_MAX_IRQ_TASKS is a power of two (as mu_sched.h:107
demands), the immediate queue's storage is at most half of the address range, and the number of
deferred entries fits an int. -/
structure Cfg.Wf {T R : Type} (cfg : Cfg T R) : Prop where
  irq : ∃ k, 1 ≤ k ∧ cfg.maxIrq = 2 ^ k
  immed : 2 * cfg.maxImmed ≤ cfg.P.szMod
  deferred : (cfg.maxDeferred : Int) ≤ cfg.P.intMax

/-- The state right after `mu_sched_init`, whatever the static arrays contained. -/
def Boot {T R : Type} (cfg : Cfg T R) (s : Sched T) : Prop :=
  ∃ s0 irqStore immedStore, cfg.maxIrq ≤ irqStore.length ∧ cfg.maxImmed ≤ immedStore.length ∧
    s0.deferred.length = cfg.maxDeferred ∧ s = init cfg s0 irqStore immedStore

end Mu.Sched

namespace Mu.Sched.Spec
open Mu.Sched

/-- Where a call of `mu_sched_step` in progress is. -/
inductive Phase where
  /-- no task chosen yet -/
  | choosing
  /-- `t` taken, not called yet -/
  | chosen (t : Val)
  /-- `t` has been called -/
  | running (t : Val)
  deriving DecidableEq

/-- The observer's books. -/
structure St (T : Type) where
  /-- accepted by `mu_sched_from_isr`, not yet taken; oldest first -/
  irq : List Val
  /-- accepted by `mu_sched_defer_*`, not yet taken nor removed; in the order they were scheduled -/
  pend : List (Entry T)
  /-- accepted by `mu_sched_immed`/`_transfer`, not yet taken; oldest first -/
  immed : List Val
  /-- the idle task set last -/
  idle : Val
  /-- the clock reading of the step in progress -/
  now : Option T
  /-- calls of `mu_sched_step` in progress, innermost first -/
  steps : List Phase
  /-- the task running: the task called last, unless a step has returned or a reset happened since -/
  cur : Val
  deriving DecidableEq

/-- Right after `mu_sched_init`. -/
def St.start (T : Type) : St T := ⟨[], [], [], NULL, none, [], NULL⟩

variable {T R : Type} [DecidableEq T]

/-- Bookkeeping. -/
def next (σ : St T) : Ev T → St T
  | .stepEnter => { σ with steps := .choosing :: σ.steps, now := none }
  | .clock n => { σ with now := some n }
  | .sel .irq t => { σ with irq := σ.irq.tail, steps := .chosen t :: σ.steps.tail }
  | .sel (.deferred time) t =>
    { σ with pend := σ.pend.erase ⟨time, t⟩,
             steps := if t = NULL then σ.steps else .chosen t :: σ.steps.tail }
  | .sel .immed t => { σ with immed := σ.immed.tail, steps := .chosen t :: σ.steps.tail }
  | .sel .idle t => { σ with steps := .chosen t :: σ.steps.tail }
  | .called t => { σ with steps := .running t :: σ.steps.tail, cur := t }
  | .stepRet => { σ with steps := σ.steps.tail, cur := NULL }
  | .immedRet t .none => { σ with immed := σ.immed ++ [t] }
  | .isrRet t .none => { σ with irq := σ.irq ++ [t] }
  | .deferRet t time .none => { σ with pend := σ.pend ++ [⟨time, t⟩] }
  | .removeRet t _ => { σ with pend := σ.pend.filter (fun e => e.task ≠ t) }
  | .resetRet => { σ with irq := [], pend := [], immed := [], cur := NULL }
  | .setIdleRet t => { σ with idle := t }
  | _ => σ

/-- The state after a whole trace. -/
def track (σ : St T) (tr : List (Ev T)) : St T := tr.foldl next σ

/-- Which events may happen, whatever the clock does. -/
def legal (cfg : Cfg T R) (σ : St T) : Ev T → Prop
  | .sel .irq t => σ.steps.head? = some .choosing ∧ σ.irq.head? = some t
  | .sel (.deferred time) t => σ.steps.head? = some .choosing ∧ σ.irq = [] ∧
      ⟨time, t⟩ ∈ σ.pend ∧ ∃ n, σ.now = some n ∧ cfg.precedes n time = false
  | .sel .immed t => σ.steps.head? = some .choosing ∧ σ.irq = [] ∧ σ.immed.head? = some t
  | .sel .idle t => σ.steps.head? = some .choosing ∧ σ.irq = [] ∧ σ.immed = [] ∧ t = σ.idle
  | .called t => σ.steps.head? = some (.chosen t) ∧ t ≠ NULL
  | .stepRet => σ.steps.head? = some (.chosen NULL) ∨ ∃ t, σ.steps.head? = some (.running t)
  | .immedRet _ e => e = if σ.immed.length < cfg.maxImmed then .none else .full
  | .isrRet _ e => e = if σ.irq.length < cfg.maxIrq - 1 then .none else .full
  | .deferRet _ _ e => e = if σ.pend.length < cfg.maxDeferred then .none else .full
  | .removeRet t e => e = if ∃ d ∈ σ.pend, d.task = t then .none else .notFound
  | .getIdleRet t => t = σ.idle
  | .currentRet t => t = σ.cur
  | .nextRet t => (σ.pend = [] ∧ t = NULL) ∨ ∃ d ∈ σ.pend, d.task = t
  | .waitRet _ e => e = .none
  | _ => True

/-- `d` comes first among the pending entries: everything scheduled before it is strictly later,
nothing scheduled after it is earlier. -/
def First (cfg : Cfg T R) (pend : List (Entry T)) (d : Entry T) : Prop :=
  ∃ a b, pend = a ++ d :: b ∧ (∀ f ∈ a, cfg.precedes d.time f.time = true) ∧
    (∀ f ∈ b, cfg.precedes f.time d.time = false)

/-- Which events may happen in addition, when times are ordered: deferred tasks are taken in
order, and the immediate queue and the idle task are not used while a deferred task is due. -/
def legalTime (cfg : Cfg T R) (σ : St T) : Ev T → Prop
  | .sel (.deferred time) t => First cfg σ.pend ⟨time, t⟩
  | .sel .immed _ | .sel .idle _ =>
      ∃ n, σ.now = some n ∧ ∀ d ∈ σ.pend, cfg.precedes n d.time = true
  | .nextRet t => σ.pend ≠ [] → ∃ d, First cfg σ.pend d ∧ d.task = t
  | _ => True

/-- On the times in `l`, `mu_time_precedes` is a strict weak order. -/
structure Ordered (cfg : Cfg T R) (l : List T) : Prop where
  asymm : ∀ a ∈ l, ∀ b ∈ l, cfg.precedes a b = true → cfg.precedes b a = false
  negTrans : ∀ a ∈ l, ∀ b ∈ l, ∀ c ∈ l, cfg.precedes a b = false → cfg.precedes b c = false →
    cfg.precedes a c = false

/-- The user's side of the bargain: the times pending at any moment, together with the time being
scheduled or the clock reading, are ordered by `mu_time_precedes`; and NULL is never deferred. -/
def proper (cfg : Cfg T R) (σ : St T) : Ev T → Prop
  | .clock n => Ordered cfg (n :: σ.pend.map (·.time))
  | .deferRet t time .none => Ordered cfg (time :: σ.pend.map (·.time)) ∧ t ≠ NULL
  | _ => True

/-- `Q` holds at every event of the trace, with the books as they are at that point. -/
def Always (Q : St T → Ev T → Prop) : St T → List (Ev T) → Prop
  | _, [] => True
  | σ, e :: tr => Q σ e ∧ Always Q (next σ e) tr

/-- The books after the events `h`. -/
def books (h : List (Ev T)) : St T := track (St.start T) h

/-- The states in which user code can find the scheduler, with the events up to then: right after
`mu_sched_init`; after any calls made from such a state; inside a task, when `mu_sched_step`
has been called in such a state and has chosen a task; and after the return of such a step, when the
task has returned (mu_sched.c:127-128); and inside the transfer hook, when `mu_sched_transfer` has been
called in such a state (mu_sched.c:151). -/
inductive Reach (cfg : Cfg T R) : Sched T → List (Ev T) → Prop
  | boot {s} : Boot cfg s → Reach cfg s []
  | calls {s h s' tr} (p : Prog T R) : Reach cfg s h → run cfg s p = .ok (tr, s') →
      Reach cfg s' (h ++ tr)
  | inTask {s h s' evs} (now : T) : Reach cfg s h → select cfg now s = .ok (evs, s') →
      s'.curr ≠ NULL → Reach cfg s' (h ++ .stepEnter :: evs ++ [.called s'.curr])
  | leave {s h t} : Reach cfg s h → (books h).steps.head? = some (.running t) →
      Reach cfg { s with curr := NULL } (h ++ [.stepRet])
  | inHook {s h} (t : Val) : Reach cfg s h → Reach cfg s (h ++ [.transferHook t])

/-! ## Reading off sequences and counts from a trace -/

/-- Tasks called. -/
def calls (tr : List (Ev T)) : List Val :=
  tr.filterMap fun | .called t => some t | _ => none

/-- What the steps took, with the source. -/
def sels (tr : List (Ev T)) : List (Src T × Val) :=
  tr.filterMap fun | .sel s t => some (s, t) | _ => none

/-- Tasks accepted from interrupts / into the immediate queue, in order. -/
def isrAccepted (tr : List (Ev T)) : List Val :=
  tr.filterMap fun | .isrRet t .none => some t | _ => none

def immedAccepted (tr : List (Ev T)) : List Val :=
  tr.filterMap fun | .immedRet t .none => some t | _ => none

def deferAccepted (tr : List (Ev T)) : List (Entry T) :=
  tr.filterMap fun | .deferRet t time .none => some ⟨time, t⟩ | _ => none

/-- Tasks taken from the interrupt / the immediate / the deferred queue, in order. -/
def isrTaken (tr : List (Ev T)) : List Val :=
  tr.filterMap fun | .sel .irq t => some t | _ => none

def immedTaken (tr : List (Ev T)) : List Val :=
  tr.filterMap fun | .sel .immed t => some t | _ => none

def deferTaken (tr : List (Ev T)) : List (Entry T) :=
  tr.filterMap fun | .sel (.deferred time) t => some ⟨time, t⟩ | _ => none

/-- How often `t` is thrown out by `mu_sched_remove_deferred_task` and `mu_sched_reset`. -/
def dropped (t : Val) : St T → List (Ev T) → Nat
  | _, [] => 0
  | σ, e :: tr =>
    (match e with
      | .removeRet u _ => if u = t then (σ.pend.map (·.task)).count t else 0
      | .resetRet => σ.irq.count t + (σ.pend.map (·.task)).count t + σ.immed.count t
      | _ => 0) + dropped t (next σ e) tr

/-- How often `t` is waiting in some queue. -/
def waiting (t : Val) (σ : St T) : Nat :=
  σ.irq.count t + (σ.pend.map (·.task)).count t + σ.immed.count t

/-- Does the `j`-th pending entry go before the `i`-th?  Yes if it is earlier, or has the same time
and was scheduled before it. -/
def goesBefore (cfg : Cfg T R) (pend : List (Entry T)) (i j : Nat) : Bool :=
  match pend[j]?, pend[i]? with
  | some a, some b => cfg.precedes a.time b.time ||
      (decide (j < i) && !cfg.precedes b.time a.time)
  | _, _ => false

/-- The number of pending entries that go before the `i`-th. -/
def rank (cfg : Cfg T R) (pend : List (Entry T)) (i : Nat) : Nat :=
  (List.range pend.length).countP (goesBefore cfg pend i)

/-- The number of pending entries that are due at `now`. -/
def dueCount (cfg : Cfg T R) (now : T) (pend : List (Entry T)) : Nat :=
  pend.countP fun d => !cfg.precedes now d.time

/-- A main loop that calls `mu_sched_step` once for each clock reading, the tasks doing nothing. -/
def loop : List T → Prog T R
  | [] => .done
  | now :: ns => .step now .done (loop ns)

/-! ## Wrapping clocks -/

/-- `mu_time_precedes` of the reference implementation: the difference of two wrapping tick counters
as a signed number is negative (test/test_mu_sched/test_mu_sched.c:402-408), for a counter of `w`
bits. -/
def wrapPrecedes (w : Nat) (a b : BitVec w) : Bool := decide ((a - b).toInt < 0)

/-- The ticks from `base` forward to `t`, around the circle. -/
def ticks {w : Nat} (base t : BitVec w) : Nat := (t - base).toNat

/-- All times lie within half of the counter range, going forward from `base`. -/
def InWindow {w : Nat} (base : BitVec w) (l : List (BitVec w)) : Prop :=
  ∀ t ∈ l, ticks base t < 2 ^ (w - 1)

/-- As `proper`: whenever the clock is read or a task is deferred, the times present lie in a window
of half of the range (which may be a different one each time), and NULL is not deferred. -/
def windowed {w : Nat} (σ : St (BitVec w)) : Ev (BitVec w) → Prop
  | .clock n => ∃ base, InWindow base (n :: σ.pend.map (·.time))
  | .deferRet t time .none => (∃ base, InWindow base (time :: σ.pend.map (·.time))) ∧ t ≠ NULL
  | _ => True

end Mu.Sched.Spec

/-! ## Interrupts -/

namespace Mu.Sched.Spec
open Mu.Sched

variable {T R : Type}

/-- A program consisting of calls of `mu_sched_from_isr`. -/
def isrs : List Val → Prog T R
  | [] => .done
  | t :: ts => .fromIsr t (isrs ts)

/-- Is this the return of `mu_sched_from_isr`? -/
def isIsr : Ev T → Bool
  | .isrRet _ _ => true
  | _ => false

end Mu.Sched.Spec

/-! ## Changing the clock -/

namespace Mu.Sched

variable {T R T' R' : Type}

/-- The same event as seen with another clock: `f` translates times. -/
def Ev.map (f : T → T') : Ev T → Ev T'
  | .stepEnter => .stepEnter
  | .clock n => .clock (f n)
  | .sel .irq t => .sel .irq t
  | .sel (.deferred time) t => .sel (.deferred (f time)) t
  | .sel .immed t => .sel .immed t
  | .sel .idle t => .sel .idle t
  | .called t => .called t
  | .stepRet => .stepRet
  | .immedRet t e => .immedRet t e
  | .transferHook t => .transferHook t
  | .isrRet t e => .isrRet t e
  | .deferRet t time e => .deferRet t (f time) e
  | .removeRet t e => .removeRet t e
  | .resetRet => .resetRet
  | .setIdleRet t => .setIdleRet t
  | .getIdleRet t => .getIdleRet t
  | .currentRet t => .currentRet t
  | .nextRet t => .nextRet t
  | .waitRet t e => .waitRet t e

/-- The same program with another clock; `g` translates delays. -/
def Prog.map (f : T → T') (g : R → R') : Prog T R → Prog T' R'
  | .done => .done
  | .step now body next => .step (f now) (body.map f g) (next.map f g)
  | .immed t next => .immed t (next.map f g)
  | .transfer t hook next => .transfer t (hook.map f g) (next.map f g)
  | .fromIsr t next => .fromIsr t (next.map f g)
  | .deferUntil t time next => .deferUntil t (f time) (next.map f g)
  | .deferFor t now delay next => .deferFor t (f now) (g delay) (next.map f g)
  | .remove t next => .remove t (next.map f g)
  | .reset next => .reset (next.map f g)
  | .setIdle t next => .setIdle t (next.map f g)
  | .getIdle next => .getIdle (next.map f g)
  | .current next => .current (next.map f g)
  | .nextTask next => .nextTask (next.map f g)
  | .wait t next => .wait t (next.map f g)

namespace Spec

/-- Two clocks agree on the comparisons the scheduler makes: whenever the clock is read or a task is
deferred, the new time compares with each of the pending ones as its translation does. -/
def agree [DecidableEq T] (cfg : Cfg T R) (cfg' : Cfg T' R') (f : T → T') (σ : St T) : Ev T → Prop
  | .clock n => ∀ d ∈ σ.pend, cfg'.precedes (f n) (f d.time) = cfg.precedes n d.time
  | .deferRet _ time .none => ∀ d ∈ σ.pend, cfg'.precedes (f time) (f d.time) = cfg.precedes time d.time
  | _ => True

/-- A clock that counts `Nat` ticks and never wraps. -/
def unbounded (P : Plat) (maxIrq maxImmed maxDeferred : Nat) : Cfg Nat Nat :=
  ⟨P, fun a b => decide (a < b), (· + ·), maxIrq, maxImmed, maxDeferred⟩

/-- A clock with a `w` bit counter, compared by signed difference. -/
def wrapping (w : Nat) (P : Plat) (maxIrq maxImmed maxDeferred : Nat) : Cfg (BitVec w) (BitVec w) :=
  ⟨P, wrapPrecedes w, (· + ·), maxIrq, maxImmed, maxDeferred⟩

/-- Whenever the clock is read or a task is deferred, that time is less than half of the range of a
`w` bit counter after each pending time, and at most half of the range before it. -/
def near (w : Nat) (σ : St Nat) : Ev Nat → Prop
  | .clock n => ∀ d ∈ σ.pend, n < d.time + 2 ^ (w - 1) ∧ d.time ≤ n + 2 ^ (w - 1)
  | .deferRet _ time .none => ∀ d ∈ σ.pend, time < d.time + 2 ^ (w - 1) ∧ d.time ≤ time + 2 ^ (w - 1)
  | _ => True

end Spec

end Mu.Sched
