import Verif.Model.Preempt
import Verif.Spec.Sched

/-! # Specification: every concurrent execution looks like a sequential one

The *atomic scheduler* is the sequential scheduler of Spec/Sched.lean, on which a call of
`mu_sched_from_isr` takes effect at one instant between its call and its return, and a call of
`mu_sched_step` makes its choice at one instant between its call and the call of the task (or its
return).  All other functions take effect when they return. -/

namespace Mu.Sched.Smp
open Mu.Sched.Spec

variable {T R : Type} [DecidableEq T]

/-- Foreground code: no call of `mu_sched_from_isr` (that is the interrupt side's) and no
`mu_sched_reset`. -/
def Foreground : Prog T R → Prop
  | .done => True
  | .step _ body next => Foreground body ∧ Foreground next
  | .transfer _ hook next => Foreground hook ∧ Foreground next
  | .fromIsr _ _ | .reset _ => False
  | .immed _ next | .deferUntil _ _ next | .deferFor _ _ _ next | .remove _ next
  | .setIdle _ next | .getIdle next | .current next | .nextTask next | .wait _ next =>
    Foreground next

/-- What happens to the atomic scheduler: calls and returns (`vis`), and the instants of effect. -/
inductive LEv (T : Type) where
  | vis (o : Obs T)
  /-- the step in progress reads the clock and chooses, with the events `evs` -/
  | choose (evs : List (Ev T))
  /-- the `mu_sched_from_isr` in progress takes effect, with result `e` -/
  | effect (e : Err)
  deriving DecidableEq

inductive MainSt (T : Type) where
  /-- user code is running -/
  | running
  /-- a step has been called and has not chosen yet -/
  | choosing
  /-- a step has chosen `t` (or NULL) and has not called it yet; the choice is based on the clock
  reading `clock`, which has not been seen yet -/
  | chosen (t : Val) (clock : Option T)
  deriving DecidableEq

inductive IsrSt where
  | idle
  | pending (t : Val)
  | done (t : Val) (e : Err)
  deriving DecidableEq

structure PSt (T : Type) where
  main : MainSt T
  isr : IsrSt
  deriving DecidableEq

/-- The task chosen, if the choice `evs` is one: its last event. -/
def chosenBy (evs : List (Ev T)) : Option Val :=
  match evs.getLast? with
  | some (.sel _ t) => some t
  | _ => none

/-- The clock reading the choice is based on. -/
def clockOf (evs : List (Ev T)) : Option T :=
  match evs with
  | .clock n :: _ => some n
  | _ => none

/-- The protocol of the atomic scheduler, and what each transition adds to the sequential history;
`none`: impossible. -/
def atomic (P : PSt T) : LEv T → Option (PSt T × List (Ev T))
  -- `mu_sched_step`: call; choice, which is followed at once by the call of the task if there is one,
  -- and by the return if there is none; then clock reading and call of the task (or return) are seen
  | .vis (.main .stepEnter) => if P.main = .running then some ({ P with main := .choosing }, []) else none
  | .choose evs =>
    if P.main = .choosing then
      match chosenBy evs with
      | some t => some ({ P with main := .chosen t (clockOf evs) },
          .stepEnter :: evs ++ (if t = NULL then [.stepRet] else [.called t]))
      | none => none
    else none
  | .vis (.main (.clock n)) => match P.main with
    | .running => some (P, [.clock n])
    | .chosen t (some k) => if n = k then some ({ P with main := .chosen t none }, []) else none
    | _ => none
  | .vis (.main (.called t)) =>
    if P.main = .chosen t none ∧ t ≠ NULL then some ({ P with main := .running }, []) else none
  | .vis (.main .stepRet) =>
    if P.main = .chosen NULL none then some ({ P with main := .running }, [])
    else if P.main = .running then some (P, [.stepRet]) else none
  -- all other functions
  | .vis (.main e) => if P.main = .running then some (P, [e]) else none
  -- `mu_sched_from_isr`: call, effect, return
  | .vis (.isrCall t) => if P.isr = .idle then some ({ P with isr := .pending t }, []) else none
  | .effect e => match P.isr with
    | .pending t => some ({ P with isr := .done t e }, [.isrRet t e])
    | _ => none
  | .vis (.isrRet t e) => if P.isr = .done t e then some ({ P with isr := .idle }, []) else none

/-- A run of the protocol, with the sequential history it produces. -/
def runs (P : PSt T) : List (LEv T) → Option (PSt T × List (Ev T))
  | [] => some (P, [])
  | e :: es => match atomic P e with
    | some (P', h) => match runs P' es with
      | some (P'', h') => some (P'', h ++ h')
      | none => none
    | none => none

def PSt.start : PSt T := ⟨.running, .idle⟩

/-- The visible part. -/
def visible : List (LEv T) → List (Obs T)
  | [] => []
  | .vis o :: es => o :: visible es
  | _ :: es => visible es

/-- `log` is what can be seen of the atomic scheduler when it goes through the sequential history
`h`, ending in the protocol state `P`. -/
def Looks (log : List (Obs T)) (h : List (Ev T)) (P : PSt T) : Prop :=
  ∃ w, visible w = log ∧ runs PSt.start w = some (P, h)

end Mu.Sched.Smp
