import Verif.Spec.Spsc

/-! # Linearizability of mu_spsc: specification

The *history* of an execution is the sequence of calls and returns of `mu_spsc_put` and
`mu_spsc_get`.  It is *linearizable* if it is a history of the atomic queue: the object on which every
call takes effect on the bounded FIFO list of `Spec.step` at one instant between its call and its
return, and returns what that effect gave. -/

namespace Mu.Spsc.Lin
open Mu.Spsc

inductive Thread where
  | producer
  | consumer
  deriving DecidableEq

/-- What a caller can see. -/
inductive HEv where
  | call (t : Thread) (op : Op)
  | ret (t : Thread) (out : Out)
  deriving DecidableEq

/-- What happens to the atomic queue: calls and returns, and the instants at which calls take
effect. -/
inductive LEv where
  | vis (e : HEv)
  | effect (t : Thread)
  deriving DecidableEq

/-- A thread is outside any call, inside a call that has not taken effect, or inside a call that has
and will return `out`. -/
inductive TS where
  | idle
  | pending (op : Op)
  | done (out : Out)
  deriving DecidableEq

/-- The atomic queue. -/
structure Obj where
  ts : Thread → TS
  items : List Val

def Obj.set (o : Obj) (t : Thread) (x : TS) : Obj :=
  { o with ts := fun u => if u = t then x else o.ts u }

/-- The transitions of the atomic queue of `n` slots; `none`: impossible. -/
def atomic (n : Nat) (o : Obj) : LEv → Option Obj
  | .vis (.call t op) => if o.ts t = .idle then some (o.set t (.pending op)) else none
  | .effect t => match o.ts t with
    | .pending op => some { o.set t (.done (Spec.step n o.items op).1) with
        items := (Spec.step n o.items op).2 }
    | _ => none
  | .vis (.ret t out) => if o.ts t = .done out then some (o.set t .idle) else none

def runs (n : Nat) (o : Obj) : List LEv → Option Obj
  | [] => some o
  | e :: es => match atomic n o e with
    | some o' => runs n o' es
    | none => none

def Obj.start : Obj := ⟨fun _ => .idle, []⟩

/-- The visible part. -/
def visible : List LEv → List HEv
  | [] => []
  | .vis e :: es => e :: visible es
  | .effect _ :: es => visible es

/-- A history is linearizable if the atomic queue can produce it. -/
def Linearizable (n : Nat) (h : List HEv) : Prop :=
  ∃ tr, visible tr = h ∧ (runs n Obj.start tr).isSome

/-- Returns, as the caller sees them. -/
def ofLog : Ev → HEv
  | .putRet _ ok => .ret .producer (.err (if ok then .none else .full))
  | .getRet ok v => .ret .consumer (.item (if ok then .none else .empty) v)

/-- What the callers see of one action: a call if the thread was outside any call, and the returns
logged. -/
def seen (s : Sys) (a : Act) (s' : Sys) : List HEv :=
  (match a with
    | .prod x => if s.p = .idle then [.call .producer (.put x)] else []
    | .cons _ => if s.c = .idle then [.call .consumer .get] else []) ++
  (s'.log.drop s.log.length).map ofLog

/-- The history of the execution of a schedule. -/
def history (s : Sys) : List Act → C (List HEv)
  | [] => .ok []
  | a :: as => do
    let s' ← micro s a
    let h ← history s' as
    .ok (seen s a s' ++ h)

end Mu.Spsc.Lin
