import Verif.Model.Mqueue

/-! # Specification of a message queue: a bounded list that notifies -/

namespace Mu.Mqueue.Spec
open Mu.Mqueue

/-- What a bounded first-in first-out list (content `l`, oldest first) with notifications does on
a tree of calls. -/
def run (cap : Nat) (onPut onGet : Val) (l : List Val) : Prog → List Ev × List Val
  | .done => ([], l)
  | .put e cb next =>
    if l.length < cap then
      let r := if onPut = NULL then ([], l ++ [e]) else
        let c := run cap onPut onGet (l ++ [e]) cb
        (.called onPut :: c.1, c.2)
      let n := run cap onPut onGet r.2 next
      (.stored e :: (r.1 ++ .putRet e true :: n.1), n.2)
    else
      let n := run cap onPut onGet l next
      (.putRet e false :: n.1, n.2)
  | .get cb next =>
    match l with
    | [] =>
      let n := run cap onPut onGet [] next
      (.getRet false NULL :: n.1, n.2)
    | x :: l' =>
      let r := if onGet = NULL then ([], l') else
        let c := run cap onPut onGet l' cb
        (.called onGet :: c.1, c.2)
      let n := run cap onPut onGet r.2 next
      (.fetched x :: (r.1 ++ .getRet true x :: n.1), n.2)
  | .peek next =>
    let n := run cap onPut onGet l next
    (.peekRet (l ≠ []) (l.headD NULL) :: n.1, n.2)
  | .reset next =>
    let n := run cap onPut onGet [] next
    (.resetRet :: n.1, n.2)
  | .count next =>
    let n := run cap onPut onGet l next
    (.countRet l.length :: n.1, n.2)
  | .capacity next =>
    let n := run cap onPut onGet l next
    (.capacityRet cap :: n.1, n.2)
  | .isEmpty next =>
    let n := run cap onPut onGet l next
    (.emptyRet (l = []) :: n.1, n.2)
  | .isFull next =>
    let n := run cap onPut onGet l next
    (.fullRet (l.length = cap) :: n.1, n.2)

/-- Number of elements stored minus number fetched since the last reset, in a trace of events
that started with `n` elements. -/
def tally (n : Int) : List Ev → Int
  | [] => n
  | .stored _ :: t => tally (n + 1) t
  | .fetched _ :: t => tally (n - 1) t
  | .resetRet :: t => tally 0 t
  | _ :: t => tally n t

/-! ## The same as a monitor of events

`run` above says what a list does on a tree of calls.  An observer who sees only the events can check
them one by one, knowing the content of the list and the calls of put and get that have not returned
yet. -/

/-- A call that has taken effect and not returned; `told`: there is no notification to come any more. -/
inductive Frame where
  | put (e : Val) (told : Bool)
  | get (e : Val) (told : Bool)
  deriving DecidableEq

structure Mon where
  content : List Val
  pending : List Frame
  deriving DecidableEq

/-- A notification must come next. -/
def due : List Frame → Bool
  | .put _ false :: _ | .get _ false :: _ => true
  | _ => false

/-- The state after one event; `none` if a bounded FIFO list with notifications does not do that. -/
def next (cap : Nat) (onPut onGet : Val) (m : Mon) (e : Ev) : Option Mon :=
  match e, m.pending with
  | .called t, .put v false :: s => if t = onPut then some ⟨m.content, .put v true :: s⟩ else none
  | .called t, .get v false :: s => if t = onGet then some ⟨m.content, .get v true :: s⟩ else none
  | .called _, _ => none
  | e, s =>
    if due s then none else
    match e, s with
    | .stored v, s =>
      if m.content.length < cap then some ⟨m.content ++ [v], .put v (onPut = NULL) :: s⟩ else none
    | .fetched v, s =>
      if m.content.head? = some v then some ⟨m.content.tail, .get v (onGet = NULL) :: s⟩ else none
    | .putRet v true, .put w _ :: s => if v = w then some ⟨m.content, s⟩ else none
    | .putRet _ true, _ => none
    | .putRet _ false, _ => if m.content.length = cap then some m else none
    | .getRet true v, .get w _ :: s => if v = w then some ⟨m.content, s⟩ else none
    | .getRet true _, _ => none
    | .getRet false v, _ => if m.content = [] ∧ v = NULL then some m else none
    | .peekRet b v, _ =>
      if b = decide (m.content ≠ []) ∧ v = m.content.headD NULL then some m else none
    | .resetRet, s => some ⟨[], s⟩
    | .countRet n, _ => if n = m.content.length then some m else none
    | .capacityRet n, _ => if n = cap then some m else none
    | .emptyRet b, _ => if b = decide (m.content = []) then some m else none
    | .fullRet b, _ => if b = decide (m.content.length = cap) then some m else none
    | .called _, _ => none

/-- The state after a sequence of events. -/
def replay (cap : Nat) (onPut onGet : Val) (m : Mon) (tr : List Ev) : Option Mon :=
  tr.foldlM (next cap onPut onGet) m

end Mu.Mqueue.Spec
