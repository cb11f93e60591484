import Verif.C.Val

/-! # Model of /repo/mulib/mu_mqueue.c

`mu_mqueue_put` and `mu_mqueue_get` call user tasks (`on_put`, `on_get`) through `mu_task_call`
before they return.  What such a task does to the queue is an arbitrary finite sequence of further
calls, which may call back again, and so on: `Prog` is the type of such finite trees of calls.  The
calls a task makes may depend on what it observes; in any one execution they form one such tree, and
the theorems quantify over all of them. -/

namespace Mu.Mqueue

/-- `mu_mqueue_t`, mu_mqueue.h (struct). -/
structure Mqueue where
  storage : List Val
  capacity : Nat
  count : Nat
  index : Nat
  onPut : Val
  onGet : Val
  deriving DecidableEq

/-- Observable events.  `stored`/`fetched` mark the instant at which the queue content changes;
`called t` is `mu_task_call(t)`; the `…Ret` events are returns from API calls. -/
inductive Ev where
  | stored (e : Val)
  | fetched (e : Val)
  | called (t : Val)
  | putRet (e : Val) (ok : Bool)
  | getRet (ok : Bool) (v : Val)
  | peekRet (ok : Bool) (v : Val)
  | resetRet
  | countRet (n : Nat)
  | capacityRet (n : Nat)
  | emptyRet (b : Bool)
  | fullRet (b : Bool)
  deriving DecidableEq

/-- `mu_mqueue_reset`, mu_mqueue.c:58-62. -/
def reset (q : Mqueue) : Mqueue := { q with count := 0, index := 0 }

/-- `mu_mqueue_init`, mu_mqueue.c:48-56. -/
def init (q : Mqueue) (storage : List Val) (capacity : Nat) (onPut onGet : Val) : Mqueue :=
  reset { q with storage := storage, capacity := capacity, onPut := onPut, onGet := onGet }

/-- `mu_mqueue_capacity`, mu_mqueue.c:64. -/
def capacity (q : Mqueue) : Nat := q.capacity

/-- `mu_mqueue_count`, mu_mqueue.c:66. -/
def count (q : Mqueue) : Nat := q.count

/-- `mu_mqueue_is_empty`, mu_mqueue.c:68. -/
def isEmpty (q : Mqueue) : Bool := q.count == 0

/-- `mu_mqueue_is_full`, mu_mqueue.c:70-72. -/
def isFull (q : Mqueue) : Bool := q.count == q.capacity

/-- `mu_mqueue_put`, mu_mqueue.c:74-90.  `call` is what happens to the queue while
`mu_task_call(on_put)` runs. -/
def put (P : Plat) (call : Mqueue → C (List Ev × Mqueue)) (q : Mqueue) (element : Val) :
    C (Bool × List Ev × Mqueue) :=
  if isFull q = false then do
    let storage ← stN q.storage q.index element
    let q := { q with storage := storage }
    let index ← if q.capacity = 0 then .error .divZero else .ok (P.sz (q.index + 1) % q.capacity)
    let q := { q with index := index }
    let q := { q with count := P.sz (q.count + 1) }
    if q.onPut ≠ NULL then do
      let (t, q') ← call q
      .ok (true, .stored element :: .called q.onPut :: t, q')
    else .ok (true, [.stored element], q)
  else .ok (false, [], q)

/-- `access_queue`, mu_mqueue.c:103-123.  `*element` is written before `on_get` is called. -/
def accessQueue (P : Plat) (call : Mqueue → C (List Ev × Mqueue)) (q : Mqueue) (fetch : Bool) :
    C (Bool × Val × List Ev × Mqueue) :=
  if isEmpty q = false then do
    let idx := P.szSub (P.sz (q.capacity + q.index)) q.count
    let idx := if idx ≥ q.capacity then P.szSub idx q.capacity else idx
    let element ← ldN q.storage idx
    if fetch then
      let q := { q with count := P.szSub q.count 1 }
      if q.onGet ≠ NULL then do
        let (t, q') ← call q
        .ok (true, element, .fetched element :: .called q.onGet :: t, q')
      else .ok (true, element, [.fetched element], q)
    else .ok (true, element, [], q)
  else .ok (false, NULL, [], q)

/-- Finite trees of API calls: `put e cb next` calls put, the on_put task (if called) performs
`cb`, and afterwards `next` is performed; likewise `get`. -/
inductive Prog where
  | done
  | put (e : Val) (cb next : Prog)
  | get (cb next : Prog)
  | peek (next : Prog)
  | reset (next : Prog)
  | count (next : Prog)
  | capacity (next : Prog)
  | isEmpty (next : Prog)
  | isFull (next : Prog)
  deriving DecidableEq

/-- Execution of a tree of calls: the events in order of occurrence, and the final state.
`mu_mqueue_get`/`mu_mqueue_peek` are mu_mqueue.c:92-98. -/
def run (P : Plat) (q : Mqueue) : Prog → C (List Ev × Mqueue)
  | .done => .ok ([], q)
  | .put e cb next => do
    let (b, t, q) ← put P (fun q => run P q cb) q e
    let (t', q) ← run P q next
    .ok (t ++ .putRet e b :: t', q)
  | .get cb next => do
    let (b, v, t, q) ← accessQueue P (fun q => run P q cb) q true
    let (t', q) ← run P q next
    .ok (t ++ .getRet b v :: t', q)
  | .peek next => do
    let (b, v, t, q) ← accessQueue P (fun q => .ok ([], q)) q false
    let (t', q) ← run P q next
    .ok (t ++ .peekRet b v :: t', q)
  | .reset next => do
    let (t', q) ← run P (reset q) next
    .ok (.resetRet :: t', q)
  | .count next => do
    let (t', q') ← run P q next
    .ok (.countRet (count q) :: t', q')
  | .capacity next => do
    let (t', q') ← run P q next
    .ok (.capacityRet (capacity q) :: t', q')
  | .isEmpty next => do
    let (t', q') ← run P q next
    .ok (.emptyRet (isEmpty q) :: t', q')
  | .isFull next => do
    let (t', q') ← run P q next
    .ok (.fullRet (isFull q) :: t', q')

end Mu.Mqueue
