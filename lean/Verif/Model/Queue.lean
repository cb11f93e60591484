import Verif.C.Val

/-! # Model of /repo/mulib/mu_queue.c -/

namespace Mu.Queue

/-- `mu_queue_t`, mu_queue.h (struct: storage, capacity, count, index).  `storage` is the array
object the pointer refers to; it may be longer than `capacity`. -/
structure Queue where
  storage : List Val
  capacity : Nat
  count : Nat
  index : Nat
  deriving DecidableEq

/-- `mu_queue_reset`, mu_queue.c:63-67. -/
def reset (q : Queue) : Queue := { q with count := 0, index := 0 }

/-- `mu_queue_init`, mu_queue.c:56-61.  `q` is the previous content of the struct. -/
def init (q : Queue) (storage : List Val) (capacity : Nat) : Queue :=
  reset { q with storage := storage, capacity := capacity }

/-- `mu_queue_capacity`, mu_queue.c:69. -/
def capacity (q : Queue) : Nat := q.capacity

/-- `mu_queue_count`, mu_queue.c:71. -/
def count (q : Queue) : Nat := q.count

/-- `mu_queue_is_empty`, mu_queue.c:73. -/
def isEmpty (q : Queue) : Bool := q.count == 0

/-- `mu_queue_is_full`, mu_queue.c:75-77. -/
def isFull (q : Queue) : Bool := q.count == q.capacity

/-- `mu_queue_put`, mu_queue.c:79-88. -/
def put (P : Plat) (q : Queue) (element : Val) : C (Bool × Queue) :=
  if isFull q = false then do
    let storage ← stN q.storage q.index element
    let index ← if q.capacity = 0 then .error .divZero else .ok (P.sz (q.index + 1) % q.capacity)
    .ok (true, { q with storage := storage, index := index, count := P.sz (q.count + 1) })
  else .ok (false, q)

/-- `access_queue`, mu_queue.c:101-117.  Returns the result, the value written to `*element`, and
the new state. -/
def accessQueue (P : Plat) (q : Queue) (fetch : Bool) : C (Bool × Val × Queue) :=
  if isEmpty q = false then do
    let idx := P.szSub (P.sz (q.capacity + q.index)) q.count
    let idx := if idx ≥ q.capacity then P.szSub idx q.capacity else idx
    let element ← ldN q.storage idx
    let q := if fetch then { q with count := P.szSub q.count 1 } else q
    .ok (true, element, q)
  else .ok (false, NULL, q)

/-- `mu_queue_get`, mu_queue.c:90-92. -/
def get (P : Plat) (q : Queue) : C (Bool × Val × Queue) := accessQueue P q true

/-- `mu_queue_peek`, mu_queue.c:94-96. -/
def peek (P : Plat) (q : Queue) : C (Bool × Val × Queue) := accessQueue P q false

/-- One API call on a queue. -/
inductive Op where
  | put (e : Val)
  | get
  | peek
  | reset
  | count
  | capacity
  | isEmpty
  | isFull
  deriving DecidableEq

/-- What one API call returns (for get/peek: the result and the value delivered). -/
inductive Out where
  | bool (b : Bool)
  | elem (ok : Bool) (v : Val)
  | size (n : Nat)
  | unit
  deriving DecidableEq

/-- Dispatch of one API call to the functions above. -/
def step (P : Plat) (q : Queue) : Op → C (Out × Queue)
  | .put e => do let (b, q) ← put P q e; .ok (.bool b, q)
  | .get => do let (b, v, q) ← get P q; .ok (.elem b v, q)
  | .peek => do let (b, v, q) ← peek P q; .ok (.elem b v, q)
  | .reset => .ok (.unit, reset q)
  | .count => .ok (.size (count q), q)
  | .capacity => .ok (.size (capacity q), q)
  | .isEmpty => .ok (.bool (isEmpty q), q)
  | .isFull => .ok (.bool (isFull q), q)

/-- A history of API calls. -/
def run (P : Plat) (q : Queue) : List Op → C (List Out × Queue)
  | [] => .ok ([], q)
  | op :: ops => do
    let (o, q) ← step P q op
    let (os, q) ← run P q ops
    .ok (o :: os, q)

end Mu.Queue
