import Verif.C.Val

/-! # Model of /repo/mulib/mu_array.c -/

namespace Mu.Arr

/-- `mu_array_t`, mu_array.h:53-57.  `storage` is the array object the pointer refers to (it may
be longer than `capacity`). -/
structure Arr where
  storage : List Val
  capacity : Nat
  count : Nat
  deriving DecidableEq

/-- A comparison function (mu_array.h:66).  It receives the two pointers; its answer may in
addition depend on how often it has been called (first argument), so that inconsistent comparison
functions are covered too. -/
abbrev Cmp := Nat → Val → Val → Int

/-- MU_ARRAY_NOT_FOUND = SIZE_MAX, mu_array.h:51. -/
def notFound (P : Plat) : Nat := P.szMod - 1

/-- `mu_array_reset`, mu_array.c:63-66. -/
def reset (a : Arr) : Arr := { a with count := 0 }

/-- `mu_array_init`, mu_array.c:57-61. -/
def init (a : Arr) (storage : List Val) (capacity : Nat) : Arr :=
  reset { a with storage := storage, capacity := capacity }

/-- `mu_array_capacity`, mu_array.c:68. -/
def capacity (a : Arr) : Nat := a.capacity

/-- `mu_array_count`, mu_array.c:70. -/
def count (a : Arr) : Nat := a.count

/-- `mu_array_is_empty`, mu_array.c:72. -/
def isEmpty (a : Arr) : Bool := a.count == 0

/-- `mu_array_is_full`, mu_array.c:74-76. -/
def isFull (a : Arr) : Bool := a.count == a.capacity

/-- `mu_array_push`, mu_array.c:78-85. -/
def push (P : Plat) (a : Arr) (item : Val) : C (Bool × Arr) :=
  if isFull a = false then do
    let storage ← stN a.storage a.count item
    .ok (true, { a with storage := storage, count := P.sz (a.count + 1) })
  else .ok (false, a)

/-- `mu_array_pop`, mu_array.c:87-94.  The `Option` is what is written to `*item` (`none`: not
written). -/
def pop (P : Plat) (a : Arr) : C (Bool × Option Val × Arr) :=
  if isEmpty a = false then do
    let count := P.szSub a.count 1
    let item ← ldN a.storage count
    .ok (true, some item, { a with count := count })
  else .ok (false, none, a)

/-- `mu_array_peek`, mu_array.c:96-103. -/
def peek (P : Plat) (a : Arr) : C (Bool × Option Val × Arr) :=
  if isEmpty a = false then do
    let item ← ldN a.storage (P.szSub a.count 1)
    .ok (true, some item, a)
  else .ok (false, none, a)

/-- `mu_array_ref`, mu_array.c:105-112. -/
def ref (a : Arr) (index : Nat) : C (Bool × Option Val × Arr) :=
  if index < a.count then do
    let item ← ldN a.storage index
    .ok (true, some item, a)
  else .ok (false, none, a)

/-- `mu_array_insert`, mu_array.c:114-132.  `to_move` is an `int`; `to_move * sizeof(void *)` bytes
are moved (a negative `to_move` would be converted to a huge byte count, which faults). -/
def insert (P : Plat) (a : Arr) (item : Val) (index : Nat) : C (Bool × Arr) :=
  if isFull a ∨ index > a.count then .ok (false, a)
  else if index = a.count then do
    let storage ← stN a.storage a.count item
    .ok (true, { a with storage := storage, count := P.sz (a.count + 1) })
  else do
    let toMove := P.toInt (P.szSub a.count index)
    let storage ← memmove a.storage (P.sz (index + 1)) index (P.toSz toMove)
    let storage ← stN storage index item
    .ok (true, { a with storage := storage, count := P.sz (a.count + 1) })

/-- `mu_array_delete`, mu_array.c:134-151. -/
def delete (P : Plat) (a : Arr) (index : Nat) : C (Bool × Option Val × Arr) :=
  if isEmpty a ∨ index ≥ a.count then .ok (false, none, a)
  else if index = P.szSub a.count 1 then do
    let count := P.szSub a.count 1
    let item ← ldN a.storage count
    .ok (true, some item, { a with count := count })
  else do
    let item ← ldN a.storage index
    let toMove := P.toInt (P.szSub a.count index)
    let storage ← memmove a.storage index (P.sz (index + 1)) (P.toSz toMove)
    .ok (true, some item, { a with storage := storage })

/-- Loop of `mu_array_index`, mu_array.c:154-158. -/
def indexLoop (P : Plat) (a : Arr) (item : Val) : Nat → Nat → C Nat
  | 0, _ => .error .diverge
  | fuel + 1, index =>
    if index < a.count then do
      let x ← ldN a.storage index
      if x = item then .ok index else indexLoop P a item fuel (P.sz (index + 1))
    else .ok (notFound P)

/-- `mu_array_index`, mu_array.c:153-160. -/
def index (P : Plat) (a : Arr) (item : Val) : C Nat := indexLoop P a item (a.count + 1) 0

/-- Loop of `mu_array_rindex`, mu_array.c:163-167. -/
def rindexLoop (P : Plat) (a : Arr) (item : Val) : Nat → Nat → C Nat
  | 0, _ => .error .diverge
  | fuel + 1, index =>
    if index ≠ notFound P then do
      let x ← ldN a.storage index
      if x = item then .ok index else rindexLoop P a item fuel (P.szSub index 1)
    else .ok (notFound P)

/-- `mu_array_rindex`, mu_array.c:162-169. -/
def rindex (P : Plat) (a : Arr) (item : Val) : C Nat :=
  rindexLoop P a item (a.count + 1) (P.szSub a.count 1)

/-- `swap`, mu_array.c:248-252. -/
def swap (items : List Val) (a b : Int) : C (List Val) := do
  let temp ← ld items a
  let x ← ld items b
  let items ← st items a x
  st items b temp

/-- `sift_down`, mu_array.c:228-246; `k` counts the calls of `cmp`. -/
def siftDown (P : Plat) (cmp : Cmp) (stop : Int) : Nat → Int → Nat → List Val → C (Nat × List Val)
  | 0, _, _, _ => .error .diverge
  | fuel + 1, root, k, items => do
    let r2 ← P.int (root * 2)
    let left ← P.int (r2 + 1)
    if left ≤ stop then do
      let child := left
      let sib ← P.int (child + 1)
      let (child, k) ←
        if sib ≤ stop then do
          let x ← ld items child
          let y ← ld items sib
          .ok (if cmp k x y < 0 then sib else child, k + 1)
        else .ok (child, k)
      let x ← ld items root
      let y ← ld items child
      if cmp k x y < 0 then do
        let items ← swap items root child
        siftDown P cmp stop fuel child (k + 1) items
      else .ok (k + 1, items)
    else .ok (k, items)

/-- Loop of `heapify`, mu_array.c:222-225. -/
def heapifyLoop (P : Plat) (cmp : Cmp) (count : Nat) :
    Nat → Int → Nat → List Val → C (Nat × List Val)
  | 0, _, _, _ => .error .diverge
  | fuel + 1, start, k, items =>
    if start ≥ 0 then do
      let stop := P.toInt (P.szSub count 1)
      let (k, items) ← siftDown P cmp stop (count + 1) start k items
      let start ← P.int (start - 1)
      heapifyLoop P cmp count fuel start k items
    else .ok (k, items)

/-- `heapify`, mu_array.c:219-226. -/
def heapify (P : Plat) (cmp : Cmp) (count k : Nat) (items : List Val) : C (Nat × List Val) :=
  let start := P.toInt (P.szSub count 2 / 2)
  heapifyLoop P cmp count (count + 1) start k items

/-- `while` loop of `mu_array_sort`, mu_array.c:180-184. -/
def sortLoop (P : Plat) (cmp : Cmp) : Nat → Nat → Nat → List Val → C (Nat × List Val)
  | 0, _, _, _ => .error .diverge
  | fuel + 1, stop, k, items =>
    if stop > 0 then do
      let items ← swap items (P.toInt stop) 0
      let stop := P.szSub stop 1
      let (k, items) ← siftDown P cmp (P.toInt stop) (stop + 2) 0 k items
      sortLoop P cmp fuel stop k items
    else .ok (k, items)

/-- `mu_array_sort`, mu_array.c:171-187. -/
def sort (P : Plat) (a : Arr) (cmp : Cmp) : C Arr :=
  if a.count > 0 then do
    let stop := P.szSub a.count 1
    let (k, items) ← heapify P cmp a.count 0 a.storage
    let (_, items) ← sortLoop P cmp (a.count + 1) stop k items
    .ok { a with storage := items }
  else .ok a

/-- How many times `mu_array_sort` (mu_array.c:171-187) calls the comparison function: the call
counter that the loops above thread through, at the end of `sort`. -/
def sortCalls (P : Plat) (a : Arr) (cmp : Cmp) : C Nat :=
  if a.count > 0 then do
    let stop := P.szSub a.count 1
    let (k, items) ← heapify P cmp a.count 0 a.storage
    let (k, _) ← sortLoop P cmp (a.count + 1) stop k items
    .ok k
  else .ok 0

/-- `while` loop of `find_insertion_index`, mu_array.c:208-215. -/
def findLoop (P : Plat) (a : Arr) (item : Val) (cmp : Cmp) : Nat → Int → Int → Nat → C Int
  | 0, _, _, _ => .error .diverge
  | fuel + 1, low, high, k =>
    if low ≤ high then do
      let sum ← P.int (low + high)
      let mid := sum.tdiv 2
      let x ← ld a.storage mid
      if cmp k x item > 0 then do
        let high ← P.int (mid - 1)
        findLoop P a item cmp fuel low high (k + 1)
      else do
        let low ← P.int (mid + 1)
        findLoop P a item cmp fuel low high (k + 1)
    else .ok low

/-- `find_insertion_index`, mu_array.c:204-217. -/
def findInsertionIndex (P : Plat) (a : Arr) (item : Val) (cmp : Cmp) : C Nat := do
  let low ← findLoop P a item cmp (a.count + 1) 0 (P.toInt (P.szSub a.count 1)) 0
  .ok (P.toSz low)

/-- `mu_array_insert_sorted`, mu_array.c:189-197. -/
def insertSorted (P : Plat) (a : Arr) (item : Val) (cmp : Cmp) : C (Bool × Arr) :=
  if count a = 0 then push P a item
  else do
    let idx ← findInsertionIndex P a item cmp
    let index := P.toInt idx
    insert P a item (P.toSz index)

/-! ## Histories of API calls -/

inductive Op where
  | push (x : Val)
  | pop
  | peek
  | ref (i : Nat)
  | insert (x : Val) (i : Nat)
  | reset
  | count
  | capacity
  | isEmpty
  | isFull
  | index (x : Val)
  | rindex (x : Val)
  deriving DecidableEq

/-- What a call returns; `item ok v`: result and value delivered (if any). -/
inductive Out where
  | bool (b : Bool)
  | item (ok : Bool) (v : Option Val)
  | size (n : Nat)
  | unit
  deriving DecidableEq

/-- Dispatch of one API call. -/
def step (P : Plat) (a : Arr) : Op → C (Out × Arr)
  | .push x => do let (b, a) ← push P a x; .ok (.bool b, a)
  | .pop => do let (b, v, a) ← pop P a; .ok (.item b v, a)
  | .peek => do let (b, v, a) ← peek P a; .ok (.item b v, a)
  | .ref i => do let (b, v, a) ← ref a i; .ok (.item b v, a)
  | .insert x i => do let (b, a) ← insert P a x i; .ok (.bool b, a)
  | .reset => .ok (.unit, reset a)
  | .count => .ok (.size (count a), a)
  | .capacity => .ok (.size (capacity a), a)
  | .isEmpty => .ok (.bool (isEmpty a), a)
  | .isFull => .ok (.bool (isFull a), a)
  | .index x => do let i ← index P a x; .ok (.size i, a)
  | .rindex x => do let i ← rindex P a x; .ok (.size i, a)

def run (P : Plat) (a : Arr) : List Op → C (List Out × Arr)
  | [] => .ok ([], a)
  | op :: ops => do
    let (o, a) ← step P a op
    let (os, a) ← run P a ops
    .ok (o :: os, a)

/-! ## An array used as a priority queue -/

/-- The calls: `put` is `mu_array_insert_sorted` (mu_array.c:189-197), `take` is `mu_array_pop` (87-94),
`top` is `mu_array_peek` (96-103), then `mu_array_count` (70) and `mu_array_reset` (63-66). -/
inductive PqOp where
  | put (x : Val)
  | take
  | top
  | count
  | reset
  deriving DecidableEq

/-- Dispatch of one of these calls, see `PqOp`. -/
def pqStep (P : Plat) (cmp : Cmp) (a : Arr) : PqOp → C (Out × Arr)
  | .put x => do let (b, a) ← insertSorted P a x cmp; .ok (.bool b, a)
  | .take => do let (b, v, a) ← pop P a; .ok (.item b v, a)
  | .top => do let (b, v, a) ← peek P a; .ok (.item b v, a)
  | .count => .ok (.size (count a), a)
  | .reset => .ok (.unit, reset a)

def pqRun (P : Plat) (cmp : Cmp) (a : Arr) : List PqOp → C (List Out × Arr)
  | [] => .ok ([], a)
  | op :: ops => do
    let (o, a) ← pqStep P cmp a op
    let (os, a) ← pqRun P cmp a ops
    .ok (o :: os, a)

end Mu.Arr
