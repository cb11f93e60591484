import Verif.C.Val

/-! # Model of /repo/mulib/mu_spsc.c

Sequential functions first, then the same `put` and `get` cut into their individual accesses to
the shared variables `head`, `tail` (volatile, mu_spsc.h:60-61) and `store[]`, so that a producer
and a consumer can be interleaved arbitrarily.

Arithmetic: `uint16_t` operands are promoted to `int` (or `unsigned int` when `int` has 16 bits);
in both cases `(x + 1) & mask` has the value of the Nat expression since `mask < 2^16`. -/

namespace Mu.Spsc

/-- mu_spsc.h:48-53 -/
inductive Err where
  | none
  | empty
  | full
  | size
  deriving DecidableEq

/-- `mu_spsc_t`, mu_spsc.h:58-63. -/
structure Spsc where
  mask : Nat
  head : Nat
  tail : Nat
  store : List Val
  deriving DecidableEq

/-- `IS_POWER_OF_TWO`, mu_spsc.c:38. -/
def isPowerOfTwo (n : Nat) : Bool := (n &&& (n - 1)) == 0

/-- `mu_spsc_reset`, mu_spsc.c:56-60. -/
def reset (q : Spsc) : Err × Spsc := (.none, { q with head := 0, tail := 0 })

/-- `mu_spsc_init`, mu_spsc.c:46-54.  `n` is the `uint16_t` store_size. -/
def init (q : Spsc) (store : List Val) (n : Nat) : Err × Spsc :=
  if n < 2 ∨ isPowerOfTwo n = false then (.size, q)
  else reset { q with store := store, mask := n - 1 }

/-- `mu_spsc_capacity`, mu_spsc.c:62. -/
def capacity (q : Spsc) : Nat := q.mask

/-- `mu_spsc_put`, mu_spsc.c:67-79. -/
def put (q : Spsc) (item : Val) : C (Err × Spsc) :=
  let nextTail := (q.tail + 1) &&& q.mask
  if nextTail = q.head then .ok (.full, q)
  else do
    let store ← stN q.store q.tail item
    let q := { q with store := store }
    .ok (.none, { q with tail := nextTail })

/-- `mu_spsc_get`, mu_spsc.c:84-96.  Returns the error code, the value written to `*item`, and the
new state. -/
def get (q : Spsc) : C (Err × Val × Spsc) :=
  if q.head = q.tail then .ok (.empty, NULL, q)
  else do
    let item ← ldN q.store q.head
    .ok (.none, item, { q with head := (q.head + 1) &&& q.mask })

/-! ## Sequential histories -/

inductive Op where
  | put (e : Val)
  | get
  | reset
  | capacity
  deriving DecidableEq

inductive Out where
  | err (e : Err)
  | item (e : Err) (v : Val)
  | size (n : Nat)
  deriving DecidableEq

/-- Dispatch of one API call. -/
def step (q : Spsc) : Op → C (Out × Spsc)
  | .put e => do let (r, q) ← put q e; .ok (.err r, q)
  | .get => do let (r, v, q) ← get q; .ok (.item r v, q)
  | .reset => .ok (.err (reset q).1, (reset q).2)
  | .capacity => .ok (.size (capacity q), q)

/-- A sequential history of API calls. -/
def run (q : Spsc) : List Op → C (List Out × Spsc)
  | [] => .ok ([], q)
  | op :: ops => do
    let (o, q) ← step q op
    let (os, q) ← run q ops
    .ok (o :: os, q)

/-! ## Concurrent executions -/

/-- Where the producer is inside `mu_spsc_put(item)`; each constructor is named after the shared
access that comes next (mu_spsc.c:69-76). -/
inductive PPc where
  /-- not in a call -/
  | idle
  /-- about to load `tail` for `next_tail` (line 69) -/
  | loadTail (item : Val)
  /-- about to load `head` and compare (line 71) -/
  | loadHead (item : Val) (next : Nat)
  /-- about to load `tail` for the slot (line 74) -/
  | loadSlot (item : Val) (next : Nat)
  /-- about to store the item into `store[slot]` (line 74) -/
  | storeItem (item : Val) (next : Nat) (slot : Nat)
  /-- about to store `next_tail` to `tail` (line 75) -/
  | storeTail (item : Val) (next : Nat)
  deriving DecidableEq

/-- Where the consumer is inside `mu_spsc_get` (mu_spsc.c:87-93).  The operands of
`q->head == q->tail` may be loaded in either order (C leaves it unspecified), both are modelled. -/
inductive CPc where
  | idle
  /-- about to load the first operand of the comparison on line 87 -/
  | compare (tailFirst : Bool)
  /-- head loaded, about to load `tail` and compare -/
  | loadTail (h : Nat)
  /-- tail loaded, about to load `head` and compare -/
  | loadHead (t : Nat)
  /-- about to load `head` for the slot (line 91) -/
  | loadSlot
  /-- about to load `store[slot]` (line 91) -/
  | loadItem (slot : Nat)
  /-- about to load `head` (line 92) -/
  | loadHead2 (item : Val)
  /-- about to store `head` (line 92) -/
  | storeHead (item : Val) (h : Nat)
  deriving DecidableEq

/-- Observable events: returns of the two functions. -/
inductive Ev where
  | putRet (item : Val) (ok : Bool)
  | getRet (ok : Bool) (v : Val)
  deriving DecidableEq

/-- Shared memory, both program counters, and the events so far (oldest first). -/
structure Sys where
  q : Spsc
  p : PPc
  c : CPc
  log : List Ev
  deriving DecidableEq

/-- One scheduling choice: the producer performs its next action (starting `put item` if it is
not in a call), or the consumer does (starting `get` if it is not in a call). -/
inductive Act where
  | prod (item : Val)
  | cons (tailFirst : Bool)
  deriving DecidableEq

/-- One shared access of one of the two threads, with the local computation that follows it. -/
def micro (s : Sys) : Act → C Sys
  | .prod item =>
    match s.p with
    | .idle => .ok { s with p := .loadTail item }
    | .loadTail item => .ok { s with p := .loadHead item ((s.q.tail + 1) &&& s.q.mask) }
    | .loadHead item next =>
      if next = s.q.head then
        .ok { s with p := .idle, log := s.log ++ [.putRet item false] }
      else .ok { s with p := .loadSlot item next }
    | .loadSlot item next => .ok { s with p := .storeItem item next s.q.tail }
    | .storeItem item next slot => do
      let store ← stN s.q.store slot item
      .ok { s with q := { s.q with store := store }, p := .storeTail item next }
    | .storeTail item next =>
      .ok { s with q := { s.q with tail := next }, p := .idle,
                   log := s.log ++ [.putRet item true] }
  | .cons tailFirst =>
    match s.c with
    | .idle => .ok { s with c := .compare tailFirst }
    | .compare false => .ok { s with c := .loadTail s.q.head }
    | .compare true => .ok { s with c := .loadHead s.q.tail }
    | .loadTail h =>
      if h = s.q.tail then .ok { s with c := .idle, log := s.log ++ [.getRet false NULL] }
      else .ok { s with c := .loadSlot }
    | .loadHead t =>
      if s.q.head = t then .ok { s with c := .idle, log := s.log ++ [.getRet false NULL] }
      else .ok { s with c := .loadSlot }
    | .loadSlot => .ok { s with c := .loadItem s.q.head }
    | .loadItem slot => do
      let item ← ldN s.q.store slot
      .ok { s with c := .loadHead2 item }
    | .loadHead2 item => .ok { s with c := .storeHead item s.q.head }
    | .storeHead item h =>
      .ok { s with q := { s.q with head := (h + 1) &&& s.q.mask }, c := .idle,
                   log := s.log ++ [.getRet true item] }

/-- Execution of a schedule: every list of choices is an interleaving and conversely. -/
def exec (s : Sys) : List Act → C Sys
  | [] => .ok s
  | a :: as => do let s ← micro s a; exec s as

/-- Both threads outside of any call, nothing logged. -/
def Sys.start (q : Spsc) : Sys := { q := q, p := .idle, c := .idle, log := [] }

end Mu.Spsc
