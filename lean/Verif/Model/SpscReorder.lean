import Verif.Model.Spsc

/-! # mu_spsc compiled with its `store[]` accesses moved

`head` and `tail` are volatile (mu_spsc.h:60-61), the elements of `store` are not (mu_spsc.h:62): a
compiler keeps the order of the accesses to `head` and `tail`, but may move the access to
`store[]` across them.  In `mu_spsc_put` the item can be stored once its slot is known (the load of
`tail` on mu_spsc.c:74): before the store to `tail` (line 75, the order of the source) or after it.  In
`mu_spsc_get` the item can be loaded once its slot is known (the load of `head` on line 91): before the
second load of `head` (line 92, the order of the source), between that load and the store to `head`, or
after the store.  In all cases the access is performed before the function returns.  Which of these
happens is chosen anew in every call; a compiler makes one choice, so that this covers all of them.
Otherwise as `micro` in `Model/Spsc.lean`. -/

namespace Mu.Spsc.Re
open Mu.Spsc

/-- Where the producer is (mu_spsc.c:67-79). -/
inductive PPc where
  | idle
  | loadTail (item : Val)
  | loadHead (item : Val) (next : Nat)
  | loadSlot (item : Val) (next : Nat)
  | storeItem (item : Val) (next : Nat) (slot : Nat)
  | storeTail (item : Val) (next : Nat)
  /-- moved: about to store `tail` (line 75) before the item -/
  | tailFirst (item : Val) (next : Nat) (slot : Nat)
  /-- moved: `tail` is stored, about to store the item (line 74) -/
  | lateItem (item : Val) (slot : Nat)
  deriving DecidableEq

/-- Where the consumer is (mu_spsc.c:84-96). -/
inductive CPc where
  | idle
  | compare (tailFirst : Bool)
  | loadTail (h : Nat)
  | loadHead (t : Nat)
  | loadSlot
  /-- the slot is known, the item not yet loaded (line 91) -/
  | loadItem (slot : Nat)
  | loadHead2 (item : Val)
  | storeHead (item : Val) (h : Nat)
  /-- moved: `head` loaded (line 92), item not yet loaded -/
  | headFirst (slot : Nat) (h : Nat)
  /-- moved: `head` is stored (line 92), about to load the item (line 91) -/
  | lateItem (slot : Nat)
  deriving DecidableEq

/-- Shared memory, both program counters, and the events so far. -/
structure Sys where
  q : Spsc
  p : PPc
  c : CPc
  log : List Ev
  deriving DecidableEq

/-- One scheduling choice; `moved`: at a point where the access to `store[]` may come next, another
access comes first. -/
inductive Act where
  | prod (item : Val) (moved : Bool)
  | cons (tailFirst : Bool) (moved : Bool)
  deriving DecidableEq

/-- One shared access of one of the two threads, with the local computation that follows it. -/
def micro (s : Sys) : Act → C Sys
  | .prod item moved =>
    match s.p with
    | .idle => .ok { s with p := .loadTail item }
    | .loadTail item => .ok { s with p := .loadHead item ((s.q.tail + 1) &&& s.q.mask) }
    | .loadHead item next =>
      if next = s.q.head then
        .ok { s with p := .idle, log := s.log ++ [.putRet item false] }
      else .ok { s with p := .loadSlot item next }
    | .loadSlot item next =>
      if moved then .ok { s with p := .tailFirst item next s.q.tail }
      else .ok { s with p := .storeItem item next s.q.tail }
    | .storeItem item next slot => do
      let store ← stN s.q.store slot item
      .ok { s with q := { s.q with store := store }, p := .storeTail item next }
    | .storeTail item next =>
      .ok { s with q := { s.q with tail := next }, p := .idle,
                   log := s.log ++ [.putRet item true] }
    | .tailFirst item next slot =>
      .ok { s with q := { s.q with tail := next }, p := .lateItem item slot }
    | .lateItem item slot => do
      let store ← stN s.q.store slot item
      .ok { s with q := { s.q with store := store }, p := .idle,
                   log := s.log ++ [.putRet item true] }
  | .cons tailFirst moved =>
    match s.c with
    | .idle => .ok { s with c := .compare tailFirst }
    | .compare false => .ok { s with c := .loadTail s.q.head }
    | .compare true => .ok { s with c := .loadHead s.q.tail }
    | .loadTail h =>
      if h = s.q.tail then .ok { s with c := .idle, log := s.log ++ [.getRet false NULL] }
      else .ok { s with c := .loadSlot }
    | .loadHead t =>
      if s.q.head = t then .ok { s with c := .idle, log := s.log ++ [.getRet false NULL] }
      else .ok { s with c := .loadSlot }
    | .loadSlot => .ok { s with c := .loadItem s.q.head }
    | .loadItem slot =>
      if moved then .ok { s with c := .headFirst slot s.q.head }
      else do
        let item ← ldN s.q.store slot
        .ok { s with c := .loadHead2 item }
    | .loadHead2 item => .ok { s with c := .storeHead item s.q.head }
    | .storeHead item h =>
      .ok { s with q := { s.q with head := (h + 1) &&& s.q.mask }, c := .idle,
                   log := s.log ++ [.getRet true item] }
    | .headFirst slot h =>
      if moved then
        .ok { s with q := { s.q with head := (h + 1) &&& s.q.mask }, c := .lateItem slot }
      else do
        let item ← ldN s.q.store slot
        .ok { s with c := .storeHead item h }
    | .lateItem slot => do
      let item ← ldN s.q.store slot
      .ok { s with c := .idle, log := s.log ++ [.getRet true item] }

/-- Execution of a schedule. -/
def exec (s : Sys) : List Act → C Sys
  | [] => .ok s
  | a :: as => do let s ← micro s a; exec s as

/-- Both threads outside of any call, nothing logged. -/
def Sys.start (q : Spsc) : Sys := { q := q, p := .idle, c := .idle, log := [] }

/-- The consumer is not active between a store to `tail` and a later store of the item that belongs to
it: true in particular if `mu_spsc_put` is called by an interrupt handler that the consumer (the
main program) cannot interrupt, and if the compiler did not move the store. -/
def RunsOn : Sys → List Act → Prop
  | _, [] => True
  | s, a :: as => (∀ x slot tf moved, s.p = .lateItem x slot → a ≠ .cons tf moved) ∧
      ∀ s', micro s a = .ok s' → RunsOn s' as

end Mu.Spsc.Re
