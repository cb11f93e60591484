import Verif.Model.Spsc

/-! # mu_spsc on a machine with store buffers (total store order)

The same accesses as in `Model/Spsc.lean` (mu_spsc.c:67-96), executed on two cores of an x86-like
machine: a store first goes to the core's own FIFO buffer and reaches the memory at an arbitrary later
moment; a load returns the newest value for its location in the core's own buffer, else what the
memory holds.  The order of the stores of one core is kept: that the compiler does not reorder them is
an assumption (`store[]` is not volatile, mu_spsc.h:58-63). -/

namespace Mu.Spsc.Tso
open Mu.Spsc

/-- A store of the producer on its way to memory (mu_spsc.c:74, 75). -/
inductive PW where
  | item (slot : Nat) (x : Val)
  | tail (v : Nat)
  deriving DecidableEq

/-- Memory, the store buffers (oldest entry first), both program counters, the returns so far.  The
consumer only ever stores to `head` (mu_spsc.c:92). -/
structure Sys where
  q : Spsc
  pb : List PW
  cb : List Nat
  p : PPc
  c : CPc
  log : List Ev
  deriving DecidableEq

/-- The value of `tail` a load of the producer returns. -/
def lastTail (v : Nat) : List PW → Nat
  | [] => v
  | .item _ _ :: r => lastTail v r
  | .tail w :: r => lastTail w r

/-- The value of `head` a load of the consumer returns. -/
def lastHead (v : Nat) : List Nat → Nat
  | [] => v
  | w :: r => lastHead w r

/-- Scheduling choices: the two threads as before, and the two buffers releasing their oldest
store. -/
inductive Act where
  | prod (item : Val)
  | cons (tailFirst : Bool)
  | flushP
  | flushC
  deriving DecidableEq

/-- One action.  A flush of an empty buffer does nothing. -/
def micro (s : Sys) : Act → C Sys
  | .prod item =>
    match s.p with
    | .idle => .ok { s with p := .loadTail item }
    | .loadTail item =>
      .ok { s with p := .loadHead item ((lastTail s.q.tail s.pb + 1) &&& s.q.mask) }
    | .loadHead item next =>
      if next = s.q.head then
        .ok { s with p := .idle, log := s.log ++ [.putRet item false] }
      else .ok { s with p := .loadSlot item next }
    | .loadSlot item next => .ok { s with p := .storeItem item next (lastTail s.q.tail s.pb) }
    | .storeItem item next slot =>
      if slot < s.q.store.length then
        .ok { s with pb := s.pb ++ [.item slot item], p := .storeTail item next }
      else .error .oob
    | .storeTail item next =>
      .ok { s with pb := s.pb ++ [.tail next], p := .idle, log := s.log ++ [.putRet item true] }
  | .cons tailFirst =>
    match s.c with
    | .idle => .ok { s with c := .compare tailFirst }
    | .compare false => .ok { s with c := .loadTail (lastHead s.q.head s.cb) }
    | .compare true => .ok { s with c := .loadHead s.q.tail }
    | .loadTail h =>
      if h = s.q.tail then .ok { s with c := .idle, log := s.log ++ [.getRet false NULL] }
      else .ok { s with c := .loadSlot }
    | .loadHead t =>
      if lastHead s.q.head s.cb = t then
        .ok { s with c := .idle, log := s.log ++ [.getRet false NULL] }
      else .ok { s with c := .loadSlot }
    | .loadSlot => .ok { s with c := .loadItem (lastHead s.q.head s.cb) }
    | .loadItem slot => do
      let item ← ldN s.q.store slot
      .ok { s with c := .loadHead2 item }
    | .loadHead2 item => .ok { s with c := .storeHead item (lastHead s.q.head s.cb) }
    | .storeHead item h =>
      .ok { s with cb := s.cb ++ [(h + 1) &&& s.q.mask], c := .idle,
                   log := s.log ++ [.getRet true item] }
  | .flushP =>
    match s.pb with
    | [] => .ok s
    | .item slot x :: r => do
      let store ← stN s.q.store slot x
      .ok { s with q := { s.q with store := store }, pb := r }
    | .tail v :: r => .ok { s with q := { s.q with tail := v }, pb := r }
  | .flushC =>
    match s.cb with
    | [] => .ok s
    | v :: r => .ok { s with q := { s.q with head := v }, cb := r }

/-- Execution of a schedule. -/
def exec (s : Sys) : List Act → C Sys
  | [] => .ok s
  | a :: as => do let s ← micro s a; exec s as

/-- Both threads outside of any call, both buffers empty. -/
def Sys.start (q : Spsc) : Sys := { q := q, pb := [], cb := [], p := .idle, c := .idle, log := [] }

end Mu.Spsc.Tso
