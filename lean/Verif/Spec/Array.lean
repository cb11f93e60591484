import Verif.Model.Array

/-! # Specification of mu_array: a list bounded by a capacity -/

namespace Mu.Arr

/-- The array object holds exactly the list `l`. -/
structure Rep (a : Arr) (l : List Val) : Prop where
  len : l.length = a.count
  le : a.count ≤ a.capacity
  alloc : a.capacity ≤ a.storage.length
  take : a.storage.take a.count = l

/-- The other parts of the object are untouched. -/
structure Frame (a a' : Arr) : Prop where
  cap : a'.capacity = a.capacity
  len : a'.storage.length = a.storage.length
  drop : a'.storage.drop a.capacity = a.storage.drop a.capacity

end Mu.Arr

namespace Mu.Arr.Spec
open Mu.Arr

/-- The first position (from 0) of `x` in `l`, or `nf`. -/
def firstIndex (nf : Nat) (x : Val) (l : List Val) : Nat :=
  match l.findIdx? (· == x) with
  | some i => i
  | none => nf

/-- The last position of `x` in `l`, or `nf`. -/
def lastIndex (nf : Nat) (x : Val) (l : List Val) : Nat :=
  match l.reverse.findIdx? (· == x) with
  | some i => l.length - 1 - i
  | none => nf

/-- What a list bounded by `cap` answers to one call, and its new content; `nf` is the
NOT_FOUND value. -/
def step (nf cap : Nat) (l : List Val) : Op → Out × List Val
  | .push x => if l.length < cap then (.bool true, l ++ [x]) else (.bool false, l)
  | .pop => match l.getLast? with
    | none => (.item false none, l)
    | some x => (.item true (some x), l.dropLast)
  | .peek => match l.getLast? with
    | none => (.item false none, l)
    | some x => (.item true (some x), l)
  | .ref i => (.item (i < l.length) l[i]?, l)
  | .insert x i =>
    if l.length < cap ∧ i ≤ l.length then (.bool true, l.take i ++ x :: l.drop i)
    else (.bool false, l)
  | .reset => (.unit, [])
  | .count => (.size l.length, l)
  | .capacity => (.size cap, l)
  | .isEmpty => (.bool (l == []), l)
  | .isFull => (.bool (l.length == cap), l)
  | .index x => (.size (firstIndex nf x l), l)
  | .rindex x => (.size (lastIndex nf x l), l)

def run (nf cap : Nat) (l : List Val) : List Op → List Out × List Val
  | [] => ([], l)
  | op :: ops =>
    let r := step nf cap l op
    let rs := run nf cap r.2 ops
    (r.1 :: rs.1, rs.2)

/-- The comparison function is consistent (does not depend on the call number) and is the
three-way comparison of a total preorder. -/
structure TotalPreorder (cmp : Cmp) : Prop where
  pure : ∀ k k' a b, cmp k a b = cmp k' a b
  antisymm : ∀ a b, cmp 0 a b < 0 ↔ 0 < cmp 0 b a
  trans : ∀ a b c, cmp 0 a b ≤ 0 → cmp 0 b c ≤ 0 → cmp 0 a c ≤ 0

/-- Non-decreasing with respect to `cmp`. -/
def Sorted (cmp : Cmp) (l : List Val) : Prop := l.Pairwise (fun a b => cmp 0 a b ≤ 0)

end Mu.Arr.Spec

/-! ## Priority queues -/

namespace Mu.Arr.Spec
open Mu.Arr

/-- From a list of items, oldest first: the greatest, the youngest one of several, and the others in
their order. -/
def takeGreatest (cmp : Cmp) : List Val → Option (Val × List Val)
  | [] => none
  | y :: l => match takeGreatest cmp l with
    | none => some (y, [])
    | some (x, r) => if cmp 0 y x ≤ 0 then some (x, y :: r) else some (y, l)

/-- `x` is what `takeGreatest` delivers and `r` what it leaves: no item is greater than `x` and the
items younger than `x` are all less. -/
def Greatest (cmp : Cmp) (l : List Val) (x : Val) (r : List Val) : Prop :=
  ∃ older younger, l = older ++ x :: younger ∧ r = older ++ younger ∧
    (∀ y ∈ older, cmp 0 y x ≤ 0) ∧ (∀ y ∈ younger, cmp 0 y x < 0)

/-- What a priority queue with room for `cap` items answers; its state is the list of the items in it,
oldest first. -/
def pqStep (cmp : Cmp) (cap : Nat) (l : List Val) : PqOp → Out × List Val
  | .put x => if l.length < cap then (.bool true, l ++ [x]) else (.bool false, l)
  | .take => match takeGreatest cmp l with
    | none => (.item false none, l)
    | some (x, r) => (.item true (some x), r)
  | .top => match takeGreatest cmp l with
    | none => (.item false none, l)
    | some (x, _) => (.item true (some x), l)
  | .count => (.size l.length, l)
  | .reset => (.unit, [])

def pqRun (cmp : Cmp) (cap : Nat) (l : List Val) : List PqOp → List Out × List Val
  | [] => ([], l)
  | op :: ops =>
    let r := pqStep cmp cap l op
    let rs := pqRun cmp cap r.2 ops
    (r.1 :: rs.1, rs.2)

end Mu.Arr.Spec
