import Verif.Model.Queue

/-! # Specification of a queue: a list (oldest first) bounded by a capacity -/

namespace Mu.Queue.Spec
open Mu.Queue

/-- What a first-in first-out list bounded by `cap` answers to one call, and its new content. -/
def step (cap : Nat) (l : List Val) : Op → Out × List Val
  | .put e => if l.length < cap then (.bool true, l ++ [e]) else (.bool false, l)
  | .get => match l with
    | [] => (.elem false NULL, [])
    | x :: t => (.elem true x, t)
  | .peek => match l with
    | [] => (.elem false NULL, [])
    | x :: t => (.elem true x, x :: t)
  | .reset => (.unit, [])
  | .count => (.size l.length, l)
  | .capacity => (.size cap, l)
  | .isEmpty => (.bool (l == []), l)
  | .isFull => (.bool (l.length == cap), l)

/-- The answers to a history. -/
def run (cap : Nat) (l : List Val) : List Op → List Out × List Val
  | [] => ([], l)
  | op :: ops =>
    let r := step cap l op
    let rs := run cap r.2 ops
    (r.1 :: rs.1, rs.2)

end Mu.Queue.Spec
