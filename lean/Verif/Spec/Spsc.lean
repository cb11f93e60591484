import Verif.Model.Spsc

/-! # Specification of mu_spsc -/

namespace Mu.Spsc.Spec
open Mu.Spsc

/-- A FIFO list bounded by `n - 1`. -/
def step (n : Nat) (l : List Val) : Op → Out × List Val
  | .put e => if l.length < n - 1 then (.err .none, l ++ [e]) else (.err .full, l)
  | .get => match l with
    | [] => (.item .empty NULL, [])
    | x :: t => (.item .none x, t)
  | .reset => (.err .none, [])
  | .capacity => (.size (n - 1), l)

def run (n : Nat) (l : List Val) : List Op → List Out × List Val
  | [] => ([], l)
  | op :: ops =>
    let r := step n l op
    let rs := run n r.2 ops
    (r.1 :: rs.1, rs.2)

/-- Items whose put returned NONE, in order. -/
def accepted (log : List Ev) : List Val :=
  log.filterMap fun | .putRet x true => some x | _ => none

/-- Items delivered by gets that returned NONE, in order. -/
def delivered (log : List Ev) : List Val :=
  log.filterMap fun | .getRet true x => some x | _ => none

/-- The results of the puts, in order. -/
def putRets (log : List Ev) : List Ev := log.filter fun | .putRet _ _ => true | .getRet _ _ => false

/-- The results of the gets, in order. -/
def getRets (log : List Ev) : List Ev := log.filter fun | .getRet _ _ => true | .putRet _ _ => false

/-- Number of items in the queue: accepted but not yet delivered. -/
def queued (log : List Ev) : Nat := (accepted log).length - (delivered log).length

end Mu.Spsc.Spec
