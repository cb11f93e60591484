import Verif.Model.Log

/-! # Specification of the log module: a monitor of event traces -/

namespace Mu.Log.Spec
open Mu.Log

/-- A call of `mu_log` in progress: entered; logging function running; it has returned. -/
inductive Phase where
  | entered (l : Int) (msg : Val)
  | logging (l : Int) (msg : Val)
  | logged
  deriving DecidableEq

/-- The observer's books: the threshold and the function set last, the level of the `mu_log` call
whose message was delivered last, the calls in progress (innermost first). -/
structure St where
  threshold : Int
  fn : Val
  last : Int
  stack : List Phase
  deriving DecidableEq

/-- User code is running: the main program or the logging function. -/
def userCode : List Phase → Prop
  | [] => True
  | .logging _ _ :: _ => True
  | _ => False

def next (σ : St) : Ev → St
  | .initRet l f => { σ with threshold := l, fn := f }
  | .setThresholdRet l => { σ with threshold := l }
  | .setFnRet f => { σ with fn := f }
  | .logEnter l msg => { σ with stack := .entered l msg :: σ.stack }
  | .fnCalled _ _ => match σ.stack with
    | .entered l msg :: st => { σ with stack := .logging l msg :: st, last := l }
    | _ => σ
  | .fnDone => { σ with stack := .logged :: σ.stack.tail }
  | .logRet => { σ with stack := σ.stack.tail }
  | _ => σ

def legal (σ : St) : Ev → Prop
  | .getThresholdRet l => userCode σ.stack ∧ l = σ.threshold
  | .getFnRet f => userCode σ.stack ∧ f = σ.fn
  | .getLevelRet l => userCode σ.stack ∧ l = σ.last
  | .isReportingRet l r => userCode σ.stack ∧ (r = true ↔ σ.threshold ≤ l)
  -- delivered to the function set last, only if the level reaches the threshold set last
  | .fnCalled f msg => ∃ l, σ.stack.head? = some (.entered l msg) ∧ σ.threshold ≤ l ∧ f = σ.fn ∧
      f ≠ NULL
  | .fnDone => ∃ l msg, σ.stack.head? = some (.logging l msg)
  -- `mu_log` returns when the message has been delivered, or at once if it must not be
  | .logRet => σ.stack.head? = some .logged ∨
      ∃ l msg, σ.stack.head? = some (.entered l msg) ∧ (l < σ.threshold ∨ σ.fn = NULL)
  | _ => userCode σ.stack

def Conforms : St → List Ev → Prop
  | _, [] => True
  | σ, e :: tr => legal σ e ∧ Conforms (next σ e) tr

def track (σ : St) (tr : List Ev) : St := tr.foldl next σ

end Mu.Log.Spec
