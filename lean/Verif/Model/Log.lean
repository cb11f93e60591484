import Verif.C.Basic
import Verif.C.Val

/-! # Model of /repo/mulib/mu_log.c

The logging function is user code and may call the log module again: `Prog`.  The message (format
and arguments) is passed through unchanged and is one opaque value. -/

namespace Mu.Log

/-- The static variables, mu_log.c:46-51. -/
structure World where
  threshold : Int
  level : Int
  fn : Val
  deriving DecidableEq

/-- Events in order of occurrence. -/
inductive Ev where
  | initRet (threshold : Int) (fn : Val)
  | setThresholdRet (l : Int)
  | getThresholdRet (l : Int)
  | setFnRet (f : Val)
  | getFnRet (f : Val)
  | getLevelRet (l : Int)
  | isReportingRet (l : Int) (r : Bool)
  /-- `mu_log(l, msg)` entered -/
  | logEnter (l : Int) (msg : Val)
  /-- the logging function `f` called with the message -/
  | fnCalled (f msg : Val)
  | fnDone
  | logRet
  deriving DecidableEq

/-- Finite trees of API calls; `body` is what the logging function does if it is called. -/
inductive Prog where
  | done
  | init (threshold : Int) (fn : Val) (next : Prog)
  | setThreshold (l : Int) (next : Prog)
  | getThreshold (next : Prog)
  | setFn (f : Val) (next : Prog)
  | getFn (next : Prog)
  | getLevel (next : Prog)
  | isReporting (l : Int) (next : Prog)
  | log (l : Int) (msg : Val) (body next : Prog)
  deriving DecidableEq

/-- `mu_log_is_reporting`, mu_log.c:84-86. -/
def isReporting (w : World) (l : Int) : Bool := decide (l ≥ w.threshold)

/-- `mu_log`, mu_log.c:96-104. -/
def log (w : World) (l : Int) (msg : Val) (body : World → List Ev × World) : List Ev × World :=
  if isReporting w l = true ∧ w.fn ≠ NULL then
    let (tr, w') := body { w with level := l }
    (.logEnter l msg :: .fnCalled w.fn msg :: tr ++ [.fnDone, .logRet], w')
  else ([.logEnter l msg, .logRet], w)

/-- Execution of a tree of calls.  In place: `mu_log_init`, mu_log.c:59-62;
`mu_log_set_reporting_threshold`, mu_log.c:64-66; `mu_log_get_reporting_threshold`,
mu_log.c:68-70; `mu_log_set_logging_function`, mu_log.c:72-74; `mu_log_get_logging_function`,
mu_log.c:76-78; `mu_log_get_reporting_level`, mu_log.c:80-82. -/
def run (w : World) : Prog → List Ev × World
  | .done => ([], w)
  | .init l f next =>
    let (tr, w) := run { { w with threshold := l } with fn := f } next
    (.initRet l f :: tr, w)
  | .setThreshold l next =>
    let (tr, w) := run { w with threshold := l } next
    (.setThresholdRet l :: tr, w)
  | .getThreshold next =>
    let (tr, w') := run w next
    (.getThresholdRet w.threshold :: tr, w')
  | .setFn f next =>
    let (tr, w) := run { w with fn := f } next
    (.setFnRet f :: tr, w)
  | .getFn next =>
    let (tr, w') := run w next
    (.getFnRet w.fn :: tr, w')
  | .getLevel next =>
    let (tr, w') := run w next
    (.getLevelRet w.level :: tr, w')
  | .isReporting l next =>
    let (tr, w') := run w next
    (.isReportingRet l (isReporting w l) :: tr, w')
  | .log l msg body next =>
    let (tr1, w) := log w l msg (fun w => run w body)
    let (tr2, w) := run w next
    (tr1 ++ tr2, w)

/-- `s_level_names`, mu_log.c:40-43 with mu_log.h:49-55. -/
def levelNames : List String := ["TRACE", "DEBUG", "INFO", "WARN", "ERROR", "FATAL"]

/-- `mu_log_level_name`, mu_log.c:88-94.  The comparison is made in `size_t` (`N_LOG_LEVELS` is a
`sizeof` quotient), whatever the integer type of the enumeration. -/
def levelName (P : Plat) (level : Int) : C String :=
  if P.toSz level < levelNames.length then ld levelNames level else .ok "UNKNOWN"

end Mu.Log
