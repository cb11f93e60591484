import Verif.Lemmas.Src
import Verif.Spec.SrcTask
import Verif.Spec.SrcMem

/-! # What a user of mu_log.c relies on, for the parsed source -/

namespace Mu.CS

/-- `l` is a value of the enumeration type `mu_log_level_t` (which may be signed or not). -/
def Arch.Level (A : Arch) (l : Int) : Prop := (A.it .enum).conv l = l

/-- The variables of mu_log.c hold the threshold `thr`, the level `lvl` of the last message reported, and the logging
function `fn` (or NULL). -/
structure Heap.Logger (h : Heap) (thr lvl : Int) (fn : CVal) : Prop where
  hook : Hook fn
  thr : h.at (.glob .s_reporting_threshold) 0 = some (.int thr)
  lvl : h.at (.glob .s_reporting_level) 0 = some (.int lvl)
  fn : h.at (.glob .s_logging_fn) 0 = some fn

/-- Those variables. -/
def LogVar (b : Base) (_ : Int) : Prop :=
  b = .glob .s_reporting_threshold ∨ b = .glob .s_reporting_level ∨ b = .glob .s_logging_fn

/-- Memory while a function with variable arguments `args` runs. -/
def Heap.withArgs (h : Heap) (args : List CVal) : Heap :=
  { (h.put (.obj h.next) args) with next := h.next + 1 }

/-- Memory in which the logging function runs: the level of the message is set and the variable arguments are there. -/
def Heap.reporting (h : Heap) (l : Int) (args : List CVal) : Heap :=
  (h.upd (.glob .s_reporting_level) 0 (.int l)).withArgs args

/-- The (ASCII) text at a pointer: characters up to and including the terminating NUL. -/
def Heap.Text (h : Heap) (p : CVal) (s : String) : Prop :=
  ∃ b o, p = .ptr b o ∧ ∀ (i c : Nat), (s.toList.map Char.toNat ++ [0])[i]? = some c → h.at b (o + i) = some (.int c)

/-- The name of a level (mu_log.h:49-55). -/
def levelText (l : Int) : String :=
  if l = 0 then "TRACE" else if l = 1 then "DEBUG" else if l = 2 then "INFO" else if l = 3 then "WARN"
  else if l = 4 then "ERROR" else if l = 5 then "FATAL" else "UNKNOWN"

/-- A message delivered: to which logging function, with which level, format and arguments. -/
structure Report where
  fn : Nat
  lvl : Int
  fmt : CVal
  args : List CVal

/-- Calls of mu_log.c. -/
inductive LogCall where
  | init (thr : Int) (fn : CVal)
  | setThr (thr : Int)
  | getThr
  | setFn (fn : CVal)
  | getFn
  | getLevel
  | isReporting (l : Int)
  | log (l : Int) (fmt : CVal) (args : List CVal)

/-- The call as it is made. -/
def LogCall.run (S : Fn → SemFn) (h : Heap) : LogCall → C (CVal × Heap)
  | .init t f => S .mu_log_init h [.int t, f]
  | .setThr t => S .mu_log_set_reporting_threshold h [.int t]
  | .getThr => S .mu_log_get_reporting_threshold h []
  | .setFn f => S .mu_log_set_logging_function h [f]
  | .getFn => S .mu_log_get_logging_function h []
  | .getLevel => S .mu_log_get_reporting_level h []
  | .isReporting l => S .mu_log_is_reporting h [.int l]
  | .log l fmt args => S .mu_log h (.int l :: fmt :: args)

/-- Arguments as their types demand. -/
def LogCall.Legal (A : Arch) : LogCall → Prop
  | .init t f => A.Level t ∧ Hook f
  | .setThr t => A.Level t
  | .setFn f => Hook f
  | .isReporting l => A.Level l
  | .log l fmt _ => A.Level l ∧ fmt ≠ .undef
  | _ => True

/-- What a call answers, the threshold, level and function after it, and the message it delivers, if any. -/
def LogCall.spec (thr lvl : Int) (fn : CVal) : LogCall → CVal × Int × Int × CVal × List Report
  | .init t f => (.undef, t, lvl, f, [])
  | .setThr t => (.undef, t, lvl, fn, [])
  | .getThr => (.int thr, thr, lvl, fn, [])
  | .setFn f => (.undef, thr, lvl, f, [])
  | .getFn => (fn, thr, lvl, fn, [])
  | .getLevel => (.int lvl, thr, lvl, fn, [])
  | .isReporting l => (.ofBool (decide (thr ≤ l)), thr, lvl, fn, [])
  | .log l fmt args =>
    match fn with
    | .fn f => if thr ≤ l then (.undef, thr, l, fn, [⟨f, l, fmt, args⟩]) else (.undef, thr, lvl, fn, [])
    | _ => (.undef, thr, lvl, fn, [])

/-- A history of calls. -/
def LogCall.runAll (S : Fn → SemFn) (h : Heap) : List LogCall → C (List CVal × Heap)
  | [] => .ok ([], h)
  | c :: l => do
    let (v, h) ← c.run S h
    let (vs, h) ← LogCall.runAll S h l
    .ok (v :: vs, h)

/-- What a history answers and delivers, and the variables at its end. -/
def LogCall.specAll (thr lvl : Int) (fn : CVal) : List LogCall → List CVal × List Report × Int × Int × CVal
  | [] => ([], [], thr, lvl, fn)
  | c :: l =>
    let (v, thr, lvl, fn, r) := c.spec thr lvl fn
    let (vs, rs, e) := LogCall.specAll thr lvl fn l
    (v :: vs, r ++ rs, e)

/-- Logging functions, run by `cb`, that keep the property `I` of what has been delivered so far and of memory: called with
a message they return, leave the variables of mu_log.c alone and remove nothing that was there.  `I` may speak about
any memory but the variables of mu_log.c. -/
structure LogsTo (cb : Nat → SemFn) (I : List Report → Heap → Prop) : Prop where
  call : ∀ tr h f l fmt args, I tr h → h.Fresh → ∃ v h2,
    cb f (h.reporting l args) [fmt, .ptr (.obj h.next) 0] = .ok (v, h2) ∧
    I (tr ++ [⟨f, l, fmt, args⟩]) (h2.release h.next) ∧
    (∀ b, LogVar b 0 → h2.cells b = (h.reporting l args).cells b)
  stable : ∀ tr h h', I tr h → Heap.Only LogVar h h' → I tr h'

end Mu.CS
