import Verif.Spec.SrcProgram

/-! # What the log of a program shows, without an agenda

For programs in which each task is scheduled in one way only.  Everything here is about the log - the calls with their answers,
the tasks that are called, the readings of the clock - and nothing about how the scheduler works. -/

namespace Mu.CS.Story

/-- The way a task is scheduled: from interrupts, deferred, immediately, or as the idle task. -/
inductive Kind where
  | irq | due | immed | idle
  deriving DecidableEq

/-- The entry is in keeping with the kinds of the tasks; NULL is not scheduled. -/
def Keeps (K : CVal → Kind) : Seen → Prop
  | .did (.immed t) _ | .did (.transfer t) _ => K t = .immed ∧ t ≠ .null
  | .did (.fromIsr t) _ => K t = .irq ∧ t ≠ .null
  | .did (.deferUntil t _) _ | .did (.deferFor t _) _ => K t = .due ∧ t ≠ .null
  | .did (.setIdle t) _ => t = .null ∨ K t = .idle
  | _ => True

/-- The tasks that were scheduled immediately, with success, since the last `mu_sched_reset`, in order. -/
def immed (L : List Seen) : List CVal :=
  L.foldl (fun l e => match e with
    | .did (.immed t) (.int 0) | .did (.transfer t) (.int 0) => l ++ [t]
    | .did .reset _ => []
    | _ => l) []

/-- The tasks that were scheduled from interrupts, with success, since the last `mu_sched_reset`, in order. -/
def irq (L : List Seen) : List CVal :=
  L.foldl (fun l e => match e with
    | .did (.fromIsr t) (.int 0) => l ++ [t]
    | .did .reset _ => []
    | _ => l) []

/-- The tasks of kind `k` that were called since the last `mu_sched_reset`, in order. -/
def runs (K : CVal → Kind) (k : Kind) (L : List Seen) : List CVal :=
  L.foldl (fun l e => match e with
    | .called t => if K t = k then l ++ [t] else l
    | .did .reset _ => []
    | _ => l) []

/-- The tasks that wait for their time, in no particular order: those deferred with success, less those that were called or
removed. -/
def bag (L : List Seen) : List CVal :=
  L.foldl (fun l e => match e with
    | .did (.deferUntil t _) (.int 0) | .did (.deferFor t _) (.int 0) => t :: l
    | .called t => l.erase t
    | .did (.remove t) _ => l.filter (· ≠ t)
    | .did .reset _ => []
    | _ => l) []

/-- The last reading of the clock. -/
def lastClock (L : List Seen) : CVal :=
  L.foldl (fun c e => match e with
    | .clock now => now
    | _ => c) .undef

/-- The idle task that was set last, or NULL. -/
def lastIdle (L : List Seen) : CVal :=
  L.foldl (fun c e => match e with
    | .did (.setIdle t) _ => t
    | _ => c) .null

/-- The task that was called last, or NULL if a step has returned, or the scheduler was reset, since then. -/
def lastCalled (L : List Seen) : CVal :=
  L.foldl (fun c e => match e with
    | .called t => t
    | .stepped | .did .reset _ => .null
    | _ => c) .null

/-- Entry `n` says that `t` was deferred, with success, until `T`. -/
def DeferredAt (off : CVal → CVal → CVal) (L : List Seen) (n : Nat) (t T : CVal) : Prop :=
  L[n]? = some (.did (.deferUntil t T) (.int 0)) ∨
    ∃ d, L[n]? = some (.did (.deferFor t d) (.int 0)) ∧ T = off (lastClock (L.take n)) d

/-- `t` was not removed after entry `n`. -/
def Kept (L : List Seen) (n : Nat) (t : CVal) : Prop := ∀ m, n < m → ∀ e, L[m]? = some e → e.dropped t = false

/-- Entry `n` says that `t` was deferred until `T`, and since then it was neither called nor removed. -/
def Pending (off : CVal → CVal → CVal) (L : List Seen) (n : Nat) (t T : CVal) : Prop :=
  DeferredAt off L n t T ∧ Kept L n t ∧ ∀ m, n < m → L[m]? ≠ some (.called t)

/-- The deferral of `t` at entry `n`, until `T`, comes before every other that is pending: it is for an earlier time, or not for
a later time and made before. -/
def First (prec : CVal → CVal → Bool) (off : CVal → CVal → CVal) (L : List Seen) (n : Nat) (t T : CVal) : Prop :=
  DeferredAt off L n t T ∧ Kept L n t ∧
    ∀ m u T', Pending off L m u T' → m ≠ n → prec T T' = true ∨ prec T' T = false ∧ n < m

/-- Entries there may be while a step looks for a task: readings of the clock and interrupts. -/
def quiet : Seen → Bool
  | .clock _ | .did (.fromIsr _) _ => true
  | _ => false

/-- The log `L` ends while a step, which began after `P`, looks for a task. -/
def Looking (P L : List Seen) : Prop := ∃ M, L = P ++ .step :: M ∧ ∀ e ∈ M, quiet e = true

/-- Every interrupt task that was scheduled has been called. -/
def NoIrq (K : CVal → Kind) (P : List Seen) : Prop := irq P = runs K .irq P

/-- Every immediate task that was scheduled has been called. -/
def NoImmed (K : CVal → Kind) (P : List Seen) : Prop := immed P = runs K .immed P

/-- No deferred task is due, according to the last reading of the clock. -/
def NoDue (prec : CVal → CVal → Bool) (off : CVal → CVal → CVal) (P : List Seen) : Prop :=
  ∀ n u T, Pending off P n u T → prec (lastClock P) T = true

/-- A reading of the clock, or the time of a deferral. -/
def Time (off : CVal → CVal → CVal) (L : List Seen) (T : CVal) : Prop := .clock T ∈ L ∨ ∃ n t, DeferredAt off L n t T

/-- `prec` orders the times in `S`, except that it may not tell some of them apart (a strict weak order). -/
def WeakOn (prec : CVal → CVal → Bool) (S : CVal → Prop) : Prop :=
  ∀ a b c, S a → S b → S c → prec a b = true → prec b a = false ∧ (prec a c = true ∨ prec c b = true)

/-- What the log shows. -/
structure Orderly (prec : CVal → CVal → Bool) (off : CVal → CVal → CVal) (K : CVal → Kind) (L : List Seen) : Prop where
  /-- Tasks are called while a step looks for one. -/
  calls : ∀ P t Q, L = P ++ .called t :: Q → ∃ P', Looking P' P
  /-- Only interrupts call the scheduler while a step looks for a task. -/
  user : ∀ P c r Q, L = P ++ .did c r :: Q → (∃ P', Looking P' P) → ∃ t, c = .fromIsr t
  /-- Immediate tasks are called in the order in which they were scheduled, and at most 20 wait; FULL says that 20 wait. -/
  immed : ∀ P c t r Q, L = P ++ .did c r :: Q → c = .immed t ∨ c = .transfer t →
    ∃ l, immed P = runs K .immed P ++ l ∧ (l.length < 20 ∧ r = SErr.val .none ∨ l.length = 20 ∧ r = SErr.val .full)
  /-- They are called in that order. -/
  immedCall : ∀ P t Q, L = P ++ .called t :: Q → K t = .immed → ∃ l, Story.immed P = runs K .immed P ++ t :: l
  /-- Interrupt tasks too; at most 7 wait, besides the one that is about to be called. -/
  irq : ∀ P t r Q, L = P ++ .did (.fromIsr t) r :: Q → ∃ l, irq P = runs K .irq P ++ l ∧
    ((∀ P', ¬ Looking P' P) → l.length < 7 ∧ r = SErr.val .none ∨ l.length = 7 ∧ r = SErr.val .full) ∧
    (l.length ≤ 7 ∧ r = SErr.val .none ∨ (l.length = 7 ∨ l.length = 8) ∧ r = SErr.val .full)
  irqCall : ∀ P t Q, L = P ++ .called t :: Q → K t = .irq → ∃ l, Story.irq P = runs K .irq P ++ t :: l
  /-- A deferred task is called if its time has come, the earliest first, those for the same time in the order in which they
  were deferred. -/
  due : ∀ P t Q, L = P ++ .called t :: Q → K t = .due → ∃ n T, First prec off P n t T ∧ prec (lastClock P) T = false
  /-- Interrupt tasks come first. -/
  irqFirst : ∀ P t Q P', L = P ++ .called t :: Q → K t ≠ .irq → Looking P' P → NoIrq K P'
  /-- Then deferred tasks that are due. -/
  dueFirst : ∀ P t Q, L = P ++ .called t :: Q → K t = .immed ∨ K t = .idle → NoDue prec off P
  /-- The idle task is called when there is nothing else to do; it is the one that was set last. -/
  idle : ∀ P t Q, L = P ++ .called t :: Q → K t = .idle → NoImmed K P ∧ t = lastIdle P
  /-- A step that calls nothing had nothing to call. -/
  nothing : ∀ P Q P', L = P ++ .stepped :: Q → Looking P' P → NoIrq K P' ∧ NoDue prec off P ∧ NoImmed K P ∧ lastIdle P = .null
  /-- At most 20 deferred tasks wait; FULL says that 20 wait. -/
  defer : ∀ P c t x r Q, L = P ++ .did c r :: Q → c = .deferUntil t x ∨ c = .deferFor t x →
    (bag P).length < 20 ∧ r = SErr.val .none ∨ (bag P).length = 20 ∧ r = SErr.val .full
  /-- Removing a task succeeds if it waits. -/
  remove : ∀ P t r Q, L = P ++ .did (.remove t) r :: Q → r = if t ∈ bag P then SErr.val .none else SErr.val .notFound
  /-- The next task is the one that will be due first. -/
  next : ∀ P r Q, L = P ++ .did .next r :: Q → (r = .null ∧ bag P = []) ∨ ∃ n T, r ∈ bag P ∧ First prec off P n r T
  /-- The current task is the one that was called last. -/
  current : ∀ P r Q, L = P ++ .did .current r :: Q → r = lastCalled P
  /-- The idle task is the one that was set last. -/
  getIdle : ∀ P r Q, L = P ++ .did .getIdle r :: Q → r = lastIdle P

end Mu.CS.Story
