import Verif.C.SrcAct
import Verif.Spec.SrcOrder
import Verif.Spec.SrcProgram

/-! # Programs around the scheduler, with interrupts at any point, for the parsed source

The program - user code and library - is executed one memory access at a time, operands in any order.  Between any two
accesses an interrupt may call `mu_sched_from_isr`.  User code keeps a log in its own memory, as in Spec/SrcProgram.lean; the
interrupt handler adds to it. -/

namespace Mu.CS.Isr

/-- How far a `mu_sched_step` has come: it has not looked at the interrupt queue yet; it has found the queue empty; it is about
to call a task (NULL: none); the call hook is running, before the task is called; or the task is running.  Or it is a
`mu_sched_transfer` whose hook is running. -/
inductive Phase where
  | entered
  | looking
  | chosen (t : CVal)
  | hooked (t : CVal)
  | running
  | transferring (t : CVal)
  deriving DecidableEq

/-- User code is running in a step, or in a `mu_sched_transfer`. -/
def Phase.user : Phase → Bool
  | .hooked _ | .running | .transferring _ => true
  | _ => false

/-- The agenda, the steps that have not returned yet, innermost first, the last reading of the clock, and which hooks there
are. -/
structure Replay where
  σ : Agenda
  steps : List Phase
  clock : CVal
  callHook : Bool
  transferHook : Bool
  deriving DecidableEq

/-- Right after `mu_sched_init`. -/
def Replay.start (callHook transferHook : Bool) : Replay := ⟨⟨[], [], [], .null, .null⟩, [], .undef, callHook, transferHook⟩

/-- User code is running. -/
def Replay.user (s : Replay) : Bool := s.steps.head?.all Phase.user

/-- A `mu_sched_transfer` returns only if its hook has been called, if there is one. -/
def Replay.fits (s : Replay) : Req → Bool
  | .transfer t => !s.transferHook || s.steps.head? = some (.transferring t)
  | _ => true

/-- What goes on after the call. -/
def Replay.after (s : Replay) : Req → List Phase
  | .transfer _ => if s.transferHook then s.steps.tail else s.steps
  | _ => s.steps

/-- The call is one that an interrupt makes. -/
def _root_.Mu.CS.Req.isr : Req → Bool
  | .fromIsr _ => true
  | _ => false

/-- The next entry of a log: `none` if it is not what the library must do.  Interrupts come at any time, everything else when user
code runs. -/
def Replay.see (prec : CVal → CVal → Bool) (off : CVal → CVal → CVal) (s : Replay) : Seen → Option Replay
  | .did c r =>
    if (c.isr || s.user) && s.fits c && r = (c.answer prec off s.clock s.σ).1 then
      some { s with σ := (c.answer prec off s.clock s.σ).2, steps := s.after c }
    else none
  | .clock now =>
    match s.steps with
    | .looking :: l => some { s with σ := s.σ.choose prec now, steps := .chosen (s.σ.choose prec now).cur :: l, clock := now }
    | _ => if s.user then some { s with clock := now } else none
  | .step => if s.user then some { s with steps := .entered :: s.steps } else none
  | .called t =>
    match s.steps with
    | .chosen u :: l => if u = t && t ≠ .null && !s.callHook then some { s with steps := .running :: l } else none
    | .hooked u :: l => if u = t then some { s with steps := .running :: l } else none
    | _ => none
  | .hooked t =>
    match s.steps with
    | .chosen u :: l => if u = t && t ≠ .null && s.callHook then some { s with steps := .hooked t :: l } else none
    | _ => none
  | .transferring t => if s.user && s.transferHook then some { s with steps := .transferring t :: s.steps } else none
  | .stepped =>
    match s.steps with
    | .chosen .null :: l | .running :: l => some { s with σ := { s.σ with cur := .null }, steps := l }
    | _ => none

/-- The moment, not in the log, at which a step looks at the interrupt queue: it takes the oldest interrupt task, if there is
one. -/
def Replay.look (s : Replay) : Option Replay :=
  match s.steps with
  | .entered :: l =>
    match s.σ.irq with
    | t :: irq => some { s with σ := { s.σ with irq := irq, cur := t }, steps := .chosen t :: l }
    | [] => some { s with steps := .looking :: l }
  | _ => none

/-- The logs that are right. -/
inductive Replays (prec : CVal → CVal → Bool) (off : CVal → CVal → CVal) : Replay → List Seen → Replay → Prop
  | nil (s : Replay) : Replays prec off s [] s
  | see {s s1 s2 : Replay} {l : List Seen} {e : Seen} : Replays prec off s l s1 → s1.see prec off e = some s2 →
      Replays prec off s (l ++ [e]) s2
  | look {s s1 s2 : Replay} {l : List Seen} : Replays prec off s l s1 → s1.look = some s2 → Replays prec off s l s2

/-- How far a `mu_sched_reset` has come: none is under way; it has begun to empty the interrupt queue; it has emptied it. -/
inductive Stage where
  | none
  | clearing
  | cleared
  deriving DecidableEq

/-- The same, for programs that call `mu_sched_reset`.  There are two more moments that are not in the log.  From the first on, the
interrupt queue holds nothing of use - up to seven old items - but is not empty yet, so that an interrupt may find it full, and the
task of one that does not is lost.  From the second on it is empty, and the tasks of interrupts stay.  When `mu_sched_reset`
returns the other lists of the agenda are empty. -/
inductive Retold (prec : CVal → CVal → Bool) (off : CVal → CVal → CVal) : Replay → List Seen → Replay → Stage → Prop
  | nil (s : Replay) : Retold prec off s [] s .none
  | see {s s1 s2 : Replay} {l : List Seen} {e : Seen} : Retold prec off s l s1 .none → s1.see prec off e = some s2 →
      (∀ r, e ≠ .did .reset r) → Retold prec off s (l ++ [e]) s2 .none
  | look {s s1 s2 : Replay} {l : List Seen} : Retold prec off s l s1 .none → s1.look = some s2 → Retold prec off s l s2 .none
  | isr {s s1 s2 : Replay} {l : List Seen} {g : Stage} {t r : CVal} : Retold prec off s l s1 g →
      s1.see prec off (.did (.fromIsr t) r) = some s2 → Retold prec off s (l ++ [.did (.fromIsr t) r]) s2 g
  | clear {s s1 : Replay} {l : List Seen} {old : List CVal} : Retold prec off s l s1 .none → s1.user = true → old.length ≤ 7 →
      Retold prec off s l { s1 with σ := { s1.σ with irq := old } } .clearing
  | cleared {s s1 : Replay} {l : List Seen} : Retold prec off s l s1 .clearing →
      Retold prec off s l { s1 with σ := { s1.σ with irq := [] } } .cleared
  | reset {s s1 : Replay} {l : List Seen} : Retold prec off s l s1 .cleared →
      Retold prec off s (l ++ [.did .reset .undef]) { s1 with σ := { s1.σ.reset with irq := s1.σ.irq } } .none

/-- The log, as a function of memory; a property of the user's memory that user code maintains; the tasks, which are
`mu_task_t` objects in the user's memory, and their functions; and the hooks that are installed. -/
structure User where
  log : Heap → List Seen
  inv : Heap → Prop
  task : CVal → Prop
  code : Nat → Prop
  callHook : Option Nat
  transferHook : Option Nat
  /-- whether user code calls `mu_sched_reset` -/
  resets : Bool := false

/-- A hook: NULL or a function. -/
def hookVal : Option Nat → CVal
  | none => .null
  | some f => .fn f

/-- Right after `mu_sched_init`. -/
def User.start (U : User) : Replay := .start U.callHook.isSome U.transferHook.isSome

/-- The hooks are installed. -/
def User.Hooks (U : User) (h : Heap) : Prop :=
  h.at (.glob .s_call_hook) 0 = some (hookVal U.callHook) ∧ h.at (.glob .s_transfer_hook) 0 = some (hookVal U.transferHook)

/-- User code changes its own memory, and adds `es` to the log. -/
structure User.Adds (U : User) (es : List Seen) (h h' : Heap) : Prop where
  only : Heap.Only (fun b _ => Free b) h h'
  inv : U.inv h'
  log : U.log h' = U.log h ++ es

/-- An access of user code to its own memory, which adds `es` to the log.  (What it reads is up to it.) -/
def User.Does (U : User) (es : List Seen) (f : Heap → C (CVal × Heap)) : Prop :=
  ∀ h, U.inv h → ∃ v h', f h = .ok (v, h') ∧ U.Adds es h h'

/-- The arguments of a call are defined, and tasks (or NULL) where tasks are expected. -/
def _root_.Mu.CS.Req.Ok (U : User) : Req → Prop
  | .immed t | .transfer t | .fromIsr t | .remove t | .setIdle t | .wait t => t = .null ∨ U.task t
  | .deferUntil t x | .deferFor t x => (t = .null ∨ U.task t) ∧ x ≠ .undef
  | _ => True

/-- The calls that keep away from the interrupt queue: all but those of an interrupt, and `mu_sched_reset`. -/
def _root_.Mu.CS.Req.open : Req → Bool
  | .fromIsr _ | .reset => false
  | _ => true

/-- The calls that the interrupted program may make at any time: all but those of an interrupt; `mu_sched_reset` only if the program
is one that resets. -/
def _root_.Mu.CS.Req.allowed (U : User) (c : Req) : Prop := c.open = true ∨ c = .reset ∧ U.resets = true

/-- What the call may answer: an error code, nothing, or a task. -/
def _root_.Mu.CS.Req.gives (U : User) (r : CVal) : Req → Prop
  | .setIdle _ | .reset => r = .undef
  | .getIdle | .current | .next => r = .null ∨ U.task r
  | _ => ∃ e : SErr, r = e.val

/-- The call, one access at a time. -/
def _root_.Mu.CS.Req.act (S : Fn → List CVal → Act CVal) : Req → Act CVal
  | .immed t => S .mu_sched_immed [t]
  | .transfer t => S .mu_sched_transfer [t]
  | .fromIsr t => S .mu_sched_from_isr [t]
  | .deferUntil t time => S .mu_sched_defer_until [t, time]
  | .deferFor t delay => S .mu_sched_defer_for [t, delay]
  | .remove t => S .mu_sched_remove_deferred_task [t]
  | .reset => S .mu_sched_reset []
  | .setIdle t => S .mu_sched_set_idle_task [t]
  | .getIdle => S .mu_sched_get_idle_task []
  | .current => S .mu_sched_current_task []
  | .next => S .mu_sched_next_task []
  | .wait t => S .mu_sched_wait [t]

/-- User code, `S` being the library: accesses to its own memory and calls of the scheduler, each entered in the log, in any
number and order, depending in any way on what has been read. -/
inductive Code (S : Fn → List CVal → Act CVal) (U : User) : Act CVal → Prop
  | done (v : CVal) : Code S U (.done v)
  /-- it has run longer than we look -/
  | more : Code S U (.fail .diverge)
  | own {f : Heap → C (CVal × Heap)} {k : CVal → Act CVal} : U.Does [] f → (∀ v, Code S U (k v)) → Code S U (.mem f k)
  | pick {k : Bool → Act CVal} : (∀ b, Code S U (k b)) → Code S U (.pick k)
  | call {c : Req} {g : CVal → Heap → C (CVal × Heap)} {k : CVal → CVal → Act CVal} : c.Ok U → c.allowed U →
      (∀ r, c.gives U r → U.Does [.did c r] (g r)) → (∀ r v, c.gives U r → Code S U (k r v)) → Code S U ((c.act S).bind fun r => .mem (g r) (k r))
  | step {g : Heap → C (CVal × Heap)} {g' : CVal → Heap → C (CVal × Heap)} {k : CVal → CVal → Act CVal} : U.Does [.step] g →
      (∀ r, U.Does [.stepped] (g' r)) → (∀ r v, Code S U (k r v)) →
      Code S U (.mem g fun _ => (S .mu_sched_step []).bind fun r => .mem (g' r) (k r))

/-- The user's side: the library's variables are not where the log is; tasks are valid objects; a function that is called with a
task - the task's function, or a hook - notes that it has been called, and then does what user code does; the clock notes every reading; comparison
and addition of times are functions of their arguments. -/
structure Honest (A : Arch) (X : AExt) (U : User) (prec : CVal → CVal → Bool) (off : CVal → CVal → CVal) : Prop where
  frame : ∀ h h', Heap.Only (fun b _ => SchedVar b) h h' → U.inv h → U.inv h' ∧ U.log h' = U.log h
  valid : ∀ h t, U.inv h → U.task t → ∃ b o f, t = .ptr b o ∧ h.at b o = some (.fn f) ∧ U.code f
  task : ∀ n f t, U.code f → U.task t → ∃ g k, X.cb (semA A X prog n) f [t] = .mem g k ∧ U.Does [.called t] g ∧
    ∀ v, Code (semA A X prog n) U (k v)
  hook : ∀ n f t, U.callHook = some f → U.task t → ∃ g k, X.cb (semA A X prog n) f [t] = .mem g k ∧ U.Does [.hooked t] g ∧
    ∀ v, Code (semA A X prog n) U (k v)
  transfer : ∀ n f t, U.transferHook = some f → t = .null ∨ U.task t → ∃ g k, X.cb (semA A X prog n) f [t] = .mem g k ∧
    U.Does [.transferring t] g ∧ ∀ v, Code (semA A X prog n) U (k v)
  reads : ∀ h, U.inv h → ∃ now h', X.fn .mu_time_now h [] = .ok (now, h') ∧ now ≠ .undef ∧ U.Adds [.clock now] h h'
  precedes : ∀ h a b, a ≠ .undef → b ≠ .undef → X.fn .mu_time_precedes h [a, b] = .ok (.ofBool (prec a b), h)
  offset : ∀ h a d, a ≠ .undef → d ≠ .undef → X.fn .mu_time_offset h [a, d] = .ok (off a d, h)
  offsetDef : ∀ a d, a ≠ .undef → d ≠ .undef → off a d ≠ .undef

/-- What happens outside the program: an interrupt schedules a task and notes it; or the user's memory changes. -/
inductive Outside (A : Arch) (X : AExt) (U : User) : Heap → Heap → Prop
  | isr {h h1 h2 : Heap} {t r : CVal} {n : Nat} : t = .null ∨ U.task t →
      (semA A X prog n .mu_sched_from_isr [t]).Out h (.ok (r, h1)) → U.Adds [.did (.fromIsr t) r] h1 h2 → Outside A X U h h2
  | own {h h' : Heap} : U.Adds [] h h' → Outside A X U h h'

/-- The program and memory, from one moment to the next: the program accesses memory, or chooses the order of evaluation, or
something happens outside. -/
inductive Step (A : Arch) (X : AExt) (U : User) {α : Type} : Act α × Heap → Act α × Heap → Prop
  | mem {f k h v h'} : f h = .ok (v, h') → Step A X U (.mem f k, h) (k v, h')
  | pick {k h} (b : Bool) : Step A X U (.pick k, h) (k b, h)
  | outside {a h h'} : Outside A X U h h' → Step A X U (a, h) (a, h')

/-- Any number of moments. -/
inductive Steps (A : Arch) (X : AExt) (U : User) {α : Type} : Act α × Heap → Act α × Heap → Prop
  | nil (s) : Steps A X U s s
  | snoc {s s1 s2} : Steps A X U s s1 → Step A X U s1 s2 → Steps A X U s s2

/-- What comes next is not a fault. -/
def Fine {α : Type} (h : Heap) : Act α → Prop
  | .done _ => True
  | .fail e => e = .diverge
  | .mem f _ => ∃ v h', f h = .ok (v, h')
  | .pick _ => True

end Mu.CS.Isr
