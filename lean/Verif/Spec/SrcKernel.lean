import Verif.Spec.SrcSystem
import Verif.Spec.SrcTask

/-! # Programs around scheduler, tasks, hooks and message queues, for the parsed source

As in Spec/SrcSystem.lean, user code is arbitrary but keeps a log in its own memory.  Here it may in addition install hooks, set the
states of tasks, transfer, call tasks itself, and initialise everything anew, at any time; the hooks are user code too, and may do all
this themselves.  Every user function, be it the function of a task or a hook, notes that it has been entered - with its own name and
its arguments - and that it is about to return. -/

namespace Mu.CS.Kern

open Sys (QPlace)

/-- The three hooks of mu_task.c. -/
inductive Which where
  | call
  | state
  | transfer
  deriving DecidableEq

/-- The variable in which mu_task.c keeps the hook. -/
def Which.var : Which → Base
  | .call => .glob .s_call_hook
  | .state => .glob .s_set_state_hook
  | .transfer => .glob .s_transfer_hook

variable {I : Type}

/-- Calls that run no user code; tasks are given by where they are. -/
inductive Quick (I : Type) where
  | sched (c : Req)
  | schedInit
  | queueInit (i : I)
  | install (w : Which) (k : CVal)
  | taskInit (b : Base) (o : Int) (f s u : CVal)
  | getFn (b : Base) (o : Int)
  | getState (b : Base) (o : Int)
  | getInfo (b : Base) (o : Int)
  | setInfo (b : Base) (o : Int) (u : CVal)

/-- Calls that may run user code. -/
inductive Deep (I : Type) where
  | step
  | queue (i : I) (c : QCall)
  | call (t : CVal)
  | setState (t s : CVal)
  | transfer (t : CVal)
  | tell (t : CVal)

/-- Make the call. -/
def Quick.run (S : Fn → SemFn) (Q : I → QPlace) (h : Heap) : Quick I → C (CVal × Heap)
  | .sched c => c.call S h
  | .schedInit => S .mu_sched_init h []
  | .queueInit i => S .mu_mqueue_init h [.ptr (Q i).b (Q i).o, .ptr (Q i).sb (Q i).so, .int (Q i).cap, (Q i).pt, (Q i).gt]
  | .install .call k => S .mu_task_install_call_hook h [k]
  | .install .state k => S .mu_task_install_set_state_hook h [k]
  | .install .transfer k => S .mu_task_install_transfer_hook h [k]
  | .taskInit b o f s u => S .mu_task_init h [.ptr b o, f, s, u]
  | .getFn b o => S .mu_task_get_fn h [.ptr b o]
  | .getState b o => S .mu_task_get_state h [.ptr b o]
  | .getInfo b o => S .mu_task_get_user_info h [.ptr b o]
  | .setInfo b o u => S .mu_task_set_user_info h [.ptr b o, u]

/-- A call that delivers nothing but its value. -/
def plain (r : C (CVal × Heap)) : C (QOut × Heap) := do
  let (v, h) ← r
  .ok (⟨v, none⟩, h)

/-- Make the call. -/
def Deep.run (S : Fn → SemFn) (Q : I → QPlace) (h : Heap) : Deep I → C (QOut × Heap)
  | .step => plain (S .mu_sched_step h [])
  | .queue i c => c.mrun S (Q i).b (Q i).o h
  | .call t => plain (S .mu_task_call h [t])
  | .setState t s => plain (S .mu_task_set_state h [t, s])
  | .transfer t => plain (S .mu_sched_transfer h [t])
  | .tell t => plain (S .mu_task_call_transfer_hook h [t])

/-- Entries of the log: a call that runs no user code, with its answer; a reading of the clock; a call that may run user code, before it
is made; a user function is entered; it is about to return; what the call before answered. -/
inductive Entry (I : Type) where
  | did (c : Quick I) (r : CVal)
  | clock (now : CVal)
  | calls (c : Deep I)
  | enter (f : Nat) (args : List CVal)
  | leave
  | done (r : QOut)

/-- What the library has still to call: a hook, with these arguments; the function that the task `t` has by then. -/
inductive Todo where
  | hook (f : Nat) (args : List CVal)
  | task (t : CVal)

/-- What the library does at the end of a call: of `mu_sched_step`; of a call on a queue, which returns `r` and has set variable `v`; of
the others. -/
inductive Done where
  | step
  | queue (r : CVal) (v : Option (Base × Int))
  | call
  | setState (t s : CVal)
  | transfer (t : CVal)
  | tell

/-- A call that has not returned: a `mu_sched_step` that has not read the clock; a call about to call the first of these user functions,
if there is one, and about to return if there is none; a call in which a user function is running, those still to be called being
these. -/
inductive Frame where
  | looking
  | waits (l : List Todo) (d : Done)
  | runs (l : List Todo) (d : Done)

/-- What is in a `mu_task_t`. -/
structure TaskRec where
  fn : CVal
  st : CVal
  info : CVal

/-- The agenda; what is in the queues, in the variables for elements, in the tasks, and which hooks are installed; the calls that have
not returned yet, innermost first; and the last reading of the clock. -/
structure State (I : Type) where
  σ : Agenda
  lists : I → List CVal
  vars : Base → Int → CVal
  tasks : Base → Int → TaskRec
  hooks : Which → CVal
  frames : List Frame
  clock : CVal

/-- User code is running. -/
def State.user (s : State I) : Bool :=
  match s.frames with
  | [] | .runs _ _ :: _ => true
  | _ => false

/-- One task changes. -/
def setTask (f : Base → Int → TaskRec) (b : Base) (o : Int) (x : TaskRec) : Base → Int → TaskRec :=
  fun b' o' => if b' = b ∧ o' = o then x else f b' o'

/-- One hook changes. -/
def setHook (f : Which → CVal) (w : Which) (k : CVal) : Which → CVal := fun w' => if w' = w then k else f w'

/-- The call of a hook, if there is one. -/
def Todo.hooks (k : CVal) (args : List CVal) : List Todo :=
  match k with
  | .fn f => [.hook f args]
  | _ => []

/-- The call of a task: nothing for NULL; otherwise the call hook, if there is one, and the function of the task. -/
def Todo.tasks (k t : CVal) : List Todo :=
  match t with
  | .null => []
  | t => Todo.hooks k [t] ++ [.task t]

variable [DecidableEq I]

/-- What a call that runs no user code answers and changes. -/
def Quick.answer (Q : I → QPlace) (prec : CVal → CVal → Bool) (off : CVal → CVal → CVal) (s : State I) : Quick I → CVal × State I
  | .sched c => ((c.answer prec off s.clock s.σ).1, { s with σ := (c.answer prec off s.clock s.σ).2 })
  | .schedInit => (.undef, { s with σ := ⟨[], [], [], .null, .null⟩ })
  | .queueInit i => (.ptr (Q i).b (Q i).o, { s with lists := Sys.setAt s.lists i [] })
  | .install w k => (.undef, { s with hooks := setHook s.hooks w k })
  | .taskInit b o f st u => (.ptr b o, { s with tasks := setTask s.tasks b o ⟨f, st, u⟩ })
  | .getFn b o => ((s.tasks b o).fn, s)
  | .getState b o => ((s.tasks b o).st, s)
  | .getInfo b o => ((s.tasks b o).info, s)
  | .setInfo b o u => (.undef, { s with tasks := setTask s.tasks b o { s.tasks b o with info := u } })

/-- What a call that may run user code changes before it does, and what it will call. -/
def Deep.begin (Q : I → QPlace) (s : State I) : Deep I → State I
  | .step =>
    match s.σ.irq with
    | t :: l => { s with σ := { s.σ with irq := l, cur := t }, frames := .waits (Todo.tasks (s.hooks .call) t) .step :: s.frames }
    | [] => { s with frames := .looking :: s.frames }
  | .queue i c =>
    let r := QCall.spec (Q i).b (Q i).o (Q i).cap (s.lists i) c
    { s with
      lists := Sys.setAt s.lists i r.2
      vars := Sys.setVar s.vars c.var r.1.elem
      frames := .waits (Todo.tasks (s.hooks .call) (QCall.wakes (Q i).cap (s.lists i) (Q i).pt (Q i).gt c)) (.queue r.1.ret c.var) :: s.frames }
  | .call t => { s with frames := .waits (Todo.tasks (s.hooks .call) t) .call :: s.frames }
  | .setState .null st => { s with frames := .waits [] (.setState .null st) :: s.frames }
  | .setState t st => { s with frames := .waits (Todo.hooks (s.hooks .state) [t, st]) (.setState t st) :: s.frames }
  | .transfer t => { s with frames := .waits (Todo.hooks (s.hooks .transfer) [t]) (.transfer t) :: s.frames }
  | .tell t => { s with frames := .waits (Todo.hooks (s.hooks .transfer) [t]) .tell :: s.frames }

omit [DecidableEq I] in
/-- What a call that may run user code answers and changes at its end. -/
def Done.finish (s : State I) : Done → QOut × State I
  | .step => (⟨.undef, none⟩, { s with σ := { s.σ with cur := .null } })
  | .queue r v => (⟨r, v.map fun v => s.vars v.1 v.2⟩, s)
  | .call => (⟨.undef, none⟩, s)
  | .setState t st =>
    (⟨t, none⟩, match t with
      | .ptr b o => { s with tasks := setTask s.tasks b o { s.tasks b o with st := st } }
      | _ => s)
  | .transfer t => (⟨(s.σ.schedule t).1.val, none⟩, { s with σ := (s.σ.schedule t).2 })
  | .tell => (⟨.undef, none⟩, s)

omit [DecidableEq I] in
/-- The function of `t` may be `f`: it is, if `t` is one of the program's tasks. -/
def State.mayBe (known : Base → Int → Bool) (s : State I) (t : CVal) (f : Nat) : Bool :=
  match t with
  | .ptr b o => !known b o || decide ((s.tasks b o).fn = .fn f)
  | _ => true

/-- The next entry of a log: `none` if it is not what the library must do. -/
def State.see (Q : I → QPlace) (known : Base → Int → Bool) (prec : CVal → CVal → Bool) (off : CVal → CVal → CVal) (s : State I) :
    Entry I → Option (State I)
  | .did c r => if s.user && r = (c.answer Q prec off s).1 then some (c.answer Q prec off s).2 else none
  | .clock now =>
    match s.frames with
    | .looking :: l =>
      some { s with
        σ := s.σ.choose prec now
        frames := .waits (Todo.tasks (s.hooks .call) (s.σ.choose prec now).cur) .step :: l
        clock := now }
    | _ => if s.user then some { s with clock := now } else none
  | .calls c => if s.user then some (c.begin Q s) else none
  | .enter f args =>
    match s.frames with
    | .waits (.hook g args' :: l) d :: fs => if f = g ∧ args = args' then some { s with frames := .runs l d :: fs } else none
    | .waits (.task t :: l) d :: fs => if args = [t] ∧ s.mayBe known t f then some { s with frames := .runs l d :: fs } else none
    | _ => none
  | .leave =>
    match s.frames with
    | .runs l d :: fs => some { s with frames := .waits l d :: fs }
    | _ => none
  | .done r =>
    match s.frames with
    | .waits [] d :: fs => if r = (d.finish s).1 then some { (d.finish s).2 with frames := fs } else none
    | _ => none

/-- A whole log. -/
def replay (Q : I → QPlace) (known : Base → Int → Bool) (prec : CVal → CVal → Bool) (off : CVal → CVal → CVal) :
    State I → List (Entry I) → Option (State I)
  | s, [] => some s
  | s, e :: l =>
    match s.see Q known prec off e with
    | some s => replay Q known prec off s l
    | none => none

/-! ## User code -/

/-- The log, as a function of memory; a property of the user's memory that user code maintains; the variables for elements; and the
program's tasks.  These two only the library writes. -/
structure User (I : Type) where
  log : Heap → List (Entry I)
  inv : Heap → Prop
  var : Base → Int → Prop
  task : Base → Int → Bool

/-- The parts of memory that only the library writes. -/
inductive Part (I : Type) where
  | sched
  | queue (i : I)
  | hook (w : Which)
  | var (b : Base) (o : Int)
  | task (b : Base) (o : Int)

omit [DecidableEq I]

/-- The cells of a part. -/
def Part.cells (Q : I → QPlace) (U : User I) : Part I → Base → Int → Prop
  | .sched, b, _ => SchedVar b
  | .queue i, b, o => (Q i).cells b o
  | .hook w, b, _ => b = w.var
  | .var b' o', b, o => U.var b' o' ∧ b = b' ∧ o = o'
  | .task b' o', b, o => U.task b' o' = true ∧ b = b' ∧ o' ≤ o ∧ o < o' + 3

/-- The parts do not overlap. -/
structure Layout (A : Arch) (Q : I → QPlace) (U : User I) : Prop where
  apart : ∀ p p' b o, Part.cells Q U p b o → Part.cells Q U p' b o → p = p'
  lit : ∀ b o, U.var b o → b.isLit = false
  cap : ∀ i, 2 * (Q i).cap ≤ A.szMod
  pt : ∀ i, TaskPtr (Q i).pt
  gt : ∀ i, TaskPtr (Q i).gt

/-- User code changes its own memory, and adds `es` to the log. -/
structure User.Adds (Q : I → QPlace) (U : User I) (es : List (Entry I)) (h h' : Heap) : Prop where
  only : Heap.Only (fun b o => ∀ p, ¬ Part.cells Q U p b o) h h'
  inv : U.inv h'
  log : U.log h' = U.log h ++ es

/-- Arguments are determinate; hooks are NULL or functions; the tasks given to the functions of mu_task.c that read or write a task are
tasks of the program (`mu_sched_transfer` may run user code, see `Deep`). -/
def Quick.Ok (U : User I) : Quick I → Prop
  | .sched c => c.Defined ∧ ∀ t, c ≠ .transfer t
  | .install _ k => Hook k
  | .taskInit b o f s u => U.task b o = true ∧ f ≠ .undef ∧ s ≠ .undef ∧ u ≠ .undef
  | .getFn b o | .getState b o | .getInfo b o => U.task b o = true
  | .setInfo b o u => U.task b o = true ∧ u ≠ .undef
  | _ => True

/-- The same for the calls that may run user code; elements go to variables; `mu_task_set_state` is given a task of the program or NULL. -/
def Deep.Ok (U : User I) : Deep I → Prop
  | .step | .call _ => True
  | .queue _ (.put v) => v ≠ .undef
  | .queue _ (.get eb eo) | .queue _ (.peek eb eo) => U.var eb eo
  | .queue _ _ => True
  | .setState t s => s ≠ .undef ∧ (t = .null ∨ ∃ b o, t = .ptr b o ∧ U.task b o = true)
  | .transfer t | .tell t => t ≠ .undef

/-- What user code does from memory `h` to memory `h'`, `S` being the library: changes of its own memory and calls of the library, each
entered in the log, in any number and order. -/
inductive UserRun (S : Fn → SemFn) (Q : I → QPlace) (U : User I) : Heap → Heap → Prop
  | nil (h : Heap) : UserRun S Q U h h
  | own {h h1 h2 : Heap} : U.Adds Q [] h h1 → UserRun S Q U h1 h2 → UserRun S Q U h h2
  | quick {h h1 h2 h3 : Heap} {r : CVal} (c : Quick I) : c.Ok U → c.run S Q h = .ok (r, h1) → U.Adds Q [.did c r] h1 h2 →
      UserRun S Q U h2 h3 → UserRun S Q U h h3
  | deep {h h1 h2 h3 h4 : Heap} {r : QOut} (c : Deep I) : c.Ok U → U.Adds Q [.calls c] h h1 → c.run S Q h1 = .ok (r, h2) →
      U.Adds Q [.done r] h2 h3 → UserRun S Q U h3 h4 → UserRun S Q U h h4

/-- The user's side: the log is not in memory that the library writes; every user function notes that it is entered, then does what user
code does, then notes that it returns; the clock notes every reading. -/
structure Honest (A : Arch) (X : Ext) (Q : I → QPlace) (U : User I) (prec : CVal → CVal → Bool) (off : CVal → CVal → CVal) : Prop where
  layout : Layout A Q U
  clock : Clock X prec off
  mono : X.Monotone
  frame : ∀ h h', Heap.Only (fun b o => ∃ p, Part.cells Q U p b o) h h' → U.inv h → U.inv h' ∧ U.log h' = U.log h
  user : ∀ n f h args v h', U.inv h → X.cb (sem A X prog n) f h args = .ok (v, h') →
    ∃ h1 h2, U.Adds Q [.enter f args] h h1 ∧ UserRun (sem A X prog n) Q U h1 h2 ∧ U.Adds Q [.leave] h2 h'
  reads : ∀ h now h', U.inv h → X.fn .mu_time_now h [] = .ok (now, h') → U.Adds Q [.clock now] h h'

/-- Memory holds, in each part, what the state says. -/
def Holds (Q : I → QPlace) (U : User I) (s : State I) (h : Heap) : Part I → Prop
  | .sched => ∃ hd ix, h.Scheduler hd ix s.σ
  | .queue i => ∃ ix, h.MQ (Q i).b (Q i).o (Q i).sb (Q i).so (Q i).cap (Q i).pt (Q i).gt ix (s.lists i)
  | .hook w => h.at w.var 0 = some (s.hooks w) ∧ Hook (s.hooks w)
  | .var b o => U.var b o → h.at b o = some (s.vars b o)
  | .task b o => U.task b o = true → h.Task b o (s.tasks b o).fn (s.tasks b o).st (s.tasks b o).info

/-- Memory holds the state. -/
def Mem (Q : I → QPlace) (U : User I) (s : State I) (h : Heap) : Prop := ∀ p, Holds Q U s h p

/-- Where programs start: some state is in memory, no call is under way, the log is empty. -/
structure Starts (Q : I → QPlace) (U : User I) (s : State I) (h : Heap) : Prop where
  mem : Mem Q U s h
  none : s.frames = []
  inv : U.inv h
  log : U.log h = []

/-- Memory as a program finds it: the scheduler's variables and the memory for the queues exist; hooks, tasks and variables for elements
are as `s` says; the log is empty. -/
structure Ready (Q : I → QPlace) (U : User I) (s : State I) (h : Heap) : Prop where
  sched : h.SchedVars
  wr : ∀ i, (Q i).b.isLit = false ∧ (Q i).sb.isLit = false
  struct : ∀ i (k : Nat), k < 6 → (h.at (Q i).b ((Q i).o + k)).isSome = true
  store : ∀ i (k : Nat), k < (Q i).cap → (h.at (Q i).sb ((Q i).so + k)).isSome = true
  sep : ∀ i (j : Nat), j < (Q i).cap → ∀ k : Nat, k < 6 → ¬((Q i).b = (Q i).sb ∧ (Q i).o + k = (Q i).so + j)
  hooks : ∀ w, Holds Q U s h (.hook w)
  vars : ∀ b o, Holds Q U s h (.var b o)
  tasks : ∀ b o, Holds Q U s h (.task b o)
  inv : U.inv h
  log : U.log h = []

/-- The platform of `X`, and user functions that do what those of `X` do within `n` steps, except that the program is stopped (by a
division by zero) when it is function `f` that is called, in memory `h`, with `args`, and as if it never returned when a user
function does not return. -/
noncomputable def Ext.probe (A : Arch) (X : Ext) (n f : Nat) (h : Heap) (args : List CVal) : Ext where
  fn := X.fn
  cb _ f' h' args' := open Classical in
    if f' = f ∧ h' = h ∧ args' = args then .error .divZero
    else match X.cb (sem A X prog n) f' h' args' with
      | .ok r => .ok r
      | .error _ => .error .diverge

/-- The call, made in memory `h`, calls user function `f`, in memory `h'`, with `args` (perhaps after other user functions that have
returned). -/
def Calls (A : Arch) (X : Ext) (Q : I → QPlace) (c : Deep I) (h : Heap) (f : Nat) (h' : Heap) (args : List CVal) : Prop :=
  ∃ n m, c.run (sem A (Ext.probe A X n f h' args) prog m) Q h = .error .divZero

/-- The moments at which user code runs: at the start; after anything user code has done; and in a user function that the library has
called, which notes that it is entered. -/
inductive Moment (A : Arch) (X : Ext) (Q : I → QPlace) (U : User I) (s : State I) : Heap → Prop
  | start {h : Heap} : Starts Q U s h → Moment A X Q U s h
  | run {h h1 : Heap} {n : Nat} : Moment A X Q U s h → UserRun (sem A X prog n) Q U h h1 → Moment A X Q U s h1
  | enter {h h1 h2 h3 : Heap} {c : Deep I} {f : Nat} {args : List CVal} : Moment A X Q U s h → c.Ok U → U.Adds Q [.calls c] h h1 →
      Calls A X Q c h1 f h2 args → U.Adds Q [.enter f args] h2 h3 → Moment A X Q U s h3

/-- What the calls leave in queue `i`, which held `l`: calls on other queues and other calls do not matter; initialisation empties it. -/
def contents [DecidableEq I] (Q : I → QPlace) (i : I) : List CVal → List (Entry I) → List CVal
  | l, [] => l
  | l, .calls (.queue j c) :: es => contents Q i (if j = i then (QCall.spec (Q i).b (Q i).o (Q i).cap l c).2 else l) es
  | l, .did (.queueInit j) _ :: es => contents Q i (if j = i then [] else l) es
  | l, _ :: es => contents Q i l es

/-- A part of a log in which every user function that is entered returns. -/
inductive Balanced : List (Entry I) → Prop
  | nil : Balanced []
  | other {e : Entry I} {l : List (Entry I)} : (∀ f args, e ≠ .enter f args) → e ≠ .leave → Balanced l → Balanced (e :: l)
  | nest {f : Nat} {args : List CVal} {l l' : List (Entry I)} : Balanced l → Balanced l' → Balanced (.enter f args :: (l ++ .leave :: l'))

end Mu.CS.Kern
