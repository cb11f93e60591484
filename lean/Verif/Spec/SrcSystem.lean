import Verif.Spec.SrcProgram
import Verif.Spec.SrcMqueue

/-! # Programs around the scheduler and message queues, for the parsed source

As in Spec/SrcProgram.lean, user code - the main program and the functions of the tasks - is arbitrary, but keeps a log in its own
memory.  Here it also uses message queues: any number of them, each with its own storage and its own tasks to be called after a
put and after a get; these tasks are user code too, and may use the same queue, other queues and the scheduler. -/

namespace Mu.CS.Sys

/-- Where a message queue is, how many elements it holds, and the tasks it calls. -/
structure QPlace where
  b : Base
  o : Int
  sb : Base
  so : Int
  cap : Nat
  pt : CVal
  gt : CVal

/-- The cells of the queue and of its storage. -/
def QPlace.cells (q : QPlace) : Base → Int → Prop := mqueueCells q.b q.o q.sb q.so q.cap

/-- The variable that a call sets. -/
def _root_.Mu.CS.QCall.var : QCall → Option (Base × Int)
  | .get eb eo | .peek eb eo => some (eb, eo)
  | _ => none

variable {I : Type}

/-- Entries of the log: those of Spec/SrcProgram.lean; a call on queue `i`, before it is made; and its answer, with the content of
the variable that was given to it. -/
inductive Entry (I : Type) where
  | seen (e : Seen)
  | ask (i : I) (c : QCall)
  | told (r : QOut)

/-- A call of user code that has not returned: a `mu_sched_step` that is looking for a task, is about to call one (NULL: none), or is
running it; a call on a queue that is about to call a task (NULL: none), or is running it - and will return `r`. -/
inductive Frame where
  | looking
  | chosen (t : CVal)
  | running
  | asked (t r : CVal) (v : Option (Base × Int))
  | waking (r : CVal) (v : Option (Base × Int))

/-- User code is running in this frame. -/
def Frame.user : Frame → Bool
  | .running | .waking _ _ => true
  | _ => false

/-- The agenda, what is in the queues, what is in the variables for elements, the calls that have not returned yet, innermost first, and
the last reading of the clock. -/
structure State (I : Type) where
  σ : Agenda
  lists : I → List CVal
  vars : Base → Int → CVal
  frames : List Frame
  clock : CVal

/-- Nothing scheduled, all queues empty. -/
def State.start (I : Type) (vars : Base → Int → CVal) : State I := ⟨⟨[], [], [], .null, .null⟩, fun _ => [], vars, [], .undef⟩

/-- User code is running. -/
def State.user (s : State I) : Bool :=
  match s.frames with
  | [] => true
  | f :: _ => f.user

/-- One list changes. -/
def setAt [DecidableEq I] (f : I → List CVal) (i : I) (l : List CVal) : I → List CVal := fun j => if j = i then l else f j

/-- One variable changes. -/
def setVar (f : Base → Int → CVal) (v : Option (Base × Int)) (x : Option CVal) : Base → Int → CVal := fun b o =>
  match v, x with
  | some (eb, eo), some x => if b = eb ∧ o = eo then x else f b o
  | _, _ => f b o

/-- The next entry of a log: `none` if it is not what the library must do. -/
def State.see [DecidableEq I] (Q : I → QPlace) (prec : CVal → CVal → Bool) (off : CVal → CVal → CVal) (s : State I) : Entry I → Option (State I)
  | .seen (.did c r) =>
    if s.user && r = (c.answer prec off s.clock s.σ).1 then some { s with σ := (c.answer prec off s.clock s.σ).2 } else none
  | .seen (.clock now) =>
    match s.frames with
    | .looking :: l => some { s with σ := s.σ.choose prec now, frames := .chosen (s.σ.choose prec now).cur :: l, clock := now }
    | _ => if s.user then some { s with clock := now } else none
  | .seen .step =>
    if s.user then
      match s.σ.irq with
      | t :: l => some { s with σ := { s.σ with irq := l, cur := t }, frames := .chosen t :: s.frames }
      | [] => some { s with frames := .looking :: s.frames }
    else none
  | .seen (.called t) =>
    match s.frames with
    | .chosen u :: l => if u = t && t ≠ .null then some { s with frames := .running :: l } else none
    | .asked u r v :: l => if u = t && t ≠ .null then some { s with frames := .waking r v :: l } else none
    | _ => none
  | .seen .stepped =>
    match s.frames with
    | .chosen .null :: l | .running :: l => some { s with σ := { s.σ with cur := .null }, frames := l }
    | _ => none
  -- there are no hooks in these programs
  | .seen (.hooked _) | .seen (.transferring _) => none
  | .ask i c =>
    if s.user then
      let r := QCall.spec (Q i).b (Q i).o (Q i).cap (s.lists i) c
      some { s with
        lists := setAt s.lists i r.2
        vars := setVar s.vars c.var r.1.elem
        frames := .asked (QCall.wakes (Q i).cap (s.lists i) (Q i).pt (Q i).gt c) r.1.ret c.var :: s.frames }
    else none
  | .told r =>
    match s.frames with
    | .asked .null r' v :: l | .waking r' v :: l =>
      if r = ⟨r', v.map fun v => s.vars v.1 v.2⟩ then some { s with frames := l } else none
    | _ => none

/-- A whole log. -/
def replay [DecidableEq I] (Q : I → QPlace) (prec : CVal → CVal → Bool) (off : CVal → CVal → CVal) : State I → List (Entry I) → Option (State I)
  | s, [] => some s
  | s, e :: l =>
    match s.see Q prec off e with
    | some s => replay Q prec off s l
    | none => none

/-- The log, as a function of memory; a property of the user's memory that user code maintains; and the variables for elements, which
only the library writes. -/
structure User (I : Type) where
  log : Heap → List (Entry I)
  inv : Heap → Prop
  var : Base → Int → Prop

/-- Memory that is not the library's: not the scheduler's, no hook, no queue, no variable for an element. -/
def Mine (Q : I → QPlace) (U : User I) (b : Base) (o : Int) : Prop := Free b ∧ ¬ U.var b o ∧ ∀ i, ¬ (Q i).cells b o

/-- Queues and variables are where nothing else is. -/
structure Layout (A : Arch) (Q : I → QPlace) (U : User I) : Prop where
  free : ∀ i b o, (Q i).cells b o → Free b
  apart : ∀ i j, i ≠ j → ∀ b o, (Q i).cells b o → ¬ (Q j).cells b o
  var : ∀ b o, U.var b o → Free b ∧ b.isLit = false ∧ ∀ i, ¬ (Q i).cells b o
  cap : ∀ i, 2 * (Q i).cap ≤ A.szMod
  pt : ∀ i, TaskPtr (Q i).pt
  gt : ∀ i, TaskPtr (Q i).gt

/-- User code changes its own memory, and adds `es` to the log. -/
structure User.Adds (Q : I → QPlace) (U : User I) (es : List (Entry I)) (h h' : Heap) : Prop where
  only : Heap.Only (Mine Q U) h h'
  inv : U.inv h'
  log : U.log h' = U.log h ++ es

/-- Elements are determinate, and go to variables. -/
def _root_.Mu.CS.QCall.Ok (U : User I) : QCall → Prop
  | .put v => v ≠ .undef
  | .get eb eo | .peek eb eo => U.var eb eo
  | _ => True

/-- What user code does from memory `h` to memory `h'`, `S` being the library: changes of its own memory, calls of the
scheduler and on queues, each entered in the log, in any number and order. -/
inductive UserRun (S : Fn → SemFn) (Q : I → QPlace) (U : User I) : Heap → Heap → Prop
  | done (h : Heap) : UserRun S Q U h h
  | own {h h1 h2 : Heap} : U.Adds Q [] h h1 → UserRun S Q U h1 h2 → UserRun S Q U h h2
  | call {h h1 h2 h3 : Heap} {r : CVal} (c : Req) : c.Defined → c.call S h = .ok (r, h1) → U.Adds Q [.seen (.did c r)] h1 h2 →
      UserRun S Q U h2 h3 → UserRun S Q U h h3
  | step {h h1 h2 h3 h4 : Heap} {r : CVal} : U.Adds Q [.seen .step] h h1 → S .mu_sched_step h1 [] = .ok (r, h2) →
      U.Adds Q [.seen .stepped] h2 h3 → UserRun S Q U h3 h4 → UserRun S Q U h h4
  | ask {h h1 h2 h3 h4 : Heap} {r : QOut} (i : I) (c : QCall) : c.Ok U → U.Adds Q [.ask i c] h h1 →
      c.mrun S (Q i).b (Q i).o h1 = .ok (r, h2) → U.Adds Q [.told r] h2 h3 → UserRun S Q U h3 h4 → UserRun S Q U h h4

/-- The user's side: the library's variables are not where the log is; every user function is the function of a task, notes
that it has been called, and then does what user code does; the clock notes every reading. -/
structure Honest (A : Arch) (X : Ext) (Q : I → QPlace) (U : User I) (prec : CVal → CVal → Bool) (off : CVal → CVal → CVal) : Prop where
  layout : Layout A Q U
  clock : Clock X prec off
  mono : X.Monotone
  frame : ∀ h h', Heap.Only (fun b o => SchedVar b ∨ U.var b o ∨ ∃ i, (Q i).cells b o) h h' → U.inv h → U.inv h' ∧ U.log h' = U.log h
  task : ∀ n f h args v h', U.inv h → X.cb (sem A X prog n) f h args = .ok (v, h') →
    ∃ t h1, args = [t] ∧ U.Adds Q [.seen (.called t)] h h1 ∧ UserRun (sem A X prog n) Q U h1 h'
  reads : ∀ h now h', U.inv h → X.fn .mu_time_now h [] = .ok (now, h') → U.Adds Q [.seen (.clock now)] h h'

/-- Memory as the program finds it: the scheduler's variables and the memory for the queues exist; no hook is set; the log is empty. -/
structure Ready (Q : I → QPlace) (U : User I) (h : Heap) : Prop where
  sched : h.SchedVars
  wr : ∀ i, (Q i).b.isLit = false ∧ (Q i).sb.isLit = false
  struct : ∀ i (k : Nat), k < 6 → (h.at (Q i).b ((Q i).o + k)).isSome = true
  store : ∀ i (k : Nat), k < (Q i).cap → (h.at (Q i).sb ((Q i).so + k)).isSome = true
  sep : ∀ i (j : Nat), j < (Q i).cap → ∀ k : Nat, k < 6 → ¬((Q i).b = (Q i).sb ∧ (Q i).o + k = (Q i).so + j)
  vars : ∀ b o, U.var b o → (h.at b o).isSome = true
  callHook : h.at (.glob .s_call_hook) 0 = some .null
  transferHook : h.at (.glob .s_transfer_hook) 0 = some .null
  inv : U.inv h
  log : U.log h = []

/-- Initialise the queues. -/
def initAll (S : Fn → SemFn) (Q : I → QPlace) : List I → Heap → C Heap
  | [], h => .ok h
  | i :: l, h => do
    let (_, h) ← S .mu_mqueue_init h [.ptr (Q i).b (Q i).o, .ptr (Q i).sb (Q i).so, .int (Q i).cap, (Q i).pt, (Q i).gt]
    initAll S Q l h

/-- The calls on queue `i`, in the order in which they were made. -/
def asks [DecidableEq I] (i : I) : List (Entry I) → List QCall
  | [] => []
  | .ask j c :: l => if j = i then c :: asks i l else asks i l
  | _ :: l => asks i l

/-- Right after initialisation: the agenda is empty and so are the queues; no hook is set; the log is empty. -/
structure Fresh (Q : I → QPlace) (U : User I) (h : Heap) : Prop where
  sched : ∃ hd ix, h.Scheduler hd ix ⟨[], [], [], .null, .null⟩
  queues : ∀ i, ∃ ix, h.MQ (Q i).b (Q i).o (Q i).sb (Q i).so (Q i).cap (Q i).pt (Q i).gt ix []
  vars : ∀ b o, U.var b o → (h.at b o).isSome = true
  callHook : h.at (.glob .s_call_hook) 0 = some .null
  transferHook : h.at (.glob .s_transfer_hook) 0 = some .null
  inv : U.inv h
  log : U.log h = []

/-- Memory holds the state. -/
structure Mem (Q : I → QPlace) (U : User I) (s : State I) (h : Heap) : Prop where
  sched : ∃ hd ix, h.Scheduler hd ix s.σ
  queues : ∀ i, ∃ ix, h.MQ (Q i).b (Q i).o (Q i).sb (Q i).so (Q i).cap (Q i).pt (Q i).gt ix (s.lists i)
  vars : ∀ b o, U.var b o → h.at b o = some (s.vars b o)

/-- The first user function that a call on queue `i`, made in memory `h`, calls is `f`, in memory `h'`, with `args`. -/
def AskCalls (A : Arch) (X : Ext) (q : QPlace) (c : QCall) (h : Heap) (f : Nat) (h' : Heap) (args : List CVal) : Prop :=
  ∃ n, c.mrun (sem A (X.probe f h' args) prog n) q.b q.o h = .error .divZero

/-- The moments at which user code runs: after initialisation; after anything user code has done; and in a task, called by
`mu_sched_step` or by a queue, which notes that it has been called.  (`vars`: what the variables held at first.) -/
inductive Moment (A : Arch) (X : Ext) (Q : I → QPlace) (U : User I) : (Base → Int → CVal) → Heap → Prop
  | init {h : Heap} {vars : Base → Int → CVal} : Fresh Q U h → (∀ b o, U.var b o → h.at b o = some (vars b o)) → Moment A X Q U vars h
  | run {h h1 : Heap} {n : Nat} {vars : Base → Int → CVal} : Moment A X Q U vars h → UserRun (sem A X prog n) Q U h h1 → Moment A X Q U vars h1
  | task {h h1 h2 h3 : Heap} {f : Nat} {t : CVal} {vars : Base → Int → CVal} : Moment A X Q U vars h → U.Adds Q [.seen .step] h h1 →
      StepCalls A X h1 f h2 [t] → U.Adds Q [.seen (.called t)] h2 h3 → Moment A X Q U vars h3
  | woken {h h1 h2 h3 : Heap} {f : Nat} {t : CVal} {i : I} {c : QCall} {vars : Base → Int → CVal} : Moment A X Q U vars h → c.Ok U →
      U.Adds Q [.ask i c] h h1 → AskCalls A X (Q i) c h1 f h2 [t] → U.Adds Q [.seen (.called t)] h2 h3 → Moment A X Q U vars h3

end Mu.CS.Sys
