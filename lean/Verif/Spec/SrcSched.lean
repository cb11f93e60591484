import Verif.Lemmas.Src
import Verif.Spec.SrcTask

/-! # What a user of mu_sched relies on, for the parsed source

The scheduler as three lists; sizes as configured in mu_sched.h:102-112. -/

namespace Mu.CS

/-- A deferred task: when it is due, and the task. -/
structure Due where
  time : CVal
  task : CVal
  deriving DecidableEq

/-- What the scheduler is to do: tasks scheduled by interrupts, oldest first; deferred tasks, soonest first; immediate
tasks, oldest first; the task being run (NULL if none) and the idle task (NULL if none). -/
structure Agenda where
  irq : List CVal
  due : List Due
  immed : List CVal
  cur : CVal
  idle : CVal
  deriving DecidableEq

/-- The variables of mu_sched.c. -/
def SchedVar (b : Base) : Prop :=
  b = .glob .s_sched ∨ b = .glob .s_irq_store ∨ b = .glob .s_immed_store ∨ b = .glob .s_deferred_tasks

/-- The variables of mu_sched.c have the right sizes and no cell of them is indeterminate (they are static). -/
structure Heap.SchedVars (h : Heap) : Prop where
  sched : (h.cells (.glob .s_sched)).length = 11
  irq : (h.cells (.glob .s_irq_store)).length = 8
  immed : (h.cells (.glob .s_immed_store)).length = 20
  deferred : (h.cells (.glob .s_deferred_tasks)).length = 40
  defd : ∀ b, SchedVar b → ∀ v ∈ h.cells b, v ≠ .undef

/-- Memory holds the scheduler with the agenda `σ`.  `hd` is the slot of the oldest interrupt task, `ix` the slot the next
immediate task will go to.  Members of `s_sched` by offset: 0-3 the interrupt queue (mask, head, tail, storage), 4-7 the
immediate queue (storage, capacity, count, index), 8 the number of deferred tasks, 9 the current and 10 the idle task. -/
structure Heap.Scheduler (h : Heap) (hd ix : Nat) (σ : Agenda) : Prop where
  vars : h.SchedVars
  mask : h.at (.glob .s_sched) 0 = some (.int 7)
  head : h.at (.glob .s_sched) 1 = some (.int hd)
  tail : h.at (.glob .s_sched) 2 = some (.int ((hd + σ.irq.length) % 8 : Nat))
  irqStore : h.at (.glob .s_sched) 3 = some (.ptr (.glob .s_irq_store) 0)
  immedStore : h.at (.glob .s_sched) 4 = some (.ptr (.glob .s_immed_store) 0)
  immedCap : h.at (.glob .s_sched) 5 = some (.int 20)
  immedCnt : h.at (.glob .s_sched) 6 = some (.int σ.immed.length)
  immedIdx : h.at (.glob .s_sched) 7 = some (.int ix)
  cnt : h.at (.glob .s_sched) 8 = some (.int σ.due.length)
  cur : h.at (.glob .s_sched) 9 = some σ.cur
  idle : h.at (.glob .s_sched) 10 = some σ.idle
  hdLt : hd < 8
  ixLt : ix < 20
  irqLe : σ.irq.length ≤ 7
  immedLe : σ.immed.length ≤ 20
  dueLe : σ.due.length ≤ 20
  irqItems : ∀ i v, σ.irq[i]? = some v → h.at (.glob .s_irq_store) ((hd + i) % 8 : Nat) = some v
  immedItems : ∀ i v, σ.immed[i]? = some v →
    h.at (.glob .s_immed_store) ((ix + 20 - σ.immed.length + i) % 20 : Nat) = some v
  dueItems : ∀ i d, σ.due[i]? = some d →
    h.at (.glob .s_deferred_tasks) (2 * (σ.due.length - 1 - i) : Nat) = some d.time ∧
    h.at (.glob .s_deferred_tasks) (2 * (σ.due.length - 1 - i) + 1 : Nat) = some d.task

/-- `mu_sched_err_t`, mu_sched.h:114-118. -/
inductive SErr where
  | none | full | notFound
  deriving DecidableEq

/-- The number of an error code. -/
def SErr.val : SErr → CVal
  | .none => .int 0
  | .full => .int 1
  | .notFound => .int 2

/-- Schedule `t` immediately: behind the others, unless 20 are waiting. -/
def Agenda.schedule (σ : Agenda) (t : CVal) : SErr × Agenda :=
  if σ.immed.length < 20 then (.none, { σ with immed := σ.immed ++ [t] }) else (.full, σ)

/-- Schedule `t` from an interrupt: behind the others, unless 7 are waiting. -/
def Agenda.interrupt (σ : Agenda) (t : CVal) : SErr × Agenda :=
  if σ.irq.length < 7 then (.none, { σ with irq := σ.irq ++ [t] }) else (.full, σ)

/-- Insertion before the first that is later, `prec` being the order of time. -/
def insertDue (prec : CVal → CVal → Bool) (d : Due) : List Due → List Due
  | [] => [d]
  | x :: l => if prec d.time x.time then d :: x :: l else x :: insertDue prec d l

/-- Defer `t` until `time`, unless 20 are waiting. -/
def Agenda.defer (prec : CVal → CVal → Bool) (σ : Agenda) (t time : CVal) : SErr × Agenda :=
  if σ.due.length < 20 then (.none, { σ with due := insertDue prec ⟨time, t⟩ σ.due }) else (.full, σ)

/-- Remove every deferral of `t`. -/
def Agenda.cancel (σ : Agenda) (t : CVal) : SErr × Agenda :=
  (if ∃ d ∈ σ.due, d.task = t then .none else .notFound, { σ with due := σ.due.filter (fun d => d.task ≠ t) })

/-- Forget everything but the idle task. -/
def Agenda.reset (σ : Agenda) : Agenda := ⟨[], [], [], .null, σ.idle⟩

/-- The task that is due next. -/
def Agenda.next (σ : Agenda) : CVal :=
  match σ.due with
  | [] => .null
  | d :: _ => d.task

/-- The oldest immediate task, otherwise the idle task. -/
def Agenda.queued (σ : Agenda) : Agenda :=
  match σ.immed with
  | t :: l => { σ with immed := l, cur := t }
  | [] => { σ with cur := σ.idle }

/-- The choice of `mu_sched_step` when there is no interrupt task and the clock reads `now`: the first deferred task if it
is due, otherwise the oldest immediate task, otherwise the idle task.  (A NULL that has been deferred is passed over.) -/
def Agenda.choose (prec : CVal → CVal → Bool) (now : CVal) (σ : Agenda) : Agenda :=
  match σ.due with
  | d :: l =>
    if prec now d.time then σ.queued
    else if d.task = .null then { σ with due := l }.queued
    else { σ with due := l, cur := d.task }
  | [] => σ.queued

/-- What the platform's time functions must do (mu_platform.h:117,141,148): comparison and addition are functions of
their arguments, the clock gives a time and does not touch the scheduler. -/
structure Clock (X : Ext) (prec : CVal → CVal → Bool) (off : CVal → CVal → CVal) : Prop where
  precedes : ∀ h a b, a ≠ .undef → b ≠ .undef → X.fn .mu_time_precedes h [a, b] = .ok (.ofBool (prec a b), h)
  offset : ∀ h a d, a ≠ .undef → d ≠ .undef → X.fn .mu_time_offset h [a, d] = .ok (off a d, h)
  offsetDef : ∀ a d, a ≠ .undef → d ≠ .undef → off a d ≠ .undef
  now : ∀ h, ∃ t h', X.fn .mu_time_now h [] = .ok (t, h') ∧ t ≠ .undef ∧ Heap.Only (fun b _ => ¬ SchedVar b) h h'

end Mu.CS
