import Verif.Props.System
import Verif.Props.Mqueue

/-! # C99: message queues in a program with scheduler and tasks

`C08`–`C10` are about one queue whose tasks call only that queue.  Here any number of queues are used
by tasks that the scheduler runs, by the tasks the queues notify, by hooks, at any depth. -/

namespace Mu.System
open Mu Mu.System.Spec

variable {T R : Type} {cfg : Sched.Cfg T R}

/-- What is observed of any one queue in the whole program, other events left out, is what a bounded
FIFO list with notifications does: values leave in the order in which they entered, none is lost,
duplicated or moved to another queue, every successful put and get notifies at once, count and the
other queries answer correctly at every moment; and slots past the capacity are not touched. -/
theorem C99_queue_view {mem : Val → Task.Task} {qs : Val → QConf} {x x' : Sys T}
    (hb : Boot cfg mem qs x) (p : Prog T R) {tr : List (Ev T)} (h : run cfg x p = .ok (tr, x'))
    (q : Val) (hq : (qs q).Wf cfg.P) :
    ∃ l, Mqueue.Spec.replay (qs q).cap (qs q).onPut (qs q).onGet ⟨[], []⟩ (queuePart q tr) =
        some ⟨l, []⟩ ∧ l.length = Mqueue.count (x'.queues q) ∧ l.length ≤ (qs q).cap ∧
      (x'.queues q).storage.drop (qs q).cap = (qs q).storage.drop (qs q).cap := by
  obtain ⟨pq, hp⟩ := (run_proj p _ _ _ h).queue q
  obtain ⟨q0, e⟩ := hb.queues q
  rw [e] at hp
  obtain ⟨l, h1, h2, h3⟩ := Mqueue.C08_conforms _ _ _ _ _ _ _ hq.1 hq.2 pq hp
  obtain ⟨q', g1, -, g2, -, g3⟩ := Mqueue.C08_mqueue_is_bounded_fifo cfg.P q0 _ _ (qs q).onPut
    (qs q).onGet hq.1 hq.2 pq
  rw [hp] at g1
  obtain ⟨-, rfl⟩ := Prod.mk.inj (Except.ok.inj g1)
  exact ⟨l, h1, h2, by rw [h2]; exact g3, g2⟩

/-- Notifying `t` is a `mu_task_call(t)`, at once. -/
theorem C99_notification_is_call {x x' : Sys T} (p : Prog T R) {a b : List (Ev T)} {q t : Val}
    (h : run cfg x p = .ok (a ++ .queue q (.called t) :: b, x')) :
    ∃ c, b = .task (.callEnter t) :: c := by
  have key := trace_induction (cfg := cfg)
    (fun tr => ∀ (a b : List (Ev T)) (q t : Val), tr = a ++ .queue q (.called t) :: b →
      ∃ c, b = .task (.callEnter t) :: c) ?_ ?_ ?_ ?_ ?_ ?_ p ?_ x _ x' h
  · exact key a b q t rfl
  · intro a b q t h; simp at h
  · intro u v hu hv a b q t h
    rcases List.append_eq_append_iff.mp h with ⟨w, h1, h2⟩ | ⟨w, h1, h2⟩
    · exact hv w b q t h2
    · cases w with
      | nil => exact hv [] b q t (by simpa using h2.symm)
      | cons e w =>
        simp only [List.cons_append, List.cons.injEq] at h2
        obtain ⟨rfl, rfl⟩ := h2
        obtain ⟨c, rfl⟩ := hu a w q t h1
        exact ⟨c ++ v, rfl⟩
  · intro e _ _ he a b q t h
    cases a with
    | nil => simp only [List.nil_append, List.cons.injEq] at h; exact absurd h.1 (he q t)
    | cons _ a => simp at h
  · intro u tr _ hq a b q t h
    rcases a with _ | ⟨e, _ | ⟨e', a⟩⟩
    · simp at h
    · simp at h
    · simp only [List.cons_append, List.cons.injEq] at h
      exact hq a b q t h.2.2
  · intro r u tr _ hq a b q t h
    rcases a with _ | ⟨e, _ | ⟨e', a⟩⟩
    · simp only [List.nil_append, List.cons.injEq, Ev.queue.injEq, Mqueue.Ev.called.injEq] at h
      obtain ⟨⟨rfl, rfl⟩, rfl⟩ := h; exact ⟨_, rfl⟩
    · simp at h
    · simp only [List.cons_append, List.cons.injEq] at h
      exact hq a b q t h.2.2
  · intro a b q t h
    rcases a with _ | ⟨e, a⟩ <;> simp at h
  · refine .inr fun u a b q t h => ?_
    rcases a with _ | ⟨e, a⟩ <;> simp at h

/-- How often one queue has notified `t`: once for every successful put if `t` is its on_put task, once
for every successful get if `t` is its on_get task. -/
theorem C99_notified_once {mem : Val → Task.Task} {qs : Val → QConf} {x x' : Sys T}
    (hb : Boot cfg mem qs x) (p : Prog T R) {tr : List (Ev T)} (h : run cfg x p = .ok (tr, x'))
    (q : Val) (hq : (qs q).Wf cfg.P) {t : Val} (ht : t ≠ NULL) :
    (queuePart q tr).countP (fun e => decide (e = .called t)) =
      (if t = (qs q).onPut then
        (queuePart q tr).countP (fun e => match e with | .putRet _ b => b | _ => false) else 0) +
      (if t = (qs q).onGet then
        (queuePart q tr).countP (fun e => match e with | .getRet b _ => b | _ => false) else 0) := by
  obtain ⟨pq, hp⟩ := (run_proj p _ _ _ h).queue q
  obtain ⟨q0, e⟩ := hb.queues q
  rw [e] at hp
  obtain ⟨tr', q', g1, g2, -⟩ := Mqueue.C09_notified_exactly_once cfg.P q0 _ _ (qs q).onPut
    (qs q).onGet hq.1 hq.2 pq
  rw [hp] at g1
  obtain ⟨rfl, -⟩ := Prod.mk.inj (Except.ok.inj g1)
  exact g2 t ht

/-- Operations on other queues, on the scheduler and on tasks leave a queue alone: a program that does
nothing with queue `q` leaves it as it was. -/
theorem C99_isolated {x x' : Sys T} (p : Prog T R) {tr : List (Ev T)} (h : run cfg x p = .ok (tr, x'))
    (q : Val) (hn : ∀ e, Ev.queue q e ∉ tr) : x'.queues q = x.queues q := by
  obtain ⟨pq, hp⟩ := (run_proj p _ _ _ h).queue q
  have he : queuePart q tr = [] := by
    simp only [queuePart, List.filterMap_eq_nil_iff]
    intro e hm
    cases e with
    | queue r e =>
      by_cases hr : r = q
      · subst hr; exact absurd hm (hn e)
      · simp [hr]
    | _ => rfl
  rw [he] at hp
  have noev : ∀ {c : C (List Mqueue.Ev × Mqueue.Mqueue)} {e : Mqueue.Ev} {t : List Mqueue.Ev} {m},
      (do let (t', m) ← c; (.ok (t ++ e :: t', m) : C (List Mqueue.Ev × Mqueue.Mqueue))) =
        .ok ([], m) → False := by
    intro c e t m h
    obtain ⟨y, -, h⟩ := C.bind_eq_ok h
    simp at h
  cases pq with
  | done =>
    simp only [Mqueue.run, Except.ok.injEq, Prod.mk.injEq, true_and] at hp
    exact hp.symm
  | put e c n =>
    simp only [Mqueue.run] at hp
    obtain ⟨⟨b, t, m⟩, -, hp⟩ := C.bind_eq_ok hp
    exact (noev hp).elim
  | get c n =>
    simp only [Mqueue.run] at hp
    obtain ⟨⟨b, v, t, m⟩, -, hp⟩ := C.bind_eq_ok hp
    exact (noev hp).elim
  | peek n =>
    simp only [Mqueue.run] at hp
    obtain ⟨⟨b, v, t, m⟩, -, hp⟩ := C.bind_eq_ok hp
    exact (noev hp).elim
  | reset n => exact (noev (t := []) hp).elim
  | count n => exact (noev (t := []) hp).elim
  | capacity n => exact (noev (t := []) hp).elim
  | isEmpty n => exact (noev (t := []) hp).elim
  | isFull n => exact (noev (t := []) hp).elim

/-! ## C100: semaphores and mutexes -/

/-- Number of elements a list of events stores. -/
def stores (l : List Mqueue.Ev) : Nat := l.countP fun | .stored _ => true | _ => false

/-- Number of elements a list of events fetches. -/
def fetches (l : List Mqueue.Ev) : Nat := l.countP fun | .fetched _ => true | _ => false

/-- A queue as a counting semaphore, in the whole program: over any stretch of time without a reset, the
successful puts exceed the successful gets by at most the capacity, and the gets the puts by at most
the capacity (by none at all if the stretch begins with the program). -/
theorem C100_semaphore {mem : Val → Task.Task} {qs : Val → QConf} {x x' : Sys T}
    (hb : Boot cfg mem qs x) (p : Prog T R) {tr : List (Ev T)} (h : run cfg x p = .ok (tr, x'))
    (q : Val) (hq : (qs q).Wf cfg.P) {a b c : List Mqueue.Ev} (hs : queuePart q tr = a ++ b ++ c)
    (hn : Mqueue.Ev.resetRet ∉ b) :
    stores b ≤ fetches b + (qs q).cap ∧ fetches b ≤ stores b + (qs q).cap ∧
    (a = [] → fetches b ≤ stores b) := by
  obtain ⟨pq, hp⟩ := (run_proj p _ _ _ h).queue q
  obtain ⟨q0, e⟩ := hb.queues q
  rw [e] at hp
  obtain ⟨tr', q', g1, -, g2⟩ := Mqueue.C10_counting_semaphore cfg.P q0 _ _ (qs q).onPut
    (qs q).onGet hq.1 hq.2 pq
  rw [hp] at g1
  obtain ⟨rfl, -⟩ := Prod.mk.inj (Except.ok.inj g1)
  have h1 := (g2 a (b ++ c) (by rw [hs, List.append_assoc])).1
  have h2 := (g2 (a ++ b) c hs).1
  have key : ∀ (b : List Mqueue.Ev) (n : Int), Mqueue.Ev.resetRet ∉ b →
      Mqueue.Spec.tally n b = n + stores b - fetches b := by
    intro b
    induction b with
    | nil => intro n _; simp [Mqueue.Spec.tally, stores, fetches]
    | cons e b ih =>
      intro n hn
      simp only [List.mem_cons, not_or] at hn
      cases e <;> simp only [Mqueue.Spec.tally, stores, fetches, List.countP_cons] <;>
        first
        | exact absurd rfl hn.1
        | (rw [ih _ hn.2]; simp only [stores, fetches]; push_cast; simp; try omega)
  rw [Mqueue.tally_append, key b _ hn] at h2
  refine ⟨by omega, by omega, ?_⟩
  rintro rfl
  simp only [Mqueue.Spec.tally] at h1 h2
  omega

theorem mutex_replay {onPut onGet : Val} {e f : Val} {c : List Mqueue.Ev} : ∀ (b : List Mqueue.Ev)
    (st : List Mqueue.Spec.Frame), Mqueue.Ev.resetRet ∉ b →
    (∃ m, Mqueue.Spec.replay 1 onPut onGet ⟨[e], st⟩ (b ++ .stored f :: c) = some m) →
    ∃ b1 b2, b = b1 ++ .fetched e :: b2 ∧
      ∀ v, Mqueue.Ev.stored v ∉ b1 ∧ Mqueue.Ev.fetched v ∉ b1 := by
  intro b
  induction b with
  | nil =>
    rintro st - ⟨m, h⟩
    simp only [List.nil_append, Mqueue.replay_cons] at h
    obtain ⟨y, h1, -⟩ := Option.bind_eq_some_iff.mp h
    simp [Mqueue.Spec.next] at h1
  | cons ev b ih =>
    rintro st hn ⟨m, h⟩
    simp only [List.mem_cons, not_or] at hn
    simp only [List.cons_append, Mqueue.replay_cons] at h
    obtain ⟨y, h1, h2⟩ := Option.bind_eq_some_iff.mp h
    -- events that leave the content alone
    have step : (∀ v, ev ≠ .stored v) → (∀ v, ev ≠ .fetched v) → y.content = [e] →
        ∃ b1 b2, ev :: b = b1 ++ .fetched e :: b2 ∧
          ∀ v, Mqueue.Ev.stored v ∉ b1 ∧ Mqueue.Ev.fetched v ∉ b1 := by
      intro s1 s2 hy
      obtain ⟨yc, ys⟩ := y
      simp only at hy
      subst hy
      obtain ⟨b1, b2, rfl, h3⟩ := ih ys hn.2 ⟨m, h2⟩
      refine ⟨ev :: b1, b2, rfl, fun v => ?_⟩
      simp only [List.mem_cons, not_or]
      exact ⟨⟨Ne.symm (s1 v), (h3 v).1⟩, ⟨Ne.symm (s2 v), (h3 v).2⟩⟩
    cases ev with
    | stored v => simp [Mqueue.Spec.next] at h1
    | fetched v =>
      have : v = e := by
        simp only [Mqueue.Spec.next] at h1
        split at h1
        · cases h1
        · split at h1
          · next hv => simpa using hv.symm
          · cases h1
      subst this
      exact ⟨[], b, rfl, fun v => by simp⟩
    | resetRet => exact absurd rfl hn.1
    | called t =>
      refine step (by simp) (by simp) ?_
      simp only [Mqueue.Spec.next] at h1
      split at h1 <;> grind
    | _ =>
      refine step (by simp) (by simp) ?_
      simp only [Mqueue.Spec.next] at h1
      grind

/-- A queue of capacity one as a mutex, in the whole program: between two successful puts (without a
reset) there is a get, and the first one takes the element of the first put.  So at most one holder at
any time, whoever is notified and whatever the tasks do. -/
theorem C100_mutex {mem : Val → Task.Task} {qs : Val → QConf} {x x' : Sys T}
    (hb : Boot cfg mem qs x) (p : Prog T R) {tr : List (Ev T)} (h : run cfg x p = .ok (tr, x'))
    (q : Val) (hq : (qs q).Wf cfg.P) (h1 : (qs q).cap = 1) {e f : Val} {a b c : List Mqueue.Ev}
    (hs : queuePart q tr = a ++ .stored e :: b ++ .stored f :: c)
    (hn : Mqueue.Ev.resetRet ∉ b) :
    ∃ b1 b2, b = b1 ++ .fetched e :: b2 ∧
      ∀ v, Mqueue.Ev.stored v ∉ b1 ∧ Mqueue.Ev.fetched v ∉ b1 := by
  obtain ⟨l, hr, -⟩ := C99_queue_view hb p h q hq
  rw [hs, h1, List.append_assoc, Mqueue.replay_append] at hr
  obtain ⟨y, -, hr⟩ := Option.bind_eq_some_iff.mp hr
  rw [List.cons_append, Mqueue.replay_cons] at hr
  obtain ⟨z, hz, hr⟩ := Option.bind_eq_some_iff.mp hr
  have : z = ⟨[e], .put e ((qs q).onPut = NULL) :: y.pending⟩ := by
    simp only [Mqueue.Spec.next] at hz
    split at hz
    · cases hz
    · split at hz
      · next hl =>
        have : y.content = [] := by
          cases hc : y.content with
          | nil => rfl
          | cons _ _ => rw [hc] at hl; simp at hl
        cases hz
        rw [this]; rfl
      · cases hz
  subst this
  exact mutex_replay b _ hn ⟨_, hr⟩

/-! ## A concrete case -/

namespace Example

/-- Task 21, run by the scheduler, puts a message into queue 41; the queue's task 23 runs inside the
put, passes the message on to queue 42, whose task 22 runs inside that put and schedules 25.  Then the
message is taken out of queue 42, and the full queue 41 refuses a third message. -/
def qprog : Prog Nat Nat :=
  .installCall 31 <| .immed 21 <|
  .step 4 .done (.qPut 41 100 .done (.qGet 41 .done (.qOp 42 .isEmpty .done) <|
      .qPut 42 100 (.current .done) (.immed 25 .done) .done) .done) <|
  .qOp 42 .count <| .qGet 42 .done .done <|
  .qPut 41 101 .done .done <| .qPut 41 102 .done .done <| .qPut 41 103 .done .done .done

def qtrace : List (Ev Nat) :=
  [.task (.callHookRet 31), .sched (.immedRet 21 .none),
   .sched .stepEnter, .sched (.clock 4), .sched (.sel .immed 21), .sched (.called 21),
   .task (.callEnter 21), .task (.hookCalled 31 21), .task .hookDone, .task (.fnCalled 5 21),
   .queue 41 (.stored 100), .queue 41 (.called 23),
   .task (.callEnter 23), .task (.hookCalled 31 23), .task .hookDone, .task (.fnCalled 5 23),
   .queue 41 (.fetched 100), .queue 41 (.called 24),
   .task (.callEnter 24), .task (.hookCalled 31 24), .task .hookDone, .task (.fnCalled 5 24),
   .queue 42 (.emptyRet true),
   .task .fnDone, .task (.callRet 24), .queue 41 (.getRet true 100),
   .queue 42 (.stored 100), .queue 42 (.called 22),
   .task (.callEnter 22), .task (.hookCalled 31 22), .sched (.currentRet 21), .task .hookDone,
   .task (.fnCalled 5 22), .sched (.immedRet 25 .none), .task .fnDone, .task (.callRet 22),
   .queue 42 (.putRet 100 true),
   .task .fnDone, .task (.callRet 23), .queue 41 (.putRet 100 true),
   .task .fnDone, .task (.callRet 21), .sched .stepRet,
   .queue 42 (.countRet 1), .queue 42 (.fetched 100), .queue 42 (.getRet true 100),
   .queue 41 (.stored 101), .queue 41 (.called 23),
   .task (.callEnter 23), .task (.hookCalled 31 23), .task .hookDone, .task (.fnCalled 5 23),
   .task .fnDone, .task (.callRet 23), .queue 41 (.putRet 101 true),
   .queue 41 (.stored 102), .queue 41 (.called 23),
   .task (.callEnter 23), .task (.hookCalled 31 23), .task .hookDone, .task (.fnCalled 5 23),
   .task .fnDone, .task (.callRet 23), .queue 41 (.putRet 102 true),
   .queue 41 (.putRet 103 false)]

example : (run cfg0 boot qprog).map (·.1) = .ok qtrace := by decide +kernel

example : schedOnly qprog ∧ Sane qprog :=
  ⟨by simp [schedOnly, qprog], by simp [Sane, qprog, NULL]⟩

/-- Task 23 runs three times: never chosen by the scheduler, notified three times by queue 41. -/
example : Task.Spec.runsOf 23 (taskPart qtrace) = 3 ∧
    ((Sched.Spec.sels (schedPart qtrace)).map (·.2)).count 23 = 0 ∧ notified 23 qtrace = 3 ∧
    Mqueue.Spec.replay 2 23 24 ⟨[], []⟩ (queuePart 41 qtrace) = some ⟨[101, 102], []⟩ ∧
    Mqueue.Spec.replay 2 22 NULL ⟨[], []⟩ (queuePart 42 qtrace) = some ⟨[], []⟩ := by decide

/-- Queue 44 as a mutex: task 21 locks it, task 25 tries inside and fails, the unlocking notifies task
24, which hands the lock to 25 on the spot. -/
def mprog : Prog Nat Nat :=
  .qPut 44 21 .done .done <| .call 25 .done (.qPut 44 25 .done .done .done) <|
  .qGet 44 .done (.qPut 44 25 .done .done .done) <| .qOp 44 .isFull .done

example : (run cfg0 boot mprog).map (fun r => queuePart 44 r.1) =
    .ok [.stored 21, .putRet 21 true, .putRet 25 false, .fetched 21, .called 24, .stored 25,
      .putRet 25 true, .getRet true 21, .fullRet true] ∧ (qs 44).cap = 1 ∧ Sane mprog :=
  ⟨by decide +kernel, rfl, by simp [Sane, mprog, NULL]⟩

/-- The program does nothing with queue 43, and something with 42. -/
example : (∀ e, Ev.queue 43 e ∉ qtrace) ∧ queuePart 42 qtrace ≠ [] := by
  refine ⟨fun e => ?_, by decide⟩
  simp [qtrace]

end Example

end Mu.System
