import Verif.Spec.System
import Verif.Lemmas.SchedProps
import Verif.Lemmas.Mqueue
import Verif.Props.Task

/-! # mu_sched, mu_task and mu_mqueue together: each module's view is a run of its own model -/

namespace Mu.Sched

variable {T R : Type}

/-- One program after the other. -/
def Prog.seq : Prog T R → Prog T R → Prog T R
  | .done, q => q
  | .step n b p, q => .step n b (p.seq q)
  | .immed t p, q => .immed t (p.seq q)
  | .transfer t h p, q => .transfer t h (p.seq q)
  | .fromIsr t p, q => .fromIsr t (p.seq q)
  | .deferUntil t a p, q => .deferUntil t a (p.seq q)
  | .deferFor t n d p, q => .deferFor t n d (p.seq q)
  | .remove t p, q => .remove t (p.seq q)
  | .reset p, q => .reset (p.seq q)
  | .setIdle t p, q => .setIdle t (p.seq q)
  | .getIdle p, q => .getIdle (p.seq q)
  | .current p, q => .current (p.seq q)
  | .nextTask p, q => .nextTask (p.seq q)
  | .wait t p, q => .wait t (p.seq q)

theorem run_seq {cfg : Cfg T R} (p q : Prog T R) : ∀ (s s1 s2 : Sched T) (a b : List (Ev T)),
    run cfg s p = .ok (a, s1) → run cfg s1 q = .ok (b, s2) →
    run cfg s (p.seq q) = .ok (a ++ b, s2) := by
  have tail : ∀ {p : Prog T R} (pre : List (Ev T)) {s0 s1 s2 : Sched T} {a b : List (Ev T)},
      (∀ (s s1 s2 : Sched T) (a b : List (Ev T)), run cfg s p = .ok (a, s1) →
        run cfg s1 q = .ok (b, s2) → run cfg s (p.seq q) = .ok (a ++ b, s2)) →
      run cfg s1 q = .ok (b, s2) →
      (do let (tr, s) ← run cfg s0 p; (.ok (pre ++ tr, s) : C (List (Ev T) × Sched T)))
        = .ok (a, s1) →
      (do let (tr, s) ← run cfg s0 (p.seq q); (.ok (pre ++ tr, s) : C (List (Ev T) × Sched T)))
        = .ok (a ++ b, s2) := by
    intro p pre s0 s1 s2 a b ih h2 h1
    obtain ⟨⟨tr, s⟩, e, h1⟩ := C.bind_eq_ok h1
    cases h1
    rw [ih _ _ _ _ _ e h2, C.ok_bind, List.append_assoc]
  induction p with
  | done => intro s s1 s2 a b h1 h2; cases h1; exact h2
  | step n bd p _ ih =>
    intro s s1 s2 a b h1 h2
    simp only [run, Prog.seq] at h1 ⊢
    obtain ⟨⟨e, s0⟩, h0, h1⟩ := C.bind_eq_ok h1
    rw [h0]; exact tail _ ih h2 h1
  | immed t p ih =>
    intro s s1 s2 a b h1 h2
    simp only [run, Prog.seq] at h1 ⊢
    obtain ⟨⟨e, s0⟩, h0, h1⟩ := C.bind_eq_ok h1
    rw [h0]; exact tail [_] ih h2 h1
  | transfer t hk p _ ih =>
    intro s s1 s2 a b h1 h2
    simp only [run, Prog.seq] at h1 ⊢
    obtain ⟨⟨e, s0⟩, h0, h1⟩ := C.bind_eq_ok h1
    rw [h0, C.ok_bind]
    obtain ⟨⟨e', s0'⟩, h0', h1⟩ := C.bind_eq_ok h1
    simp only at h0' h1 ⊢
    rw [h0', C.ok_bind]
    obtain ⟨⟨tr, s⟩, e2, h1⟩ := C.bind_eq_ok h1
    cases h1
    rw [ih _ _ _ _ _ e2 h2, C.ok_bind]
    simp
  | fromIsr t p ih =>
    intro s s1 s2 a b h1 h2
    simp only [run, Prog.seq] at h1 ⊢
    obtain ⟨⟨e, s0⟩, h0, h1⟩ := C.bind_eq_ok h1
    rw [h0]; exact tail [_] ih h2 h1
  | deferUntil t time p ih =>
    intro s s1 s2 a b h1 h2
    simp only [run, Prog.seq] at h1 ⊢
    obtain ⟨⟨e, s0⟩, h0, h1⟩ := C.bind_eq_ok h1
    rw [h0]; exact tail [_] ih h2 h1
  | deferFor t n d p ih =>
    intro s s1 s2 a b h1 h2
    simp only [run, Prog.seq] at h1 ⊢
    obtain ⟨⟨e, s0⟩, h0, h1⟩ := C.bind_eq_ok h1
    rw [h0]; exact tail [_, _] ih h2 h1
  | remove t p ih =>
    intro s s1 s2 a b h1 h2
    simp only [run, Prog.seq] at h1 ⊢
    obtain ⟨⟨e, s0⟩, h0, h1⟩ := C.bind_eq_ok h1
    rw [h0]; exact tail [_] ih h2 h1
  | reset p ih => intro s s1 s2 a b h1 h2; exact tail [_] ih h2 h1
  | setIdle t p ih => intro s s1 s2 a b h1 h2; exact tail [_] ih h2 h1
  | getIdle p ih => intro s s1 s2 a b h1 h2; exact tail [_] ih h2 h1
  | current p ih => intro s s1 s2 a b h1 h2; exact tail [_] ih h2 h1
  | nextTask p ih =>
    intro s s1 s2 a b h1 h2
    simp only [run, Prog.seq] at h1 ⊢
    obtain ⟨v, h0, h1⟩ := C.bind_eq_ok h1
    rw [h0]; exact tail [_] ih h2 h1
  | wait t p ih => intro s s1 s2 a b h1 h2; exact tail [_] ih h2 h1

end Mu.Sched

namespace Mu.Task

/-- One program after the other. -/
def Prog.seq : Prog → Prog → Prog
  | .done, q => q
  | .init t f s i p, q => .init t f s i (p.seq q)
  | .installCall h p, q => .installCall h (p.seq q)
  | .installState h p, q => .installState h (p.seq q)
  | .installTransfer h p, q => .installTransfer h (p.seq q)
  | .call t h b p, q => .call t h b (p.seq q)
  | .setState t s h p, q => .setState t s h (p.seq q)
  | .transfer t h p, q => .transfer t h (p.seq q)
  | .getFn t p, q => .getFn t (p.seq q)
  | .getState t p, q => .getState t (p.seq q)
  | .getInfo t p, q => .getInfo t (p.seq q)
  | .setInfo t u p, q => .setInfo t u (p.seq q)

theorem run_seq (p q : Prog) : ∀ (s s1 s2 : World) (a b : List Ev),
    run s p = .ok (a, s1) → run s1 q = .ok (b, s2) → run s (p.seq q) = .ok (a ++ b, s2) := by
  have tail : ∀ {p : Prog} (pre : List Ev) {s0 s1 s2 : World} {a b : List Ev},
      (∀ (s s1 s2 : World) (a b : List Ev), run s p = .ok (a, s1) →
        run s1 q = .ok (b, s2) → run s (p.seq q) = .ok (a ++ b, s2)) →
      run s1 q = .ok (b, s2) →
      (do let (tr, s) ← run s0 p; (.ok (pre ++ tr, s) : C (List Ev × World))) = .ok (a, s1) →
      (do let (tr, s) ← run s0 (p.seq q); (.ok (pre ++ tr, s) : C (List Ev × World)))
        = .ok (a ++ b, s2) := by
    intro p pre s0 s1 s2 a b ih h2 h1
    obtain ⟨⟨tr, s⟩, e, h1⟩ := C.bind_eq_ok h1
    cases h1
    rw [ih _ _ _ _ _ e h2, C.ok_bind, List.append_assoc]
  induction p with
  | done => intro s s1 s2 a b h1 h2; cases h1; exact h2
  | installCall h p ih => intro s s1 s2 a b h1 h2; exact tail [_] ih h2 h1
  | installState h p ih => intro s s1 s2 a b h1 h2; exact tail [_] ih h2 h1
  | installTransfer h p ih => intro s s1 s2 a b h1 h2; exact tail [_] ih h2 h1
  | init t f st i p ih =>
    intro s s1 s2 a b h1 h2
    simp only [run, Prog.seq] at h1 ⊢
    obtain ⟨x, h0, h1⟩ := C.bind_eq_ok h1
    rw [h0]; exact tail [_] ih h2 h1
  | call t h bd p _ _ ih =>
    intro s s1 s2 a b h1 h2
    simp only [run, Prog.seq] at h1 ⊢
    obtain ⟨x, h0, h1⟩ := C.bind_eq_ok h1
    rw [h0]; exact tail _ ih h2 h1
  | setState t st h p _ ih =>
    intro s s1 s2 a b h1 h2
    simp only [run, Prog.seq] at h1 ⊢
    obtain ⟨x, h0, h1⟩ := C.bind_eq_ok h1
    rw [h0]; exact tail _ ih h2 h1
  | transfer t h p _ ih =>
    intro s s1 s2 a b h1 h2
    simp only [run, Prog.seq] at h1 ⊢
    obtain ⟨x, h0, h1⟩ := C.bind_eq_ok h1
    rw [h0]; exact tail _ ih h2 h1
  | getFn t p ih =>
    intro s s1 s2 a b h1 h2
    simp only [run, Prog.seq] at h1 ⊢
    obtain ⟨x, h0, h1⟩ := C.bind_eq_ok h1
    rw [h0]; exact tail [_] ih h2 h1
  | getState t p ih =>
    intro s s1 s2 a b h1 h2
    simp only [run, Prog.seq] at h1 ⊢
    obtain ⟨x, h0, h1⟩ := C.bind_eq_ok h1
    rw [h0]; exact tail [_] ih h2 h1
  | getInfo t p ih =>
    intro s s1 s2 a b h1 h2
    simp only [run, Prog.seq] at h1 ⊢
    obtain ⟨x, h0, h1⟩ := C.bind_eq_ok h1
    rw [h0]; exact tail [_] ih h2 h1
  | setInfo t u p ih =>
    intro s s1 s2 a b h1 h2
    simp only [run, Prog.seq] at h1 ⊢
    obtain ⟨x, h0, h1⟩ := C.bind_eq_ok h1
    rw [h0]; exact tail [_] ih h2 h1

end Mu.Task

namespace Mu.Mqueue

/-- One program after the other. -/
def Prog.seq : Prog → Prog → Prog
  | .done, q => q
  | .put e c p, q => .put e c (p.seq q)
  | .get c p, q => .get c (p.seq q)
  | .peek p, q => .peek (p.seq q)
  | .reset p, q => .reset (p.seq q)
  | .count p, q => .count (p.seq q)
  | .capacity p, q => .capacity (p.seq q)
  | .isEmpty p, q => .isEmpty (p.seq q)
  | .isFull p, q => .isFull (p.seq q)

theorem run_seq {P : Plat} (p q : Prog) : ∀ (s s1 s2 : Mqueue) (a b : List Ev),
    run P s p = .ok (a, s1) → run P s1 q = .ok (b, s2) →
    run P s (p.seq q) = .ok (a ++ b, s2) := by
  have tail : ∀ {p : Prog} (pre : List Ev) (e : Ev) {s0 s1 s2 : Mqueue} {a b : List Ev},
      (∀ (s s1 s2 : Mqueue) (a b : List Ev), run P s p = .ok (a, s1) →
        run P s1 q = .ok (b, s2) → run P s (p.seq q) = .ok (a ++ b, s2)) →
      run P s1 q = .ok (b, s2) →
      (do let (tr, s) ← run P s0 p; (.ok (pre ++ e :: tr, s) : C (List Ev × Mqueue))) = .ok (a, s1) →
      (do let (tr, s) ← run P s0 (p.seq q); (.ok (pre ++ e :: tr, s) : C (List Ev × Mqueue)))
        = .ok (a ++ b, s2) := by
    intro p pre e s0 s1 s2 a b ih h2 h1
    obtain ⟨⟨tr, s⟩, e, h1⟩ := C.bind_eq_ok h1
    cases h1
    rw [ih _ _ _ _ _ e h2, C.ok_bind, List.append_assoc]; rfl
  induction p with
  | done => intro s s1 s2 a b h1 h2; cases h1; exact h2
  | put e c p _ ih =>
    intro s s1 s2 a b h1 h2
    simp only [run, Prog.seq] at h1 ⊢
    obtain ⟨⟨b', t, s0⟩, h0, h1⟩ := C.bind_eq_ok h1
    rw [h0]; exact tail t _ ih h2 h1
  | get c p _ ih =>
    intro s s1 s2 a b h1 h2
    simp only [run, Prog.seq] at h1 ⊢
    obtain ⟨⟨b', v, t, s0⟩, h0, h1⟩ := C.bind_eq_ok h1
    rw [h0]; exact tail t _ ih h2 h1
  | peek p ih =>
    intro s s1 s2 a b h1 h2
    simp only [run, Prog.seq] at h1 ⊢
    obtain ⟨⟨b', v, t, s0⟩, h0, h1⟩ := C.bind_eq_ok h1
    rw [h0]; exact tail t _ ih h2 h1
  | reset p ih => intro s s1 s2 a b h1 h2; exact tail [] _ ih h2 h1
  | count p ih => intro s s1 s2 a b h1 h2; exact tail [] _ ih h2 h1
  | capacity p ih => intro s s1 s2 a b h1 h2; exact tail [] _ ih h2 h1
  | isEmpty p ih => intro s s1 s2 a b h1 h2; exact tail [] _ ih h2 h1
  | isFull p ih => intro s s1 s2 a b h1 h2; exact tail [] _ ih h2 h1

end Mu.Mqueue

namespace Mu.System
open Spec

variable {T R : Type} {cfg : Sched.Cfg T R}

theorem schedPart_append (a b : List (Ev T)) : schedPart (a ++ b) = schedPart a ++ schedPart b :=
  List.filterMap_append ..

theorem taskPart_append (a b : List (Ev T)) : taskPart (a ++ b) = taskPart a ++ taskPart b :=
  List.filterMap_append ..

theorem queuePart_append (q : Val) (a b : List (Ev T)) :
    queuePart q (a ++ b) = queuePart q a ++ queuePart q b := List.filterMap_append ..

@[simp] theorem queuePart_nil (q : Val) : queuePart q ([] : List (Ev T)) = [] := rfl

@[simp] theorem queuePart_sched (q : Val) (e : Sched.Ev T) (l : List (Ev T)) :
    queuePart q (.sched e :: l) = queuePart q l := rfl

@[simp] theorem queuePart_task (q : Val) (e : Task.Ev) (l : List (Ev T)) :
    queuePart q (.task e :: l) = queuePart q l := rfl

theorem queuePart_queue (q r : Val) (e : Mqueue.Ev) (l : List (Ev T)) :
    queuePart q (.queue r e :: l) = if r = q then e :: queuePart q l else queuePart q l := by
  by_cases h : r = q <;> simp [queuePart, h]

theorem queuePart_map (q : Val) (a : List (Sched.Ev T)) : queuePart q (a.map .sched) = [] := by
  induction a with
  | nil => rfl
  | cons e a ih => simp only [queuePart, List.map_cons, List.filterMap_cons] at ih ⊢; rw [ih]

theorem schedPart_map (a : List (Sched.Ev T)) : schedPart (a.map .sched) = a := by
  induction a with
  | nil => rfl
  | cons e a ih => simp only [schedPart, List.map_cons, List.filterMap_cons] at ih ⊢; rw [ih]

theorem taskPart_map (a : List (Sched.Ev T)) : taskPart (a.map .sched) = [] := by
  induction a with
  | nil => rfl
  | cons e a ih => simp only [taskPart, List.map_cons, List.filterMap_cons] at ih ⊢; rw [ih]

/-- From `x` to `x'` with the events `tr`: what each module sees is a run of its own model. -/
structure Proj (cfg : Sched.Cfg T R) (x : Sys T) (tr : List (Ev T)) (x' : Sys T) : Prop where
  sched : ∃ q, Sched.run cfg x.sched q = .ok (schedPart tr, x'.sched)
  task : ∃ q, Task.run x.world q = .ok (taskPart tr, x'.world)
  queue : ∀ q, ∃ p, Mqueue.run cfg.P (x.queues q) p = .ok (queuePart q tr, x'.queues q)

theorem Proj.refl (x : Sys T) : Proj cfg x [] x :=
  ⟨⟨.done, rfl⟩, ⟨.done, rfl⟩, fun _ => ⟨.done, rfl⟩⟩

theorem Proj.seq {x y z : Sys T} {a b : List (Ev T)} (h1 : Proj cfg x a y) (h2 : Proj cfg y b z) :
    Proj cfg x (a ++ b) z := by
  obtain ⟨⟨q1, a1⟩, ⟨q2, a2⟩, c1⟩ := h1
  obtain ⟨⟨q3, a3⟩, ⟨q4, a4⟩, c2⟩ := h2
  refine ⟨⟨q1.seq q3, by rw [schedPart_append]; exact Sched.run_seq _ _ _ _ _ _ _ a1 a3⟩,
    ⟨q2.seq q4, by rw [taskPart_append]; exact Task.run_seq _ _ _ _ _ _ _ a2 a4⟩,
    fun q => ?_⟩
  obtain ⟨p1, b1⟩ := c1 q
  obtain ⟨p2, b2⟩ := c2 q
  exact ⟨p1.seq p2, by rw [queuePart_append]; exact Mqueue.run_seq _ _ _ _ _ _ _ b1 b2⟩

/-- An action whose runs project. -/
def Good (cfg : Sched.Cfg T R) (act : Act T) : Prop :=
  ∀ x tr x', act x = .ok (tr, x') → Proj cfg x tr x'

/-- The shape of a call of a task. -/
theorem call_shape {x x' : Sys T} {t : Val} {hook body : Act T} {tr : List (Ev T)}
    (h : call x t hook body = .ok (tr, x')) :
    (t = NULL ∧ tr = [.task (.callEnter t), .task (.callRet t)] ∧ x' = x) ∨
    (t ≠ NULL ∧ ∃ trh x1 trb,
      ((x.world.callHook = NULL ∧ trh = [] ∧ x1 = x) ∨
       (x.world.callHook ≠ NULL ∧ ∃ tr0, hook x = .ok (tr0, x1) ∧
          trh = .task (.hookCalled x.world.callHook t) :: tr0 ++ [.task .hookDone])) ∧
      (x1.world.task t).fn ≠ NULL ∧ body x1 = .ok (trb, x') ∧
      tr = .task (.callEnter t) :: trh ++ .task (.fnCalled (x1.world.task t).fn t) :: trb ++
        [.task .fnDone, .task (.callRet t)]) := by
  unfold call at h
  by_cases ht : t = NULL
  · left
    simp only [ht, ne_eq, not_true_eq_false, if_false] at h
    cases h
    exact ⟨ht, by rw [ht], rfl⟩
  · right
    refine ⟨ht, ?_⟩
    simp only [ne_eq, ht, not_false_eq_true, if_true] at h
    by_cases hc : x.world.callHook = NULL
    · simp only [hc, not_true_eq_false, if_false, C.ok_bind, Task.World.deref, ht] at h
      split at h
      · cases h
      · next hf =>
        obtain ⟨⟨trb, x2⟩, e, h⟩ := C.bind_eq_ok h
        cases h
        exact ⟨[], x, trb, .inl ⟨hc, rfl, rfl⟩, hf, e, rfl⟩
    · simp only [hc, not_false_eq_true, if_true] at h
      obtain ⟨⟨tr0, x1⟩, e1, h⟩ := C.bind_eq_ok h
      simp only [Task.World.deref, ht, if_false, C.ok_bind] at h
      split at h
      · cases h
      · next hf =>
        obtain ⟨⟨trb, x2⟩, e, h⟩ := C.bind_eq_ok h
        cases h
        exact ⟨_, x1, trb, .inr ⟨hc, tr0, e1, rfl⟩, hf, e, rfl⟩

/-- The scheduler's view of a call: the calls made by the hook and the function. -/
theorem call_proj {x x' : Sys T} {t : Val} {hook body : Act T} {tr : List (Ev T)}
    (hh : Good cfg hook) (hb : Good cfg body) (h : call x t hook body = .ok (tr, x')) :
    Proj cfg x tr x' := by
  rcases call_shape h with ⟨rfl, rfl, rfl⟩ | ⟨ht, trh, x1, trb, hk, hf, e, rfl⟩
  · exact ⟨⟨.done, rfl⟩, ⟨.call NULL .done .done .done, rfl⟩, fun _ => ⟨.done, rfl⟩⟩
  · obtain ⟨⟨qb, b1⟩, ⟨qb', b2⟩, b3⟩ := hb _ _ _ e
    rcases hk with ⟨hc, rfl, rfl⟩ | ⟨hc, tr0, e0, rfl⟩
    · refine ⟨⟨qb, ?_⟩, ⟨.call t .done qb' .done, ?_⟩, fun q => ?_⟩
      · rw [b1]; simp [schedPart]
      · simp [Task.run, Task.call, ht, hc, Task.World.deref, hf, b2, taskPart]
      · obtain ⟨p, hp⟩ := b3 q
        exact ⟨p, by rw [hp]; simp [queuePart_append]⟩
    · obtain ⟨⟨qh, a1⟩, ⟨qh', a2⟩, a3⟩ := hh _ _ _ e0
      refine ⟨⟨qh.seq qb, ?_⟩, ⟨.call t qh' qb' .done, ?_⟩, fun q => ?_⟩
      · rw [Sched.run_seq _ _ _ _ _ _ _ a1 b1]; simp [schedPart]
      · simp [Task.run, Task.call, ht, hc, Task.World.deref, hf, a2, b2, taskPart]
      · obtain ⟨p, hp⟩ := a3 q
        obtain ⟨p', hp'⟩ := b3 q
        exact ⟨p.seq p', by
          rw [Mqueue.run_seq _ _ _ _ _ _ _ hp hp']; simp [queuePart_append]⟩

theorem setState_proj {x x' : Sys T} {t : Val} {st : Nat} {hook : Act T} {tr : List (Ev T)}
    (hh : Good cfg hook) (h : setState x t st hook = .ok (tr, x')) : Proj cfg x tr x' := by
  unfold setState at h
  by_cases ht : t = NULL
  · simp only [ht, ne_eq, not_true_eq_false, if_false] at h
    cases h
    exact ⟨⟨.done, rfl⟩, ⟨.setState NULL st .done .done, rfl⟩, fun _ => ⟨.done, rfl⟩⟩
  · simp only [ne_eq, ht, not_false_eq_true, if_true] at h
    by_cases hc : x.world.stateHook = NULL
    · simp only [hc, not_true_eq_false, if_false, C.ok_bind, Task.World.deref, ht] at h
      cases h
      refine ⟨⟨.done, rfl⟩, ⟨.setState t st .done .done, ?_⟩, fun _ => ⟨.done, rfl⟩⟩
      simp [Task.run, Task.setState, ht, hc, Task.World.deref, taskPart]
    · simp only [hc, not_false_eq_true, if_true] at h
      obtain ⟨⟨tr0, x1⟩, e1, h⟩ := C.bind_eq_ok h
      simp only [Task.World.deref, ht, if_false, C.ok_bind] at h
      cases h
      obtain ⟨⟨qh, a1⟩, ⟨qh', a2⟩, a3⟩ := hh _ _ _ e1
      refine ⟨⟨qh, ?_⟩, ⟨.setState t st qh' .done, ?_⟩, fun q => ?_⟩
      · rw [a1]; simp [schedPart]
      · simp [Task.run, Task.setState, ht, hc, Task.World.deref, a2, taskPart]
      · obtain ⟨p, hp⟩ := a3 q
        exact ⟨p, by rw [hp]; simp [queuePart_append]⟩

theorem callTransfer_proj {x x' : Sys T} {t : Val} {hook : Act T} {tr : List (Ev T)}
    (hh : Good cfg hook) (h : callTransfer x t hook = .ok (tr, x')) :
    (∃ q, Sched.run cfg x.sched q = .ok (schedPart tr, x'.sched)) ∧
    (∃ q, Task.run x.world (.transfer t q .done) = .ok (taskPart tr, x'.world)) ∧
    ∀ q, ∃ p, Mqueue.run cfg.P (x.queues q) p = .ok (queuePart q tr, x'.queues q) := by
  unfold callTransfer at h
  by_cases hc : x.world.transferHook = NULL
  · simp only [hc, ne_eq, not_true_eq_false, if_false] at h
    cases h
    exact ⟨⟨.done, rfl⟩, ⟨.done, by simp [Task.run, Task.transfer, hc, taskPart]⟩,
      fun _ => ⟨.done, rfl⟩⟩
  · simp only [ne_eq, hc, not_false_eq_true, if_true] at h
    obtain ⟨⟨tr0, x1⟩, e0, h⟩ := C.bind_eq_ok h
    cases h
    obtain ⟨⟨qh, a1⟩, ⟨qh', a2⟩, a3⟩ := hh _ _ _ e0
    refine ⟨⟨qh, ?_⟩, ⟨qh', ?_⟩, fun q => ?_⟩
    · rw [a1]; simp [schedPart]
    · simp [Task.run, Task.transfer, hc, a2, taskPart]
    · obtain ⟨p, hp⟩ := a3 q
      exact ⟨p, by rw [hp]; simp [queuePart_append]⟩

theorem step_proj {now : T} {x x' : Sys T} {hook body : Act T} {tr : List (Ev T)}
    (hh : Good cfg hook) (hb : Good cfg body) (h : step cfg now hook body x = .ok (tr, x')) :
    Proj cfg x tr x' := by
  unfold step at h
  obtain ⟨⟨evs, s⟩, e0, h⟩ := C.bind_eq_ok h
  obtain ⟨⟨tr1, x1⟩, e1, h⟩ := C.bind_eq_ok h
  simp only at e1 h
  cases h
  obtain ⟨⟨q, a1⟩, ⟨q', a2⟩, a3⟩ := call_proj hh hb e1
  simp only at a1 a2 a3
  refine ⟨?_, ?_, fun r => ?_⟩
  · refine ⟨.step now q .done, ?_⟩
    simp only [Sched.run, Sched.step, e0, C.ok_bind]
    by_cases hc : s.curr = NULL
    · rcases call_shape e1 with ⟨_, rfl, rfl⟩ | ⟨hn, _⟩
      · simp only [hc, ne_eq, not_true_eq_false, if_false, C.ok_bind]
        simp only [schedPart_append, List.append_nil]
        rw [show schedPart (Ev.sched Sched.Ev.stepEnter :: evs.map Ev.sched) =
          Sched.Ev.stepEnter :: schedPart (evs.map Ev.sched) from rfl, schedPart_map]
        simp [schedPart]
      · exact absurd hc hn
    · simp only [hc, ne_eq, not_false_eq_true, if_true, a1, C.ok_bind]
      simp only [schedPart_append, List.append_nil]
      rw [show schedPart (Ev.sched Sched.Ev.stepEnter :: evs.map Ev.sched) =
          Sched.Ev.stepEnter :: schedPart (evs.map Ev.sched) from rfl, schedPart_map]
      simp [schedPart]
  · refine ⟨q', ?_⟩
    rw [a2]
    simp only [taskPart_append]
    rw [show taskPart (Ev.sched Sched.Ev.stepEnter :: evs.map Ev.sched) =
          taskPart (evs.map Ev.sched) from rfl, taskPart_map]
    by_cases hc : s.curr = NULL <;> simp [hc, taskPart]
  · obtain ⟨p, hp⟩ := a3 r
    refine ⟨p, ?_⟩
    rw [hp]
    simp only [queuePart_append]
    rw [queuePart_sched, queuePart_map]
    by_cases hc : s.curr = NULL <;> simp [hc]

theorem transfer_proj {t : Val} {x x' : Sys T} {hook : Act T} {tr : List (Ev T)}
    (hh : Good cfg hook) (h : transfer cfg t hook x = .ok (tr, x')) : Proj cfg x tr x' := by
  unfold transfer at h
  obtain ⟨⟨tr1, x1⟩, e1, h⟩ := C.bind_eq_ok h
  obtain ⟨⟨e, s⟩, e2, h⟩ := C.bind_eq_ok h
  simp only at e2 h
  cases h
  obtain ⟨⟨q, a1⟩, ⟨q', a2⟩, a3⟩ := callTransfer_proj hh e1
  refine ⟨⟨.transfer t q .done, ?_⟩, ⟨.transfer t q' .done, ?_⟩, fun r => ?_⟩
  · simp only [Sched.run, a1, C.ok_bind, e2, schedPart_append]
    rw [show schedPart (Ev.sched (Sched.Ev.transferHook t) :: tr1) =
      Sched.Ev.transferHook t :: schedPart tr1 from rfl]
    simp [schedPart]
  · rw [a2, taskPart_append]
    rw [show taskPart (Ev.sched (Sched.Ev.transferHook t) :: tr1) = taskPart tr1 from rfl]
    simp [taskPart]
  · obtain ⟨p, hp⟩ := a3 r
    exact ⟨p, by rw [hp]; simp [queuePart_append]⟩

/-- The shape of `mu_mqueue_put`. -/
theorem qPut_shape {P : Plat} {x x' : Sys T} {q el : Val} {hook body : Act T} {tr : List (Ev T)}
    (h : qPut P x q el hook body = .ok (tr, x')) :
    q ≠ NULL ∧
    ((tr = [.queue q (.putRet el false)] ∧ x' = x ∧ Mqueue.isFull (x.queues q) = true) ∨
     (Mqueue.isFull (x.queues q) = false ∧
      ∃ m, (∀ c, Mqueue.put P c (x.queues q) el =
          if (x.queues q).onPut ≠ NULL then do
            let (t, m') ← c m
            .ok (true, .stored el :: .called (x.queues q).onPut :: t, m')
          else .ok (true, [.stored el], m)) ∧
        (((x.queues q).onPut = NULL ∧ x' = x.putQ q m ∧
            tr = [.queue q (.stored el), .queue q (.putRet el true)]) ∨
         ((x.queues q).onPut ≠ NULL ∧ ∃ t,
            call (x.putQ q m) (x.queues q).onPut hook body = .ok (t, x') ∧
            tr = .queue q (.stored el) :: .queue q (.called (x.queues q).onPut) :: t ++
              [.queue q (.putRet el true)])))) := by
  unfold qPut at h
  obtain ⟨m0, e0, h⟩ := C.bind_eq_ok h
  by_cases hq : q = NULL
  · simp [Sys.derefQ, hq] at e0
  · simp only [Sys.derefQ, hq, if_false, Except.ok.injEq] at e0
    subst e0
    refine ⟨hq, ?_⟩
    by_cases hf : Mqueue.isFull (x.queues q) = false
    · right
      refine ⟨hf, ?_⟩
      simp only [hf, if_true] at h
      obtain ⟨st, e1, h⟩ := C.bind_eq_ok h
      by_cases hc : (x.queues q).capacity = 0
      · rw [if_pos hc] at h; cases h
      rw [if_neg hc] at h
      simp only [C.ok_bind] at h
      refine ⟨{ x.queues q with storage := st,
                                index := P.sz ((x.queues q).index + 1) % (x.queues q).capacity,
                                count := P.sz ((x.queues q).count + 1) }, ?_, ?_⟩
      · intro c
        simp only [Mqueue.put, hf, if_true, e1, C.ok_bind, hc, if_false]
      · by_cases hn : (x.queues q).onPut = NULL
        · rw [if_neg (by simpa using hn)] at h
          cases h
          exact .inl ⟨hn, rfl, rfl⟩
        · rw [if_pos hn] at h
          obtain ⟨⟨t, x1⟩, e3, h⟩ := C.bind_eq_ok h
          cases h
          exact .inr ⟨hn, t, e3, rfl⟩
    · left
      simp only [hf, if_false] at h
      cases h
      exact ⟨rfl, rfl, by simpa using hf⟩

/-- The shape of `mu_mqueue_get`. -/
theorem qGet_shape {P : Plat} {x x' : Sys T} {q : Val} {hook body : Act T} {tr : List (Ev T)}
    (h : qGet P x q hook body = .ok (tr, x')) :
    q ≠ NULL ∧
    ((tr = [.queue q (.getRet false NULL)] ∧ x' = x ∧ Mqueue.isEmpty (x.queues q) = true) ∨
     (Mqueue.isEmpty (x.queues q) = false ∧
      ∃ m el, (∀ c, Mqueue.accessQueue P c (x.queues q) true =
          if (x.queues q).onGet ≠ NULL then do
            let (t, m') ← c m
            .ok (true, el, .fetched el :: .called (x.queues q).onGet :: t, m')
          else .ok (true, el, [.fetched el], m)) ∧
        (((x.queues q).onGet = NULL ∧ x' = x.putQ q m ∧
            tr = [.queue q (.fetched el), .queue q (.getRet true el)]) ∨
         ((x.queues q).onGet ≠ NULL ∧ ∃ t,
            call (x.putQ q m) (x.queues q).onGet hook body = .ok (t, x') ∧
            tr = .queue q (.fetched el) :: .queue q (.called (x.queues q).onGet) :: t ++
              [.queue q (.getRet true el)])))) := by
  unfold qGet at h
  obtain ⟨m0, e0, h⟩ := C.bind_eq_ok h
  by_cases hq : q = NULL
  · simp [Sys.derefQ, hq] at e0
  · simp only [Sys.derefQ, hq, if_false, Except.ok.injEq] at e0
    subst e0
    refine ⟨hq, ?_⟩
    by_cases hf : Mqueue.isEmpty (x.queues q) = false
    · right
      refine ⟨hf, ?_⟩
      simp only [hf, if_true] at h
      obtain ⟨el, e1, h⟩ := C.bind_eq_ok h
      refine ⟨{ x.queues q with count := P.szSub (x.queues q).count 1 }, el, ?_, ?_⟩
      · intro c
        simp only [Mqueue.accessQueue, hf, if_true, e1, C.ok_bind]
      · by_cases hn : (x.queues q).onGet = NULL
        · rw [if_neg (by simpa using hn)] at h
          cases h
          exact .inl ⟨hn, rfl, rfl⟩
        · rw [if_pos hn] at h
          obtain ⟨⟨t, x1⟩, e3, h⟩ := C.bind_eq_ok h
          cases h
          exact .inr ⟨hn, t, e3, rfl⟩
    · left
      simp only [hf, if_false] at h
      cases h
      exact ⟨rfl, rfl, by simpa using hf⟩

theorem schedPart_queue (q : Val) (e : Mqueue.Ev) (l : List (Ev T)) :
    schedPart (.queue q e :: l) = schedPart l := rfl

theorem taskPart_queue (q : Val) (e : Mqueue.Ev) (l : List (Ev T)) :
    taskPart (.queue q e :: l) = taskPart l := rfl

theorem qPut_proj {x x' : Sys T} {q el : Val} {hook body : Act T} {tr : List (Ev T)}
    (hh : Good cfg hook) (hb : Good cfg body) (h : qPut cfg.P x q el hook body = .ok (tr, x')) :
    Proj cfg x tr x' := by
  obtain ⟨hq, ⟨rfl, rfl, hf⟩ | ⟨hf, m, hput, hc⟩⟩ := qPut_shape h
  · refine ⟨⟨.done, rfl⟩, ⟨.done, rfl⟩, fun r => ?_⟩
    by_cases hr : q = r
    · subst hr
      exact ⟨.put el .done .done, by simp [Mqueue.run, Mqueue.put, hf, queuePart_queue]⟩
    · exact ⟨.done, by simp [Mqueue.run, queuePart_queue, hr]⟩
  · rcases hc with ⟨hn, rfl, rfl⟩ | ⟨hn, t, e, rfl⟩
    · refine ⟨⟨.done, rfl⟩, ⟨.done, rfl⟩, fun r => ?_⟩
      by_cases hr : q = r
      · subst hr
        exact ⟨.put el .done .done, by simp [Mqueue.run, hput, hn, queuePart_queue, Sys.putQ]⟩
      · exact ⟨.done, by simp [Mqueue.run, queuePart_queue, hr, Sys.putQ, Ne.symm hr]⟩
    · obtain ⟨a1, a2, a3⟩ := call_proj hh hb e
      refine ⟨?_, ?_, fun r => ?_⟩
      · obtain ⟨p, hp⟩ := a1
        exact ⟨p, by simpa [schedPart_append, schedPart_queue, Sys.putQ, schedPart] using hp⟩
      · obtain ⟨p, hp⟩ := a2
        exact ⟨p, by simpa [taskPart_append, taskPart_queue, Sys.putQ, taskPart] using hp⟩
      · obtain ⟨p, hp⟩ := a3 r
        by_cases hr : q = r
        · subst hr
          refine ⟨.put el p .done, ?_⟩
          simp only [Sys.putQ, if_true] at hp
          simp [Mqueue.run, hput, hn, hp, queuePart_append, queuePart_queue]
        · refine ⟨p, ?_⟩
          simp only [Sys.putQ, if_neg (Ne.symm hr)] at hp
          rw [hp]; simp [queuePart_append, queuePart_queue, hr]

theorem qGet_proj {x x' : Sys T} {q : Val} {hook body : Act T} {tr : List (Ev T)}
    (hh : Good cfg hook) (hb : Good cfg body) (h : qGet cfg.P x q hook body = .ok (tr, x')) :
    Proj cfg x tr x' := by
  obtain ⟨hq, ⟨rfl, rfl, hf⟩ | ⟨hf, m, el, hget, hc⟩⟩ := qGet_shape h
  · refine ⟨⟨.done, rfl⟩, ⟨.done, rfl⟩, fun r => ?_⟩
    by_cases hr : q = r
    · subst hr
      exact ⟨.get .done .done, by simp [Mqueue.run, Mqueue.accessQueue, hf, queuePart_queue]⟩
    · exact ⟨.done, by simp [Mqueue.run, queuePart_queue, hr]⟩
  · rcases hc with ⟨hn, rfl, rfl⟩ | ⟨hn, t, e, rfl⟩
    · refine ⟨⟨.done, rfl⟩, ⟨.done, rfl⟩, fun r => ?_⟩
      by_cases hr : q = r
      · subst hr
        exact ⟨.get .done .done, by simp [Mqueue.run, hget, hn, queuePart_queue, Sys.putQ]⟩
      · exact ⟨.done, by simp [Mqueue.run, queuePart_queue, hr, Sys.putQ, Ne.symm hr]⟩
    · obtain ⟨a1, a2, a3⟩ := call_proj hh hb e
      refine ⟨?_, ?_, fun r => ?_⟩
      · obtain ⟨p, hp⟩ := a1
        exact ⟨p, by simpa [schedPart_append, schedPart_queue, Sys.putQ, schedPart] using hp⟩
      · obtain ⟨p, hp⟩ := a2
        exact ⟨p, by simpa [taskPart_append, taskPart_queue, Sys.putQ, taskPart] using hp⟩
      · obtain ⟨p, hp⟩ := a3 r
        by_cases hr : q = r
        · subst hr
          refine ⟨.get p .done, ?_⟩
          simp only [Sys.putQ, if_true] at hp
          simp [Mqueue.run, hget, hn, hp, queuePart_append, queuePart_queue]
        · refine ⟨p, ?_⟩
          simp only [Sys.putQ, if_neg (Ne.symm hr)] at hp
          rw [hp]; simp [queuePart_append, queuePart_queue, hr]

theorem access_peek {P : Plat} {call} {m m' : Mqueue.Mqueue} {b : Bool} {v : Val} {t : List Mqueue.Ev}
    (h : Mqueue.accessQueue P call m false = .ok (b, v, t, m')) : t = [] ∧ m' = m := by
  unfold Mqueue.accessQueue at h
  split at h
  · obtain ⟨el, e1, h⟩ := C.bind_eq_ok h
    simp only [Bool.false_eq_true, if_false] at h
    cases h; exact ⟨rfl, rfl⟩
  · cases h; exact ⟨rfl, rfl⟩

theorem qOp_proj {x : Sys T} {q : Val} {op : QOp} {m m' : Mqueue.Mqueue} {e : Mqueue.Ev}
    (h0 : x.derefQ q = .ok m) (h : qOp cfg.P m op = .ok (e, m')) :
    Proj cfg x [.queue q e] (x.putQ q m') := by
  unfold Sys.derefQ at h0
  split at h0
  · cases h0
  · cases h0
    refine ⟨⟨.done, rfl⟩, ⟨.done, rfl⟩, fun r => ?_⟩
    by_cases hr : q = r
    · subst hr
      cases op
      case peek =>
        simp only [qOp] at h
        obtain ⟨⟨b, v, t, m1⟩, e1, h⟩ := C.bind_eq_ok h
        cases h
        obtain ⟨rfl, rfl⟩ := access_peek e1
        exact ⟨.peek .done, by simp [Mqueue.run, e1, queuePart_queue, Sys.putQ]⟩
      case reset => cases h; exact ⟨.reset .done, by simp [Mqueue.run, queuePart_queue, Sys.putQ]⟩
      case count => cases h; exact ⟨.count .done, by simp [Mqueue.run, queuePart_queue, Sys.putQ]⟩
      case capacity =>
        cases h; exact ⟨.capacity .done, by simp [Mqueue.run, queuePart_queue, Sys.putQ]⟩
      case isEmpty => cases h; exact ⟨.isEmpty .done, by simp [Mqueue.run, queuePart_queue, Sys.putQ]⟩
      case isFull => cases h; exact ⟨.isFull .done, by simp [Mqueue.run, queuePart_queue, Sys.putQ]⟩
    · exact ⟨.done, by simp [Mqueue.run, queuePart_queue, hr, Sys.putQ, Ne.symm hr]⟩

/-- **The two models compose.** -/
theorem run_proj (p : Prog T R) : Good cfg (fun x => run cfg x p) := by
  have seq : ∀ {p : Prog T R} {x y x' : Sys T} (pre : List (Ev T)) {tr : List (Ev T)},
      Good cfg (fun x => run cfg x p) → Proj cfg x pre y →
      (do let (tr, x) ← run cfg y p; (.ok (pre ++ tr, x) : C (List (Ev T) × Sys T)))
        = .ok (tr, x') → Proj cfg x tr x' := by
    intro p x y x' pre tr ih h1 h
    obtain ⟨⟨tr0, x0⟩, e, h⟩ := C.bind_eq_ok h
    cases h
    exact h1.seq (ih _ _ _ e)
  induction p with
  | done => intro x tr x' h; cases h; exact Proj.refl _
  | step now hk bd p ih1 ih2 ih =>
    intro x tr x' h
    simp only [run] at h
    obtain ⟨⟨tr0, x0⟩, e, h⟩ := C.bind_eq_ok h
    exact seq _ ih (step_proj ih1 ih2 e) h
  | transfer t hk p ih1 ih =>
    intro x tr x' h
    simp only [run] at h
    obtain ⟨⟨tr0, x0⟩, e, h⟩ := C.bind_eq_ok h
    exact seq _ ih (transfer_proj ih1 e) h
  | call t hk bd p ih1 ih2 ih =>
    intro x tr x' h
    simp only [run] at h
    obtain ⟨⟨tr0, x0⟩, e, h⟩ := C.bind_eq_ok h
    exact seq _ ih (call_proj ih1 ih2 e) h
  | setState t st hk p ih1 ih =>
    intro x tr x' h
    simp only [run] at h
    obtain ⟨⟨tr0, x0⟩, e, h⟩ := C.bind_eq_ok h
    exact seq _ ih (setState_proj ih1 e) h
  | callTransfer t hk p ih1 ih =>
    intro x tr x' h
    simp only [run] at h
    obtain ⟨⟨tr0, x0⟩, e, h⟩ := C.bind_eq_ok h
    obtain ⟨a, ⟨q, b⟩, c⟩ := callTransfer_proj ih1 e
    exact seq _ ih ⟨a, ⟨_, b⟩, c⟩ h
  | immed t p ih =>
    intro x tr x' h
    simp only [run] at h
    obtain ⟨⟨e, s0⟩, e0, h⟩ := C.bind_eq_ok h
    refine seq [_] ih ⟨⟨.immed t .done, ?_⟩, ⟨.done, rfl⟩, fun _ => ⟨.done, rfl⟩⟩ h
    simp only [Sched.run, e0]; rfl
  | fromIsr t p ih =>
    intro x tr x' h
    simp only [run] at h
    obtain ⟨⟨e, s0⟩, e0, h⟩ := C.bind_eq_ok h
    refine seq [_] ih ⟨⟨.fromIsr t .done, ?_⟩, ⟨.done, rfl⟩, fun _ => ⟨.done, rfl⟩⟩ h
    simp only [Sched.run, e0]; rfl
  | deferUntil t time p ih =>
    intro x tr x' h
    simp only [run] at h
    obtain ⟨⟨e, s0⟩, e0, h⟩ := C.bind_eq_ok h
    refine seq [_] ih ⟨⟨.deferUntil t time .done, ?_⟩, ⟨.done, rfl⟩, fun _ => ⟨.done, rfl⟩⟩ h
    simp only [Sched.run, e0]; rfl
  | deferFor t now d p ih =>
    intro x tr x' h
    simp only [run] at h
    obtain ⟨⟨e, s0⟩, e0, h⟩ := C.bind_eq_ok h
    refine seq [_, _] ih ⟨⟨.deferFor t now d .done, ?_⟩, ⟨.done, rfl⟩, fun _ => ⟨.done, rfl⟩⟩ h
    simp only [Sched.run, e0]; rfl
  | remove t p ih =>
    intro x tr x' h
    simp only [run] at h
    obtain ⟨⟨e, s0⟩, e0, h⟩ := C.bind_eq_ok h
    refine seq [_] ih ⟨⟨.remove t .done, ?_⟩, ⟨.done, rfl⟩, fun _ => ⟨.done, rfl⟩⟩ h
    simp only [Sched.run, e0]; rfl
  | nextTask p ih =>
    intro x tr x' h
    simp only [run] at h
    obtain ⟨v, e0, h⟩ := C.bind_eq_ok h
    refine seq [_] ih ⟨⟨.nextTask  .done, ?_⟩, ⟨.done, rfl⟩, fun _ => ⟨.done, rfl⟩⟩ h
    simp only [Sched.run, e0]; rfl
  | reset p ih =>
    intro x tr x' h
    exact seq [_] ih ⟨⟨.reset  .done, rfl⟩, ⟨.done, rfl⟩, fun _ => ⟨.done, rfl⟩⟩ h
  | setIdle t p ih =>
    intro x tr x' h
    exact seq [_] ih ⟨⟨.setIdle t .done, rfl⟩, ⟨.done, rfl⟩, fun _ => ⟨.done, rfl⟩⟩ h
  | getIdle p ih =>
    intro x tr x' h
    exact seq [_] ih ⟨⟨.getIdle  .done, rfl⟩, ⟨.done, rfl⟩, fun _ => ⟨.done, rfl⟩⟩ h
  | current p ih =>
    intro x tr x' h
    exact seq [_] ih ⟨⟨.current  .done, rfl⟩, ⟨.done, rfl⟩, fun _ => ⟨.done, rfl⟩⟩ h
  | wait t p ih =>
    intro x tr x' h
    exact seq [_] ih ⟨⟨.wait t .done, rfl⟩, ⟨.done, rfl⟩, fun _ => ⟨.done, rfl⟩⟩ h
  | installCall k p ih =>
    intro x tr x' h
    exact seq [_] ih ⟨⟨.done, rfl⟩, ⟨.installCall k .done, rfl⟩, fun _ => ⟨.done, rfl⟩⟩ h
  | installState k p ih =>
    intro x tr x' h
    exact seq [_] ih ⟨⟨.done, rfl⟩, ⟨.installState k .done, rfl⟩, fun _ => ⟨.done, rfl⟩⟩ h
  | installTransfer k p ih =>
    intro x tr x' h
    exact seq [_] ih ⟨⟨.done, rfl⟩, ⟨.installTransfer k .done, rfl⟩, fun _ => ⟨.done, rfl⟩⟩ h
  | init t fn st ui p ih =>
    intro x tr x' h
    simp only [run] at h
    obtain ⟨y, e0, h⟩ := C.bind_eq_ok h
    refine seq [_] ih ⟨⟨.done, rfl⟩, ⟨.init t fn st ui .done, ?_⟩, fun _ => ⟨.done, rfl⟩⟩ h
    simp only [Task.run, e0]; rfl
  | getFn t p ih =>
    intro x tr x' h
    simp only [run] at h
    obtain ⟨y, e0, h⟩ := C.bind_eq_ok h
    refine seq [_] ih ⟨⟨.done, rfl⟩, ⟨.getFn t .done, ?_⟩, fun _ => ⟨.done, rfl⟩⟩ h
    simp only [Task.run, e0]; rfl
  | getState t p ih =>
    intro x tr x' h
    simp only [run] at h
    obtain ⟨y, e0, h⟩ := C.bind_eq_ok h
    refine seq [_] ih ⟨⟨.done, rfl⟩, ⟨.getState t .done, ?_⟩, fun _ => ⟨.done, rfl⟩⟩ h
    simp only [Task.run, e0]; rfl
  | getInfo t p ih =>
    intro x tr x' h
    simp only [run] at h
    obtain ⟨y, e0, h⟩ := C.bind_eq_ok h
    refine seq [_] ih ⟨⟨.done, rfl⟩, ⟨.getInfo t .done, ?_⟩, fun _ => ⟨.done, rfl⟩⟩ h
    simp only [Task.run, e0]; rfl
  | setInfo t u p ih =>
    intro x tr x' h
    simp only [run] at h
    obtain ⟨y, e0, h⟩ := C.bind_eq_ok h
    refine seq [_] ih ⟨⟨.done, rfl⟩, ⟨.setInfo t u .done, ?_⟩, fun _ => ⟨.done, rfl⟩⟩ h
    simp only [Task.run, e0]; rfl
  | qPut q el hk bd p ih1 ih2 ih =>
    intro x tr x' h
    simp only [run] at h
    obtain ⟨⟨tr0, x0⟩, e, h⟩ := C.bind_eq_ok h
    exact seq _ ih (qPut_proj ih1 ih2 e) h
  | qGet q hk bd p ih1 ih2 ih =>
    intro x tr x' h
    simp only [run] at h
    obtain ⟨⟨tr0, x0⟩, e, h⟩ := C.bind_eq_ok h
    exact seq _ ih (qGet_proj ih1 ih2 e) h
  | qOp q op p ih =>
    intro x tr x' h
    simp only [run] at h
    obtain ⟨m, e0, h⟩ := C.bind_eq_ok h
    obtain ⟨⟨e, m'⟩, e1, h⟩ := C.bind_eq_ok h
    exact seq [_] ih (qOp_proj e0 e1) h

/-! ## Safety -/

/-- All modules are in order. -/
structure Ok (cfg : Sched.Cfg T R) (x : Sys T) : Prop where
  rep : ∃ L, Sched.Rep cfg x.sched L
  fns : Task.Fns x.world
  queues : ∀ q, ∃ l, Mqueue.Rep (x.queues q) l ∧ 2 * (x.queues q).capacity ≤ cfg.P.szMod

theorem Ok.putQ {x : Sys T} (h : Ok cfg x) {q : Val} {m : Mqueue.Mqueue} {l : List Val}
    (hm : Mqueue.Rep m l) (hc : 2 * m.capacity ≤ cfg.P.szMod) : Ok cfg (x.putQ q m) := by
  refine ⟨h.rep, h.fns, fun r => ?_⟩
  by_cases hr : r = q
  · exact ⟨l, by simpa [Sys.putQ, hr] using hm, by simpa [Sys.putQ, hr] using hc⟩
  · simpa [Sys.putQ, hr] using h.queues r

def Runs (cfg : Sched.Cfg T R) (c : C (List (Ev T) × Sys T)) : Prop :=
  ∃ tr x', c = .ok (tr, x') ∧ Ok cfg x'

theorem call_ok {hook body : Act T} (hh : ∀ x, Ok cfg x → Runs cfg (hook x))
    (hb : ∀ x, Ok cfg x → Runs cfg (body x)) {x : Sys T} (h : Ok cfg x) (t : Val) :
    Runs cfg (call x t hook body) := by
  unfold call
  by_cases ht : t = NULL
  · simp only [ht, ne_eq, not_true_eq_false, if_false]; exact ⟨_, _, rfl, h⟩
  · simp only [ne_eq, ht, not_false_eq_true, if_true]
    by_cases hc : x.world.callHook = NULL
    · simp only [hc, not_true_eq_false, if_false, C.ok_bind, Task.World.deref, ht,
        if_neg (h.fns t ht)]
      obtain ⟨tr, x', e1, e2⟩ := hb x h
      simp only [e1, C.ok_bind]; exact ⟨_, _, rfl, e2⟩
    · simp only [hc, not_false_eq_true, if_true]
      obtain ⟨tr, x1, e1, e2⟩ := hh x h
      simp only [e1, C.ok_bind, Task.World.deref, ht, if_false, if_neg (e2.fns t ht)]
      obtain ⟨tr', x', e3, e4⟩ := hb x1 e2
      simp only [e3, C.ok_bind]; exact ⟨_, _, rfl, e4⟩

theorem setState_ok {hook : Act T} (hh : ∀ x, Ok cfg x → Runs cfg (hook x)) {x : Sys T}
    (h : Ok cfg x) (t : Val) (st : Nat) : Runs cfg (setState x t st hook) := by
  unfold setState
  by_cases ht : t = NULL
  · simp only [ht, ne_eq, not_true_eq_false, if_false]; exact ⟨_, _, rfl, h⟩
  · simp only [ne_eq, ht, not_false_eq_true, if_true]
    by_cases hc : x.world.stateHook = NULL
    · simp only [hc, not_true_eq_false, if_false, C.ok_bind, Task.World.deref, ht]
      exact ⟨_, _, rfl, ⟨h.rep, h.fns.put (h.fns t ht), h.queues⟩⟩
    · simp only [hc, not_false_eq_true, if_true]
      obtain ⟨tr, x1, e1, e2⟩ := hh x h
      simp only [e1, C.ok_bind, Task.World.deref, ht, if_false]
      exact ⟨_, _, rfl, ⟨e2.rep, e2.fns.put (e2.fns t ht), e2.queues⟩⟩

theorem callTransfer_ok {hook : Act T} (hh : ∀ x, Ok cfg x → Runs cfg (hook x)) {x : Sys T}
    (h : Ok cfg x) (t : Val) : Runs cfg (callTransfer x t hook) := by
  unfold callTransfer
  by_cases hc : x.world.transferHook = NULL
  · simp only [hc, ne_eq, not_true_eq_false, if_false]; exact ⟨_, _, rfl, h⟩
  · simp only [ne_eq, hc, not_false_eq_true, if_true]
    obtain ⟨tr, x1, e1, e2⟩ := hh x h
    simp only [e1, C.ok_bind]; exact ⟨_, _, rfl, e2⟩

theorem qPut_ok {hook body : Act T} (hh : ∀ x, Ok cfg x → Runs cfg (hook x))
    (hb : ∀ x, Ok cfg x → Runs cfg (body x)) {x : Sys T} (h : Ok cfg x) {q : Val} (hq : q ≠ NULL)
    (el : Val) : Runs cfg (qPut cfg.P x q el hook body) := by
  obtain ⟨l, hr, hs⟩ := h.queues q
  simp only [qPut, Sys.derefQ, if_neg hq, C.ok_bind]
  by_cases hf : l.length < (x.queues q).capacity
  · have h1 := hr.len
    have h2 := hr.le
    have h3 := hr.alloc
    have h4 := hr.idx
    have hfull : Mqueue.isFull (x.queues q) = false := by simp [Mqueue.isFull]; omega
    have hcap : ¬ (x.queues q).capacity = 0 := by omega
    have hok := h.putQ (q := q) (Mqueue.stored_rep hr el hf).1 hs
    simp only [hfull, if_true, hcap, if_false]
    rw [stN_ok (by omega), Plat.sz_of_lt (by omega), Plat.sz_of_lt (by omega)]
    simp only [C.ok_bind]
    by_cases hn : (x.queues q).onPut = NULL
    · rw [if_neg (by simpa using hn)]
      exact ⟨_, _, rfl, hok⟩
    · rw [if_pos hn]
      obtain ⟨tr, x1, e1, e2⟩ := call_ok hh hb hok (x.queues q).onPut
      simp only [Mqueue.stored] at e1
      rw [e1]
      exact ⟨_, _, rfl, e2⟩
  · have h1 := hr.len
    have h2 := hr.le
    have hfull : Mqueue.isFull (x.queues q) = true := by simp [Mqueue.isFull]; omega
    simp only [hfull, Bool.true_eq_false, if_false]
    exact ⟨_, _, rfl, h⟩

theorem qGet_ok {hook body : Act T} (hh : ∀ x, Ok cfg x → Runs cfg (hook x))
    (hb : ∀ x, Ok cfg x → Runs cfg (body x)) {x : Sys T} (h : Ok cfg x) {q : Val} (hq : q ≠ NULL) :
    Runs cfg (qGet cfg.P x q hook body) := by
  obtain ⟨l, hr, hs⟩ := h.queues q
  simp only [qGet, Sys.derefQ, if_neg hq, C.ok_bind]
  cases l with
  | nil =>
    have h1 : 0 = (x.queues q).count := hr.len
    have he : Mqueue.isEmpty (x.queues q) = true := by simp [Mqueue.isEmpty, ← h1]
    simp only [he, Bool.true_eq_false, if_false]
    exact ⟨_, _, rfl, h⟩
  | cons v l =>
    have hok := h.putQ (q := q) (Mqueue.rep_pop hr) hs
    have h1 := hr.len
    have h2 := hr.le
    have h3 := hr.alloc
    have h4 := hr.idx
    simp at h1
    have hE : Mqueue.isEmpty (x.queues q) = false := by simp [Mqueue.isEmpty]; omega
    simp only [hE, if_true]
    have hx := Mqueue.access_cons (P := cfg.P) (call := fun m => .ok ([], m)) hr hs true
    simp only [Mqueue.accessQueue, hE, if_true] at hx
    cases hld : ldN (x.queues q).storage
        (if cfg.P.szSub (cfg.P.sz ((x.queues q).capacity + (x.queues q).index)) (x.queues q).count ≥
            (x.queues q).capacity then
          cfg.P.szSub (cfg.P.szSub (cfg.P.sz ((x.queues q).capacity + (x.queues q).index))
            (x.queues q).count) (x.queues q).capacity
        else cfg.P.szSub (cfg.P.sz ((x.queues q).capacity + (x.queues q).index)) (x.queues q).count) with
    | error e =>
      rw [hld] at hx
      by_cases hn : (x.queues q).onGet = NULL <;> simp [hn] at hx <;> cases hx
    | ok el =>
      simp only [C.ok_bind]
      rw [Plat.szSub_of_le (by omega) (by omega)]
      by_cases hn : (x.queues q).onGet = NULL
      · rw [if_neg (by simpa using hn)]
        exact ⟨_, _, rfl, hok⟩
      · rw [if_pos hn]
        obtain ⟨tr, x1, e1, e2⟩ := call_ok hh hb hok (x.queues q).onGet
        rw [e1]
        exact ⟨_, _, rfl, e2⟩

theorem qOp_ok {x : Sys T} (h : Ok cfg x) (q : Val) (op : QOp) :
    ∃ e m, qOp cfg.P (x.queues q) op = .ok (e, m) ∧ Ok cfg (x.putQ q m) := by
  obtain ⟨l, hr, hs⟩ := h.queues q
  cases op
  case peek =>
    cases l with
    | nil =>
      simp only [qOp, Mqueue.access_nil hr, C.ok_bind]
      exact ⟨_, _, rfl, h.putQ hr hs⟩
    | cons v l =>
      simp only [qOp, Mqueue.access_cons hr hs, C.ok_bind, Bool.false_eq_true, if_false]
      exact ⟨_, _, rfl, h.putQ hr hs⟩
  case reset => exact ⟨_, _, rfl, h.putQ (Ring.reset hr) hs⟩
  all_goals exact ⟨_, _, rfl, h.putQ hr hs⟩

theorem run_ok (hw : cfg.Wf) (p : Prog T R) : ∀ x, Sane p → Ok cfg x → Runs cfg (run cfg x p) := by
  have seq : ∀ {p : Prog T R} {x : Sys T} (pre : List (Ev T)), Runs cfg (run cfg x p) →
      Runs cfg (do let (tr, x) ← run cfg x p; (.ok (pre ++ tr, x) : C (List (Ev T) × Sys T))) := by
    rintro p x pre ⟨tr, x', h1, h2⟩
    exact ⟨_, _, by rw [h1]; rfl, h2⟩
  induction p with
  | done => intro x _ h; exact ⟨_, _, rfl, h⟩
  | step now hk bd p ih1 ih2 ih =>
    intro x hs h
    obtain ⟨L, hr⟩ := h.rep
    obtain ⟨s1, e1, e2⟩ := Sched.select_ok hw hr now
    obtain ⟨tr, x1, e3, e4⟩ := call_ok (hook := fun x => run cfg x hk) (body := fun x => run cfg x bd)
      (fun x h => ih1 x hs.1 h) (fun x h => ih2 x hs.2.1 h)
      (x := { x with sched := s1 }) ⟨⟨_, e2⟩, h.fns, h.queues⟩ s1.curr
    simp only [run, step, e1, C.ok_bind, e3]
    refine seq _ (ih _ hs.2.2 ⟨?_, e4.fns, e4.queues⟩)
    obtain ⟨L1, f2⟩ := e4.rep
    exact ⟨{ L1 with curr := NULL },
      ⟨f2.irq, f2.immed, f2.immedCap, f2.count, f2.le, f2.alloc, f2.dq, rfl, f2.idle⟩⟩
  | transfer t hk p ih1 ih =>
    intro x hs h
    obtain ⟨tr, x1, e3, e4⟩ := callTransfer_ok (hook := fun x => run cfg x hk)
      (fun x h => ih1 x hs.1 h) h t
    obtain ⟨L, hr⟩ := e4.rep
    obtain ⟨s1, e1, e2⟩ := Sched.immed_ok hw hr t
    simp only [run, transfer, e3, e1, C.ok_bind]
    exact seq _ (ih _ hs.2 ⟨⟨_, e2⟩, e4.fns, e4.queues⟩)
  | call t hk bd p ih1 ih2 ih =>
    intro x hs h
    obtain ⟨tr, x1, e3, e4⟩ := call_ok (hook := fun x => run cfg x hk) (body := fun x => run cfg x bd)
      (fun x h => ih1 x hs.1 h) (fun x h => ih2 x hs.2.1 h) h t
    simp only [run, e3, C.ok_bind]
    exact seq _ (ih _ hs.2.2 e4)
  | setState t st hk p ih1 ih =>
    intro x hs h
    obtain ⟨tr, x1, e3, e4⟩ := setState_ok (hook := fun x => run cfg x hk)
      (fun x h => ih1 x hs.1 h) h t st
    simp only [run, e3, C.ok_bind]
    exact seq _ (ih _ hs.2 e4)
  | callTransfer t hk p ih1 ih =>
    intro x hs h
    obtain ⟨tr, x1, e3, e4⟩ := callTransfer_ok (hook := fun x => run cfg x hk)
      (fun x h => ih1 x hs.1 h) h t
    simp only [run, e3, C.ok_bind]
    exact seq _ (ih _ hs.2 e4)
  | immed t p ih =>
    intro x hs h
    obtain ⟨L, hr⟩ := h.rep
    obtain ⟨s1, e1, e2⟩ := Sched.immed_ok hw hr t
    simp only [run, e1, C.ok_bind]
    exact seq [_] (ih _ hs ⟨⟨_, e2⟩, h.fns, h.queues⟩)
  | fromIsr t p ih =>
    intro x hs h
    obtain ⟨L, hr⟩ := h.rep
    obtain ⟨s1, e1, e2⟩ := Sched.isr_ok hr t
    simp only [run, e1, C.ok_bind]
    exact seq [_] (ih _ hs ⟨⟨_, e2⟩, h.fns, h.queues⟩)
  | deferUntil t time p ih =>
    intro x hs h
    obtain ⟨L, hr⟩ := h.rep
    obtain ⟨s1, e1, e2⟩ := Sched.defer_ok hw hr t time
    simp only [run, e1, C.ok_bind]
    exact seq [_] (ih _ hs ⟨⟨_, e2⟩, h.fns, h.queues⟩)
  | deferFor t now d p ih =>
    intro x hs h
    obtain ⟨L, hr⟩ := h.rep
    obtain ⟨s1, e1, e2⟩ := Sched.defer_ok hw hr t (cfg.offset now d)
    simp only [run, e1, C.ok_bind]
    exact seq [_, _] (ih _ hs ⟨⟨_, e2⟩, h.fns, h.queues⟩)
  | remove t p ih =>
    intro x hs h
    obtain ⟨L, hr⟩ := h.rep
    obtain ⟨s1, e1, e2⟩ := Sched.remove_ok hw hr t
    simp only [run, e1, C.ok_bind]
    exact seq [_] (ih _ hs ⟨⟨_, e2⟩, h.fns, h.queues⟩)
  | nextTask p ih =>
    intro x hs h
    obtain ⟨L, hr⟩ := h.rep
    simp only [run, Sched.next_ok hw hr, C.ok_bind]
    exact seq [_] (ih _ hs h)
  | reset p ih =>
    intro x hs h
    obtain ⟨L, hr⟩ := h.rep
    exact seq [_] (ih { x with sched := Sched.reset x.sched } hs ⟨⟨_, Sched.reset_ok hr⟩, h.fns, h.queues⟩)
  | setIdle t p ih =>
    intro x hs h
    obtain ⟨L, f2⟩ := h.rep
    exact seq [_] (ih { x with sched := { x.sched with idle := t } } hs ⟨⟨{ L with idle := t },
      ⟨f2.irq, f2.immed, f2.immedCap, f2.count, f2.le, f2.alloc, f2.dq, f2.curr, rfl⟩⟩, h.fns, h.queues⟩)
  | getIdle p ih => intro x hs h; exact seq [_] (ih x hs h)
  | current p ih => intro x hs h; exact seq [_] (ih x hs h)
  | wait t p ih => intro x hs h; exact seq [_] (ih x hs h)
  | installCall k p ih =>
    intro x hs h
    exact seq [_] (ih { x with world := { x.world with callHook := k } } hs ⟨h.rep, h.fns, h.queues⟩)
  | installState k p ih =>
    intro x hs h
    exact seq [_] (ih { x with world := { x.world with stateHook := k } } hs ⟨h.rep, h.fns, h.queues⟩)
  | installTransfer k p ih =>
    intro x hs h
    exact seq [_] (ih { x with world := { x.world with transferHook := k } } hs ⟨h.rep, h.fns, h.queues⟩)
  | init t fn st ui p ih =>
    intro x hs h
    simp only [run, Task.init, Task.World.deref, if_neg hs.1, C.ok_bind]
    exact seq [_] (ih _ hs.2.2 ⟨h.rep, h.fns.put hs.2.1, h.queues⟩)
  | getFn t p ih =>
    intro x hs h
    simp only [run, Task.World.deref, if_neg hs.1, C.ok_bind]
    exact seq [_] (ih _ hs.2 h)
  | getState t p ih =>
    intro x hs h
    simp only [run, Task.World.deref, if_neg hs.1, C.ok_bind]
    exact seq [_] (ih _ hs.2 h)
  | getInfo t p ih =>
    intro x hs h
    simp only [run, Task.World.deref, if_neg hs.1, C.ok_bind]
    exact seq [_] (ih _ hs.2 h)
  | setInfo t u p ih =>
    intro x hs h
    simp only [run, Task.World.deref, if_neg hs.1, C.ok_bind]
    exact seq [_] (ih _ hs.2 ⟨h.rep, h.fns.put (h.fns t hs.1), h.queues⟩)
  | qPut q el hk bd p ih1 ih2 ih =>
    intro x hs h
    obtain ⟨tr, x1, e3, e4⟩ := qPut_ok (hook := fun x => run cfg x hk) (body := fun x => run cfg x bd)
      (fun x h => ih1 x hs.2.1 h) (fun x h => ih2 x hs.2.2.1 h) h hs.1 el
    simp only [run, e3, C.ok_bind]
    exact seq _ (ih _ hs.2.2.2 e4)
  | qGet q hk bd p ih1 ih2 ih =>
    intro x hs h
    obtain ⟨tr, x1, e3, e4⟩ := qGet_ok (hook := fun x => run cfg x hk) (body := fun x => run cfg x bd)
      (fun x h => ih1 x hs.2.1 h) (fun x h => ih2 x hs.2.2.1 h) h hs.1
    simp only [run, e3, C.ok_bind]
    exact seq _ (ih _ hs.2.2.2 e4)
  | qOp q op p ih =>
    intro x hs h
    obtain ⟨e, m, e3, e4⟩ := qOp_ok h q op
    simp only [run, Sys.derefQ, if_neg hs.1, C.ok_bind, e3]
    exact seq [_] (ih _ hs.2 e4)

/-! ## Invariants of traces -/

/-- Choosing a task does not call it. -/
theorem select_no_call {now : T} {s s' : Sched.Sched T} {evs : List (Sched.Ev T)}
    (h : Sched.select cfg now s = .ok (evs, s')) : ∀ e ∈ evs, ∀ t, e ≠ .called t := by
  unfold Sched.select at h
  obtain ⟨⟨r, item, irq⟩, e0, h⟩ := C.bind_eq_ok h
  simp only at h
  split at h
  · cases h; simp
  · obtain ⟨⟨task, evs1, s1⟩, e1, h⟩ := C.bind_eq_ok h
    have h1 : ∀ e ∈ evs1, ∀ t, e ≠ .called t := by
      unfold Sched.fetch at e1
      split at e1
      · obtain ⟨d, e2, e1⟩ := C.bind_eq_ok e1
        split at e1 <;> (cases e1; simp)
      · cases e1; simp
    simp only at h
    split at h
    · cases h; exact h1
    · obtain ⟨⟨b, e, immed⟩, e2, h⟩ := C.bind_eq_ok h
      simp only at h
      split at h <;>
      · cases h
        intro e he t
        rcases List.mem_append.mp he with he | he
        · exact h1 e he t
        · simp only [List.mem_singleton] at he; subst he; simp

/-- Every property of traces that is closed under concatenation and holds of what the single API
functions produce holds of all runs. -/
theorem trace_induction (Q : List (Ev T) → Prop) (nil : Q [])
    (app : ∀ a b, Q a → Q b → Q (a ++ b))
    (ev : ∀ e : Ev T, (∀ t, e ≠ .sched (.called t)) → (∀ t, e ≠ .task (.callEnter t)) →
      (∀ q t, e ≠ .queue q (.called t)) → Q [e])
    (stepQ : ∀ t tr, t ≠ NULL → Q tr → Q (.sched (.called t) :: .task (.callEnter t) :: tr))
    (queueQ : ∀ q t tr, t ≠ NULL → Q tr → Q (.queue q (.called t) :: .task (.callEnter t) :: tr))
    (nullQ : Q [.task (.callEnter NULL)])
    (p : Prog T R)
    (direct : schedOnly p ∨ ∀ t, Q [.task (.callEnter t)]) :
    ∀ x tr x', run cfg x p = .ok (tr, x') → Q tr := by
  have evs : ∀ l : List (Ev T), (∀ e ∈ l, (∀ t, e ≠ .sched (.called t)) ∧
      (∀ t, e ≠ .task (.callEnter t)) ∧ ∀ q t, e ≠ .queue q (.called t)) → Q l := by
    intro l
    induction l with
    | nil => intro _; exact nil
    | cons e l ih =>
      intro h
      exact app [e] l (ev e (h e (by simp)).1 (h e (by simp)).2.1 (h e (by simp)).2.2)
        (ih fun e he => h e (List.mem_cons_of_mem _ he))
  -- what follows `callEnter` in a call
  have callTail : ∀ {hook body : Act T} {x x' : Sys T} {t : Val} {tr : List (Ev T)},
      (∀ x tr x', hook x = .ok (tr, x') → Q tr) → (∀ x tr x', body x = .ok (tr, x') → Q tr) →
      call x t hook body = .ok (tr, x') → ∃ l, tr = .task (.callEnter t) :: l ∧ Q l := by
    intro hook body x x' t tr hh hb h
    rcases call_shape h with ⟨rfl, rfl, rfl⟩ | ⟨ht, trh, x1, trb, hk, hf, e, rfl⟩
    · exact ⟨_, rfl, evs _ (by simp)⟩
    · refine ⟨trh ++ .task (.fnCalled (x1.world.task t).fn t) :: trb ++
        [.task .fnDone, .task (.callRet t)], by simp, ?_⟩
      refine app _ _ (app _ _ ?_ (app [_] _ (evs [_] (by simp)) (hb _ _ _ e))) (evs _ (by simp))
      rcases hk with ⟨_, rfl, rfl⟩ | ⟨_, tr0, e0, rfl⟩
      · exact nil
      · exact app _ _ (app [_] _ (evs [_] (by simp)) (hh _ _ _ e0)) (evs _ (by simp))
  have transQ : ∀ {hook : Act T} {x x' : Sys T} {t : Val} {tr : List (Ev T)},
      (∀ x tr x', hook x = .ok (tr, x') → Q tr) → callTransfer x t hook = .ok (tr, x') → Q tr := by
    intro hook x x' t tr hh h
    unfold callTransfer at h
    split at h
    · obtain ⟨⟨tr0, x0⟩, e, h⟩ := C.bind_eq_ok h
      cases h
      exact app _ _ (app [_, _] _ (evs [_, _] (by simp)) (hh _ _ _ e)) (evs _ (by simp))
    · cases h; exact evs _ (by simp)
  have seq : ∀ {p : Prog T R} {y x' : Sys T} (pre : List (Ev T)) {tr : List (Ev T)},
      (∀ x tr x', run cfg x p = .ok (tr, x') → Q tr) → Q pre →
      (do let (tr, x) ← run cfg y p; (.ok (pre ++ tr, x) : C (List (Ev T) × Sys T)))
        = .ok (tr, x') → Q tr := by
    intro p y x' pre tr ih h1 h
    obtain ⟨⟨tr0, x0⟩, e, h⟩ := C.bind_eq_ok h
    cases h
    exact app _ _ h1 (ih _ _ _ e)
  induction p with
  | done => intro x tr x' h; cases h; exact nil
  | step now hk bd p ih1 ih2 ih =>
    have d1 : schedOnly hk ∨ ∀ t, Q [.task (.callEnter t)] := direct.imp (·.1) id
    have d2 : schedOnly bd ∨ ∀ t, Q [.task (.callEnter t)] := direct.imp (·.2.1) id
    have d3 : schedOnly p ∨ ∀ t, Q [.task (.callEnter t)] := direct.imp (·.2.2) id
    intro x tr x' h
    simp only [run] at h
    obtain ⟨⟨tr0, x0⟩, e, h⟩ := C.bind_eq_ok h
    refine seq _ (ih d3) ?_ h
    unfold step at e
    obtain ⟨⟨evs', s⟩, e0, e⟩ := C.bind_eq_ok e
    obtain ⟨⟨tr1, x1⟩, e1, e⟩ := C.bind_eq_ok e
    simp only at e1 e
    cases e
    obtain ⟨l, rfl, hl⟩ := callTail (ih1 d1) (ih2 d2) e1
    have hsel : Q (.sched .stepEnter :: evs'.map .sched) := by
      refine evs _ ?_
      have hno := select_no_call e0
      intro e he
      simp only [List.mem_cons, List.mem_map] at he
      rcases he with rfl | ⟨e', he', rfl⟩
      · simp
      · exact ⟨fun t hc => hno e' he' t (by injection hc), by simp, by simp⟩
    rw [List.append_assoc, List.append_assoc]
    refine app _ _ hsel ?_
    rw [← List.append_assoc]
    refine app _ _ ?_ (evs _ (by simp))
    by_cases hc : s.curr = NULL
    · simp only [hc, ne_eq, not_true_eq_false, if_false, List.nil_append]
      exact app [_] _ nullQ hl
    · simp only [ne_eq, hc, not_false_eq_true, if_true]
      exact stepQ _ _ hc hl
  | transfer t hk p ih1 ih =>
    have d1 : schedOnly hk ∨ ∀ t, Q [.task (.callEnter t)] := direct.imp (·.1) id
    have d3 : schedOnly p ∨ ∀ t, Q [.task (.callEnter t)] := direct.imp (·.2) id
    intro x tr x' h
    simp only [run] at h
    obtain ⟨⟨tr0, x0⟩, e, h⟩ := C.bind_eq_ok h
    refine seq _ (ih d3) ?_ h
    unfold transfer at e
    obtain ⟨⟨tr1, x1⟩, e1, e⟩ := C.bind_eq_ok e
    obtain ⟨⟨er, s⟩, e2, e⟩ := C.bind_eq_ok e
    cases e
    exact app _ _ (app [_] _ (evs [_] (by simp)) (transQ (ih1 d1) e1)) (evs _ (by simp))
  | call t hk bd p ih1 ih2 ih =>
    have d : ∀ t, Q [.task (.callEnter t)] := by
      rcases direct with hd | hd
      · exact hd.elim
      · exact hd
    intro x tr x' h
    simp only [run] at h
    obtain ⟨⟨tr0, x0⟩, e, h⟩ := C.bind_eq_ok h
    obtain ⟨l, rfl, hl⟩ := callTail (ih1 (.inr d)) (ih2 (.inr d)) e
    exact seq _ (ih (.inr d)) (app [_] _ (d t) hl) h
  | setState t st hk p ih1 ih =>
    have d1 : schedOnly hk ∨ ∀ t, Q [.task (.callEnter t)] := direct.imp (·.1) id
    have d3 : schedOnly p ∨ ∀ t, Q [.task (.callEnter t)] := direct.imp (·.2) id
    intro x tr x' h
    simp only [run] at h
    obtain ⟨⟨tr0, x0⟩, e, h⟩ := C.bind_eq_ok h
    refine seq _ (ih d3) ?_ h
    unfold setState at e
    by_cases ht : t = NULL
    · simp only [ht, ne_eq, not_true_eq_false, if_false] at e
      cases e; exact evs _ (by simp)
    · by_cases hc : x.world.stateHook = NULL
      · simp only [hc, ht, ne_eq, not_true_eq_false, not_false_eq_true, if_false, if_true,
          C.ok_bind, Task.World.deref] at e
        cases e
        exact evs _ (by simp)
      · simp only [hc, ht, ne_eq, not_false_eq_true, if_true, C.ok_bind, Task.World.deref,
          if_false] at e
        obtain ⟨⟨tr1, x1⟩, e1, e⟩ := C.bind_eq_ok e
        cases e
        exact app _ _ (app [_] _ (evs [_] (by simp)) (app _ _ (app [_] _ (evs [_] (by simp))
          (ih1 d1 _ _ _ e1)) (evs _ (by simp)))) (evs _ (by simp))
  | callTransfer t hk p ih1 ih =>
    have d1 : schedOnly hk ∨ ∀ t, Q [.task (.callEnter t)] := direct.imp (·.1) id
    have d3 : schedOnly p ∨ ∀ t, Q [.task (.callEnter t)] := direct.imp (·.2) id
    intro x tr x' h
    simp only [run] at h
    obtain ⟨⟨tr0, x0⟩, e, h⟩ := C.bind_eq_ok h
    exact seq _ (ih d3) (transQ (ih1 d1) e) h
  | immed t p ih =>
    intro x tr x' h
    simp only [run] at h
    obtain ⟨y, e0, h⟩ := C.bind_eq_ok h
    exact seq [_] (ih direct) (evs _ (by simp)) h
  | fromIsr t p ih =>
    intro x tr x' h
    simp only [run] at h
    obtain ⟨y, e0, h⟩ := C.bind_eq_ok h
    exact seq [_] (ih direct) (evs _ (by simp)) h
  | deferUntil t time p ih =>
    intro x tr x' h
    simp only [run] at h
    obtain ⟨y, e0, h⟩ := C.bind_eq_ok h
    exact seq [_] (ih direct) (evs _ (by simp)) h
  | deferFor t now d p ih =>
    intro x tr x' h
    simp only [run] at h
    obtain ⟨y, e0, h⟩ := C.bind_eq_ok h
    exact seq [_, _] (ih direct) (evs _ (by simp)) h
  | remove t p ih =>
    intro x tr x' h
    simp only [run] at h
    obtain ⟨y, e0, h⟩ := C.bind_eq_ok h
    exact seq [_] (ih direct) (evs _ (by simp)) h
  | nextTask p ih =>
    intro x tr x' h
    simp only [run] at h
    obtain ⟨y, e0, h⟩ := C.bind_eq_ok h
    exact seq [_] (ih direct) (evs _ (by simp)) h
  | init t fn st ui p ih =>
    intro x tr x' h
    simp only [run] at h
    obtain ⟨y, e0, h⟩ := C.bind_eq_ok h
    exact seq [_] (ih direct) (evs _ (by simp)) h
  | getFn t p ih =>
    intro x tr x' h
    simp only [run] at h
    obtain ⟨y, e0, h⟩ := C.bind_eq_ok h
    exact seq [_] (ih direct) (evs _ (by simp)) h
  | getState t p ih =>
    intro x tr x' h
    simp only [run] at h
    obtain ⟨y, e0, h⟩ := C.bind_eq_ok h
    exact seq [_] (ih direct) (evs _ (by simp)) h
  | getInfo t p ih =>
    intro x tr x' h
    simp only [run] at h
    obtain ⟨y, e0, h⟩ := C.bind_eq_ok h
    exact seq [_] (ih direct) (evs _ (by simp)) h
  | setInfo t u p ih =>
    intro x tr x' h
    simp only [run] at h
    obtain ⟨y, e0, h⟩ := C.bind_eq_ok h
    exact seq [_] (ih direct) (evs _ (by simp)) h
  | reset p ih => intro x tr x' h; exact seq [_] (ih direct) (evs _ (by simp)) h
  | setIdle t p ih => intro x tr x' h; exact seq [_] (ih direct) (evs _ (by simp)) h
  | getIdle p ih => intro x tr x' h; exact seq [_] (ih direct) (evs _ (by simp)) h
  | current p ih => intro x tr x' h; exact seq [_] (ih direct) (evs _ (by simp)) h
  | wait t p ih => intro x tr x' h; exact seq [_] (ih direct) (evs _ (by simp)) h
  | installCall k p ih => intro x tr x' h; exact seq [_] (ih direct) (evs _ (by simp)) h
  | installState k p ih => intro x tr x' h; exact seq [_] (ih direct) (evs _ (by simp)) h
  | installTransfer k p ih => intro x tr x' h; exact seq [_] (ih direct) (evs _ (by simp)) h
  | qPut q el hk bd p ih1 ih2 ih =>
    have d1 : schedOnly hk ∨ ∀ t, Q [.task (.callEnter t)] := direct.imp (·.1) id
    have d2 : schedOnly bd ∨ ∀ t, Q [.task (.callEnter t)] := direct.imp (·.2.1) id
    have d3 : schedOnly p ∨ ∀ t, Q [.task (.callEnter t)] := direct.imp (·.2.2) id
    intro x tr x' h
    simp only [run] at h
    obtain ⟨⟨tr0, x0⟩, e, h⟩ := C.bind_eq_ok h
    refine seq _ (ih d3) ?_ h
    obtain ⟨hq, ⟨rfl, rfl, hf⟩ | ⟨hf, m, hput, ⟨hn, rfl, rfl⟩ | ⟨hn, t, e3, rfl⟩⟩⟩ := qPut_shape e
    · exact evs _ (by simp)
    · exact evs _ (by simp)
    · obtain ⟨l, rfl, hl⟩ := callTail (ih1 d1) (ih2 d2) e3
      exact app [_] _ (evs [_] (by simp)) (app _ _ (queueQ q _ _ hn hl) (evs _ (by simp)))
  | qGet q hk bd p ih1 ih2 ih =>
    have d1 : schedOnly hk ∨ ∀ t, Q [.task (.callEnter t)] := direct.imp (·.1) id
    have d2 : schedOnly bd ∨ ∀ t, Q [.task (.callEnter t)] := direct.imp (·.2.1) id
    have d3 : schedOnly p ∨ ∀ t, Q [.task (.callEnter t)] := direct.imp (·.2.2) id
    intro x tr x' h
    simp only [run] at h
    obtain ⟨⟨tr0, x0⟩, e, h⟩ := C.bind_eq_ok h
    refine seq _ (ih d3) ?_ h
    obtain ⟨hq, ⟨rfl, rfl, hf⟩ | ⟨hf, m, el, hput, ⟨hn, rfl, rfl⟩ | ⟨hn, t, e3, rfl⟩⟩⟩ := qGet_shape e
    · exact evs _ (by simp)
    · exact evs _ (by simp)
    · obtain ⟨l, rfl, hl⟩ := callTail (ih1 d1) (ih2 d2) e3
      exact app [_] _ (evs [_] (by simp)) (app _ _ (queueQ q _ _ hn hl) (evs _ (by simp)))
  | qOp q op p ih =>
    intro x tr x' h
    simp only [run] at h
    obtain ⟨m, e0, h⟩ := C.bind_eq_ok h
    obtain ⟨⟨e, m'⟩, e1, h⟩ := C.bind_eq_ok h
    refine seq [_] (ih direct) (evs _ ?_) h
    have : ∀ t, e ≠ .called t := by
      intro t ht
      subst ht
      cases op <;> simp only [qOp] at e1
      case peek =>
        obtain ⟨⟨b, v, t, m1⟩, e2, e1⟩ := C.bind_eq_ok e1
        cases e1
      all_goals cases e1
    simp only [List.mem_singleton, forall_eq, ne_eq]
    refine ⟨by simp, by simp, fun r t hc => ?_⟩
    injection hc with _ hc
    exact this t hc

end Mu.System
