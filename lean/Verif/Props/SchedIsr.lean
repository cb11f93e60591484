import Verif.Lemmas.SchedIsr
import Verif.Props.Sched

/-! # C32: interrupts arriving at any point of `mu_sched_step` -/

namespace Mu.Sched
open Spec Isr

variable {T R : Type} [DecidableEq T] {cfg : Cfg T R}

/-- C32.  Whatever the scheduler has been through, let `mu_sched_step` be called and let interrupts
queue tasks with `mu_sched_from_isr` at arbitrary points of it, between any two accesses of shared
data (`as`).  Then nothing faults; ten actions of the step suffice for its choice, however many
interrupts intervene; and if the choice has been made then the outcome is that of an uninterrupted
step before which the first few interrupts (`A`) and after which the others (`B`) took place: the
same results returned to the interrupts, the same task chosen from the same source, the same final
state.  So no task is lost or duplicated. -/
theorem C32_interrupted_step (hw : cfg.Wf) {s : Sched T} {h : List (Ev T)} (hr : Reach cfg s h)
    (now : T) (as : List Act) :
    ∃ m, exec cfg now (start s) as = .ok m ∧ (10 ≤ mains as → m.pc = .chosen) ∧
      (m.pc = .chosen → ∃ A B evA s1 evs s2 evB, isrTasks as = A ++ B ∧
        run cfg s (isrs A) = .ok (evA, s1) ∧ select cfg now s1 = .ok (evs, s2) ∧
        run cfg s2 (isrs B) = .ok (evB, m.s) ∧
        m.log.filter isIsr = evA ++ evB ∧ m.log.filter (fun e => !isIsr e) = evs) := by
  obtain ⟨L, hi⟩ := reach_inv hw hr
  obtain ⟨N, d, l, hq⟩ : ∃ N d l, Spsc.Rep s.irq N d l := ⟨_, _, _, hi.rep.irq.choose_spec⟩
  have h0 : J cfg now s N (start s) [] :=
    J.get (evs := []) (q := s.irq) (c := .idle) rfl hq ⟨rfl, rfl⟩ trivial
  obtain ⟨m, h1, h2, h3⟩ := exec_J hw hi.rep as (start s) [] h0
  refine ⟨m, h1, fun hm => ?_, fun hm => ?_⟩
  · have : dist m.pc = 0 := by
      have : dist (start s).pc = 10 := rfl
      omega
    revert this
    cases m.pc with
    | get c => cases c <;> simp [dist]
    | _ => simp [dist]
  · rw [List.nil_append] at h2
    generalize hts : isrTasks as = ts at h2
    cases h2 with
    | get => cases hm
    | rest _ _ _ _ _ hx => subst hm; exact absurd hx (by simp)
    | @done A B evA evB evM log q1 q3 d3 l3 s2 hA hS hB hr' hl =>
      refine ⟨A, B, evA, { s with irq := q1 }, evM, s2, evB, rfl, ?_, hS, ?_, hl.1, hl.2⟩
      · rw [run_isrs, hA]; rfl
      · rw [run_isrs, hB]; rfl

/-- C32, consequence: when the chosen task is called after an interrupted step, the state is one
that the uninterrupted scheduler reaches, by a history with the same interrupts and the same choice;
hence every other theorem about the scheduler applies from there on. -/
theorem C32_reachable (hw : cfg.Wf) {s : Sched T} {h : List (Ev T)} (hr : Reach cfg s h)
    (now : T) (as : List Act) {m : M T} (he : exec cfg now (start s) as = .ok m)
    (hc : m.pc = .chosen) (hn : m.s.curr ≠ NULL) :
    ∃ evA evs evB, Reach cfg m.s
        (h ++ evA ++ .stepEnter :: evs ++ [.called m.s.curr] ++ evB) ∧
      m.log.filter isIsr = evA ++ evB ∧ m.log.filter (fun e => !isIsr e) = evs := by
  obtain ⟨m', e1, -, e3⟩ := C32_interrupted_step hw hr now as
  rw [he] at e1
  cases e1
  obtain ⟨A, B, evA, s1, evs, s2, evB, -, hA, hS, hB, hl1, hl2⟩ := e3 hc
  have hcur : m.s.curr = s2.curr := by
    rw [run_isrs] at hB
    cases hp : putsQ (T := T) s2.irq B with
    | error e => rw [hp] at hB; cases hB
    | ok x =>
      rw [hp] at hB
      have := congrArg (fun p => p.2.curr) (Except.ok.inj hB)
      exact this.symm
  refine ⟨evA, evs, evB, ?_, hl1, hl2⟩
  have := Reach.calls _ (Reach.inTask now (Reach.calls _ hr hA) hS (hcur ▸ hn)) hB
  rw [hcur]
  exact this

namespace Example

/-- An interrupt after the step has found the queue empty: its task waits, the idle task 17 (set
before) is chosen; the interrupt before that wins. -/
def afterIdle : Sched Nat := match run cfg0 boot (.setIdle 17 .done) with
  | .ok x => x.2
  | .error _ => boot

theorem late : (exec cfg0 4 (start afterIdle)
    [.main false, .main false, .main false, .isr 21, .main false, .main false, .isr 22,
      .main false]).map (fun m => (m.pc, m.log, m.s.curr, m.s.irq.tail)) =
    .ok (.chosen, [.isrRet 21 .none, .clock 4, .isrRet 22 .none, .sel .idle 17], 17, 2) := by
  decide +kernel

theorem early : (exec cfg0 4 (start afterIdle)
    [.main false, .main false, .isr 21, .main false, .main false, .main false, .isr 22,
      .main false, .main false, .isr 23, .isr 24]).map
        (fun m => (m.pc, m.log, m.s.curr, m.s.irq.tail)) =
    .ok (.chosen, [.isrRet 21 .none, .isrRet 22 .none, .sel .irq 21, .isrRet 23 .none,
      .isrRet 24 .none], 21, 0) := by
  decide +kernel

end Example

end Mu.Sched
