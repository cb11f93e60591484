import Verif.Lemmas.SrcSchedList
import Verif.Props.SrcTask

/-! # C128: mu_sched.c from the parsed source

`sem A X prog n f` is the execution of the parsed C function `f`; `Heap.Scheduler` says that the variables of
mu_sched.c hold an agenda (Spec/SrcSched.lean).  Every function of mu_sched.c has exactly the effect on the agenda
that Spec/SrcSched.lean describes, and touches nothing else. -/

namespace Mu.CS

variable {A : Arch} {X : Ext} {prec : CVal → CVal → Bool} {off : CVal → CVal → CVal}
variable {h h' : Heap} {σ : Agenda} {hd ix : Nat}

/-- **C128, `mu_sched_init`**: whatever the variables held, the agenda is empty afterwards. -/
theorem C128_init (A : Arch) (X : Ext) (n : Nat) (v : h.SchedVars) :
    ∃ h' hd ix, sem A X prog (n + 3) .mu_sched_init h [] = .ok (.undef, h') ∧
      h'.Scheduler hd ix ⟨[], [], [], .null, .null⟩ ∧ Heap.Only (fun b _ => SchedVar b) h h' := by
  obtain ⟨h', s', e1, e2, e3, e4⟩ := src_sched_init (A := A) (X := X) (prec := fun _ _ => false) (off := fun a _ => a) n
    ⟨v.sched, v.irq, v.immed, v.deferred, v.defd _ (by simp [SchedVar]), v.defd _ (by simp [SchedVar]),
      v.defd _ (by simp [SchedVar])⟩
  have hi := Mu.Sched.boot_inv (schedCfg_wf A) e3
  have hr : Mu.Sched.Rep (schedCfg A (fun _ _ => false) (fun a _ => a)) s' (Agenda.num ⟨[], [], [], .null, .null⟩) := by
    simpa [Agenda.num, NULL] using hi.rep
  obtain ⟨hd, ix, q⟩ := Heap.Scheduler.of_model (v.sizes.only e4) e2 hr
  exact ⟨h', hd, ix, e1, q, e4.mono (fun b _ hb => Or.inl hb)⟩

/-- **C128, frame**: whatever else changes, the agenda stays. -/
theorem C128_frame (q : h.Scheduler hd ix σ) (e : Heap.Only (fun b _ => ¬ SchedVar b) h h') :
    ∃ hd ix, h'.Scheduler hd ix σ := by
  obtain ⟨s, r, m, -⟩ := q.model (A := Arch.lp64) (prec := fun _ _ => false) (off := fun a _ => a)
  exact Heap.Scheduler.of_model (q.vars.sizes.only e) (r.frame e) m

/-- **C128, `mu_sched_immed`**. -/
theorem C128_immed (A : Arch) (X : Ext) (n : Nat) (q : h.Scheduler hd ix σ) {t : CVal} (ht : t ≠ .undef) :
    ∃ h' hd' ix', sem A X prog (n + 3) .mu_sched_immed h [t] = .ok ((σ.schedule t).1.val, h') ∧
      h'.Scheduler hd' ix' (σ.schedule t).2 ∧ Heap.Only (fun b _ => SchedVar b) h h' := by
  obtain ⟨s, r, m, -⟩ := q.model (A := A) (prec := fun _ _ => false) (off := fun a _ => a)
  obtain ⟨s', e1, e2⟩ := Mu.Sched.immed_ok (schedCfg_wf A) m (enc t)
  rw [num_schedule] at e1 e2
  obtain ⟨h', f1, f2, f3⟩ := src_sched_immed (X := X) n r ht e1
  obtain ⟨hd', ix', q'⟩ := Heap.Scheduler.of_model (q.vars.sizes.only f3) f2 e2
  exact ⟨h', hd', ix', by simpa using f1, q', f3⟩

/-- **C128, `mu_sched_from_isr`**. -/
theorem C128_from_isr (A : Arch) (X : Ext) (n : Nat) (q : h.Scheduler hd ix σ) {t : CVal} (ht : t ≠ .undef) :
    ∃ h' hd' ix', sem A X prog (n + 2) .mu_sched_from_isr h [t] = .ok ((σ.interrupt t).1.val, h') ∧
      h'.Scheduler hd' ix' (σ.interrupt t).2 ∧ Heap.Only (fun b _ => SchedVar b) h h' := by
  obtain ⟨s, r, m, -⟩ := q.model (A := A) (prec := fun _ _ => false) (off := fun a _ => a)
  obtain ⟨s', e1, e2⟩ := Mu.Sched.isr_ok m (enc t)
  rw [num_interrupt] at e1 e2
  obtain ⟨h', f1, f2, f3⟩ := src_sched_from_isr (A := A) (X := X) n r ht e1
  obtain ⟨hd', ix', q'⟩ := Heap.Scheduler.of_model (q.vars.sizes.only f3) f2 e2
  exact ⟨h', hd', ix', by simpa using f1, q', f3⟩

/-- **C128, `mu_sched_defer_until`**. -/
theorem C128_defer_until (A : Arch) (n : Nat) (hX : Clock X prec off) (q : h.Scheduler hd ix σ) {t time : CVal}
    (ht : t ≠ .undef) (htime : time ≠ .undef) :
    ∃ h' hd' ix', sem A X prog (n + 23) .mu_sched_defer_until h [t, time] = .ok ((σ.defer prec t time).1.val, h') ∧
      h'.Scheduler hd' ix' (σ.defer prec t time).2 ∧ Heap.Only (fun b _ => SchedVar b) h h' := by
  obtain ⟨s, r, m, hc⟩ := q.model (A := A) (prec := prec) (off := off)
  obtain ⟨s', e1, e2⟩ := Mu.Sched.defer_ok (schedCfg_wf A) m (enc t) time
  rw [num_defer] at e1 e2
  obtain ⟨h', f1, f2, f3⟩ := src_defer_aux (n + 21) hX r hc htime ht (by omega) e1
  obtain ⟨hd', ix', q'⟩ := Heap.Scheduler.of_model (q.vars.sizes.only f3) f2 e2
  refine ⟨h', hd', ix', ?_, q', f3⟩
  rw [sem_succ (d := Src.mu_sched_defer_until) rfl, FunDef.run_regs rfl rfl]
  rw [SErr.val_model] at f1
  simp [csrc, Src.mu_sched_defer_until, ht, htime, f1]

/-- **C128, `mu_sched_defer_for`**: the clock is read once, before anything else, and the task is deferred until that
reading plus the delay. -/
theorem C128_defer_for (A : Arch) (n : Nat) (hX : Clock X prec off) (q : h.Scheduler hd ix σ) {t delay now : CVal}
    {h1 : Heap} (ht : t ≠ .undef) (hdl : delay ≠ .undef) (hnow : X.fn .mu_time_now h [] = .ok (now, h1)) :
    ∃ h' hd' ix', sem A X prog (n + 23) .mu_sched_defer_for h [t, delay] =
        .ok ((σ.defer prec t (off now delay)).1.val, h') ∧
      h'.Scheduler hd' ix' (σ.defer prec t (off now delay)).2 ∧ Heap.Only (fun b _ => SchedVar b) h1 h' := by
  obtain ⟨now', h1', k1, k2, k3⟩ := hX.now h
  rw [hnow] at k1
  obtain ⟨rfl, rfl⟩ := Prod.mk.inj (Except.ok.inj k1)
  obtain ⟨hd1, ix1, q1⟩ := C128_frame q k3
  have hod := hX.offsetDef now delay k2 hdl
  obtain ⟨s, r, m, hc⟩ := q1.model (A := A) (prec := prec) (off := off)
  obtain ⟨s', e1, e2⟩ := Mu.Sched.defer_ok (schedCfg_wf A) m (enc t) (off now delay)
  rw [num_defer] at e1 e2
  obtain ⟨h', f1, f2, f3⟩ := src_defer_aux (n + 21) hX r hc hod ht (by omega) e1
  obtain ⟨hd', ix', q'⟩ := Heap.Scheduler.of_model (q1.vars.sizes.only f3) f2 e2
  refine ⟨h', hd', ix', ?_, q', f3⟩
  rw [sem_succ (d := Src.mu_sched_defer_for) rfl, FunDef.run_regs rfl rfl]
  rw [SErr.val_model] at f1
  have g1 : sem A X prog (n + 22) .mu_time_now h [] = .ok (now, h1) := hnow
  have g2 : sem A X prog (n + 22) .mu_time_offset h1 [now, delay] = .ok (off now delay, h1) := hX.offset h1 now delay k2 hdl
  simp [csrc, Src.mu_sched_defer_for, ht, hdl, g1, g2, f1, hod]

/-- **C128, `mu_sched_remove_deferred_task`**. -/
theorem C128_remove (A : Arch) (X : Ext) (n : Nat) (q : h.Scheduler hd ix σ) {t : CVal} (ht : t ≠ .undef) :
    ∃ h' hd' ix', sem A X prog (n + 22) .mu_sched_remove_deferred_task h [t] = .ok ((σ.cancel t).1.val, h') ∧
      h'.Scheduler hd' ix' (σ.cancel t).2 ∧ Heap.Only (fun b _ => SchedVar b) h h' := by
  obtain ⟨s, r, m, hc⟩ := q.model (A := A) (prec := fun _ _ => false) (off := fun a _ => a)
  obtain ⟨s', e1, e2⟩ := Mu.Sched.remove_ok (schedCfg_wf A) m (enc t)
  rw [num_cancel] at e1 e2
  obtain ⟨h', f1, f2, f3⟩ := src_sched_remove (X := X) (n + 21) r hc ht (by omega) e1
  obtain ⟨hd', ix', q'⟩ := Heap.Scheduler.of_model (q.vars.sizes.only f3) f2 e2
  exact ⟨h', hd', ix', by simpa using f1, q', f3⟩

/-- **C128, `mu_sched_reset`**: everything but the idle task is forgotten. -/
theorem C128_reset (A : Arch) (X : Ext) (n : Nat) (q : h.Scheduler hd ix σ) :
    ∃ h' hd' ix', sem A X prog (n + 2) .mu_sched_reset h [] = .ok (.undef, h') ∧
      h'.Scheduler hd' ix' σ.reset ∧ Heap.Only (fun b _ => SchedVar b) h h' := by
  obtain ⟨s, r, m, hc⟩ := q.model (A := A) (prec := fun _ _ => false) (off := fun a _ => a)
  have m' := Mu.Sched.reset_ok m
  rw [num_reset] at m'
  obtain ⟨h', f1, f2, f3⟩ := src_sched_reset (X := X) n r
  obtain ⟨hd', ix', q'⟩ := Heap.Scheduler.of_model (q.vars.sizes.only f3) f2 m'
  exact ⟨h', hd', ix', f1, q', f3⟩

/-- **C128, questions**: `mu_sched_current_task`, `mu_sched_get_idle_task` and `mu_sched_next_task` answer from the agenda
and change nothing; `mu_sched_wait` does nothing. -/
theorem C128_questions (A : Arch) (X : Ext) (n : Nat) (q : h.Scheduler hd ix σ) (t : CVal) :
    sem A X prog (n + 1) .mu_sched_current_task h [] = .ok (σ.cur, h) ∧
    sem A X prog (n + 1) .mu_sched_get_idle_task h [] = .ok (σ.idle, h) ∧
    sem A X prog (n + 2) .mu_sched_next_task h [] = .ok (σ.next, h) ∧
    sem A X prog (n + 1) .mu_sched_wait h [t] = .ok (.int 0, h) := by
  obtain ⟨s, r, m, hc⟩ := q.model (A := A) (prec := fun _ _ => false) (off := fun a _ => a)
  obtain ⟨g1, g2⟩ := src_sched_getters (X := X) n r
  have e1 := Mu.Sched.next_ok (schedCfg_wf A) m
  rw [num_next] at e1
  obtain ⟨g3, -⟩ := src_sched_next (X := X) n r hc e1
  rw [m.curr] at g2
  rw [m.idle] at g1
  refine ⟨by simpa [Agenda.num] using g2, by simpa [Agenda.num] using g1, by simpa using g3, src_sched_wait n t⟩

/-- **C128, `mu_sched_set_idle_task`**. -/
theorem C128_set_idle (A : Arch) (X : Ext) (n : Nat) (q : h.Scheduler hd ix σ) {t : CVal} (ht : t ≠ .undef) :
    ∃ h' hd' ix', sem A X prog (n + 1) .mu_sched_set_idle_task h [t] = .ok (.undef, h') ∧
      h'.Scheduler hd' ix' { σ with idle := t } ∧ Heap.Only (fun b _ => SchedVar b) h h' := by
  obtain ⟨s, r, m, hc⟩ := q.model (A := A) (prec := fun _ _ => false) (off := fun a _ => a)
  obtain ⟨h', f1, f2, f3⟩ := src_sched_set_idle (X := X) n r ht
  have m' : Mu.Sched.Rep (schedCfg A (fun _ _ => false) (fun a _ => a)) { s with idle := enc t }
      ({ σ with idle := t } : Agenda).num := by
    obtain ⟨h1, h2, h3, h4, h5, h6, h7, h8, h9⟩ := m
    exact ⟨h1, h2, h3, h4, h5, h6, h7, h8, rfl⟩
  obtain ⟨hd', ix', q'⟩ := Heap.Scheduler.of_model (q.vars.sizes.only f3) f2 m'
  exact ⟨h', hd', ix', f1, q', f3⟩

/-- **C128, `mu_sched_transfer`**: the transfer hook, if there is one, is called once with the task; when it has returned the
task is scheduled immediately, in the agenda the hook leaves. -/
theorem C128_transfer (A : Arch) (X : Ext) (n : Nat) {k t : CVal} (hk : Hook k) (ht : t ≠ .undef)
    (hh : h.at (.glob .s_transfer_hook) 0 = some k) :
    (∀ h1, told (X.cb (sem A X prog (n + 2))) k h [t] = .ok h1 → h1.Scheduler hd ix σ →
      ∃ h' hd' ix', sem A X prog (n + 4) .mu_sched_transfer h [t] = .ok ((σ.schedule t).1.val, h') ∧
        h'.Scheduler hd' ix' (σ.schedule t).2 ∧ Heap.Only (fun b _ => SchedVar b) h1 h') ∧
    (∀ e, told (X.cb (sem A X prog (n + 2))) k h [t] = .error e →
      sem A X prog (n + 4) .mu_sched_transfer h [t] = .error e) := by
  have tr := C126_transfer (h := h) A X (n + 2) hk ht hh
  refine ⟨fun h1 e1 q => ?_, fun e e1 => ?_⟩
  · obtain ⟨h', hd', ix', f1, f2, f3⟩ := C128_immed A X n q ht
    refine ⟨h', hd', ix', ?_, f2, f3⟩
    rw [e1] at tr
    rw [sem_succ (d := Src.mu_sched_transfer) rfl, FunDef.run_regs rfl rfl]
    have tr' : sem A X prog (n + 3) .mu_task_call_transfer_hook h [t] = .ok (.undef, h1) := tr
    simp [csrc, Src.mu_sched_transfer, ht, tr', f1]
  · rw [e1] at tr
    rw [sem_succ (d := Src.mu_sched_transfer) rfl, FunDef.run_regs rfl rfl]
    have tr' : sem A X prog (n + 3) .mu_task_call_transfer_hook h [t] = .error e := tr
    simp [csrc, Src.mu_sched_transfer, ht, tr']

/-- **C128, `mu_sched_step`**: an interrupt task if there is one, without reading the clock; otherwise the clock is read
once and the task is chosen by that reading.  The chosen task is taken off the agenda and made the current task, then called
once (`mu_task_call` ignores NULL), and when it has returned there is no current task. -/
theorem C128_step (A : Arch) (n : Nat) (hX : Clock X prec off) (q : h.Scheduler hd ix σ) :
    ∃ hA hd' ix' σ', hA.Scheduler hd' ix' σ' ∧
      sem A X prog (n + 4) .mu_sched_step h [] = (do
        let (_, h2) ← sem A X prog (n + 3) .mu_task_call hA [σ'.cur]
        let h3 ← h2.store (.ptr (.glob .s_sched) 9) .null
        .ok (.undef, h3)) ∧
      (∀ t l, σ.irq = t :: l → σ' = { σ with irq := l, cur := t } ∧ Heap.Only (fun b _ => SchedVar b) h hA) ∧
      (σ.irq = [] → ∃ now hB hC, X.fn .mu_time_now hB [] = .ok (now, hC) ∧ Heap.Only (fun b _ => SchedVar b) h hB ∧
        Heap.Only (fun b _ => SchedVar b) hC hA ∧ σ' = σ.choose prec now) := by
  obtain ⟨s, r, m, hc⟩ := q.model (A := A) (prec := prec) (off := off)
  obtain ⟨now, evs, s', hA, e1, e2, e3, e4⟩ := src_sched_step n hX r hc (fun now => by
    obtain ⟨s', hs, -⟩ := Mu.Sched.select_ok (schedCfg_wf A) m now
    exact ⟨_, s', hs⟩)
  obtain ⟨s'', f1, f2⟩ := Mu.Sched.select_ok (schedCfg_wf A) m now
  rw [e1] at f1
  obtain ⟨rfl, rfl⟩ := Prod.mk.inj (Except.ok.inj f1)
  have hsz : hA.SchedSizes := by
    rcases e4 with ⟨-, -, hB, hC, k1, k2, k3⟩ | ⟨-, k⟩
    · obtain ⟨t', h1', c1, c2, c3⟩ := hX.now hB
      rw [k1] at c1
      obtain ⟨rfl, rfl⟩ := Prod.mk.inj (Except.ok.inj c1)
      exact ((q.vars.sizes.only k2).only c3).only k3
    · exact q.vars.sizes.only k
  cases hi : σ.irq with
  | cons t l =>
    rw [num_irq now hi] at f2
    obtain ⟨hd', ix', q'⟩ := Heap.Scheduler.of_model hsz e2 f2
    have hcur : code s'.curr = t := by rw [f2.curr]; simp [Agenda.num]
    rw [hcur] at e3
    refine ⟨hA, hd', ix', _, q', e3, ?_, fun hx => by simp at hx⟩
    intro t' l' hx
    injection hx with x1 x2
    subst x1 x2
    refine ⟨rfl, ?_⟩
    rcases e4 with ⟨k0, -⟩ | ⟨-, k⟩
    · simp [Mu.Sched.lselect, Agenda.num, hi] at k0
    · exact k
  | nil =>
    rw [num_choose now hi] at f2
    obtain ⟨hd', ix', q'⟩ := Heap.Scheduler.of_model hsz e2 f2
    have hcur : code s'.curr = (σ.choose prec now).cur := by rw [f2.curr]; simp [Agenda.num]
    rw [hcur] at e3
    refine ⟨hA, hd', ix', _, q', e3, fun t l hx => by simp at hx, fun _ => ?_⟩
    rcases e4 with ⟨-, -, hB, hC, k1, k2, k3⟩ | ⟨⟨t, k0⟩, -⟩
    · exact ⟨now, hB, hC, k1, k2, k3, rfl⟩
    · exfalso
      unfold Mu.Sched.lselect Agenda.num at k0
      simp only [hi, List.map_nil] at k0
      cases hd : σ.due <;> simp only [hd, List.map_nil, List.map_cons, Mu.Sched.lfetch] at k0 <;>
        cases hm : σ.immed <;> simp only [hm, List.map_nil, List.map_cons] at k0 <;> (repeat' split at k0) <;> simp at k0

/-- **C128, return to `mu_sched_step`**: if the task has left an agenda, there is no current task in it afterwards, and
nothing else has changed. -/
theorem C128_return (q : h.Scheduler hd ix σ) :
    ∃ h' hd' ix', h.store (.ptr (.glob .s_sched) 9) .null = .ok h' ∧
      h'.Scheduler hd' ix' { σ with cur := .null } ∧ Heap.Only (fun b _ => SchedVar b) h h' := by
  obtain ⟨s, r, m, hc⟩ := q.model (A := Arch.lp64) (prec := fun _ _ => false) (off := fun a _ => a)
  have r' := r.setCurr (v := .null) (by simp)
  have o : Heap.Only schedOwn h (h.upd (.glob .s_sched) 9 .null) := (Heap.Only.refl _ _).upd (Or.inl rfl)
  have m' : Mu.Sched.Rep (schedCfg Arch.lp64 (fun _ _ => false) (fun a _ => a)) { s with curr := enc .null }
      ({ σ with cur := .null } : Agenda).num := by
    obtain ⟨h1, h2, h3, h4, h5, h6, h7, h8, h9⟩ := m
    exact ⟨h1, h2, h3, h4, h5, h6, h7, rfl, h9⟩
  obtain ⟨hd', ix', q'⟩ := Heap.Scheduler.of_model (q.vars.sizes.only o) r' m'
  refine ⟨_, hd', ix', ?_, q', o⟩
  have h9 : (h.at (.glob .s_sched) 9).isSome = true := by rw [q.cur]; rfl
  simp [csrc, h9]

/-- **C128, a whole `mu_sched_step`**: when the chosen task returns and leaves an agenda, the step returns, and no task is
current any more; with nothing chosen nothing is called. -/
theorem C128_step_returns (A : Arch) (n : Nat) (hX : Clock X prec off) (q : h.Scheduler hd ix σ) :
    ∃ hA hd' ix' σ', hA.Scheduler hd' ix' σ' ∧
      ((∃ t l, σ.irq = t :: l ∧ σ' = { σ with irq := l, cur := t }) ∨
        (σ.irq = [] ∧ ∃ now hB hC, X.fn .mu_time_now hB [] = .ok (now, hC) ∧ σ' = σ.choose prec now)) ∧
      (∀ r h2 hd2 ix2 σ2, sem A X prog (n + 3) .mu_task_call hA [σ'.cur] = .ok (r, h2) → h2.Scheduler hd2 ix2 σ2 →
        ∃ h3 hd3 ix3, sem A X prog (n + 4) .mu_sched_step h [] = .ok (.undef, h3) ∧
          h3.Scheduler hd3 ix3 { σ2 with cur := .null } ∧ Heap.Only (fun b _ => SchedVar b) h2 h3) ∧
      (σ'.cur = .null → sem A X prog (n + 3) .mu_task_call hA [σ'.cur] = .ok (.undef, hA)) := by
  obtain ⟨hA, hd', ix', σ', q', e, c1, c2⟩ := C128_step A n hX q
  refine ⟨hA, hd', ix', σ', q', ?_, ?_, ?_⟩
  · cases hi : σ.irq with
    | cons t l => exact Or.inl ⟨t, l, rfl, (c1 t l hi).1⟩
    | nil =>
      obtain ⟨now, hB, hC, k1, -, -, k2⟩ := c2 hi
      exact Or.inr ⟨rfl, now, hB, hC, k1, k2⟩
  · intro r h2 hd2 ix2 σ2 e2 q2
    obtain ⟨h3, hd3, ix3, f1, f2, f3⟩ := C128_return q2
    refine ⟨h3, hd3, ix3, ?_, f2, f3⟩
    rw [e, e2]
    simp [f1]
  · intro hc
    rw [hc]
    exact (C126_null A X (n + 2) (s := .int 0) (by simp)).1

/-- Non-vacuity: the variables of mu_sched.c as the program starts, two tasks in objects 0 and 1. -/
def schedDemo : Heap where
  mem
    | .glob .s_sched => Src.init_s_sched
    | .glob .s_irq_store => Src.init_s_irq_store
    | .glob .s_immed_store => Src.init_s_immed_store
    | .glob .s_deferred_tasks => Src.init_s_deferred_tasks
    | .glob .s_call_hook => Src.init_s_call_hook
    | .obj 0 => [.fn 1, .int 0, .null]
    | .obj 1 => [.fn 2, .int 0, .null]
    | _ => []
  next := 2

theorem schedDemo_vars : schedDemo.SchedVars := by
  refine ⟨rfl, rfl, rfl, rfl, ?_⟩
  rintro b (rfl | rfl | rfl | rfl) <;> decide

/-- Times are integers; the clock reads 5. -/
def demoPrec : CVal → CVal → Bool
  | .int a, .int b => decide (a < b)
  | _, _ => false

def demoOff : CVal → CVal → CVal
  | .int a, .int b => .int (a + b)
  | a, _ => a

/-- Function 1 schedules its task immediately. -/
def schedDemoFns : Ext where
  fn f h args :=
    match f, args with
    | .mu_time_precedes, [a, b] => .ok (.ofBool (demoPrec a b), h)
    | .mu_time_offset, [a, b] => .ok (demoOff a b, h)
    | .mu_time_now, [] => .ok (.int 5, h)
    | _, _ => .error .ptr
  cb S f h args :=
    match f, args with
    | 1, [t] => S .mu_sched_immed h [t]
    | _, _ => .ok (.undef, h)

theorem schedDemo_clock : Clock schedDemoFns demoPrec demoOff := by
  refine ⟨fun _ _ _ _ _ => rfl, fun _ _ _ _ _ => rfl, ?_, fun h => ⟨.int 5, h, rfl, by simp, Heap.Only.refl _ _⟩⟩
  intro a d ha hd
  cases a <;> cases d <;> simp_all [demoOff]

/-- The task in object 1 is scheduled immediately, the one in object 0 deferred to 3: the step calls the latter first, which
schedules itself again. -/
example : ∃ h1 h2 h3 h4 hd ix,
    sem .lp64 schedDemoFns prog 23 .mu_sched_init schedDemo [] = .ok (.undef, h1) ∧
    sem .lp64 schedDemoFns prog 23 .mu_sched_immed h1 [.ptr (.obj 1) 0] = .ok (.int 0, h2) ∧
    sem .lp64 schedDemoFns prog 23 .mu_sched_defer_until h2 [.ptr (.obj 0) 0, .int 3] = .ok (.int 0, h3) ∧
    sem .lp64 schedDemoFns prog 23 .mu_sched_step h3 [] = .ok (.undef, h4) ∧
    h4.Scheduler hd ix ⟨[], [], [.ptr (.obj 1) 0, .ptr (.obj 0) 0], .null, .null⟩ := by
  obtain ⟨h1, d1, x1, e1, q1, o1⟩ := C128_init .lp64 schedDemoFns 20 schedDemo_vars
  obtain ⟨h2, d2, x2, e2, q2, o2⟩ := C128_immed .lp64 schedDemoFns 20 q1 (t := .ptr (.obj 1) 0) (by simp)
  obtain ⟨h3, d3, x3, e3, q3, o3⟩ := C128_defer_until .lp64 0 schedDemo_clock q2 (t := .ptr (.obj 0) 0) (time := .int 3)
    (by simp) (by simp)
  obtain ⟨hA, d4, x4, σ', qA, eA, -, c⟩ := C128_step .lp64 19 schedDemo_clock q3
  obtain ⟨now, hB, hC, k1, k2, k3, rfl⟩ := c rfl
  have hC' : hB = hC ∧ now = .int 5 := by
    injection k1 with k1
    injection k1 with a b
    exact ⟨b, a.symm⟩
  obtain ⟨rfl, rfl⟩ := hC'
  have o : Heap.Only (fun b _ => SchedVar b) schedDemo hA := (((o1.trans o2).trans o3).trans k2).trans k3
  have hk : hA.at (.glob .s_call_hook) 0 = some .null := o.at_of rfl (by simp [SchedVar])
  have hf : hA.at (.obj 0) 0 = some (.fn 1) := o.at_of rfl (by simp [SchedVar])
  have hcall := (C126_call .lp64 schedDemoFns 21 (b := .obj 0) (o := 0) (k := .null) trivial hk).1 hA 1 rfl hf
  obtain ⟨h5, d5, x5, e5, q5, -⟩ := C128_immed .lp64 schedDemoFns 18 qA (t := .ptr (.obj 0) 0) (by simp)
  have hcb : schedDemoFns.cb (sem .lp64 schedDemoFns prog 21) 1 hA [.ptr (.obj 0) 0] =
    sem .lp64 schedDemoFns prog 21 .mu_sched_immed hA [.ptr (.obj 0) 0] := rfl
  rw [hcb, e5] at hcall
  obtain ⟨h6, d6, x6, f6, q6, -⟩ := C128_return q5
  refine ⟨h1, h2, h3, h6, d6, x6, e1, e2, e3, ?_, q6⟩
  rw [eA]
  have hcall' : sem .lp64 schedDemoFns prog (19 + 3) .mu_task_call hA [.ptr (.obj 0) 0] = .ok (.undef, h5) := hcall
  show (sem .lp64 schedDemoFns prog (19 + 3) .mu_task_call hA [.ptr (.obj 0) 0] >>= _) = _
  rw [hcall']
  simp [f6]

end Mu.CS
