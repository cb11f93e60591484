import Verif.Lemmas.SchedWait

/-! # Properties of the scheduler (C22 – C31, C33)

`Reach cfg s h`: the scheduler can be in state `s` when user code runs, `h` being everything that
has happened (Spec/Sched.lean).  `books h` is what an observer of `h` knows to be queued.
`proper`: the times present at any moment are ordered by `mu_time_precedes`, and NULL is not
deferred. -/

namespace Mu.Sched
open Spec

variable {T R : Type} [DecidableEq T] {cfg : Cfg T R}

/-! ## C22 -/

/-- Whatever a program of API calls (with arbitrary task bodies) does from a reachable state, no
fault occurs. -/
theorem C22_no_fault (hw : cfg.Wf) {s : Sched T} {h : List (Ev T)} (hr : Reach cfg s h)
    (p : Prog T R) : ∃ tr s', run cfg s p = .ok (tr, s') ∧ Reach cfg s' (h ++ tr) := by
  obtain ⟨L, hi⟩ := reach_inv hw hr
  obtain ⟨s', e1, _⟩ := hi.run hw p
  exact ⟨_, s', e1, .calls p hr e1⟩

/-- The choice: at every point `a` of every history at which a step takes a task `t`, `t` is the
oldest ISR task if there is one; else, with the step's clock reading `now`, the first of the due
deferred tasks if there is one; else the oldest immediate task; else the idle task. -/
theorem C22_priority (hw : cfg.Wf) {s : Sched T} {a b : List (Ev T)} {src : Src T} {t : Val}
    (hr : Reach cfg s (a ++ .sel src t :: b))
    (hp : Always (proper cfg) (St.start T) (a ++ .sel src t :: b)) :
    match (books a).irq with
    | x :: _ => src = .irq ∧ t = x
    | [] => ∃ now, (books a).now = some now ∧
      ((∃ d ∈ (books a).pend, cfg.precedes now d.time = false) →
        ∃ d, First cfg (books a).pend d ∧ cfg.precedes now d.time = false ∧
          src = .deferred d.time ∧ t = d.task) ∧
      ((∀ d ∈ (books a).pend, cfg.precedes now d.time = true) →
        match (books a).immed with
        | x :: _ => src = .immed ∧ t = x
        | [] => src = .idle ∧ t = (books a).idle) := by
  obtain ⟨L, hi⟩ := reach_inv hw hr
  have hl := always_at hi.legal
  have ht := always_at (hi.time hp).1
  change legal cfg (books a) _ at hl
  change legalTime cfg (books a) _ at ht
  cases src with
  | irq =>
    obtain ⟨_, hl⟩ := hl
    cases hq : (books a).irq with
    | nil => rw [hq] at hl; cases hl
    | cons x r => rw [hq] at hl; cases hl; exact ⟨rfl, rfl⟩
  | deferred time =>
    obtain ⟨_, hq, hm, n, hn, hd⟩ := hl
    rw [hq]
    refine ⟨n, hn, fun _ => ⟨_, ht, hd, rfl, rfl⟩, fun hall => ?_⟩
    have := hall _ hm
    rw [hd] at this; cases this
  | immed =>
    obtain ⟨_, hq, hm⟩ := hl
    obtain ⟨n, hn, hall⟩ := ht
    rw [hq]
    refine ⟨n, hn, fun ⟨d, hd, hc⟩ => ?_, fun _ => ?_⟩
    · rw [hall d hd] at hc; cases hc
    · cases hm' : (books a).immed with
      | nil => rw [hm'] at hm; cases hm
      | cons x r => rw [hm'] at hm; cases hm; exact ⟨rfl, rfl⟩
  | idle =>
    obtain ⟨_, hq, hm, rfl⟩ := hl
    obtain ⟨n, hn, hall⟩ := ht
    rw [hq]
    refine ⟨n, hn, fun ⟨d, hd, hc⟩ => ?_, fun _ => ?_⟩
    · rw [hall d hd] at hc; cases hc
    · rw [hm]; exact ⟨rfl, rfl⟩

/-- Exactly one task per step: the events of a step called in any reachable state are: entry; the
clock is read, unless an ISR task is found at once (a NULL that was deferred is discarded here);
one task is taken; it is called, unless it is NULL, and performs `body`; return. -/
theorem C22_one_task_per_step (hw : cfg.Wf) {s s' : Sched T} {h tr : List (Ev T)}
    (hr : Reach cfg s h) {now : T} {body : Prog T R}
    (hs : run cfg s (.step now body .done) = .ok (tr, s')) :
    ∃ src t mid, (mid = [] ∨ mid = [.clock now] ∨
        ∃ time, mid = [.clock now, .sel (.deferred time) NULL]) ∧
      ((t = NULL ∧ tr = .stepEnter :: mid ++ [.sel src t, .stepRet]) ∨
       (t ≠ NULL ∧ ∃ s1 s2 bt, run cfg s1 body = .ok (bt, s2) ∧
          Reach cfg s1 (h ++ (.stepEnter :: mid ++ [.sel src t, .called t])) ∧
          tr = .stepEnter :: mid ++ .sel src t :: .called t :: bt ++ [.stepRet])) := by
  obtain ⟨L, hi⟩ := reach_inv hw hr
  obtain ⟨s1, e1, e2, e3⟩ := hi.enter hw now
  obtain ⟨src, t, mid, hm, hsel, hcur⟩ : ∃ src t mid, (mid = [] ∨ mid = [.clock now] ∨
        ∃ time, mid = [.clock now, .sel (.deferred time) NULL]) ∧
      (lselect cfg now L).1 = mid ++ [.sel src t] ∧ (lselect cfg now L).2.curr = t := by
    unfold lselect
    cases L.irq with
    | cons x r => exact ⟨.irq, x, [], Or.inl rfl, rfl, rfl⟩
    | nil =>
      cases L.dq with
      | nil =>
        cases L.immed with
        | nil => exact ⟨.idle, L.idle, [.clock now], Or.inr (Or.inl rfl), rfl, rfl⟩
        | cons x r => exact ⟨.immed, x, [.clock now], Or.inr (Or.inl rfl), rfl, rfl⟩
      | cons d ds =>
        simp only [lfetch]
        by_cases hp : cfg.precedes now d.time = false
        · simp only [hp, if_true]
          by_cases hn : d.task = NULL
          · simp only [hn, ne_eq, not_true, if_false]
            cases L.immed with
            | nil => exact ⟨.idle, L.idle, _, Or.inr (Or.inr ⟨d.time, rfl⟩), rfl, rfl⟩
            | cons x r => exact ⟨.immed, x, _, Or.inr (Or.inr ⟨d.time, rfl⟩), rfl, rfl⟩
          · simp only [ne_eq, hn, not_false_eq_true, if_true]
            exact ⟨.deferred d.time, d.task, [.clock now], Or.inr (Or.inl rfl), rfl, rfl⟩
        · simp only [if_neg hp, ne_eq, not_true, if_false]
          cases L.immed with
          | nil => exact ⟨.idle, L.idle, [.clock now], Or.inr (Or.inl rfl), rfl, rfl⟩
          | cons x r => exact ⟨.immed, x, [.clock now], Or.inr (Or.inl rfl), rfl, rfl⟩
  rw [hcur] at e2
  rw [hsel] at e1
  refine ⟨src, t, mid, hm, ?_⟩
  simp only [run, step, e1, C.ok_bind, e2] at hs
  by_cases hn : t = NULL
  · refine Or.inl ⟨hn, ?_⟩
    simp only [hn, ne_eq, not_true, if_false, C.ok_bind] at hs
    cases hs
    simp [hn]
  · refine Or.inr ⟨hn, ?_⟩
    simp only [ne_eq, hn, not_false_eq_true, if_true] at hs
    have hs1 : Reach cfg s1 (h ++ (.stepEnter :: mid ++ [.sel src t, .called t])) := by
      have := Reach.inTask (cfg := cfg) now hr e1 (by rw [e2]; exact hn)
      rw [e2] at this
      simpa using this
    obtain ⟨bt, s2, b1, _⟩ := C22_no_fault hw hs1 body
    rw [b1] at hs
    simp only [C.ok_bind] at hs
    cases hs
    exact ⟨s1, s2, bt, b1, hs1, by simp⟩

/-! ## C23 -/

/-- Whenever a deferred task is taken, everything scheduled before it and still pending is strictly
later, and nothing scheduled after it is earlier. -/
theorem C23_time_order (hw : cfg.Wf) {s : Sched T} {a b : List (Ev T)} {time : T} {t : Val}
    (hr : Reach cfg s (a ++ .sel (.deferred time) t :: b))
    (hp : Always (proper cfg) (St.start T) (a ++ .sel (.deferred time) t :: b)) :
    ∃ before after, (books a).pend = before ++ ⟨time, t⟩ :: after ∧
      (∀ d ∈ before, cfg.precedes time d.time = true) ∧
      (∀ d ∈ after, cfg.precedes d.time time = false) := by
  obtain ⟨L, hi⟩ := reach_inv hw hr
  exact always_at (hi.time hp).1

/-- In particular no pending entry has an earlier time. -/
theorem C23_none_earlier (hw : cfg.Wf) {s : Sched T} {a b : List (Ev T)} {time : T} {t : Val}
    (hr : Reach cfg s (a ++ .sel (.deferred time) t :: b))
    (hp : Always (proper cfg) (St.start T) (a ++ .sel (.deferred time) t :: b)) :
    ∀ d ∈ (books a).pend, cfg.precedes d.time time = false := by
  obtain ⟨L, hi⟩ := reach_inv hw hr
  obtain ⟨x, y, e1, e2, e3⟩ := C23_time_order hw hr hp
  obtain ⟨_, o, _⟩ : Always (legalTime cfg) (St.start T) a ∧ Ordered cfg ((books a).pend.map (·.time))
      ∧ True := by
    have := (always_append _ _ _).mp hi.legal
    have hpa := (always_append _ _ _).mp hp
    exact ⟨((always_append _ _ _).mp (hi.time hp).1).1, books_ordered a hpa.1, trivial⟩
  intro d hd
  rw [e1] at hd o
  rcases List.mem_append.mp hd with hd | hd
  · exact o.asymm _ (by simp) _ (by
      simp only [List.map_append, List.mem_append]; exact Or.inl (List.mem_map_of_mem hd)) (e2 d hd)
  · rcases List.mem_cons.mp hd with rfl | hd
    · exact o.irrefl (by simp)
    · exact e3 d hd

/-! ## C24 -/

/-- A task is taken from the deferred queue only at (or after) a time for which it was deferred: the
clock reading of the step does not precede that time.  No assumption on the clock. -/
theorem C24_never_early (hw : cfg.Wf) {s : Sched T} {a b : List (Ev T)} {time : T} {t : Val}
    (hr : Reach cfg s (a ++ .sel (.deferred time) t :: b)) :
    ⟨time, t⟩ ∈ (books a).pend ∧
    ∃ now, (books a).now = some now ∧ cfg.precedes now time = false := by
  obtain ⟨L, hi⟩ := reach_inv hw hr
  obtain ⟨_, _, hm, n, hn, hd⟩ := always_at hi.legal
  exact ⟨hm, n, hn, hd⟩

/-! ## C25 -/

/-- Conservation: every task `t` was accepted exactly as often as it was taken from a queue, thrown
out by remove or reset, or is still waiting. -/
theorem C25_conservation (hw : cfg.Wf) {s : Sched T} {h : List (Ev T)} (hr : Reach cfg s h)
    (t : Val) :
    (isrAccepted h).count t + (immedAccepted h).count t + ((deferAccepted h).map (·.task)).count t =
    ((isrTaken h).count t + (immedTaken h).count t + ((deferTaken h).map (·.task)).count t) +
      dropped t (St.start T) h + waiting t (books h) := by
  obtain ⟨L, hi⟩ := reach_inv hw hr
  have := conserve (cfg := cfg) t h _ hi.legal
  simpa [waiting, books, St.start] using this

/-- The tasks called are exactly the tasks taken, NULLs excepted, in the same order. -/
theorem C25_called_iff_taken (hw : cfg.Wf) {s : Sched T} {h : List (Ev T)} (hr : Reach cfg s h) :
    Spec.calls h = ((sels h).map (·.2)).filter (· ≠ NULL) := reach_calls hw hr

/-! ## C26 -/

/-- FULL is returned exactly when the queue in question holds its maximum. -/
theorem C26_full_iff (hw : cfg.Wf) {s : Sched T} {h : List (Ev T)} (hr : Reach cfg s h) :
    (∀ a b t e, h = a ++ .immedRet t e :: b →
      (e = .full ↔ (books a).immed.length = cfg.maxImmed) ∧ (e = .none ∨ e = .full)) ∧
    (∀ a b t e, h = a ++ .isrRet t e :: b →
      (e = .full ↔ (books a).irq.length = cfg.maxIrq - 1) ∧ (e = .none ∨ e = .full)) ∧
    (∀ a b t time e, h = a ++ .deferRet t time e :: b →
      (e = .full ↔ (books a).pend.length = cfg.maxDeferred) ∧ (e = .none ∨ e = .full)) := by
  obtain ⟨L, hi⟩ := reach_inv hw hr
  refine ⟨?_, ?_, ?_⟩
  · rintro a b t e rfl
    have hb := (always_append _ _ _).mp hi.legal
    have hle := (books_le (cfg := cfg) a hb.1).1
    have hl : e = if (books a).immed.length < cfg.maxImmed then .none else .full :=
      always_at hi.legal
    split at hl <;> subst hl <;> simp <;> omega
  · rintro a b t e rfl
    have hb := (always_append _ _ _).mp hi.legal
    have hle := (books_le (cfg := cfg) a hb.1).2.1
    have hl : e = if (books a).irq.length < cfg.maxIrq - 1 then .none else .full :=
      always_at hi.legal
    split at hl <;> subst hl <;> simp <;> omega
  · rintro a b t time e rfl
    have hb := (always_append _ _ _).mp hi.legal
    have hle := (books_le (cfg := cfg) a hb.1).2.2
    have hl : e = if (books a).pend.length < cfg.maxDeferred then .none else .full :=
      always_at hi.legal
    split at hl <;> subst hl <;> simp <;> omega

/-- A refused call changes nothing: everything afterwards happens as if it had not been made. -/
theorem C26_full_changes_nothing (hw : cfg.Wf) {s s' : Sched T} {h : List (Ev T)}
    (hr : Reach cfg s h) (q : Prog T R) (t : Val) (time : T) (tr : List (Ev T)) :
    (run cfg s (.immed t q) = .ok (.immedRet t .full :: tr, s') → run cfg s q = .ok (tr, s')) ∧
    (run cfg s (.fromIsr t q) = .ok (.isrRet t .full :: tr, s') → run cfg s q = .ok (tr, s')) ∧
    (run cfg s (.deferUntil t time q) = .ok (.deferRet t time .full :: tr, s') →
      run cfg s q = .ok (tr, s')) := by
  obtain ⟨L, hi⟩ := reach_inv hw hr
  refine ⟨?_, ?_, ?_⟩
  · intro hh
    have := immed_full hw hi.rep t
    by_cases hc : L.immed.length < cfg.maxImmed
    · exfalso
      obtain ⟨s1, e1, e2⟩ := immed_ok hw hi.rep t
      obtain ⟨s2, f1, _⟩ := run_refines hw q e2
      simp only [run, e1, C.ok_bind, f1, limmed, if_pos hc] at hh
      cases hh
    · simp only [run, this hc, C.ok_bind] at hh
      obtain ⟨s2, f1, _⟩ := run_refines hw q hi.rep
      rw [f1] at hh ⊢
      cases hh; rfl
  · intro hh
    have := isr_full hi.rep t
    by_cases hc : L.irq.length < cfg.maxIrq - 1
    · exfalso
      obtain ⟨s1, e1, e2⟩ := isr_ok hi.rep t
      obtain ⟨s2, f1, _⟩ := run_refines hw q e2
      simp only [run, e1, C.ok_bind, f1, lisr, if_pos hc] at hh
      cases hh
    · simp only [run, this hc, C.ok_bind] at hh
      obtain ⟨s2, f1, _⟩ := run_refines hw q hi.rep
      rw [f1] at hh ⊢
      cases hh; rfl
  · intro hh
    have := defer_full hi.rep t time
    by_cases hc : L.dq.length < cfg.maxDeferred
    · exfalso
      obtain ⟨s1, e1, e2⟩ := defer_ok hw hi.rep t time
      obtain ⟨s2, f1, _⟩ := run_refines hw q e2
      simp only [run, e1, C.ok_bind, f1, ldefer, if_pos hc] at hh
      cases hh
    · simp only [run, this hc, C.ok_bind] at hh
      obtain ⟨s2, f1, _⟩ := run_refines hw q hi.rep
      rw [f1] at hh ⊢
      cases hh; rfl

/-! ## C27 -/

/-- NOT_FOUND is returned exactly when no entry of `t` is pending. -/
theorem C27_remove_result (hw : cfg.Wf) {s : Sched T} {a b : List (Ev T)} {t : Val} {e : Err}
    (hr : Reach cfg s (a ++ .removeRet t e :: b)) :
    (e = .notFound ↔ ∀ d ∈ (books a).pend, d.task ≠ t) ∧ (e = .none ∨ e = .notFound) := by
  obtain ⟨L, hi⟩ := reach_inv hw hr
  have hl : e = if ∃ d ∈ (books a).pend, d.task = t then .none else .notFound :=
    always_at hi.legal
  split at hl
  · rename_i hx
    subst hl
    obtain ⟨d, hd, he⟩ := hx
    simp only [reduceCtorEq, false_iff, true_or, and_true]
    intro hc
    exact hc d hd he
  · rename_i hx
    subst hl
    simp only [true_iff, or_true, and_true]
    intro d hd he
    exact hx ⟨d, hd, he⟩

/-- After its removal `t` is not taken from the deferred queue unless deferred again. -/
theorem C27_not_run_after_removal (hw : cfg.Wf) {s : Sched T} {a b c : List (Ev T)} {t : Val}
    {e : Err} {time : T}
    (hr : Reach cfg s (a ++ .removeRet t e :: b ++ .sel (.deferred time) t :: c)) :
    ∃ time', .deferRet t time' .none ∈ b := by
  obtain ⟨L, hi⟩ := reach_inv hw hr
  obtain ⟨_, _, hm, _⟩ := always_at hi.legal
  rw [track_append] at hm
  by_contra hne
  have : ∀ d ∈ (track (track (St.start T) a) (.removeRet t e :: b)).pend, d.task ≠ t := by
    rw [track_cons]
    apply pend_without
    · intro d hd
      simpa using (List.mem_filter.mp hd).2
    · intro time' hc
      exact hne ⟨time', hc⟩
  exact this _ hm rfl

/-! ## C28 -/

/-- `mu_sched_current_task` returns the task called last, until a step returns or the scheduler is
reset (both clear it). -/
theorem C28_current_is_running (hw : cfg.Wf) {s : Sched T} {a b c : List (Ev T)} {t v : Val}
    (hr : Reach cfg s (a ++ .called t :: b ++ .currentRet v :: c))
    (hb : ∀ e ∈ b, e ≠ .stepRet ∧ e ≠ .resetRet ∧ ∀ u, e ≠ .called u) : v = t := by
  obtain ⟨L, hi⟩ := reach_inv hw hr
  have hl : v = (books (a ++ .called t :: b)).cur := always_at hi.legal
  rw [hl, books_append]
  exact cur_keep b (next (books a) (.called t)) hb

/-- Outside of any step it returns NULL. -/
theorem C28_null_outside (hw : cfg.Wf) {s : Sched T} {a c : List (Ev T)} {v : Val}
    (hr : Reach cfg s (a ++ .currentRet v :: c)) (ho : (books a).steps = []) : v = NULL := by
  obtain ⟨L, hi⟩ := reach_inv hw hr
  have hl : v = (books a).cur := always_at hi.legal
  rw [hl]
  exact cur_outside a _ (by intro; rfl) ho

/-- … and every step that is entered is left again, so that "outside" is where one is before the
first and after the last: a complete program leaves the steps in progress as they were. -/
theorem C28_steps_balanced (hw : cfg.Wf) {s s' : Sched T} {h tr : List (Ev T)}
    (hr : Reach cfg s h) {p : Prog T R} (hp : run cfg s p = .ok (tr, s')) :
    (books (h ++ tr)).steps = (books h).steps := by
  obtain ⟨L, hi⟩ := reach_inv hw hr
  obtain ⟨s1, e1, _⟩ := run_refines hw p hi.rep
  rw [hp] at e1
  cases e1
  rw [books_append]
  exact (lrun_good (cfg := cfg) p hi.sim hi.cur).2.2.1

/-! ## C29 -/

/-- After `mu_sched_reset`, any further program `q` produces exactly the events it would produce on a
freshly initialised scheduler with the same idle task. -/
theorem C29_reset_is_fresh (hw : cfg.Wf) {s f : Sched T} {h : List (Ev T)} (hr : Reach cfg s h)
    (hf : Boot cfg f) (q : Prog T R) :
    ∃ tr s' f', run cfg s (.reset q) = .ok (.resetRet :: tr, s') ∧
      run cfg f (.setIdle (books h).idle q) = .ok (.setIdleRet (books h).idle :: tr, f') := by
  obtain ⟨L, hi⟩ := reach_inv hw hr
  obtain ⟨s1, e1, _⟩ := run_refines hw (.reset q) hi.rep
  obtain ⟨s2, e2, _⟩ := run_refines hw (.setIdle (books h).idle q) (boot_inv hw hf).rep
  refine ⟨_, s1, s2, e1, ?_⟩
  rw [e2]
  simp only [lrun, lreset, hi.sim.idle]

/-! ## C30 -/

/-- No new tasks arriving, the ISR task at position `k` is taken by the `k`-th step from now
(counting from 0), whatever the clock reads. -/
theorem C30_isr_position (hw : cfg.Wf) {s : Sched T} {h : List (Ev T)} (hr : Reach cfg s h)
    {k : Nat} {t : Val} (hk : (books h).irq[k]? = some t) (nows : List T) (hn : k < nows.length) :
    ∃ tr s', run cfg s (loop nows) = .ok (tr, s') ∧ (sels tr)[k]? = some (.irq, t) := by
  obtain ⟨L, hi⟩ := reach_inv hw hr
  obtain ⟨s', e1, _⟩ := hi.run hw (loop nows)
  rw [hi.sim.irq] at hk
  exact ⟨_, s', e1, loop_irq nows L k t hk hn⟩

/-- A deferred task that is due at every clock reading from now on and has `r` entries before it
is taken by the step number (queued ISR tasks + `r`), exactly. -/
theorem C30_deferred_position (hw : cfg.Wf) {s : Sched T} {h : List (Ev T)} (hr : Reach cfg s h)
    (hp : Always (proper cfg) (St.start T) h) {i : Nat} {d : Entry T}
    (hd : (books h).pend[i]? = some d) (nows : List T)
    (hdue : ∀ now ∈ nows, Ordered cfg (now :: (books h).pend.map (·.time)) ∧
      cfg.precedes now d.time = false)
    (hn : (books h).irq.length + rank cfg (books h).pend i < nows.length) :
    ∃ tr s', run cfg s (loop nows) = .ok (tr, s') ∧
      (sels tr)[(books h).irq.length + rank cfg (books h).pend i]? =
        some (.deferred d.time, d.task) := by
  obtain ⟨L, hi⟩ := reach_inv hw hr
  obtain ⟨s', e1, _⟩ := hi.run hw (loop nows)
  have ho := (hi.time hp).2
  refine ⟨_, s', e1, ?_⟩
  rw [hi.sim.irq] at hn ⊢
  have hmem : ∀ x, x ∈ L.dq ↔ x ∈ (books h).pend := fun x => hi.sim.dq.mem_iff
  refine loop_deferred nows L _ d ?_ ?_ ?_ ?_ hn
  · rw [ho.dq]; exact sortD_rank ho.ordered hd
  · rw [ho.dq]; exact sortD_sorted ho.ordered
  · intro e he; exact ho.nonnull e ((hmem e).mp he)
  · intro now hnow
    obtain ⟨a, b⟩ := hdue now hnow
    refine ⟨a.mono ?_, b⟩
    intro y hy
    rcases List.mem_cons.mp hy with rfl | hy
    · simp
    · obtain ⟨x, hx, rfl⟩ := List.mem_map.mp hy
      exact List.mem_cons_of_mem _ (List.mem_map_of_mem ((hmem x).mp hx))

/-- With the clock standing at `now`, the immediate task at position `k` is taken by the step number
(queued ISR tasks + due deferred tasks + `k`), exactly. -/
theorem C30_immediate_position (hw : cfg.Wf) {s : Sched T} {h : List (Ev T)} (hr : Reach cfg s h)
    (hp : Always (proper cfg) (St.start T) h) {k n : Nat} {t : Val} {now : T}
    (hk : (books h).immed[k]? = some t)
    (ho : Ordered cfg (now :: (books h).pend.map (·.time)))
    (hn : (books h).irq.length + dueCount cfg now (books h).pend + k < n) :
    ∃ tr s', run cfg s (loop (List.replicate n now)) = .ok (tr, s') ∧
      (sels tr)[(books h).irq.length + dueCount cfg now (books h).pend + k]? = some (.immed, t) := by
  obtain ⟨L, hi⟩ := reach_inv hw hr
  obtain ⟨s', e1, _⟩ := hi.run hw (loop (List.replicate n now))
  have hO := (hi.time hp).2
  have hmem : ∀ x, x ∈ L.dq ↔ x ∈ (books h).pend := fun x => hi.sim.dq.mem_iff
  refine ⟨_, s', e1, ?_⟩
  have hc : dueCount cfg now (books h).pend = dueCount cfg now L.dq :=
    (hi.sim.dq.countP_eq _).symm
  rw [hi.sim.irq, hc] at hn ⊢
  rw [hi.sim.immed] at hk
  refine loop_immed now n L k t hk ?_ ?_ ?_ hn
  · rw [hO.dq]; exact sortD_sorted hO.ordered
  · intro e he; exact hO.nonnull e ((hmem e).mp he)
  · refine ho.mono ?_
    intro y hy
    rcases List.mem_cons.mp hy with rfl | hy
    · simp
    · obtain ⟨x, hx, rfl⟩ := List.mem_map.mp hy
      exact List.mem_cons_of_mem _ (List.mem_map_of_mem ((hmem x).mp hx))

/-- No starvation, whatever the clock does and whatever `mu_time_precedes` is: (queued ISR tasks +
deferred tasks + `k` + 1) steps suffice to reach the immediate task at position `k`. -/
theorem C30_no_starvation (hw : cfg.Wf) {s : Sched T} {h : List (Ev T)} (hr : Reach cfg s h)
    {k : Nat} {t : Val} (hk : (books h).immed[k]? = some t) (nows : List T)
    (hn : (books h).irq.length + (books h).pend.length + k < nows.length) :
    ∃ tr s', run cfg s (loop nows) = .ok (tr, s') ∧ (immedTaken tr)[k]? = some t := by
  obtain ⟨L, hi⟩ := reach_inv hw hr
  obtain ⟨s', e1, _⟩ := hi.run hw (loop nows)
  rw [hi.sim.immed] at hk
  rw [hi.sim.irq, ← hi.sim.dq.length_eq] at hn
  exact ⟨_, s', e1, loop_bound nows L k t hk hn⟩

/-! ## C31 -/

/-- First in, first out: over any stretch `b` of a history without a reset, the ISR tasks queued at
its beginning followed by those accepted during it are those taken during it followed by those
queued at its end. -/
theorem C31_isr_fifo (hw : cfg.Wf) {s : Sched T} {a b : List (Ev T)} (hr : Reach cfg s (a ++ b))
    (hb : .resetRet ∉ b) :
    (books a).irq ++ isrAccepted b = isrTaken b ++ (books (a ++ b)).irq := by
  obtain ⟨L, hi⟩ := reach_inv hw hr
  rw [books_append]
  exact isr_fifo b _ ((always_append _ _ _).mp hi.legal).2 hb

/-- The same for immediate tasks. -/
theorem C31_immed_fifo (hw : cfg.Wf) {s : Sched T} {a b : List (Ev T)} (hr : Reach cfg s (a ++ b))
    (hb : .resetRet ∉ b) :
    (books a).immed ++ immedAccepted b = immedTaken b ++ (books (a ++ b)).immed := by
  obtain ⟨L, hi⟩ := reach_inv hw hr
  rw [books_append]
  exact immed_fifo b _ ((always_append _ _ _).mp hi.legal).2 hb

/-! ## C33 -/

/-- With a wrapping counter of any width compared by signed difference: as long as the times present
at each moment lie within half of the range, wherever the window is, every history is a `proper` one,
so that C22, C23 and C30 apply. -/
theorem C33_window_is_proper {w : Nat} (hpos : 0 < w) {cfg : Cfg (BitVec w) R}
    (hc : cfg.precedes = wrapPrecedes w) (h : List (Ev (BitVec w)))
    (hwin : Always windowed (St.start _) h) : Always (proper cfg) (St.start _) h :=
  windowed_proper hpos hc h _ hwin

/-- Spelled out in ticks: if the clock and the pending times lie in the window starting at `base` when
a deferred task is taken, then its time has come (its distance from `base` is at most the clock's),
what was scheduled before it is later, and what was scheduled after it is not earlier. -/
theorem C33_wraparound {w : Nat} (hpos : 0 < w) {cfg : Cfg (BitVec w) R} (hw : cfg.Wf)
    (hc : cfg.precedes = wrapPrecedes w) {s : Sched (BitVec w)} {a b : List (Ev (BitVec w))}
    {time now base : BitVec w} {t : Val}
    (hr : Reach cfg s (a ++ .sel (.deferred time) t :: b))
    (hwin : Always windowed (St.start _) (a ++ .sel (.deferred time) t :: b))
    (hnow : (books a).now = some now)
    (hb : InWindow base (now :: (books a).pend.map (·.time))) :
    ticks base time ≤ ticks base now ∧
    ∃ before after, (books a).pend = before ++ ⟨time, t⟩ :: after ∧
      (∀ d ∈ before, ticks base time < ticks base d.time) ∧
      (∀ d ∈ after, ticks base time ≤ ticks base d.time) := by
  obtain ⟨x, y, e1, e2, e3⟩ := C23_time_order hw hr (windowed_proper hpos hc _ _ hwin)
  obtain ⟨hm, n, hn, hd⟩ := C24_never_early hw hr
  rw [hnow] at hn
  cases hn
  have hbt : ∀ d ∈ (books a).pend, ticks base d.time < 2 ^ (w - 1) := fun d hd =>
    hb _ (List.mem_cons_of_mem _ (List.mem_map_of_mem hd))
  have hbn := hb now (by simp)
  have hbm := hbt _ hm
  have keyf : ∀ p q : BitVec w, ticks base p < 2 ^ (w - 1) → ticks base q < 2 ^ (w - 1) →
      (cfg.precedes p q = false ↔ ticks base q ≤ ticks base p) := by
    intro p q hp hq
    rw [hc, ← Bool.not_eq_true, wrap_iff hpos hp hq, Nat.not_lt]
  refine ⟨(keyf _ _ hbn hbm).mp hd, x, y, e1, ?_, ?_⟩
  · intro d hd
    have := e2 d hd
    rw [hc, wrap_iff hpos hbm (hbt d (by rw [e1]; simp [hd]))] at this
    exact this
  · intro d hd
    exact (keyf _ _ (hbt d (by rw [e1]; simp [hd])) hbm).mp (e3 d hd)

/-! ## Concrete cases -/

namespace Example

/-- Natural-number clock, small queues. -/
def cfg0 : Cfg Nat Nat := ⟨.lp64, fun a b => decide (a < b), (· + ·), 4, 2, 3⟩

def boot : Sched Nat :=
  init cfg0 ⟨⟨9, 9, 9, [1]⟩, ⟨[3], 7, 7, 7⟩, List.replicate 3 ⟨77, 7⟩, 9, 9, 9⟩
    (List.replicate 4 0) (List.replicate 2 0)

theorem wf : cfg0.Wf := ⟨⟨2, by decide, by decide⟩, by decide, by decide⟩

theorem isBoot : Boot cfg0 boot :=
  ⟨⟨⟨9, 9, 9, [1]⟩, ⟨[3], 7, 7, 7⟩, List.replicate 3 ⟨77, 7⟩, 9, 9, 9⟩,
    List.replicate 4 0, List.replicate 2 0, by decide, by decide, by decide, rfl⟩

/-- Three deferred tasks (two at the same time), an immediate one and one from an interrupt; the
immediate task reschedules itself while running and asks who is running. -/
def prog : Prog Nat Nat :=
  .deferUntil 11 5 <| .deferUntil 12 3 <| .deferUntil 13 3 <| .deferUntil 14 1 <|
  .immed 15 <| .fromIsr 16 <| .setIdle 17 <|
  .step 4 .done <| .step 4 .done <| .step 4 .done <|
  .step 4 (.immed 15 <| .current .done) <| .step 5 .done <| .remove 11 <|
  .step 5 .done <| .step 5 .done .done

def trace : List (Ev Nat) :=
  [.deferRet 11 5 .none, .deferRet 12 3 .none, .deferRet 13 3 .none, .deferRet 14 1 .full,
   .immedRet 15 .none, .isrRet 16 .none, .setIdleRet 17,
   .stepEnter, .sel .irq 16, .called 16, .stepRet,
   .stepEnter, .clock 4, .sel (.deferred 3) 12, .called 12, .stepRet,
   .stepEnter, .clock 4, .sel (.deferred 3) 13, .called 13, .stepRet,
   .stepEnter, .clock 4, .sel .immed 15, .called 15, .immedRet 15 .none, .currentRet 15, .stepRet,
   .stepEnter, .clock 5, .sel (.deferred 5) 11, .called 11, .stepRet,
   .removeRet 11 .notFound,
   .stepEnter, .clock 5, .sel .immed 15, .called 15, .stepRet,
   .stepEnter, .clock 5, .sel .idle 17, .called 17, .stepRet]

theorem runs : (run cfg0 boot prog).map (·.1) = .ok trace := by decide +kernel

theorem reach : ∃ s, Reach cfg0 s trace := by
  have h := runs
  cases hr : run cfg0 boot prog with
  | error e => rw [hr] at h; cases h
  | ok x =>
    rw [hr] at h
    have hx : x.1 = trace := Except.ok.inj h
    obtain ⟨tr, s⟩ := x
    subst hx
    exact ⟨s, .calls prog (.boot isBoot) hr⟩

theorem ordered (l : List Nat) : Ordered cfg0 l := by
  refine ⟨?_, ?_⟩
  · intro a _ b _ h
    simp only [cfg0, decide_eq_true_eq] at h
    simp [cfg0]; omega
  · intro a _ b _ c _ h1 h2
    simp only [cfg0, decide_eq_false_iff_not] at h1 h2
    simp [cfg0]; omega

/-- The hypotheses of C22, C23, C25, C26, C27, C30, C31 hold of this run. -/
theorem isProper : Always (proper cfg0) (St.start Nat) trace := by
  simp only [trace, Always, proper, ordered, true_and, and_true]
  decide

/-- There is a deferred choice (C23, C24), with something pending both before and after it. -/
example : trace = trace.take 13 ++ .sel (.deferred 3) 12 :: trace.drop 14 ∧
    (books (trace.take 13)).pend = [⟨5, 11⟩, ⟨3, 12⟩, ⟨3, 13⟩] ∧
    (books (trace.take 13)).now = some 4 := by decide

/-- A state with all three queues occupied (C29, C30): positions and ranks. -/
example : books (trace.take 6) = ⟨[16], [⟨5, 11⟩, ⟨3, 12⟩, ⟨3, 13⟩], [15], NULL, none, [], NULL⟩ ∧
    rank cfg0 (books (trace.take 6)).pend 1 = 0 ∧ rank cfg0 (books (trace.take 6)).pend 2 = 1 ∧
    rank cfg0 (books (trace.take 6)).pend 0 = 2 ∧
    dueCount cfg0 4 (books (trace.take 6)).pend = 2 := by decide

/-- An 8-bit counter: a window across the wrap-around (C33). -/
example : InWindow (250 : BitVec 8) [250, 255, 0, 3, 121] ∧ wrapPrecedes 8 250 3 = true ∧
    wrapPrecedes 8 3 250 = false ∧ ¬ (250 : Nat) < 3 := by
  refine ⟨?_, by decide, by decide, by decide⟩
  intro t ht
  simp only [List.mem_cons, List.not_mem_nil, or_false] at ht
  rcases ht with rfl | rfl | rfl | rfl | rfl <;> decide

end Example

end Mu.Sched
