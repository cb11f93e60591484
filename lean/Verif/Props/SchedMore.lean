import Verif.Props.Sched

/-! # Further properties of the scheduler (C80 – C82)

Vocabulary as in Props/Sched.lean. -/

namespace Mu.Sched
open Spec

variable {T R : Type} [DecidableEq T] {cfg : Cfg T R}

/-! ## C82: no hidden state -/

/-- **C82.**  The future is determined by what an observer can know: if two histories (of possibly
different schedulers) leave the same tasks waiting in the interrupt queue, the same deferred entries
pending in the order they were scheduled, the same tasks in the immediate queue, the same idle task and
the same current task, then every program of calls makes the same things happen afterwards. -/
theorem C82_no_hidden_state (hw : cfg.Wf) {s1 s2 : Sched T} {h1 h2 : List (Ev T)}
    (r1 : Reach cfg s1 h1) (p1 : Always (proper cfg) (St.start T) h1)
    (r2 : Reach cfg s2 h2) (p2 : Always (proper cfg) (St.start T) h2)
    (hirq : (books h1).irq = (books h2).irq) (hpend : (books h1).pend = (books h2).pend)
    (himm : (books h1).immed = (books h2).immed) (hidle : (books h1).idle = (books h2).idle)
    (hcur : (books h1).cur = (books h2).cur) (q : Prog T R) :
    ∃ tr s1' s2', run cfg s1 q = .ok (tr, s1') ∧ run cfg s2 q = .ok (tr, s2') := by
  obtain ⟨L1, i1⟩ := reach_inv hw r1
  obtain ⟨L2, i2⟩ := reach_inv hw r2
  have e : L1 = L2 := by
    have a1 := i1.sim; have a2 := i2.sim
    have o1 := (i1.time p1).2; have o2 := (i2.time p2).2
    have c1 := i1.cur; have c2 := i2.cur
    obtain ⟨x1, x2, x3, x4, x5⟩ := L1
    obtain ⟨y1, y2, y3, y4, y5⟩ := L2
    have b1 := a1.irq; have b2 := a2.irq
    have b3 := a1.immed; have b4 := a2.immed
    have b5 := a1.idle; have b6 := a2.idle
    have b7 := o1.dq; have b8 := o2.dq
    simp only at b1 b2 b3 b4 b5 b6 b7 b8 c1 c2
    rw [hirq, b2] at b1; rw [himm, b4] at b3; rw [hidle, b6] at b5
    rw [hpend, ← b8] at b7; rw [hcur, c2] at c1
    simp [b1, b3, b5, b7, c1]
  subst e
  obtain ⟨s1', e1, _⟩ := i1.run hw q
  obtain ⟨s2', e2, _⟩ := i2.run hw q
  exact ⟨_, s1', s2', e1, e2⟩

/-- **C27, exactly.**  Removing `t` has the effect that its deferred entries are gone and nothing else:
afterwards the scheduler cannot be told from one in which the other entries are pending, in the same
order, and everything else is the same. -/
theorem C27_removes_exactly (hw : cfg.Wf) {s f : Sched T} {h k : List (Ev T)}
    (hr : Reach cfg s h) (hp : Always (proper cfg) (St.start T) h)
    (kr : Reach cfg f k) (kp : Always (proper cfg) (St.start T) k) (t : Val)
    (hpend : (books k).pend = (books h).pend.filter (fun d => d.task ≠ t))
    (hirq : (books k).irq = (books h).irq) (himm : (books k).immed = (books h).immed)
    (hidle : (books k).idle = (books h).idle) (hcur : (books k).cur = (books h).cur)
    (q : Prog T R) :
    ∃ e tr s' f', run cfg s (.remove t q) = .ok (.removeRet t e :: tr, s') ∧
      run cfg f q = .ok (tr, f') := by
  obtain ⟨tr1, s1, e1, r1⟩ := C22_no_fault hw hr (.remove t .done)
  obtain ⟨e, rfl⟩ : ∃ e, tr1 = [.removeRet t e] := by
    simp only [run] at e1
    cases hc : remove cfg s t with
    | error x => rw [hc] at e1; cases e1
    | ok x => rw [hc] at e1; cases e1; exact ⟨_, rfl⟩
  have p1 : Always (proper cfg) (St.start T) (h ++ [.removeRet t e]) := by
    rw [always_append]; exact ⟨hp, trivial, trivial⟩
  have hb : books (h ++ [.removeRet t e]) = next (books h) (.removeRet t e) := by
    rw [books_append]; rfl
  obtain ⟨tr, s', f', g1, g2⟩ := C82_no_hidden_state hw r1 p1 kr kp
    (by rw [hb, hirq]; rfl) (by rw [hb, hpend]; rfl) (by rw [hb, himm]; rfl)
    (by rw [hb, hidle]; rfl) (by rw [hb, hcur]; rfl) q
  refine ⟨e, tr, s', f', ?_, g2⟩
  simp only [run] at e1 ⊢
  cases hc : remove cfg s t with
  | error x => rw [hc] at e1; cases e1
  | ok x =>
    obtain ⟨e', s0⟩ := x
    rw [hc] at e1
    simp only [C.ok_bind] at e1 ⊢
    injection e1 with e1
    injection e1 with e1 e3
    injection e1 with e1 _
    injection e1 with _ e1
    subst e1 e3
    rw [g1, C.ok_bind]

/-! ## C80: mu_sched_next_task -/

omit [DecidableEq T] in
/-- There is at most one first entry. -/
theorem first_unique {l : List (Entry T)} {d e : Entry T} (hd : First cfg l d) (he : First cfg l e) :
    d = e := by
  obtain ⟨a, b, h1, h2, h3⟩ := hd
  obtain ⟨a', b', g1, g2, g3⟩ := he
  rw [h1] at g1
  rcases List.append_eq_append_iff.mp g1 with ⟨c, e1, e2⟩ | ⟨c, e1, e2⟩
  · cases c with
    | nil => simp at e2; exact e2.1
    | cons x c =>
      simp only [List.cons_append, List.cons.injEq] at e2
      obtain ⟨rfl, e2⟩ := e2
      have p1 := g2 d (by rw [e1]; simp)
      have p2 := h3 e (by rw [e2]; simp)
      rw [p1] at p2; cases p2
  · cases c with
    | nil => simp at e2; exact e2.1.symm
    | cons x c =>
      simp only [List.cons_append, List.cons.injEq] at e2
      obtain ⟨rfl, e2⟩ := e2
      have p1 := h2 e (by rw [e1]; simp)
      have p2 := g3 d (by rw [e2]; simp)
      rw [p1] at p2; cases p2

/-- **C80, result.**  NULL if no deferred task is pending; otherwise the task of the pending entry with
the earliest time, among equal times the one scheduled first. -/
theorem C80_next_task (hw : cfg.Wf) {s : Sched T} {a b : List (Ev T)} {v : Val}
    (hr : Reach cfg s (a ++ .nextRet v :: b))
    (hp : Always (proper cfg) (St.start T) (a ++ .nextRet v :: b)) :
    ((books a).pend = [] → v = NULL) ∧
    ((books a).pend ≠ [] → ∃ before after d, (books a).pend = before ++ d :: after ∧ v = d.task ∧
      v ≠ NULL ∧ (∀ f ∈ before, cfg.precedes d.time f.time = true) ∧
      (∀ f ∈ after, cfg.precedes f.time d.time = false)) := by
  obtain ⟨L, hi⟩ := reach_inv hw hr
  have hl := always_at hi.legal
  have ht := always_at (hi.time hp).1
  refine ⟨fun he => ?_, fun hne => ?_⟩
  · rcases hl with ⟨_, h⟩ | ⟨d, hd, _⟩
    · exact h
    · change d ∈ (books a).pend at hd
      rw [he] at hd; cases hd
  · obtain ⟨d, ⟨x, y, e1, e2, e3⟩, rfl⟩ := ht hne
    refine ⟨x, y, d, e1, rfl, ?_, e2, e3⟩
    -- NULL was never deferred
    have hn : ∀ (h : List (Ev T)) (σ : St T), Always (proper cfg) σ h →
        (∀ d ∈ σ.pend, d.task ≠ NULL) → ∀ d ∈ (track σ h).pend, d.task ≠ NULL := by
      intro h
      induction h with
      | nil => intro σ _ h; exact h
      | cons ev h ih =>
        intro σ hp ho
        refine ih _ hp.2 ?_
        have hp1 := hp.1
        cases ev with
        | sel src t =>
          cases src with
          | deferred time => exact fun d hd => ho d (List.mem_of_mem_erase hd)
          | _ => exact ho
        | deferRet t time e =>
          cases e with
          | none =>
            intro d hd
            rcases List.mem_append.mp hd with hd | hd
            · exact ho d hd
            · simp only [List.mem_singleton] at hd; subst hd; exact hp1.2
          | _ => exact ho
        | removeRet t e => exact fun d hd => ho d (List.mem_filter.mp hd).1
        | resetRet => intro d hd; simp [next] at hd
        | immedRet t e => cases e <;> exact ho
        | isrRet t e => cases e <;> exact ho
        | _ => exact ho
    exact hn a _ ((always_append _ _ _).mp hp).1 (by simp [St.start]) d
      (by rw [e1]; simp)

/-- **C80, no effect.**  Asking changes nothing: whatever is done afterwards has the effects it would
have had without. -/
theorem C80_changes_nothing (hw : cfg.Wf) {s : Sched T} {h : List (Ev T)} (hr : Reach cfg s h)
    (q : Prog T R) : ∃ v tr s', run cfg s (.nextTask q) = .ok (.nextRet v :: tr, s') ∧
      run cfg s q = .ok (tr, s') := by
  obtain ⟨L, hi⟩ := reach_inv hw hr
  obtain ⟨s', e1, _⟩ := hi.run hw q
  refine ⟨lnext L, _, s', ?_, e1⟩
  simp only [run, next_ok hw hi.rep, C.ok_bind, e1]

/-- Events that leave the set of deferred entries alone. -/
def keepsDeferred : Ev T → Bool
  | .sel (.deferred _) _ | .deferRet _ _ .none | .removeRet _ _ | .resetRet => false
  | _ => true

theorem pend_keep : ∀ (b : List (Ev T)) (σ : St T), (∀ e ∈ b, keepsDeferred e = true) →
    (track σ b).pend = σ.pend := by
  intro b
  induction b with
  | nil => intro σ _; rfl
  | cons e b ih =>
    intro σ hb
    rw [track_cons, ih _ (fun x hx => hb x (List.mem_cons_of_mem _ hx))]
    have := hb e (by simp)
    cases e with
    | sel src t => cases src <;> first | rfl | (simp [keepsDeferred] at this)
    | immedRet u e => cases e <;> rfl
    | isrRet u e => cases e <;> rfl
    | deferRet u _ e => cases e <;> first | rfl | (simp [keepsDeferred] at this)
    | removeRet u e => simp [keepsDeferred] at this
    | resetRet => simp [keepsDeferred] at this
    | _ => rfl

/-- **C80, prediction.**  The task returned is the deferred task taken next, if no task is deferred or
removed and the scheduler is not reset in the meantime. -/
theorem C80_predicts (hw : cfg.Wf) {s : Sched T} {a b c : List (Ev T)} {v t : Val} {time : T}
    (hr : Reach cfg s (a ++ .nextRet v :: (b ++ .sel (.deferred time) t :: c)))
    (hp : Always (proper cfg) (St.start T) (a ++ .nextRet v :: (b ++ .sel (.deferred time) t :: c)))
    (hb : ∀ e ∈ b, keepsDeferred e = true) : t = v := by
  obtain ⟨L, hi⟩ := reach_inv hw hr
  have ht := (hi.time hp).1
  have h1 : legalTime cfg (books a) (.nextRet v) := always_at ht
  have hl := hi.legal
  have e : a ++ .nextRet v :: (b ++ .sel (.deferred time) t :: c)
      = (a ++ .nextRet v :: b) ++ .sel (.deferred time) t :: c := by simp
  rw [e] at ht hl
  have h2 : First cfg (books (a ++ .nextRet v :: b)).pend ⟨time, t⟩ := always_at ht
  have hk : (books (a ++ .nextRet v :: b)).pend = (books a).pend := by
    rw [books_append, track_cons, pend_keep b _ hb]; rfl
  rw [hk] at h2
  have hne : (books a).pend ≠ [] := by
    intro he; rw [he] at h2; exact absurd (first_mem h2) (by simp)
  obtain ⟨d, hd, rfl⟩ := h1 hne
  rw [first_unique hd h2]

/-! ## C81: the idle task -/

theorem idle_keep : ∀ (b : List (Ev T)) (σ : St T), (∀ u, .setIdleRet u ∉ b) →
    (track σ b).idle = σ.idle := by
  intro b
  induction b with
  | nil => intro σ _; rfl
  | cons e b ih =>
    intro σ hb
    rw [track_cons, ih _ (fun u hx => hb u (List.mem_cons_of_mem _ hx))]
    cases e with
    | sel src t => cases src <;> rfl
    | immedRet u e => cases e <;> rfl
    | isrRet u e => cases e <;> rfl
    | deferRet u _ e => cases e <;> rfl
    | setIdleRet u => exact absurd (by simp) (hb u)
    | _ => rfl

/-- **C81.**  The idle task, both as returned by `mu_sched_get_idle_task` and as taken by a step that
finds nothing to run, is the one set last, whatever happened since (a reset included). -/
theorem C81_idle_is_last_set (hw : cfg.Wf) {s : Sched T} {a b c : List (Ev T)} {t v : Val}
    (hb : ∀ u, .setIdleRet u ∉ b) :
    (Reach cfg s (a ++ .setIdleRet t :: (b ++ .getIdleRet v :: c)) → v = t) ∧
    (Reach cfg s (a ++ .setIdleRet t :: (b ++ .sel .idle v :: c)) → v = t) := by
  have hi : (books (a ++ .setIdleRet t :: b)).idle = t := by
    rw [books_append, track_cons, idle_keep b _ hb]; rfl
  refine ⟨fun hr => ?_, fun hr => ?_⟩
  · obtain ⟨L, inv⟩ := reach_inv hw hr
    have hl := inv.legal
    have e : a ++ .setIdleRet t :: (b ++ .getIdleRet v :: c)
        = (a ++ .setIdleRet t :: b) ++ .getIdleRet v :: c := by simp
    rw [e] at hl
    have : v = (books (a ++ .setIdleRet t :: b)).idle := always_at hl
    rw [this, hi]
  · obtain ⟨L, inv⟩ := reach_inv hw hr
    have hl := inv.legal
    have e : a ++ .setIdleRet t :: (b ++ .sel .idle v :: c)
        = (a ++ .setIdleRet t :: b) ++ .sel .idle v :: c := by simp
    rw [e] at hl
    have := always_at hl
    have h4 : v = (books (a ++ .setIdleRet t :: b)).idle := this.2.2.2
    rw [h4, hi]

/-- **C81.**  As long as none was set it is NULL, and a step that finds nothing to run calls
nothing. -/
theorem C81_null_if_never_set (hw : cfg.Wf) {s : Sched T} {b c : List (Ev T)} {v : Val}
    (hb : ∀ u, .setIdleRet u ∉ b) :
    (Reach cfg s (b ++ .getIdleRet v :: c) → v = NULL) ∧
    (Reach cfg s (b ++ .sel .idle v :: c) → v = NULL ∧ ∀ u, c.head? ≠ some (.called u)) := by
  have hi : (books b).idle = NULL := idle_keep b _ hb
  refine ⟨fun hr => ?_, fun hr => ?_⟩
  · obtain ⟨L, inv⟩ := reach_inv hw hr
    have : v = (books b).idle := always_at inv.legal
    rw [this, hi]
  · obtain ⟨L, inv⟩ := reach_inv hw hr
    have hl := inv.legal
    have h1 := always_at hl
    have hv : v = (books b).idle := h1.2.2.2
    refine ⟨by rw [hv, hi], fun u hc => ?_⟩
    cases c with
    | nil => cases hc
    | cons e c =>
      simp only [List.head?_cons, Option.some.injEq] at hc
      subst hc
      have e : b ++ .sel .idle v :: .called u :: c = (b ++ [.sel .idle v]) ++ .called u :: c := by simp
      rw [e] at hl
      have h2 : legal cfg (books (b ++ [.sel .idle v])) (.called u) := always_at hl
      rw [books_append] at h2
      obtain ⟨h3, h4⟩ := h2
      simp only [track, List.foldl, next, List.head?_cons, Option.some.injEq, Phase.chosen.injEq] at h3
      exact h4 (by rw [← h3, hv, hi])

/-! ## Concrete cases -/

namespace Example

/-- `mu_sched_next_task` before, between and after steps; the idle task before and after it is set. -/
def prog2 : Prog Nat Nat :=
  .nextTask <| .getIdle <| .step 0 .done <| .deferUntil 11 5 <| .deferUntil 12 3 <| .deferUntil 13 3 <|
  .nextTask <| .immed 15 <| .step 1 .done <| .step 3 .done <| .nextTask <| .setIdle 17 <| .reset <|
  .getIdle <| .step 3 .done .done

def trace2 : List (Ev Nat) :=
  [.nextRet 0, .getIdleRet 0, .stepEnter, .clock 0, .sel .idle 0, .stepRet,
   .deferRet 11 5 .none, .deferRet 12 3 .none, .deferRet 13 3 .none,
   .nextRet 12, .immedRet 15 .none, .stepEnter, .clock 1, .sel .immed 15, .called 15, .stepRet,
   .stepEnter, .clock 3, .sel (.deferred 3) 12, .called 12, .stepRet, .nextRet 13,
   .setIdleRet 17, .resetRet, .getIdleRet 17, .stepEnter, .clock 3, .sel .idle 17, .called 17,
   .stepRet]

theorem runs2 : (run cfg0 boot prog2).map (·.1) = .ok trace2 := by decide +kernel

/-- The hypotheses of C80 hold of this run, and the stretch between question and choice satisfies that
of `C80_predicts`. -/
theorem isProper2 : Always (proper cfg0) (St.start Nat) trace2 := by
  simp only [trace2, Always, proper, ordered, true_and, and_true]
  decide

example : trace2 = trace2.take 9 ++ .nextRet 12 ::
    ((trace2.drop 10).take 8 ++ .sel (.deferred 3) 12 :: trace2.drop 19) ∧
    (∀ e ∈ (trace2.drop 10).take 8, keepsDeferred e = true) ∧
    (books (trace2.take 9)).pend = [⟨5, 11⟩, ⟨3, 12⟩, ⟨3, 13⟩] := by decide

/-- Two different histories with the same books (C82, C27): defer three and remove one; defer two. -/
example :
    let h : List (Ev Nat) := [.deferRet 11 5 .none, .deferRet 12 3 .none, .deferRet 13 3 .none]
    let k : List (Ev Nat) := [.deferRet 11 5 .none, .deferRet 13 3 .none]
    (run cfg0 boot (.deferUntil 11 5 (.deferUntil 12 3 (.deferUntil 13 3 .done)))).map (·.1) = .ok h ∧
    (run cfg0 boot (.deferUntil 11 5 (.deferUntil 13 3 .done))).map (·.1) = .ok k ∧
    (books k).pend = (books h).pend.filter (fun d => d.task ≠ 12) := by
  decide +kernel

end Example

end Mu.Sched
