import Verif.Lemmas.SrcIsrReset
import Verif.Props.SrcIsr

/-! # C143: `mu_sched_reset` in a program that is interrupted between any two memory accesses -/

namespace Mu.CS.Isr

open Act Conc

variable {A : Arch} {X : AExt} {U : User} {prec : CVal → CVal → Bool} {off : CVal → CVal → CVal}
variable {h h' : Heap} {s s' : Replay} {g : Stage}

theorem see_hooks {e : Seen} (h : s.see prec off e = some s') : s'.callHook = s.callHook ∧ s'.transferHook = s.transferHook :=
  (Replays.see (.nil s) h).hooks

theorem look_hooks (h : s.look = some s') : s'.callHook = s.callHook ∧ s'.transferHook = s.transferHook :=
  (Replays.look (prec := fun _ _ => false) (off := fun a _ => a) (.nil s) h).hooks

/-- Hooks do not change. -/
theorem Retold.hooks {l : List Seen} (r : Retold prec off s l s' g) : s'.callHook = s.callHook ∧ s'.transferHook = s.transferHook := by
  induction r with
  | nil => exact ⟨rfl, rfl⟩
  | see _ h _ ih => exact ⟨(see_hooks h).1.trans ih.1, (see_hooks h).2.trans ih.2⟩
  | look _ h ih => exact ⟨(look_hooks h).1.trans ih.1, (look_hooks h).2.trans ih.2⟩
  | isr _ h ih => exact ⟨(see_hooks h).1.trans ih.1, (see_hooks h).2.trans ih.2⟩
  | clear _ _ _ ih => exact ih
  | cleared _ ih => exact ih
  | reset _ ih => exact ih

/-- Logs, at stage `g`. -/
def retoldAt (U : User) (prec : CVal → CVal → Bool) (off : CVal → CVal → CVal) (g : Stage) (stale : Bool) :
    Tale U prec off (fun l => ∃ s g, Retold prec off U.start l s g) where
  holds l s := Retold prec off U.start l s g
  stale := stale
  isr := .isr
  sound h := ⟨_, _, h⟩
  hooks h := h.hooks

/-- Logs with `mu_sched_reset`. -/
abbrev retold (U : User) (prec : CVal → CVal → Bool) (off : CVal → CVal → CVal) := retoldAt U prec off .none false

instance : (retold U prec off).Full := ⟨rfl, .see, .look⟩

/-- The stages. -/
def retoldWipe : (retold U prec off).Wipe where
  C := retoldAt U prec off .clearing true
  D := retoldAt U prec off .cleared false
  stale := rfl
  live := rfl
  clear := .clear
  cleared := .cleared
  reset := .reset

/-- **C143, interrupts at any point, and `mu_sched_reset`**: as `C134_interrupted`, for programs that also call `mu_sched_reset`, from the main
program, from tasks and from hooks.  At every moment the log is right, and what comes next is not a fault. -/
theorem C143_interrupted (H : Honest A X U prec off) {Y : Ext} {n k : Nat} {r : CVal} {h0 : Heap} (v : h0.SchedVars) (hi : U.inv h0)
    (hl : U.log h0 = []) (hk : U.Hooks h0)
    (e : sem A Y prog (k + 3) .mu_sched_init h0 [] = .ok (r, h)) {a a' : Act CVal} (c : Code (semA A X prog n) U a)
    (run : Steps A X U (a, h) (a', h')) : (∃ s g, Retold prec off U.start (U.log h') s g) ∧ Fine h' a' := by
  have w := run.safe (code_safe (T := retold U prec off) (fun _ => retoldWipe) H n a c _ _ _ (Holds.init H v hi hl hk e (.nil _)) rfl)
  exact ⟨safe_good w (.nil _), safe_fine w⟩

/-- **C143, in the end**: when the main program has returned, no step is left unfinished, and no `mu_sched_reset` either. -/
theorem C143_finished (H : Honest A X U prec off) {Y : Ext} {n k : Nat} {r x : CVal} {h0 : Heap} (v : h0.SchedVars) (hi : U.inv h0)
    (hl : U.log h0 = []) (hk : U.Hooks h0)
    (e : sem A Y prog (k + 3) .mu_sched_init h0 [] = .ok (r, h)) {a : Act CVal} (c : Code (semA A X prog n) U a)
    (run : Steps A X U (a, h) (.done x, h')) : ∃ s, Retold prec off U.start (U.log h') s .none ∧ s.steps = [] := by
  have w := run.safe (code_safe (T := retold U prec off) (fun _ => retoldWipe) H n a c _ _ _ (Holds.init H v hi hl hk e (.nil _)) rfl)
  obtain ⟨-, s', m', i, hs⟩ := w h' (.nil _)
  obtain ⟨irq, q, -, i⟩ := i.here
  exact ⟨_, i.log, hs⟩

/-! ## What a right log says -/

/-- An interrupt changes the interrupt queue only. -/
theorem isr_at {t r : CVal} (h : s.see prec off (.did (.fromIsr t) r) = some s') (irq : List CVal) : s'.at irq = s.at irq := by
  simp only [Replay.see] at h
  split at h
  · obtain rfl := Option.some.inj h
    simp only [Req.answer, Agenda.interrupt, Replay.after, Replay.at]
    split <;> rfl
  · cases h

theorem owed_at (t : CVal) : s.owed t = s.σ.irq.count t + (s.at []).owed t := by
  simp only [Replay.owed, Agenda.waiting, Replay.at, List.count_nil]
  omega

/-- What is owed for certain: while the interrupt queue holds old items, what is in it does not count. -/
def Replay.sure (s : Replay) (g : Stage) (t : CVal) : Nat := if g = .clearing then (s.at []).owed t else s.owed t

theorem retold_sure {t : CVal} (ht : t ≠ .null) {l : List Seen} (hs : Retold prec off s l s' g) (hi : s.σ.idle ≠ t)
    (he : ∀ r, .did (.setIdle t) r ∉ l) :
    s'.σ.idle ≠ t ∧ l.countP (fun e => e = .called t) + s'.sure g t ≤ l.countP (Seen.scheduled t) + s.owed t := by
  induction hs with
  | nil => exact ⟨hi, by simp [Replay.sure]⟩
  | see _ h1 _ ih =>
    obtain ⟨hi1, hk⟩ := ih fun r hr => he r (by simp [hr])
    obtain ⟨hi2, k', hk', -⟩ := see_owed ht h1 hi1 fun r h' => he r (by simp [h'])
    refine ⟨hi2, ?_⟩
    simp only [Replay.sure, reduceCtorEq, if_false] at hk ⊢
    simp only [List.countP_append, List.countP_cons, List.countP_nil, decide_eq_true_eq]
    omega
  | look _ h1 ih =>
    obtain ⟨hi1, hk⟩ := ih he
    obtain ⟨h2, h3⟩ := look_owed t h1
    refine ⟨h3 ▸ hi1, ?_⟩
    simp only [Replay.sure, reduceCtorEq, if_false] at hk ⊢
    rw [h2]
    exact hk
  | isr _ h1 ih =>
    obtain ⟨hi1, hk⟩ := ih fun r hr => he r (by simp [hr])
    obtain ⟨hi2, k', hk', -⟩ := see_owed ht h1 hi1 fun r h' => he r (by simp [h'])
    refine ⟨hi2, ?_⟩
    simp only [Replay.sure] at hk ⊢
    simp only [List.countP_append, List.countP_cons, List.countP_nil, decide_eq_true_eq]
    split at hk
    · rename_i hg
      rw [if_pos hg, isr_at h1]
      simp only [reduceCtorEq, if_false] at hk' ⊢
      omega
    · rename_i hg
      rw [if_neg hg]
      omega
  | @clear sb l old _ _ _ ih =>
    obtain ⟨hi1, hk⟩ := ih he
    refine ⟨hi1, ?_⟩
    have := owed_at (s := sb) t
    simp only [Replay.sure, reduceCtorEq, if_false, if_true] at hk ⊢
    show _ + (sb.at []).owed t ≤ _
    omega
  | @cleared sb l _ ih =>
    obtain ⟨hi1, hk⟩ := ih he
    exact ⟨hi1, hk⟩
  | @reset sb l _ ih =>
    obtain ⟨hi1, hk⟩ := ih fun r hr => he r (by simp [hr])
    refine ⟨hi1, ?_⟩
    simp only [Replay.sure, reduceCtorEq, if_false] at hk ⊢
    simp only [List.countP_append, List.countP_cons, List.countP_nil, Seen.scheduled, Bool.false_eq_true, if_false, decide_eq_true_eq, reduceCtorEq]
    have : ({ sb with σ := { sb.σ.reset with irq := sb.σ.irq } } : Replay).owed t ≤ sb.owed t := by
      simp only [Replay.owed, Agenda.waiting, Agenda.reset, List.countP_nil, List.count_nil]
      omega
    dsimp only at this ⊢
    omega

/-- **C143, no task is called twice**: a task that has never been made the idle task has been called at most as often as it has been
scheduled with success - by user code or by an interrupt, be it in the middle of `mu_sched_reset`. -/
theorem C143_never_twice (H : Honest A X U prec off) {Y : Ext} {n k : Nat} {r : CVal} {h0 : Heap} (v : h0.SchedVars) (hi : U.inv h0)
    (hl : U.log h0 = []) (hk : U.Hooks h0)
    (e : sem A Y prog (k + 3) .mu_sched_init h0 [] = .ok (r, h)) {a a' : Act CVal} (c : Code (semA A X prog n) U a)
    (run : Steps A X U (a, h) (a', h')) {t : CVal} (ht : t ≠ .null) (hn : ∀ r, .did (.setIdle t) r ∉ U.log h') :
    (U.log h').countP (fun e => e = .called t) ≤ (U.log h').countP (Seen.scheduled t) := by
  obtain ⟨⟨s, g, hs⟩, -⟩ := C143_interrupted H v hi hl hk e c run
  obtain ⟨-, h1⟩ := retold_sure ht hs (by simp [User.start, Replay.start, Ne.symm ht]) hn
  have hst : U.start.owed t = 0 := by simp [Replay.owed, User.start, Replay.start, Agenda.waiting]
  omega

/-! ## An interrupt is answered promptly -/

theorem last_entry {α : Type} {l1 l2 l : List α} {e x : α} (h : l1 ++ e :: l2 = l ++ [x]) :
    (l2 = [] ∧ l1 = l ∧ e = x) ∨ ∃ l2', l2 = l2' ++ [x] ∧ l1 ++ e :: l2' = l := by
  rcases List.eq_nil_or_concat l2 with rfl | ⟨l2', y, rfl⟩
  · obtain ⟨e1, e2⟩ := List.append_inj' h rfl
    exact .inl ⟨rfl, e1, by simpa using e2⟩
  · rw [List.concat_eq_append, ← List.cons_append, ← List.append_assoc] at h
    obtain ⟨e1, e2⟩ := List.append_inj' h rfl
    obtain rfl : y = x := by simpa using e2
    exact .inr ⟨l2', by simp, e1⟩

theorem ahead_seven {t : CVal} {k : Nat} (a : Ahead s t k) : k ≤ 7 := by
  rcases a with ⟨-, a⟩ | ⟨p, -, a⟩
  · exact a
  · split at a <;> omega

/-- While no `mu_sched_reset` is under way the task comes closer; while one is, no step is entered. -/
theorem retold_ahead {t : CVal} (ht : t ≠ .null) {l : List Seen} (hs : Retold prec off s l s' g) {l1 l2 : List Seen}
    (hl : l1 ++ .did (.fromIsr t) (SErr.val .none) :: l2 = l) (hr : ∀ r, .did .reset r ∉ l2) (hc : firstSeen s.callHook t ∉ l2) :
    (g = .none → Ahead s' t (l2.countP (fun e => e = .step))) ∧ l2.countP (fun e => e = .step) ≤ 7 := by
  have hc2 : firstSeen s.callHook t ≠ .step := by
    generalize s.callHook = x
    cases x <;> simp [firstSeen]
  induction hs generalizing l2 with
  | nil => simp at hl
  | see h0 h1 _ ih =>
    rcases last_entry hl with ⟨rfl, rfl, rfl⟩ | ⟨l2', rfl, hl'⟩
    · exact ⟨fun _ => interrupt_ahead h1, by simp⟩
    · have := see_ahead ht ((ih hl' (fun r h => hr r (by simp [h])) (fun h => hc (by simp [h]))).1 rfl) h1 (fun r h => hr r (by simp [h]))
        (fun h => hc (by rw [← h0.hooks.1, ← h]; simp))
      rw [List.countP_append, List.countP_cons, List.countP_nil]
      simp only [decide_eq_true_eq, Nat.zero_add]
      exact ⟨fun _ => this, ahead_seven this⟩
  | look _ h1 ih =>
    have := look_ahead ((ih hl hr hc).1 rfl) h1
    exact ⟨fun _ => this, ahead_seven this⟩
  | isr h0 h1 ih =>
    rcases last_entry hl with ⟨rfl, rfl, e⟩ | ⟨l2', rfl, hl'⟩
    · rw [← e] at h1
      exact ⟨fun _ => interrupt_ahead h1, by simp⟩
    · obtain ⟨i1, i2⟩ := ih hl' (fun r h => hr r (by simp [h])) (fun h => hc (by simp [h]))
      rw [List.countP_append, List.countP_cons, List.countP_nil]
      simp only [decide_eq_true_eq, Nat.zero_add, reduceCtorEq, if_false, Nat.add_zero]
      refine ⟨fun hg => ?_, i2⟩
      have := see_ahead ht (i1 hg) h1 (by simp) (fun h => hc (by rw [← h0.hooks.1, ← h]; simp))
      simpa using this
  | clear _ _ _ ih => exact ⟨(fun h => nomatch h), (ih hl hr hc).2⟩
  | cleared _ ih => exact ⟨(fun h => nomatch h), (ih hl hr hc).2⟩
  | reset _ ih =>
    rcases last_entry hl with ⟨-, -, e⟩ | ⟨l2', rfl, hl'⟩
    · cases e
    · exact absurd (by simp) (hr .undef)

/-- **C143, an interrupt is answered promptly**: if an interrupt has scheduled a task with success, and no `mu_sched_reset` has returned
since, then by the time the program enters `mu_sched_step` for the eighth time after that, the task has been called - or the
call hook with it, if there is one. -/
theorem C143_prompt (H : Honest A X U prec off) {Y : Ext} {n k : Nat} {r : CVal} {h0 : Heap} (v : h0.SchedVars) (hi : U.inv h0)
    (hl : U.log h0 = []) (hk : U.Hooks h0)
    (e : sem A Y prog (k + 3) .mu_sched_init h0 [] = .ok (r, h)) {a a' : Act CVal} (c : Code (semA A X prog n) U a)
    (run : Steps A X U (a, h) (a', h')) {t : CVal} (ht : t ≠ .null) {l1 l2 : List Seen}
    (hlog : U.log h' = l1 ++ .did (.fromIsr t) (.int 0) :: l2) (hr : ∀ r, .did .reset r ∉ l2) (h8 : 8 ≤ l2.countP (fun e => e = .step)) :
    (if U.callHook = none then .called t else .hooked t) ∈ l2 := by
  obtain ⟨⟨s, g, hs⟩, -⟩ := C143_interrupted H v hi hl hk e c run
  have hh : (if U.callHook = none then .called t else .hooked t) = firstSeen U.start.callHook t := by
    show _ = firstSeen U.callHook.isSome t
    generalize U.callHook = x
    cases x <;> rfl
  rw [hh]
  by_contra hc
  have := (retold_ahead ht hs hlog.symm hr hc).2
  omega

/-! ## What is forgotten -/

/-- The entry of an interrupt. -/
def _root_.Mu.CS.Seen.isr : Seen → Bool
  | .did c _ => c.isr
  | _ => false

/-- Below the innermost step, user code is running. -/
def Inside (l : List Phase) : Prop := ∀ p ∈ l.tail, p.user = true

theorem Inside.user (i : Inside s.steps) (hu : s.user = true) : ∀ p ∈ s.steps, p.user = true := by
  cases hs : s.steps with
  | nil => simp
  | cons p l =>
    rw [hs] at i
    rintro q (_ | ⟨_, hq⟩)
    · simpa [Replay.user, hs] using hu
    · exact i q hq

theorem Inside.tail {p : Phase} {l : List Phase} (i : Inside (p :: l)) : Inside l :=
  fun q hq => i q (List.mem_of_mem_tail hq)

theorem Inside.change {p q : Phase} {l : List Phase} (i : Inside (p :: l)) : Inside (q :: l) := i

theorem see_inside (i : Inside s.steps) {e : Seen} (hs : s.see prec off e = some s') : Inside s'.steps := by
  obtain ⟨σ, st, clk, ch, th⟩ := s
  cases e with
  | did c r =>
    simp only [Replay.see] at hs
    split at hs
    · rename_i hx
      have hfit : (Replay.mk σ st clk ch th).fits c = true := by simp at hx; exact hx.1.2
      obtain rfl : _ = s' := Option.some.inj hs
      rcases after_fits hfit with e | ⟨u, e⟩
      · rw [e]; exact i
      · rw [e] at i; exact i.tail
    · cases hs
  | clock now =>
    simp only [Replay.see] at hs
    split at hs
    · obtain rfl : _ = s' := Option.some.inj hs
      exact i
    · split at hs
      · obtain rfl : _ = s' := Option.some.inj hs
        exact i
      · cases hs
  | step =>
    simp only [Replay.see] at hs
    split at hs
    · rename_i hu
      obtain rfl : _ = s' := Option.some.inj hs
      exact i.user hu
    · cases hs
  | called u =>
    simp only [Replay.see] at hs
    split at hs <;> first | (cases hs; done) | (split at hs <;> first | (cases hs; done) | skip)
    all_goals
      obtain rfl : _ = s' := Option.some.inj hs
      exact i
  | hooked u =>
    simp only [Replay.see] at hs
    split at hs <;> first | (cases hs; done) | (split at hs <;> first | (cases hs; done) | skip)
    obtain rfl : _ = s' := Option.some.inj hs
    exact i
  | transferring u =>
    simp only [Replay.see] at hs
    split at hs
    · rename_i hu
      obtain rfl : _ = s' := Option.some.inj hs
      exact i.user (by simp at hu; exact hu.1)
    · cases hs
  | stepped =>
    simp only [Replay.see] at hs
    split at hs <;> first | (cases hs; done) | skip
    all_goals
      obtain rfl : _ = s' := Option.some.inj hs
      exact i.tail

/-- Call hooks that run, from one entry to the next. -/
theorem see_hooked (t : CVal) {e : Seen} (hs : s.see prec off e = some s') :
    (s.callHook = true → s'.steps.count (.hooked t) + (if e = .called t then 1 else 0) = s.steps.count (.hooked t) + (if e = .hooked t then 1 else 0)) ∧
    (s.callHook = false → s.steps.count (.hooked t) = 0 → s'.steps.count (.hooked t) = 0 ∧ e ≠ .hooked t) := by
  obtain ⟨σ, st, clk, ch, th⟩ := s
  cases e with
  | did c r =>
    simp only [Replay.see] at hs
    split at hs
    · rename_i hx
      have hfit : (Replay.mk σ st clk ch th).fits c = true := by simp at hx; exact hx.1.2
      obtain rfl : _ = s' := Option.some.inj hs
      have := (after_count hfit t).2
      simp only at this
      simp [this]
    · cases hs
  | clock now =>
    simp only [Replay.see] at hs
    split at hs
    · obtain rfl : _ = s' := Option.some.inj hs
      simp [List.count_cons]
    · split at hs
      · obtain rfl : _ = s' := Option.some.inj hs
        simp
      · cases hs
  | step =>
    simp only [Replay.see] at hs
    split at hs
    · obtain rfl : _ = s' := Option.some.inj hs
      simp [List.count_cons]
    · cases hs
  | called u =>
    simp only [Replay.see] at hs
    split at hs
    · split at hs
      · rename_i hc
        obtain rfl : _ = s' := Option.some.inj hs
        obtain rfl : ch = false := by simp at hc; exact hc.2
        simp [List.count_cons]
      · cases hs
    · split at hs
      · rename_i hc
        subst hc
        obtain rfl : _ = s' := Option.some.inj hs
        simp only [List.count_cons, beq_iff_eq, Phase.hooked.injEq, Seen.called.injEq, reduceCtorEq, if_false]
        exact ⟨fun _ => by omega, fun _ h => ⟨by omega, by simp⟩⟩
      · cases hs
    · cases hs
  | hooked u =>
    simp only [Replay.see] at hs
    split at hs
    · split at hs
      · rename_i hc
        obtain rfl : _ = s' := Option.some.inj hs
        obtain rfl : ch = true := by simp at hc; exact hc.2
        simp [List.count_cons]
      · cases hs
    · cases hs
  | transferring u =>
    simp only [Replay.see] at hs
    split at hs
    · obtain rfl : _ = s' := Option.some.inj hs
      simp [List.count_cons]
    · cases hs
  | stepped =>
    simp only [Replay.see] at hs
    split at hs <;> first | (cases hs; done) | skip
    all_goals
      obtain rfl : _ = s' := Option.some.inj hs
      simp [List.count_cons]

theorem look_hooked (t : CVal) (hs : s.look = some s') : s'.steps.count (.hooked t) = s.steps.count (.hooked t) := by
  obtain ⟨σ, st, clk, ch, th⟩ := s
  simp only [Replay.look] at hs
  split at hs
  · split at hs
    all_goals
      obtain rfl : _ = s' := Option.some.inj hs
      simp [List.count_cons]
  · cases hs

theorem look_inside (i : Inside s.steps) (hs : s.look = some s') : Inside s'.steps := by
  obtain ⟨σ, st, clk, ch, th⟩ := s
  simp only [Replay.look] at hs
  split at hs
  · split at hs
    all_goals
      obtain rfl : _ = s' := Option.some.inj hs
      exact i
  · cases hs

theorem isr_steps {t r : CVal} (hs : s.see prec off (.did (.fromIsr t) r) = some s') : s'.steps = s.steps := by
  exact (congrArg Replay.steps (isr_at hs []) : (s'.at []).steps = (s.at []).steps)

/-- How often interrupts have scheduled `t` since anything else was seen. -/
def recent (t : CVal) (l : List Seen) : Nat := (l.reverse.takeWhile Seen.isr).countP (Seen.scheduled t)

theorem recent_isr {t u r : CVal} {l : List Seen} :
    recent t (l ++ [.did (.fromIsr u) r]) = (if (Seen.did (.fromIsr u) r).scheduled t then 1 else 0) + recent t l := by
  simp only [recent, List.reverse_append, List.reverse_cons, List.reverse_nil, List.nil_append, List.singleton_append]
  rw [List.takeWhile_cons_of_pos rfl, List.countP_cons]
  omega

/-- How often the call hook has been called with `t`, and `t` has not been called since. -/
def pending (t : CVal) (l : List Seen) : Nat := l.countP (fun e => e = .hooked t) - l.countP (fun e => e = .called t)

theorem retold_pending {t : CVal} (hst : s.steps = []) {l : List Seen} (hs : Retold prec off s l s' g) :
    (s'.callHook = true → s'.steps.count (.hooked t) + l.countP (fun e => e = .called t) = l.countP (fun e => e = .hooked t)) ∧
    (s'.callHook = false → s'.steps.count (.hooked t) = 0 ∧ l.countP (fun e => e = .hooked t) = 0) := by
  have go : ∀ {s1 s2 : Replay} {l : List Seen} {e : Seen}, s1.see prec off e = some s2 →
      ((s1.callHook = true → s1.steps.count (.hooked t) + l.countP (fun e => e = .called t) = l.countP (fun e => e = .hooked t)) ∧
        (s1.callHook = false → s1.steps.count (.hooked t) = 0 ∧ l.countP (fun e => e = .hooked t) = 0)) →
      (s2.callHook = true → s2.steps.count (.hooked t) + (l ++ [e]).countP (fun e => e = .called t) = (l ++ [e]).countP (fun e => e = .hooked t)) ∧
        (s2.callHook = false → s2.steps.count (.hooked t) = 0 ∧ (l ++ [e]).countP (fun e => e = .hooked t) = 0) := by
    intro s1 s2 l e h ⟨a, b⟩
    obtain ⟨c, d⟩ := see_hooked t h
    rw [(see_hooks h).1]
    simp only [List.countP_append, List.countP_cons, List.countP_nil, decide_eq_true_eq]
    refine ⟨fun x => ?_, fun x => ?_⟩
    · have := a x; have := c x; omega
    · have := b x
      have := d x this.1
      rw [if_neg this.2]
      omega
  induction hs with
  | nil => simp [hst]
  | see _ h1 _ ih => exact go h1 ih
  | look _ h1 ih => rw [(look_hooks h1).1, look_hooked t h1]; exact ih
  | isr _ h1 ih => exact go h1 ih
  | clear _ _ _ ih => exact ih
  | cleared _ ih => exact ih
  | reset _ ih =>
    simp only [List.countP_append, List.countP_cons, List.countP_nil, decide_eq_true_eq, reduceCtorEq, if_false, Nat.add_zero]
    exact ih

theorem retold_hooked {t : CVal} (hst : s.steps = []) {l : List Seen} (hs : Retold prec off s l s' g) : s'.steps.count (.hooked t) = pending t l := by
  obtain ⟨a, b⟩ := retold_pending (t := t) hst hs
  unfold pending
  cases h : s'.callHook with
  | true => have := a h; omega
  | false => have := b h; omega

theorem retold_inside {t : CVal} (hi : s.steps = []) {l : List Seen} (hs : Retold prec off s l s' g) :
    Inside s'.steps ∧ (g ≠ .none → s'.user = true) ∧ (g = .cleared → s'.σ.irq.count t ≤ recent t l) := by
  induction hs with
  | nil => exact ⟨by simp [hi, Inside], by simp, by simp⟩
  | see h0 h1 _ ih => exact ⟨see_inside ih.1 h1, by simp, by simp⟩
  | look _ h1 ih => exact ⟨look_inside ih.1 h1, by simp, by simp⟩
  | isr h0 h1 ih =>
    have hst := isr_steps h1
    refine ⟨by rw [hst]; exact ih.1, fun hg => by rw [Replay.user, hst]; exact ih.2.1 hg, fun hg => ?_⟩
    have := ih.2.2 hg
    rw [recent_isr]
    simp only [Replay.see] at h1
    split at h1
    · rename_i hc
      obtain rfl := Option.some.inj h1
      simp only [Req.answer, Req.isr, Bool.true_or, Bool.true_and, decide_eq_true_eq, Agenda.interrupt] at hc ⊢
      split at hc
      · rename_i hl
        simp only [hl, if_true]
        simp only [List.count_append, List.count_cons, List.count_nil, Seen.scheduled, beq_iff_eq]
        simp only [Replay.fits, Bool.true_and, decide_eq_true_eq] at hc
        simp [hc]
        omega
      · rename_i hl
        simp only [hl, if_false]
        omega
    · cases h1
  | clear _ h1 _ ih => exact ⟨ih.1, fun _ => h1, by simp⟩
  | cleared _ ih => exact ⟨ih.1, fun _ => ih.2.1 (by simp), fun _ => by simp⟩
  | reset _ ih => exact ⟨ih.1, by simp, by simp⟩

theorem retold_forgets {t : CVal} (ht : t ≠ .null) (hi : s.steps = []) (hid : s.σ.idle ≠ t) {l l1 l2 : List Seen} {r : CVal}
    (hs : Retold prec off s l s' g) (hl : l1 ++ .did .reset r :: l2 = l) (he : ∀ r, .did (.setIdle t) r ∉ l) :
    l2.countP (fun e => e = .called t) + s'.sure g t ≤ pending t l1 + recent t l1 + l2.countP (Seen.scheduled t) := by
  induction hs generalizing l2 with
  | nil => simp at hl
  | see h0 h1 h2 ih =>
    rcases last_entry hl with ⟨-, -, e⟩ | ⟨l2', rfl, hl'⟩
    · exact absurd e.symm (h2 r)
    · have he' := fun r hr => he r (List.mem_append_left _ hr)
      have hk := ih hl' he'
      obtain ⟨-, k', hk', -⟩ := see_owed ht h1 (retold_sure ht h0 hid he').1 fun r h' => he r (by simp [h'])
      simp only [Replay.sure, reduceCtorEq, if_false] at hk ⊢
      simp only [List.countP_append, List.countP_cons, List.countP_nil, decide_eq_true_eq]
      omega
  | look _ h1 ih =>
    have hk := ih hl he
    simp only [Replay.sure, reduceCtorEq, if_false] at hk ⊢
    rw [(look_owed t h1).1]
    exact hk
  | isr h0 h1 ih =>
    rcases last_entry hl with ⟨-, -, e⟩ | ⟨l2', rfl, hl'⟩
    · cases e
    · have he' := fun r hr => he r (List.mem_append_left _ hr)
      have hk := ih hl' he'
      obtain ⟨-, k', hk', -⟩ := see_owed ht h1 (retold_sure ht h0 hid he').1 fun r h' => he r (by simp [h'])
      simp only [Replay.sure] at hk ⊢
      simp only [List.countP_append, List.countP_cons, List.countP_nil, decide_eq_true_eq]
      split at hk
      · rename_i hg
        rw [if_pos hg, isr_at h1]
        simp only [reduceCtorEq, if_false] at hk' ⊢
        omega
      · rename_i hg
        rw [if_neg hg]
        omega
  | @clear sb l old _ _ _ ih =>
    have hk := ih hl he
    have := owed_at (s := sb) t
    simp only [Replay.sure, reduceCtorEq, if_false, if_true] at hk ⊢
    show _ + (sb.at []).owed t ≤ _
    omega
  | @cleared sb l _ ih => exact ih hl he
  | @reset sb l h0 ih =>
    obtain ⟨j1, j2, j3⟩ := retold_inside (t := t) hi h0
    simp only [Replay.sure, reduceCtorEq, if_false]
    rcases last_entry hl with ⟨rfl, rfl, -⟩ | ⟨l2', rfl, hl'⟩
    · have hu := j1.user (j2 (by simp))
      have c1 : sb.steps.count (.chosen t) = 0 := List.count_eq_zero.mpr fun hm => by
        cases hu _ hm
      have c2 := retold_hooked (t := t) hi h0
      have := j3 rfl
      simp only [Replay.owed, Agenda.waiting, Agenda.reset, List.countP_nil, List.count_nil, c1, c2]
      omega
    · have hk := ih hl' fun r hr => he r (List.mem_append_left _ hr)
      simp only [Replay.sure, reduceCtorEq, if_false] at hk
      simp only [List.countP_append, List.countP_cons, List.countP_nil, Seen.scheduled, Bool.false_eq_true, if_false, decide_eq_true_eq, reduceCtorEq]
      have : ({ sb with σ := { sb.σ.reset with irq := sb.σ.irq } } : Replay).owed t ≤ sb.owed t := by
        simp only [Replay.owed, Agenda.waiting, Agenda.reset, List.countP_nil, List.count_nil]
        omega
      dsimp only at this ⊢
      omega

/-- **C143, `mu_sched_reset` forgets**: after `mu_sched_reset` has returned, a task that is never the idle task is called at
most as often as it has been scheduled since - or just before, by interrupts after which nothing else was seen - and as often as the
call hook had been called with it, the call itself being outstanding. -/
theorem C143_forgets (H : Honest A X U prec off) {Y : Ext} {n k : Nat} {r : CVal} {h0 : Heap} (v : h0.SchedVars) (hi : U.inv h0)
    (hl : U.log h0 = []) (hk : U.Hooks h0)
    (e : sem A Y prog (k + 3) .mu_sched_init h0 [] = .ok (r, h)) {a a' : Act CVal} (c : Code (semA A X prog n) U a)
    (run : Steps A X U (a, h) (a', h')) {t x : CVal} (ht : t ≠ .null) (hn : ∀ r, .did (.setIdle t) r ∉ U.log h') {l1 l2 : List Seen}
    (hlog : U.log h' = l1 ++ .did .reset x :: l2) :
    l2.countP (fun e => e = .called t) ≤ pending t l1 + (l1.reverse.takeWhile Seen.isr).countP (Seen.scheduled t) + l2.countP (Seen.scheduled t) := by
  obtain ⟨⟨s, g, hs⟩, -⟩ := C143_interrupted H v hi hl hk e c run
  have h1 := retold_forgets ht rfl (by simp [User.start, Replay.start, Ne.symm ht]) hs hlog.symm hn
  have h2 : recent t l1 = (l1.reverse.takeWhile Seen.isr).countP (Seen.scheduled t) := rfl
  omega

/-- When no `mu_sched_reset` has returned and none is under way the log is right in the sense of C134. -/
theorem Retold.replays {l : List Seen} (hs : Retold prec off s l s' g) (hr : ∀ r, .did .reset r ∉ l) (hg : g = .none) : Replays prec off s l s' := by
  induction hs with
  | nil => exact .nil _
  | see _ h1 _ ih => exact .see (ih (fun r h => hr r (List.mem_append_left _ h)) rfl) h1
  | look _ h1 ih => exact .look (ih hr rfl) h1
  | isr _ h1 ih => exact .see (ih (fun r h => hr r (List.mem_append_left _ h)) hg) h1
  | clear => cases hg
  | cleared => cases hg
  | reset => exact absurd (by simp) (hr .undef)

/-- The same since the last `mu_sched_reset`. -/
theorem Retold.last {l l1 l2 : List Seen} {r : CVal} (hs : Retold prec off s l s' g) (hl : l1 ++ .did .reset r :: l2 = l)
    (hr : ∀ r, .did .reset r ∉ l2) (hg : g = .none) :
    ∃ s0, Retold prec off s l1 s0 .cleared ∧ Replays prec off { s0 with σ := { s0.σ.reset with irq := s0.σ.irq } } l2 s' := by
  induction hs generalizing l2 with
  | nil => simp at hl
  | see _ h1 h2 ih =>
    rcases last_entry hl with ⟨-, -, e⟩ | ⟨l2', rfl, hl'⟩
    · exact absurd e.symm (h2 r)
    · obtain ⟨s0, a, b⟩ := ih hl' (fun r h => hr r (List.mem_append_left _ h)) rfl
      exact ⟨s0, a, .see b h1⟩
  | look _ h1 ih =>
    obtain ⟨s0, a, b⟩ := ih hl hr rfl
    exact ⟨s0, a, .look b h1⟩
  | isr _ h1 ih =>
    rcases last_entry hl with ⟨-, -, e⟩ | ⟨l2', rfl, hl'⟩
    · cases e
    · obtain ⟨s0, a, b⟩ := ih hl' (fun r h => hr r (List.mem_append_left _ h)) hg
      exact ⟨s0, a, .see b h1⟩
  | clear => cases hg
  | cleared => cases hg
  | reset h0 =>
    rcases last_entry hl with ⟨rfl, rfl, -⟩ | ⟨l2', rfl, -⟩
    · exact ⟨_, h0, .nil _⟩
    · exact absurd (by simp) (hr .undef)

/-- **C143, nothing else is lost**: when the main program has returned, a task that is never the idle task has been called, since
`mu_sched_reset` last returned, as often as it has been scheduled with success since then, less those that wait and those removed, and plus the calls
outstanding then, whose hook had been called; only
tasks of interrupts that came last before it returned, after which nothing else was seen, may come on top, each at most once. -/
theorem C143_accounts (H : Honest A X U prec off) {Y : Ext} {n k : Nat} {r : CVal} {h0 : Heap} (v : h0.SchedVars) (hi : U.inv h0)
    (hl : U.log h0 = []) (hk : U.Hooks h0)
    (e : sem A Y prog (k + 3) .mu_sched_init h0 [] = .ok (r, h)) {a : Act CVal} (c : Code (semA A X prog n) U a) {y : CVal}
    (run : Steps A X U (a, h) (.done y, h')) {t x : CVal} (ht : t ≠ .null) (hn : ∀ r, .did (.setIdle t) r ∉ U.log h') {l1 l2 : List Seen}
    (hlog : U.log h' = l1 ++ .did .reset x :: l2) (hr : ∀ r, .did .reset r ∉ l2) :
    ∃ s m, Retold prec off U.start (U.log h') s .none ∧ m ≤ (l1.reverse.takeWhile Seen.isr).countP (Seen.scheduled t) ∧
      l2.countP (fun e => e = .called t) + s.σ.waiting t ≤ pending t l1 + m + l2.countP (Seen.scheduled t) ∧
      ((∀ r, .did (.remove t) r ∉ l2) → l2.countP (fun e => e = .called t) + s.σ.waiting t = pending t l1 + m + l2.countP (Seen.scheduled t)) := by
  obtain ⟨s, hs, hst⟩ := C143_finished H v hi hl hk e c run
  obtain ⟨s0, a0, b0⟩ := hs.last hlog.symm hr rfl
  have n1 : ∀ r, .did (.setIdle t) r ∉ l1 := fun r h => hn r (by rw [hlog]; simp [h])
  have n2 : ∀ r, .did (.setIdle t) r ∉ l2 := fun r h => hn r (by rw [hlog]; simp [h])
  obtain ⟨j1, j2, j3⟩ := retold_inside (t := t) rfl a0
  obtain ⟨i1, -⟩ := retold_sure ht a0 (by simp [User.start, Replay.start, Ne.symm ht]) n1
  obtain ⟨-, d, hd, hd0⟩ := replays_owed ht b0 i1 n2
  have hu := j1.user (j2 (by simp))
  have c1 : s0.steps.count (.chosen t) = 0 := List.count_eq_zero.mpr fun hm => by
    cases hu _ hm
  have c2 : s0.steps.count (.hooked t) = pending t l1 := retold_hooked rfl a0
  simp only [Replay.owed, Agenda.waiting, Agenda.reset, List.countP_nil, List.count_nil, c1, c2, hst] at hd
  refine ⟨s, s0.σ.irq.count t, hs, j3 rfl, ?_, fun hm => ?_⟩
  · simp only [Agenda.waiting]; omega
  · have : d = 0 := hd0 fun e he => by
      cases e with
      | did c r =>
        cases c with
        | reset => exact absurd he (hr r)
        | remove u =>
          simp only [Seen.dropped, decide_eq_false_iff_not]
          rintro rfl
          exact hm r he
        | _ => rfl
      | _ => rfl
    simp only [Agenda.waiting]
    omega

/-! ## A program

The main program schedules task 0, calls `mu_sched_reset`, and then `mu_sched_step` nine times.  The functions of the tasks, the
clock and the log are those of `isr_demo`.  An interrupt schedules task 1 after `k` moments: while `mu_sched_reset` empties the
interrupt queue, between that and its return, or during the first step. -/

def rstEntry : Nat → Seen
  | 10 => .did .reset .undef
  | n => isrEntry n

def rstUser : User where
  log h :=
    match h.at (.obj 2) 0 with
    | some (.int n) => (Nat.digits 16 n.toNat).reverse.map rstEntry
    | _ => []
  inv h := (∃ n : Nat, h.at (.obj 2) 0 = some (.int n)) ∧ h.at (.obj 0) 0 = some (.fn 1) ∧ h.at (.obj 1) 0 = some (.fn 2)
  task t := t = .ptr (.obj 0) 0 ∨ t = .ptr (.obj 1) 0
  code _ := True
  callHook := none
  transferHook := none
  resets := true

def rstMain (S : Fn → List CVal → Act CVal) : Act CVal :=
  (S .mu_sched_immed [.ptr (.obj 0) 0]).bind fun r => .mem (isrNote (isrAnswer r)) fun _ =>
    (S .mu_sched_reset []).bind fun _ => .mem (isrNote 10) fun _ => isrSteps S 9

theorem rst_note {d : Nat} (hd : 0 < d) (hd' : d < 16) {e : Seen} (he : rstEntry d = e) : rstUser.Does [e] (isrNote d) := by
  subst he
  rintro h ⟨⟨m, hx⟩, h0, h1⟩
  refine ⟨.undef, h.upd (.obj 2) 0 (.int (d + 16 * (m : Int))), by simp [isrNote, hx], ?_⟩
  have h2 : (h.upd (.obj 2) 0 (.int (d + 16 * (m : Int)))).at (.obj 2) 0 = some (.int ((d + 16 * m : Nat) : Int)) := by
    rw [Heap.at_upd_same rfl (by simp [hx])]; simp
  refine ⟨?_, ⟨⟨_, h2⟩, ?_, ?_⟩, ?_⟩
  · exact Heap.Only.upd (.refl _ _) (by simp [Free, SchedVar])
  · rw [Heap.at_upd_sep (by simp)]; exact h0
  · rw [Heap.at_upd_sep (by simp)]; exact h1
  · simp only [rstUser, hx, h2, Int.toNat_natCast]
    rw [Nat.digits_add 16 (by omega) d m hd' (by omega)]
    simp

theorem rst_honest : Honest .lp64 isrExt rstUser demoPrec demoOff where
  frame := by
    intro h h' o ⟨⟨n, hn⟩, h0, h1⟩
    have := o.cell (.obj 2) 0 (by simp [SchedVar])
    exact ⟨⟨⟨n, this.trans hn⟩, (o.cell _ _ (by simp [SchedVar])).trans h0, (o.cell _ _ (by simp [SchedVar])).trans h1⟩, by simp only [rstUser, this]⟩
  valid := by
    rintro h t ⟨-, h0, h1⟩ (rfl | rfl)
    exacts [⟨_, _, _, rfl, h0, trivial⟩, ⟨_, _, _, rfl, h1, trivial⟩]
  hook := fun _ _ _ e => nomatch e
  transfer := fun _ _ _ e => nomatch e
  task := by
    rintro n f t - (rfl | rfl)
    · exact ⟨_, _, rfl, rst_note (d := 2) (by omega) (by omega) rfl, fun _ => .done _⟩
    · exact ⟨_, _, rfl, rst_note (d := 3) (by omega) (by omega) rfl, fun _ => .done _⟩
  reads := by
    intro h i
    obtain ⟨v, h', e, a⟩ := rst_note (d := 4) (e := .clock (.int 5)) (by omega) (by omega) rfl h i
    refine ⟨.int 5, h', ?_, by simp, a⟩
    show (isrNote 4 h).bind _ = _
    rw [e]
    rfl
  precedes := fun h a b _ _ => rfl
  offset := fun h a d _ _ => rfl
  offsetDef := by
    intro a d ha hd
    simp only [demoOff]
    split <;> simp [ha]

theorem rst_code (S : Fn → List CVal → Act CVal) : Code S rstUser (rstMain S) := by
  have st : ∀ k, Code S rstUser k → Code S rstUser (isrStep S k) := fun k hk =>
    .step (rst_note (by omega) (by omega) rfl) (fun _ => rst_note (by omega) (by omega) rfl) (fun _ _ => hk)
  have sts : ∀ n, Code S rstUser (isrSteps S n) := by
    intro n
    induction n with
    | zero => exact .done _
    | succ n ih => exact st _ ih
  refine Code.call (c := .immed (.ptr (.obj 0) 0)) (.inr (.inl rfl)) (.inl rfl) ?_ fun _ _ _ => ?_
  · rintro r ⟨e, rfl⟩
    cases e
    · exact rst_note (d := 6) (by omega) (by omega) rfl
    · exact rst_note (d := 7) (by omega) (by omega) rfl
    · exact rst_note (d := 8) (by omega) (by omega) rfl
  · refine Code.call (c := .reset) trivial (.inr ⟨rfl, rfl⟩) ?_ fun _ _ _ => sts 9
    rintro r rfl
    exact rst_note (d := 10) (by omega) (by omega) rfl

/-- Initialisation, `k` moments, the interrupt, and the rest. -/
def rstResult (k : Nat) : Option (Heap × Heap) :=
  match sem .lp64 progDemoFns prog 30 .mu_sched_init progDemo [] with
  | .ok (.undef, h1) =>
    let s := isrFor k (rstMain isrSem, h1)
    match isrFor 1000 (isrSem .mu_sched_from_isr [.ptr (.obj 1) 0], s.2) with
    | (.done (.int 0), h2) =>
      match isrNote 9 h2 with
      | .ok (_, h3) =>
        match isrFor 1000 (s.1, h3) with
        | (.done .undef, h4) => if h2.at (.obj 0) 0 = some (.fn 1) ∧ h2.at (.obj 1) 0 = some (.fn 2) then some (h1, h4) else none
        | _ => none
      | _ => none
    | _ => none
  | _ => none

def rstDigits (k : Nat) (n : Int) : Bool :=
  match rstResult k with
  | some (_, h) => decide (h.at (.obj 2) 0 = some (.int n))
  | none => false

theorem rst_lost : rstDigits 27 0x69a145145145145145145145145145 = true := by decide +kernel
theorem rst_kept : rstDigits 30 0x69a135145145145145145145145145 = true := by decide +kernel
theorem rst_after : rstDigits 41 0x6a1935145145145145145145145145 = true := by decide +kernel

/-- What such a run is. -/
def RstRun (h : Heap) : Prop := ∃ h1, sem .lp64 progDemoFns prog 30 .mu_sched_init progDemo [] = .ok (.undef, h1) ∧
  Code isrSem rstUser (rstMain isrSem) ∧ Steps .lp64 isrExt rstUser (rstMain isrSem, h1) (.done .undef, h) ∧
  progDemo.SchedVars ∧ rstUser.inv progDemo ∧ rstUser.log progDemo = [] ∧ rstUser.Hooks progDemo

theorem rst_run {k : Nat} {n : Int} (hd : rstDigits k n = true) : ∃ h, h.at (.obj 2) 0 = some (.int n) ∧ RstRun h := by
  have v : progDemo.SchedVars := by
    refine ⟨rfl, rfl, rfl, rfl, ?_⟩
    rintro b (rfl | rfl | rfl | rfl) <;> decide
  have i : rstUser.inv progDemo := ⟨⟨0, rfl⟩, rfl, rfl⟩
  have l : rstUser.log progDemo = [] := by
    have : progDemo.at (.obj 2) 0 = some (.int 0) := rfl
    simp [rstUser, this]
  unfold rstDigits at hd
  cases hr : rstResult k with
  | none => rw [hr] at hd; cases hd
  | some y =>
    obtain ⟨h1, h⟩ := y
    rw [hr] at hd
    simp only [decide_eq_true_eq] at hd
    unfold rstResult at hr
    split at hr
    · rename_i h1' e1
      simp only at hr
      split at hr
      · rename_i h2 e2
        split at hr
        · rename_i u h3 e3
          split at hr
          · rename_i h4 e4
            split at hr
            · rename_i hf
              obtain ⟨rfl, rfl⟩ := Prod.mk.inj (Option.some.inj hr)
              have s1 : Steps .lp64 isrExt rstUser (rstMain isrSem, h1') (isrFor k (rstMain isrSem, h1')) := isrFor_steps _ _ _ (.nil _)
              generalize isrFor k (rstMain isrSem, h1') = s at *
              have hn : ∃ n : Nat, h2.at (.obj 2) 0 = some (.int n) := by
                unfold isrNote at e3
                split at e3
                · rename_i n hx
                  split at e3
                  · rename_i hp
                    exact ⟨n.toNat, by rw [hx, Int.toNat_of_nonneg hp]⟩
                  · cases e3
                · cases e3
              obtain ⟨_, _, e5, a⟩ := rst_note (d := 9) (by omega) (by omega) rfl h2 ⟨hn, hf⟩
              rw [e3] at e5
              obtain ⟨rfl, rfl⟩ := Prod.mk.inj (Except.ok.inj e5)
              have s2 : Steps .lp64 isrExt rstUser (rstMain isrSem, h1') (s.1, h3) :=
                .snoc s1 (.outside (.isr (n := 30) (.inr (.inr rfl)) (isrFor_out _ _ _ e2) a))
              have s3 := isrFor_steps 1000 _ _ s2
              rw [e4] at s3
              exact ⟨h4, hd, h1', e1, rst_code _, s3, v, i, l, rfl, rfl⟩
            · cases hr
          · cases hr
        · cases hr
      · cases hr
    · cases hr

/-- An interrupt while `mu_sched_reset` empties the interrupt queue: its task is lost, with that of the main program.  The theorems
apply. -/
example : ∃ h, RstRun h ∧ rstUser.log h = [.did (.immed (.ptr (.obj 0) 0)) (.int 0), .did (.fromIsr (.ptr (.obj 1) 0)) (.int 0), .did .reset .undef] ++
      (List.replicate 9 [.step, .clock (.int 5), .stepped]).flatten ∧
    (∃ s, Retold demoPrec demoOff rstUser.start (rstUser.log h) s .none ∧ s.steps = []) := by
  obtain ⟨h, hd, r⟩ := rst_run rst_lost
  refine ⟨h, r, ?_, ?_⟩
  · simp only [rstUser, hd]
    simp [rstEntry, isrEntry, SErr.val, List.replicate]
  · obtain ⟨h1, e, c, run, v, i, l, hk⟩ := r
    exact C143_finished (k := 27) rst_honest v i l hk e c run

/-- An interrupt after `mu_sched_reset` has emptied the interrupt queue, but before it returns: its task stays. -/
example : ∃ h, RstRun h ∧ rstUser.log h = [.did (.immed (.ptr (.obj 0) 0)) (.int 0), .did (.fromIsr (.ptr (.obj 1) 0)) (.int 0), .did .reset .undef,
      .step, .called (.ptr (.obj 1) 0), .stepped] ++ (List.replicate 8 [.step, .clock (.int 5), .stepped]).flatten ∧
    (rstUser.log h).countP (fun e => e = .called (.ptr (.obj 1) 0)) ≤ (rstUser.log h).countP (Seen.scheduled (.ptr (.obj 1) 0)) := by
  obtain ⟨h, hd, r⟩ := rst_run rst_kept
  have hlog : rstUser.log h = [.did (.immed (.ptr (.obj 0) 0)) (.int 0), .did (.fromIsr (.ptr (.obj 1) 0)) (.int 0), .did .reset .undef,
      .step, .called (.ptr (.obj 1) 0), .stepped] ++ (List.replicate 8 [.step, .clock (.int 5), .stepped]).flatten := by
    simp only [rstUser, hd]
    simp [rstEntry, isrEntry, SErr.val, List.replicate]
  refine ⟨h, r, hlog, ?_⟩
  obtain ⟨h1, e, c, run, v, i, l, hk⟩ := r
  refine C143_never_twice (k := 27) rst_honest v i l hk e c run (by simp) fun x hx => ?_
  rw [hlog] at hx
  simp [List.replicate] at hx

/-- In the same run: task 0, scheduled before, is forgotten; task 1 may be called once. -/
example : ∃ h l1 l2, RstRun h ∧ rstUser.log h = l1 ++ .did .reset .undef :: l2 ∧
    l2.countP (fun e => e = .called (.ptr (.obj 0) 0)) ≤ 0 ∧ l2.countP (fun e => e = .called (.ptr (.obj 1) 0)) ≤ 1 ∧
    ∃ s m, Retold demoPrec demoOff rstUser.start (rstUser.log h) s .none ∧ m ≤ 1 ∧
      l2.countP (fun e => e = .called (.ptr (.obj 1) 0)) + s.σ.waiting (.ptr (.obj 1) 0) = m := by
  obtain ⟨h, hd, r⟩ := rst_run rst_kept
  have hlog : rstUser.log h = [.did (.immed (.ptr (.obj 0) 0)) (.int 0), .did (.fromIsr (.ptr (.obj 1) 0)) (.int 0)] ++ .did .reset .undef ::
      ([.step, .called (.ptr (.obj 1) 0), .stepped] ++ (List.replicate 8 [.step, .clock (.int 5), .stepped]).flatten) := by
    simp only [rstUser, hd]
    simp [rstEntry, isrEntry, SErr.val, List.replicate]
  have hr := r
  obtain ⟨h1, e, c, run, v, i, l, hk⟩ := r
  have ne : ∀ t x, .did (.setIdle t) x ∉ rstUser.log h := fun t x hx => by
    rw [hlog] at hx
    simp [List.replicate] at hx
  exact ⟨h, _, _, hr, hlog, C143_forgets (k := 27) rst_honest v i l hk e c run (by simp) (ne _) hlog,
    C143_forgets (k := 27) rst_honest v i l hk e c run (by simp) (ne _) hlog, by
      obtain ⟨s, m, a, b, -, d⟩ := C143_accounts (k := 27) rst_honest v i l hk e c run (t := .ptr (.obj 1) 0) (by simp) (ne _) hlog
        (fun x hx => by simp [List.replicate] at hx)
      exact ⟨s, m, a, b, (d fun x hx => by simp [List.replicate] at hx).trans (by simp [pending, Seen.scheduled, List.replicate])⟩⟩

/-- An interrupt during the first step after `mu_sched_reset`. -/
example : ∃ h l1 l2, RstRun h ∧ rstUser.log h = l1 ++ .did (.fromIsr (.ptr (.obj 1) 0)) (.int 0) :: l2 ∧ .did .reset .undef ∈ l1 ∧
    l2.countP (fun e => e = .step) = 8 ∧ .called (.ptr (.obj 1) 0) ∈ l2 := by
  obtain ⟨h, hd, r⟩ := rst_run rst_after
  have hlog : rstUser.log h = [.did (.immed (.ptr (.obj 0) 0)) (.int 0), .did .reset .undef, .step] ++ .did (.fromIsr (.ptr (.obj 1) 0)) (.int 0) ::
      ([.called (.ptr (.obj 1) 0), .stepped] ++ (List.replicate 8 [.step, .clock (.int 5), .stepped]).flatten) := by
    simp only [rstUser, hd]
    simp [rstEntry, isrEntry, SErr.val, List.replicate]
  refine ⟨h, _, _, r, hlog, by simp, rfl, ?_⟩
  obtain ⟨h1, e, c, run, v, i, l, hk⟩ := r
  refine C143_prompt (k := 27) rst_honest v i l hk e c run (by simp) hlog (fun x hx => ?_) (by decide)
  simp [List.replicate] at hx

/-! ## A call hook that resets

The call hook calls `mu_sched_reset`.  The main program schedules task 0 and calls `mu_sched_step` nine times; during the
`mu_sched_reset` of the first call hook there is an interrupt. -/

def rhEntry : Nat → Seen
  | 18 => .did .reset .undef
  | n => hookEntry n

def rhCode (d : Nat) (S : Fn → List CVal → Act CVal) : Act CVal :=
  .mem (hookNote d) fun _ => (S .mu_sched_reset []).bind fun _ => .mem (hookNote 18) fun _ => .done .undef

def rhExt : AExt where
  fn f h args :=
    match f, args with
    | .mu_time_precedes, [a, b] => .ok (.ofBool (demoPrec a b), h)
    | .mu_time_offset, [a, b] => .ok (demoOff a b, h)
    | .mu_time_now, [] => do
      let (_, h) ← hookNote 4 h
      .ok (.int 5, h)
    | _, _ => .error .ptr
  cb S k args :=
    match k, args with
    | 3, [.ptr (.obj 0) 0] => rhCode 10 S
    | 3, [.ptr (.obj 1) 0] => rhCode 15 S
    | _, [.ptr (.obj 0) 0] => .mem (hookNote 2) fun _ => .done .undef
    | _, [.ptr (.obj 1) 0] => .mem (hookNote 3) fun _ => .done .undef
    | _, _ => .fail .oob

def rhMain (S : Fn → List CVal → Act CVal) : Act CVal :=
  (S .mu_sched_immed [.ptr (.obj 0) 0]).bind fun r => .mem (hookNote (isrAnswer r)) fun _ => hookSteps S 9

def rhUser : User where
  log h :=
    match h.at (.obj 2) 0 with
    | some (.int n) => (Nat.digits 32 n.toNat).reverse.map rhEntry
    | _ => []
  inv := isrUser.inv
  task := isrUser.task
  code f := f = 1 ∨ f = 2
  callHook := some 3
  transferHook := none
  resets := true

theorem rh_note {d : Nat} (hd : 0 < d) (hd' : d < 32) {e : Seen} (he : rhEntry d = e) : rhUser.Does [e] (hookNote d) := by
  subst he
  rintro h ⟨⟨m, hx⟩, h0, h1⟩
  refine ⟨.undef, h.upd (.obj 2) 0 (.int (d + 32 * (m : Int))), by simp [hookNote, hx], ?_⟩
  have h2 : (h.upd (.obj 2) 0 (.int (d + 32 * (m : Int)))).at (.obj 2) 0 = some (.int ((d + 32 * m : Nat) : Int)) := by
    rw [Heap.at_upd_same rfl (by simp [hx])]; simp
  refine ⟨?_, ⟨⟨_, h2⟩, ?_, ?_⟩, ?_⟩
  · exact Heap.Only.upd (.refl _ _) (by simp [Free, SchedVar])
  · rw [Heap.at_upd_sep (by simp)]; exact h0
  · rw [Heap.at_upd_sep (by simp)]; exact h1
  · simp only [rhUser, hx, h2, Int.toNat_natCast]
    rw [Nat.digits_add 32 (by omega) d m hd' (by omega)]
    simp

theorem rh_reset (S : Fn → List CVal → Act CVal) : Code S rhUser
    ((S .mu_sched_reset []).bind fun _ => .mem (hookNote 18) fun _ => .done .undef) := by
  refine Code.call (c := .reset) trivial (.inr ⟨rfl, rfl⟩) ?_ fun _ _ _ => .done _
  rintro r rfl
  exact rh_note (d := 18) (by omega) (by omega) rfl

theorem rh_honest : Honest .lp64 rhExt rhUser demoPrec demoOff where
  frame := by
    intro h h' o ⟨⟨n, hn⟩, h0, h1⟩
    have := o.cell (.obj 2) 0 (by simp [SchedVar])
    exact ⟨⟨⟨n, this.trans hn⟩, (o.cell _ _ (by simp [SchedVar])).trans h0, (o.cell _ _ (by simp [SchedVar])).trans h1⟩, by simp only [rhUser, this]⟩
  valid := by
    rintro h t ⟨-, h0, h1⟩ (rfl | rfl)
    exacts [⟨_, _, _, rfl, h0, .inl rfl⟩, ⟨_, _, _, rfl, h1, .inr rfl⟩]
  task := by
    rintro n f t (rfl | rfl) (rfl | rfl)
    · exact ⟨_, _, rfl, rh_note (d := 2) (by omega) (by omega) rfl, fun _ => .done _⟩
    · exact ⟨_, _, rfl, rh_note (d := 3) (by omega) (by omega) rfl, fun _ => .done _⟩
    · exact ⟨_, _, rfl, rh_note (d := 2) (by omega) (by omega) rfl, fun _ => .done _⟩
    · exact ⟨_, _, rfl, rh_note (d := 3) (by omega) (by omega) rfl, fun _ => .done _⟩
  hook := by
    intro n f t e ht
    obtain rfl : 3 = f := Option.some.inj e
    rcases ht with rfl | rfl
    · exact ⟨_, _, rfl, rh_note (d := 10) (by omega) (by omega) rfl, fun _ => rh_reset _⟩
    · exact ⟨_, _, rfl, rh_note (d := 15) (by omega) (by omega) rfl, fun _ => rh_reset _⟩
  transfer := fun _ _ _ e => nomatch e
  reads := by
    intro h i
    obtain ⟨v, h', e, a⟩ := rh_note (d := 4) (e := .clock (.int 5)) (by omega) (by omega) rfl h i
    refine ⟨.int 5, h', ?_, by simp, a⟩
    show (hookNote 4 h).bind _ = _
    rw [e]
    rfl
  precedes := fun h a b _ _ => rfl
  offset := fun h a d _ _ => rfl
  offsetDef := isr_honest.offsetDef

theorem rh_code (S : Fn → List CVal → Act CVal) : Code S rhUser (rhMain S) := by
  have st : ∀ k, Code S rhUser k → Code S rhUser (hookStep S k) := fun k hk =>
    .step (rh_note (by omega) (by omega) rfl) (fun _ => rh_note (by omega) (by omega) rfl) (fun _ _ => hk)
  have sts : ∀ n, Code S rhUser (hookSteps S n) := by
    intro n
    induction n with
    | zero => exact .done _
    | succ n ih => exact st _ ih
  refine Code.call (c := .immed (.ptr (.obj 0) 0)) (.inr (.inl rfl)) (.inl rfl) ?_ fun _ _ _ => sts 9
  rintro r ⟨e, rfl⟩
  cases e
  · exact rh_note (d := 6) (by omega) (by omega) rfl
  · exact rh_note (d := 7) (by omega) (by omega) rfl
  · exact rh_note (d := 8) (by omega) (by omega) rfl

abbrev rhSem : Fn → List CVal → Act CVal := semA .lp64 rhExt prog 30

/-- The call hook is installed by the function of mu_task.c; then initialisation, `k` moments, the interrupt, and the rest. -/
def rhResult (k : Nat) : Option (Heap × Heap) :=
  match sem .lp64 progDemoFns prog 30 .mu_task_install_call_hook progDemo [.fn 3] with
  | .ok (.undef, h0) =>
    match sem .lp64 progDemoFns prog 30 .mu_sched_init h0 [] with
    | .ok (.undef, h1) =>
      let s := isrFor k (rhMain rhSem, h1)
      match isrFor 1000 (rhSem .mu_sched_from_isr [.ptr (.obj 1) 0], s.2) with
      | (.done (.int 0), h2) =>
        match hookNote 9 h2 with
        | .ok (_, h3) =>
          match isrFor 1000 (s.1, h3) with
          | (.done .undef, h4) => if h2.at (.obj 0) 0 = some (.fn 1) ∧ h2.at (.obj 1) 0 = some (.fn 2) then some (h1, h4) else none
          | _ => none
        | _ => none
      | _ => none
    | _ => none
  | _ => none

theorem rh_result : (match rhResult 80 with
    | some (_, h) => decide (h.at (.obj 2) 0 = some (.int 0xc1229321142f90ca12142428485090a12142428485))
    | none => false) = true := by decide +kernel

theorem rh_start {r : CVal} {h0 : Heap} (e : sem .lp64 progDemoFns prog 30 .mu_task_install_call_hook progDemo [.fn 3] = .ok (r, h0)) :
    h0 = progDemo.upd (.glob .s_call_hook) 0 (.fn 3) := by
  have h : sem .lp64 progDemoFns prog 30 .mu_task_install_call_hook progDemo [.fn 3] =
      .ok (.undef, progDemo.upd (.glob .s_call_hook) 0 (.fn 3)) := by rfl
  rw [h] at e
  exact (Prod.mk.inj (Except.ok.inj e)).2.symm

/-- An interrupt during the `mu_sched_reset` of a call hook: task 0, whose hook it is, is called nevertheless, and task 1 afterwards.  The
theorems apply. -/
example : ∃ h0 h1 h l1 l2, sem .lp64 progDemoFns prog 30 .mu_sched_init h0 [] = .ok (.undef, h1) ∧ rhUser.Hooks h0 ∧
    Code rhSem rhUser (rhMain rhSem) ∧ Steps .lp64 rhExt rhUser (rhMain rhSem, h1) (.done .undef, h) ∧
    rhUser.log h = l1 ++ .did .reset .undef :: l2 ∧ .hooked (.ptr (.obj 0) 0) ∈ l1 ∧ .called (.ptr (.obj 0) 0) ∈ l2 ∧
    .called (.ptr (.obj 1) 0) ∈ l2 ∧
    l2.countP (fun e => e = .called (.ptr (.obj 0) 0)) ≤ 1 ∧ l2.countP (fun e => e = .called (.ptr (.obj 1) 0)) ≤ 1 ∧
    ∃ s, Retold demoPrec demoOff rhUser.start (rhUser.log h) s .none ∧ s.steps = [] := by
  have k := rh_result
  cases hr : rhResult 80 with
  | none => rw [hr] at k; cases k
  | some y =>
    obtain ⟨h1, h⟩ := y
    rw [hr] at k
    simp only [decide_eq_true_eq] at k
    unfold rhResult at hr
    split at hr
    · rename_i h0 e0
      have v : h0.SchedVars := by
        rw [rh_start e0]
        refine ⟨rfl, rfl, rfl, rfl, ?_⟩
        rintro b (rfl | rfl | rfl | rfl) <;> decide
      have i : rhUser.inv h0 := by rw [rh_start e0]; exact ⟨⟨0, rfl⟩, rfl, rfl⟩
      have l : rhUser.log h0 = [] := by
        have : h0.at (.obj 2) 0 = some (.int 0) := by rw [rh_start e0]; rfl
        simp [rhUser, this]
      have hk : rhUser.Hooks h0 := by rw [rh_start e0]; exact ⟨rfl, rfl⟩
      split at hr
      · rename_i h1' e1
        simp only at hr
        split at hr
        · rename_i h2 e2
          split at hr
          · rename_i u h3 e3
            split at hr
            · rename_i h4 e4
              split at hr
              · rename_i hf
                obtain ⟨rfl, rfl⟩ := Prod.mk.inj (Option.some.inj hr)
                have s1 : Steps .lp64 rhExt rhUser (rhMain rhSem, h1') (isrFor 80 (rhMain rhSem, h1')) := isrFor_steps _ _ _ (.nil _)
                generalize isrFor 80 (rhMain rhSem, h1') = s at *
                have hn : ∃ n : Nat, h2.at (.obj 2) 0 = some (.int n) := by
                  unfold hookNote at e3
                  split at e3
                  · rename_i n hx
                    split at e3
                    · rename_i hp
                      exact ⟨n.toNat, by rw [hx, Int.toNat_of_nonneg hp]⟩
                    · cases e3
                  · cases e3
                obtain ⟨_, _, e5, a⟩ := rh_note (d := 9) (by omega) (by omega) rfl h2 ⟨hn, hf⟩
                rw [e3] at e5
                obtain ⟨rfl, rfl⟩ := Prod.mk.inj (Except.ok.inj e5)
                have s2 : Steps .lp64 rhExt rhUser (rhMain rhSem, h1') (s.1, h3) :=
                  .snoc s1 (.outside (.isr (n := 30) (.inr (.inr rfl)) (isrFor_out _ _ _ e2) a))
                have s3 := isrFor_steps 1000 _ _ s2
                rw [e4] at s3
                have hlog : rhUser.log h4 = [.did (.immed (.ptr (.obj 0) 0)) (.int 0), .step, .clock (.int 5), .hooked (.ptr (.obj 0) 0),
                    .did (.fromIsr (.ptr (.obj 1) 0)) (.int 0)] ++ .did .reset .undef ::
                    ([.called (.ptr (.obj 0) 0), .stepped, .step, .hooked (.ptr (.obj 1) 0), .did .reset .undef, .called (.ptr (.obj 1) 0), .stepped] ++
                    (List.replicate 7 [.step, .clock (.int 5), .stepped]).flatten) := by
                  simp only [rhUser, k]
                  simp [rhEntry, hookEntry, isrEntry, SErr.val, List.replicate]
                have ne : ∀ t x, .did (.setIdle t) x ∉ rhUser.log h4 := fun t x hx => by
                  rw [hlog] at hx
                  simp [List.replicate] at hx
                exact ⟨h0, h1', h4, _, _, e1, hk, rh_code _, s3, hlog, by simp, by simp, by simp,
                  C143_forgets (k := 27) rh_honest v i l hk e1 (rh_code _) s3 (by simp) (ne _) hlog,
                  C143_forgets (k := 27) rh_honest v i l hk e1 (rh_code _) s3 (by simp) (ne _) hlog,
                  C143_finished (k := 27) rh_honest v i l hk e1 (rh_code _) s3⟩
              · cases hr
            · cases hr
          · cases hr
        · cases hr
      · cases hr
    · cases hr

end Mu.CS.Isr
