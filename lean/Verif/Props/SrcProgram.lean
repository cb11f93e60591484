import Verif.Spec.SrcProgram
import Verif.Lemmas.SrcFuel
import Verif.Props.SrcSched
import Mathlib.Data.Nat.Digits.Defs

/-! # C131: programs around the scheduler, from the parsed source

mu_sched.c, mu_spsc.c, mu_queue.c and mu_task.c as parsed, with arbitrary user code that keeps a log. -/

namespace Mu.CS

variable {A : Arch} {X : Ext} {U : User} {prec : CVal → CVal → Bool} {off : CVal → CVal → CVal}

/-! ## More steps -/

/-- **C131, the bound on steps is immaterial**: a call that has a result within `n` steps has the same result within more. -/
theorem C131_steps (hX : X.Monotone) {n m : Nat} (h : n ≤ m) {f : Fn} {hp : Heap} {args : List CVal} {r : C (CVal × Heap)}
    (e : sem A X prog n f hp args = r) (hr : r ≠ .error .diverge) : sem A X prog m f hp args = r := by
  rcases sem_mono (A := A) (prog := prog) hX h f hp args with k | k
  · exact absurd (e.symm.trans k) hr
  · rw [k, e]

theorem sem_ok (hX : X.Monotone) {n m : Nat} (h : n ≤ m) {f : Fn} {hp : Heap} {args : List CVal} {r : CVal × Heap}
    (e : sem A X prog n f hp args = .ok r) : sem A X prog m f hp args = .ok r :=
  C131_steps hX h e (by simp)

theorem Req.call_more (hX : X.Monotone) {n m : Nat} (hn : n ≤ m) {h : Heap} {c : Req} {r : CVal × Heap}
    (e : c.call (sem A X prog n) h = .ok r) : c.call (sem A X prog m) h = .ok r := by
  cases c <;> exact sem_ok hX hn e

/-! ## Replaying -/

theorem replay_append {s s' : Replay} {l l' : List Seen} (h : replay prec off s l = some s') :
    replay prec off s (l ++ l') = replay prec off s' l' := by
  induction l generalizing s with
  | nil => simp only [replay, Option.some.injEq] at h; subst h; rfl
  | cons e l ih =>
    simp only [replay, List.cons_append] at h ⊢
    cases hs : s.see prec off e with
    | none => rw [hs] at h; cases h
    | some s1 => rw [hs] at h; exact ih h

theorem replay_one {s s' s'' : Replay} {l : List Seen} {e : Seen} (h : replay prec off s l = some s') (k : s'.see prec off e = some s'') :
    replay prec off s (l ++ [e]) = some s'' := by
  rw [replay_append h]
  simp [replay, k]

/-! ## The log and the agenda in memory agree -/

/-- The log of memory `h` is right up to now and leads to the agenda in memory. -/
structure At (U : User) (prec : CVal → CVal → Bool) (off : CVal → CVal → CVal) (s : Replay) (h : Heap) : Prop where
  log : replay prec off .start (U.log h) = some s
  sched : ∃ hd ix, h.Scheduler hd ix s.σ
  inv : U.inv h
  hook : h.at (.glob .s_call_hook) 0 = some .null
  transfer : h.at (.glob .s_transfer_hook) 0 = some .null

variable {s s' : Replay} {h h' : Heap}

theorem At.adds (a : At U prec off s h) {es : List Seen} (k : U.Adds es h h') (hs : replay prec off s es = some s') (hσ : s'.σ = s.σ) :
    At U prec off s' h' := by
  obtain ⟨hd, ix, q⟩ := a.sched
  refine ⟨?_, ?_, k.inv, ?_, ?_⟩
  · rw [k.log, replay_append a.log, hs]
  · rw [hσ]
    exact C128_frame q (k.only.mono fun b o hb => hb.1)
  · rw [k.only.cell _ _ (fun hb => hb.2.1 rfl)]; exact a.hook
  · rw [k.only.cell _ _ (fun hb => hb.2.2 rfl)]; exact a.transfer

/-- The library changes its variables. -/
theorem At.lib (hu : Honest A X U prec off) (a : At U prec off s h) (o : Heap.Only (fun b _ => SchedVar b) h h') {σ : Agenda} {hd ix : Nat}
    (q : h'.Scheduler hd ix σ) : U.inv h' ∧ U.log h' = U.log h ∧ h'.at (.glob .s_call_hook) 0 = some .null ∧
      h'.at (.glob .s_transfer_hook) 0 = some .null := by
  obtain ⟨i, l⟩ := hu.frame _ _ o a.inv
  refine ⟨i, l, ?_, ?_⟩
  · rw [o.cell _ _ (by simp [SchedVar])]; exact a.hook
  · rw [o.cell _ _ (by simp [SchedVar])]; exact a.transfer

/-- A call, and the entry in the log. -/
theorem At.call (hu : Honest A X U prec off) (a : At U prec off s h) (hs : s.user = true) {n : Nat} {c : Req} (hc : c.Defined) {r : CVal} {h1 h2 : Heap}
    (e : c.call (sem A X prog n) h = .ok (r, h1)) (k : U.Adds [.did c r] h1 h2) :
    ∃ s', At U prec off s' h2 ∧ s'.steps = s.steps := by
  replace e := Req.call_more hu.mono (show n ≤ n + 30 by omega) e
  obtain ⟨hd, ix, q⟩ := a.sched
  -- what remains to be shown of each function
  suffices hq : ∃ s1 : Replay, replay prec off .start (U.log h1) = some s1 ∧ s1.steps = s.steps ∧
      (∃ hd ix, h1.Scheduler hd ix (c.answer prec off s1.clock s1.σ).2) ∧ r = (c.answer prec off s1.clock s1.σ).1 ∧
      h1.at (.glob .s_call_hook) 0 = some .null ∧ h1.at (.glob .s_transfer_hook) 0 = some .null by
    obtain ⟨s1, l1, st1, ⟨hd1, ix1, q1⟩, hr, k1, k2⟩ := hq
    have hu1 : s1.user = true := by simpa [Replay.user, st1] using hs
    refine ⟨{ s1 with σ := (c.answer prec off s1.clock s1.σ).2 }, ⟨?_, ?_, k.inv, ?_, ?_⟩, st1⟩
    · rw [k.log]
      exact replay_one l1 (by simp [Replay.see, hu1, hr])
    · exact C128_frame q1 (k.only.mono fun b o hb => hb.1)
    · rw [k.only.cell _ _ (fun hb => hb.2.1 rfl)]; exact k1
    · rw [k.only.cell _ _ (fun hb => hb.2.2 rfl)]; exact k2
  -- the functions that leave the clock alone
  have simple : ∀ {v : CVal} {h' : Heap} {σ : Agenda} {hd ix : Nat}, c.call (sem A X prog (n + 30)) h = .ok (v, h') →
      h'.Scheduler hd ix σ → Heap.Only (fun b _ => SchedVar b) h h' → σ = (c.answer prec off s.clock s.σ).2 →
      v = (c.answer prec off s.clock s.σ).1 →
      ∃ s1 : Replay, replay prec off .start (U.log h1) = some s1 ∧ s1.steps = s.steps ∧
      (∃ hd ix, h1.Scheduler hd ix (c.answer prec off s1.clock s1.σ).2) ∧ r = (c.answer prec off s1.clock s1.σ).1 ∧
      h1.at (.glob .s_call_hook) 0 = some .null ∧ h1.at (.glob .s_transfer_hook) 0 = some .null := by
    intro v h' σ hd ix e' q' o' e1 e2
    rw [e] at e'
    obtain ⟨rfl, rfl⟩ := Prod.mk.inj (Except.ok.inj e')
    obtain ⟨i1, i2, i3, i4⟩ := a.lib hu o' q'
    exact ⟨s, by rw [i2]; exact a.log, rfl, ⟨hd, ix, e1 ▸ q'⟩, e2, i3, i4⟩
  cases c with
  | immed t =>
    obtain ⟨h', hd', ix', f1, f2, f3⟩ := C128_immed A X (n + 27) q hc
    exact simple f1 f2 f3 rfl rfl
  | transfer t =>
    obtain ⟨tr, -⟩ := C128_transfer (hd := hd) (ix := ix) (σ := s.σ) A X (n + 26) (k := .null) trivial hc a.transfer
    obtain ⟨h', hd', ix', f1, f2, f3⟩ := tr h rfl q
    exact simple f1 f2 f3 rfl rfl
  | fromIsr t =>
    obtain ⟨h', hd', ix', f1, f2, f3⟩ := C128_from_isr A X (n + 28) q hc
    exact simple f1 f2 f3 rfl rfl
  | deferUntil t time =>
    obtain ⟨h', hd', ix', f1, f2, f3⟩ := C128_defer_until A (n + 7) hu.clock q hc.1 hc.2
    exact simple f1 f2 f3 rfl rfl
  | deferFor t delay =>
    obtain ⟨now, hN, c1, c2, c3⟩ := hu.clock.now h
    have ad := hu.reads _ _ _ a.inv c1
    obtain ⟨h', hd', ix', f1, f2, f3⟩ := C128_defer_for A (n + 7) hu.clock q hc.1 hc.2 c1
    have e' : Req.call (sem A X prog (n + 30)) h (.deferFor t delay) = .ok _ := f1
    rw [e] at e'
    obtain ⟨rfl, rfl⟩ := Prod.mk.inj (Except.ok.inj e')
    have hl : s.see prec off (.clock now) = some { s with clock := now } := by
      simp only [Replay.see]
      split
      · rename_i l hx
        simp [Replay.user, hx] at hs
      · rw [if_pos hs]
    have a1 : At U prec off { s with clock := now } hN := a.adds ad (by simp [replay, hl]) rfl
    obtain ⟨i1, i2, i3, i4⟩ := a1.lib hu f3 f2
    exact ⟨{ s with clock := now }, by rw [i2]; exact a1.log, rfl, ⟨hd', ix', f2⟩, rfl, i3, i4⟩
  | remove t =>
    obtain ⟨h', hd', ix', f1, f2, f3⟩ := C128_remove A X (n + 8) q hc
    exact simple f1 f2 f3 rfl rfl
  | reset =>
    obtain ⟨h', hd', ix', f1, f2, f3⟩ := C128_reset A X (n + 28) q
    exact simple f1 f2 f3 rfl rfl
  | setIdle t =>
    obtain ⟨h', hd', ix', f1, f2, f3⟩ := C128_set_idle A X (n + 29) q hc
    exact simple f1 f2 f3 rfl rfl
  | getIdle => exact simple (C128_questions A X (n + 29) q .null).2.1 q (Heap.Only.refl _ _) rfl rfl
  | current => exact simple (C128_questions A X (n + 29) q .null).1 q (Heap.Only.refl _ _) rfl rfl
  | next => exact simple (C128_questions A X (n + 28) q .null).2.2.1 q (Heap.Only.refl _ _) rfl rfl
  | wait t => exact simple (C128_questions A X (n + 29) q t).2.2.2 q (Heap.Only.refl _ _) rfl rfl

/-- If `mu_task_call` returns, there being no hook, then the task was NULL or its function has returned. -/
theorem task_call_inv {n : Nat} {t r : CVal} (hh : h.at (.glob .s_call_hook) 0 = some .null)
    (e : sem A X prog (n + 1) .mu_task_call h [t] = .ok (r, h')) :
    (t = .null ∧ h' = h) ∨ ∃ f v, t ≠ .null ∧ X.cb (sem A X prog n) f h [t] = .ok (v, h') := by
  rw [sem_succ (d := Src.mu_task_call) rfl, FunDef.run_regs rfl rfl] at e
  generalize sem A X prog n = S at *
  cases t with
  | null =>
    left
    simp [csrc, Src.mu_task_call] at e
    exact ⟨rfl, e.2.symm⟩
  | ptr b o =>
    right
    cases hf : h.at b o with
    | none => simp [csrc, Src.mu_task_call, hh, hf] at e
    | some v =>
      cases v with
      | fn f =>
        cases hx : X.cb S f h [.ptr b o] with
        | error => simp [csrc, Src.mu_task_call, hh, hf, hx] at e
        | ok y =>
          obtain ⟨v, h2⟩ := y
          simp [csrc, Src.mu_task_call, hh, hf, hx] at e
          exact ⟨f, v, by simp, by rw [hx, e.2]⟩
      | _ => simp [csrc, Src.mu_task_call, hh, hf, CVal.use] at e
  | undef => simp [csrc, Src.mu_task_call, CVal.use] at e
  | _ => simp [csrc, Src.mu_task_call, COp.runPtr, hh, Except.bind, CVal.ofBool] at e

/-- What holds of user code that may use `n` steps. -/
def UserOk (A : Arch) (X : Ext) (U : User) (prec : CVal → CVal → Bool) (off : CVal → CVal → CVal) (n : Nat) : Prop :=
  ∀ {s : Replay} {h h' : Heap}, UserRun (sem A X prog n) U h h' → At U prec off s h → s.user = true →
    ∃ s', At U prec off s' h' ∧ s'.steps = s.steps

/-- A step, up to the call of the task; the user functions may be any (`Y`). -/
theorem At.about (hu : Honest A X U prec off) {Y : Ext} (hY : Y.fn = X.fn) (n : Nat) {h1 : Heap} (a : At U prec off s h)
    (hs : s.user = true) (k1 : U.Adds [.step] h h1) : ∃ hA σ' clk, At U prec off ⟨σ', .chosen σ'.cur :: s.steps, clk⟩ hA ∧
      sem A Y prog (n + 4) .mu_sched_step h1 [] = (do
        let (_, h2) ← sem A Y prog (n + 3) .mu_task_call hA [σ'.cur]
        let h3 ← h2.store (.ptr (.glob .s_sched) 9) .null
        .ok (.undef, h3)) := by
  have hX : Clock Y prec off := by
    have := hu.clock
    refine ⟨?_, ?_, this.offsetDef, ?_⟩ <;> rw [hY]
    exacts [this.precedes, this.offset, this.now]
  obtain ⟨hd, ix, q⟩ := a.sched
  obtain ⟨hd1, ix1, q1⟩ := C128_frame q (k1.only.mono fun b o hb => hb.1)
  have t1 : h1.at (.glob .s_call_hook) 0 = some .null := by
    rw [k1.only.cell _ _ (fun hb => hb.2.1 rfl)]; exact a.hook
  have t2 : h1.at (.glob .s_transfer_hook) 0 = some .null := by
    rw [k1.only.cell _ _ (fun hb => hb.2.2 rfl)]; exact a.transfer
  obtain ⟨hA, hd', ix', σ', qA, eA, cA, cB⟩ := C128_step A n hX q1
  refine ⟨hA, σ', ?_⟩
  cases hi : s.σ.irq with
  | cons t l =>
    obtain ⟨rfl, o⟩ := cA t l hi
    obtain ⟨i, l'⟩ := hu.frame _ _ o k1.inv
    refine ⟨s.clock, ⟨?_, ⟨hd', ix', qA⟩, i, ?_, ?_⟩, eA⟩
    · rw [l', k1.log]
      exact replay_one a.log (by simp [Replay.see, hs, hi])
    · rw [o.cell _ _ (by simp [SchedVar])]; exact t1
    · rw [o.cell _ _ (by simp [SchedVar])]; exact t2
  | nil =>
    obtain ⟨now, hB, hC, c1, o1, o2, rfl⟩ := cB hi
    rw [hY] at c1
    obtain ⟨iB, lB⟩ := hu.frame _ _ o1 k1.inv
    have ad := hu.reads _ _ _ iB c1
    obtain ⟨iA, lA⟩ := hu.frame _ _ o2 ad.inv
    refine ⟨now, ⟨?_, ⟨hd', ix', qA⟩, iA, ?_, ?_⟩, eA⟩
    · rw [lA, ad.log, lB, k1.log]
      refine replay_one (replay_one (s'' := ⟨s.σ, .looking :: s.steps, s.clock⟩) a.log (by simp [Replay.see, hs, hi])) ?_
      simp [Replay.see]
    · rw [o2.cell _ _ (by simp [SchedVar]), ad.only.cell _ _ (fun hb => hb.2.1 rfl), o1.cell _ _ (by simp [SchedVar])]; exact t1
    · rw [o2.cell _ _ (by simp [SchedVar]), ad.only.cell _ _ (fun hb => hb.2.2 rfl), o1.cell _ _ (by simp [SchedVar])]; exact t2

/-- A step: from the memory in which it is called to the memory in which it has returned. -/
theorem At.step (hu : Honest A X U prec off) {n : Nat} (ih : UserOk A X U prec off n) {r : CVal} {h1 h2 h3 : Heap} (a : At U prec off s h)
    (hs : s.user = true) (k1 : U.Adds [.step] h h1) (e : sem A X prog (n + 1) .mu_sched_step h1 [] = .ok (r, h2))
    (k3 : U.Adds [.stepped] h2 h3) : ∃ s', At U prec off s' h3 ∧ s'.steps = s.steps := by
  -- the step with user functions that may use `n` steps
  have e' := (sem_frozen (A := A) (prog := prog) hu.mono (Nat.le_refl (n + 1)) (show n + 1 ≤ n + 4 by omega) .mu_sched_step h1 []).ok e
  obtain ⟨hA, σ', clk, aA, eA⟩ := a.about hu (Y := X.frozen A prog n) rfl n hs k1
  -- the task, if any
  rw [eA] at e'
  obtain ⟨⟨v, hT⟩, eT, e'⟩ := C.bind_eq_ok e'
  obtain ⟨s2, aT, hs2⟩ : ∃ s2, At U prec off s2 hT ∧
      (s2.steps = .chosen .null :: s.steps ∨ s2.steps = .running :: s.steps) := by
    rcases task_call_inv aA.hook eT with ⟨hc, rfl⟩ | ⟨f, w, hc, eF⟩
    · exact ⟨_, aA, .inl (by simp [hc])⟩
    · have eF' : X.cb (sem A X prog n) f hA [σ'.cur] = .ok (w, hT) := eF
      obtain ⟨t, hA1, ht, ad, ur⟩ := hu.task _ _ _ _ _ _ aA.inv eF'
      obtain rfl : σ'.cur = t := by simpa using ht
      have aA1 : At U prec off ⟨σ', .running :: s.steps, clk⟩ hA1 := aA.adds ad (by simp [replay, Replay.see, hc]) rfl
      obtain ⟨s2, aT, h2⟩ := ih ur aA1 (by simp [Replay.user])
      exact ⟨s2, aT, .inr h2⟩
  -- and back
  obtain ⟨hdT, ixT, qT⟩ := aT.sched
  obtain ⟨h4, hd4, ix4, g1, g2, g3⟩ := C128_return qT
  have e4 : h4 = h2 := by
    simp only [g1] at e'
    exact (Prod.mk.inj (Except.ok.inj e')).2
  subst e4
  obtain ⟨i1, i2, i3, i4⟩ := aT.lib hu g3 g2
  refine ⟨⟨{ s2.σ with cur := .null }, s.steps, s2.clock⟩, ⟨?_, C128_frame g2 (k3.only.mono fun b o hb => hb.1), k3.inv, ?_, ?_⟩, rfl⟩
  · rw [k3.log, i2]
    refine replay_one aT.log ?_
    rcases hs2 with x | x <;> simp [Replay.see, x]
  · rw [k3.only.cell _ _ (fun hb => hb.2.1 rfl)]; exact i3
  · rw [k3.only.cell _ _ (fun hb => hb.2.2 rfl)]; exact i4

theorem userOk (hu : Honest A X U prec off) : ∀ n, UserOk A X U prec off n := by
  intro n
  induction n with
  | zero =>
    intro s h h' ur
    induction ur generalizing s with
    | done h => exact fun a hs => ⟨s, a, rfl⟩
    | own k _ ih => exact fun a hs => ih (a.adds k rfl rfl) hs
    | call c hc e k _ ih =>
      intro a hs
      obtain ⟨s1, a1, h1⟩ := a.call hu hs hc e k
      obtain ⟨s2, a2, h2⟩ := ih a1 (by simpa [Replay.user, h1] using hs)
      exact ⟨s2, a2, h2.trans h1⟩
    | step k1 e k3 _ ih => cases e
  | succ n ihn =>
    intro s h h' ur
    induction ur generalizing s with
    | done h => exact fun a hs => ⟨s, a, rfl⟩
    | own k _ ih => exact fun a hs => ih (a.adds k rfl rfl) hs
    | call c hc e k _ ih =>
      intro a hs
      obtain ⟨s1, a1, h1⟩ := a.call hu hs hc e k
      obtain ⟨s2, a2, h2⟩ := ih a1 (by simpa [Replay.user, h1] using hs)
      exact ⟨s2, a2, h2.trans h1⟩
    | step k1 e k3 _ ih =>
      intro a hs
      obtain ⟨s1, a1, h1⟩ := a.step hu ihn hs k1 e k3
      obtain ⟨s2, a2, h2⟩ := ih a1 (by simpa [Replay.user, h1] using hs)
      exact ⟨s2, a2, h2.trans h1⟩

theorem At.init (hu : Honest A X U prec off) {h0 h1 : Heap} {n : Nat} {r : CVal} (v : h0.SchedVars) (hi : U.inv h0) (hl : U.log h0 = [])
    (hk : h0.at (.glob .s_call_hook) 0 = some .null) (ht : h0.at (.glob .s_transfer_hook) 0 = some .null)
    (e : sem A X prog n .mu_sched_init h0 [] = .ok (r, h1)) : At U prec off .start h1 := by
  obtain ⟨h1', hd, ix, e1, q, o⟩ := C128_init A X n v
  rw [sem_ok hu.mono (by omega) e] at e1
  obtain ⟨rfl, rfl⟩ := Prod.mk.inj (Except.ok.inj e1)
  obtain ⟨i, l⟩ := hu.frame _ _ o hi
  refine ⟨?_, ⟨hd, ix, q⟩, i, ?_, ?_⟩
  · rw [l, hl]; rfl
  · rw [o.cell _ _ (by simp [SchedVar])]; exact hk
  · rw [o.cell _ _ (by simp [SchedVar])]; exact ht

/-- **C131, programs**: `mu_sched_init` is called, then user code runs, tasks are called from within `mu_sched_step` and call
the scheduler themselves, steps included, to any depth.  Whenever the main program looks, its log is right: every answer is
that of the agenda, every task that was called was the one to be called, and the agenda that the log leads to is the one in
memory. -/
theorem C131_program (hu : Honest A X U prec off) {h0 h1 : Heap} {n : Nat} {r : CVal} (v : h0.SchedVars) (hi : U.inv h0) (hl : U.log h0 = [])
    (hk : h0.at (.glob .s_call_hook) 0 = some .null) (ht : h0.at (.glob .s_transfer_hook) 0 = some .null)
    (e : sem A X prog n .mu_sched_init h0 [] = .ok (r, h1)) (run : UserRun (sem A X prog n) U h1 h) :
    ∃ σ clock, replay prec off .start (U.log h) = some ⟨σ, [], clock⟩ ∧ ∃ hd ix, h.Scheduler hd ix σ := by
  obtain ⟨s, a', hs⟩ := userOk hu n run (At.init hu v hi hl hk ht e) rfl
  obtain ⟨σ, st, c⟩ := s
  obtain rfl : st = [] := hs
  exact ⟨σ, c, a'.log, a'.sched⟩

/-- If user functions only stop the program, `mu_task_call` stops with a division by zero only in the function of the task. -/
theorem task_call_stop {n : Nat} {t : CVal} (hcb : ∀ f h args, X.cb (sem A X prog n) f h args = .error .divZero ∨
      X.cb (sem A X prog n) f h args = .error .diverge) (hh : h.at (.glob .s_call_hook) 0 = some .null)
    (e : sem A X prog (n + 1) .mu_task_call h [t] = .error .divZero) :
    t ≠ .null ∧ ∃ f, X.cb (sem A X prog n) f h [t] = .error .divZero := by
  rw [sem_succ (d := Src.mu_task_call) rfl, FunDef.run_regs rfl rfl] at e
  generalize sem A X prog n = S at *
  cases t with
  | null => simp [csrc, Src.mu_task_call] at e
  | ptr b o =>
    refine ⟨by simp, ?_⟩
    cases hf : h.at b o with
    | none => simp [csrc, Src.mu_task_call, hh, hf] at e
    | some v =>
      cases v with
      | fn f =>
        rcases hcb f h [.ptr b o] with hx | hx
        · exact ⟨f, hx⟩
        · simp [csrc, Src.mu_task_call, hh, hf, hx] at e
      | _ => simp [csrc, Src.mu_task_call, hh, hf, CVal.use] at e
  | undef => simp [csrc, Src.mu_task_call, CVal.use] at e
  | _ => simp [csrc, Src.mu_task_call, COp.runPtr, hh, Except.bind, CVal.ofBool] at e

/-- **C131, every moment**: the same holds at every moment at which user code runs, in the main program or in a task, whether or not
what is running will ever return. -/
theorem C131_moment (hu : Honest A X U prec off) (m : Moment A X U h) :
    ∃ s, replay prec off .start (U.log h) = some s ∧ s.user = true ∧ ∃ hd ix, h.Scheduler hd ix s.σ := by
  suffices ∃ s, At U prec off s h ∧ s.user = true by
    obtain ⟨s, a, hs⟩ := this
    exact ⟨s, a.log, hs, a.sched⟩
  induction m with
  | init v hi hl hk ht e => exact ⟨_, At.init hu v hi hl hk ht e, rfl⟩
  | run _ r ih =>
    obtain ⟨s, a, hs⟩ := ih
    obtain ⟨s', a', hs'⟩ := userOk hu _ r a hs
    exact ⟨s', a', by simpa [Replay.user, hs'] using hs⟩
  | @task h h1 h2 h3 f t _ k1 c k3 ih =>
    obtain ⟨s, a, hs⟩ := ih
    obtain ⟨n, e⟩ := c
    obtain ⟨hA, σ', clk, aA, eA⟩ := a.about hu (Y := X.probe f h2 [t]) rfl n hs k1
    have hm : (X.probe f h2 [t]).Monotone := fun _ _ _ _ _ _ => .refl _
    rw [C131_steps hm (show n ≤ n + 4 by omega) e (by simp)] at eA
    obtain ⟨hc, g, eg⟩ : σ'.cur ≠ .null ∧ ∃ g, (X.probe f h2 [t]).cb (sem A (X.probe f h2 [t]) prog (n + 2)) g hA [σ'.cur] = .error .divZero := by
      refine task_call_stop ?_ aA.hook ?_
      · intro g h' args
        unfold Ext.probe
        simp only
        split
        exacts [.inl rfl, .inr rfl]
      · cases ht : sem A (X.probe f h2 [t]) prog (n + 3) .mu_task_call hA [σ'.cur] with
        | error x =>
          rw [ht] at eA
          exact congrArg Except.error (Except.error.inj eA).symm
        | ok y =>
          obtain ⟨v, hT⟩ := y
          rw [ht] at eA
          exfalso
          rcases task_call_inv aA.hook ht with ⟨-, rfl⟩ | ⟨g, w, -, eF⟩
          · obtain ⟨hd, ix, q⟩ := aA.sched
            obtain ⟨h4, -, -, g1, -⟩ := C128_return q
            simp [g1] at eA
          · unfold Ext.probe at eF
            simp only at eF
            split at eF <;> cases eF
    unfold Ext.probe at eg
    simp only at eg
    split at eg
    · rename_i hx
      obtain ⟨-, rfl, hx⟩ := hx
      obtain rfl : σ'.cur = t := by simpa using hx
      exact ⟨⟨σ', .running :: s.steps, clk⟩, aA.adds k3 (by simp [replay, Replay.see, hc]) rfl, rfl⟩
    · cases eg

/-! ## What a right log says -/

/-- On the agenda, or taken off it and about to be called. -/
def Replay.owed (s : Replay) (t : CVal) : Nat := s.σ.waiting t + s.steps.count (.chosen t)

theorem countP_insertDue (p : Due → Bool) (d : Due) (l : List Due) : (insertDue prec d l).countP p = (d :: l).countP p := by
  induction l with
  | nil => rfl
  | cons x l ih =>
    unfold insertDue
    split
    · rfl
    · simp only [List.countP_cons] at ih ⊢
      omega

theorem owed_queued {σ : Agenda} {t : CVal} (hi : σ.idle ≠ t) :
    σ.queued.waiting t + (if σ.queued.cur = t then 1 else 0) = σ.waiting t ∧ σ.queued.idle = σ.idle := by
  unfold Agenda.queued
  split
  · rename_i u l hx
    simp only [Agenda.waiting, hx, List.count_cons]
    refine ⟨?_, trivial⟩
    by_cases hu : u = t <;> simp [hu] <;> omega
  · simp [Agenda.waiting, hi]

theorem owed_choose {σ : Agenda} {now t : CVal} (ht : t ≠ .null) (hi : σ.idle ≠ t) :
    (σ.choose prec now).waiting t + (if (σ.choose prec now).cur = t then 1 else 0) = σ.waiting t ∧ (σ.choose prec now).idle = σ.idle := by
  unfold Agenda.choose
  split
  · rename_i d l hx
    split
    · exact owed_queued hi
    · split
      · rename_i hn
        obtain ⟨h1, h2⟩ := owed_queued (σ := { σ with due := l }) (t := t) hi
        refine ⟨?_, h2⟩
        rw [h1]
        simp [Agenda.waiting, hx, hn, Ne.symm ht]
      · refine ⟨?_, rfl⟩
        simp only [Agenda.waiting, hx, List.countP_cons]
        by_cases hu : d.task = t <;> simp [hu] <;> omega
  · exact owed_queued hi

theorem SErr.val_none {e : SErr} : e.val = SErr.val .none ↔ e = .none := by cases e <;> simp [SErr.val]

theorem waiting_schedule (σ : Agenda) (u t : CVal) : (σ.schedule u).2.idle = σ.idle ∧
    (σ.schedule u).2.waiting t = (if u = t ∧ (σ.schedule u).1 = .none then 1 else 0) + σ.waiting t := by
  unfold Agenda.schedule
  split
  · refine ⟨rfl, ?_⟩
    by_cases hu : u = t <;> simp [Agenda.waiting, hu, List.count_append] <;> omega
  · simp

theorem waiting_interrupt (σ : Agenda) (u t : CVal) : (σ.interrupt u).2.idle = σ.idle ∧
    (σ.interrupt u).2.waiting t = (if u = t ∧ (σ.interrupt u).1 = .none then 1 else 0) + σ.waiting t := by
  unfold Agenda.interrupt
  split
  · refine ⟨rfl, ?_⟩
    by_cases hu : u = t <;> simp [Agenda.waiting, hu, List.count_append] <;> omega
  · simp

theorem waiting_defer (σ : Agenda) (u time t : CVal) : (σ.defer prec u time).2.idle = σ.idle ∧
    (σ.defer prec u time).2.waiting t = (if u = t ∧ (σ.defer prec u time).1 = .none then 1 else 0) + σ.waiting t := by
  unfold Agenda.defer
  split
  · refine ⟨rfl, ?_⟩
    by_cases hu : u = t <;> simp [Agenda.waiting, hu, countP_insertDue, List.countP_cons] <;> omega
  · simp

theorem waiting_cancel (σ : Agenda) (u t : CVal) : (σ.cancel u).2.idle = σ.idle ∧
    (σ.cancel u).2.waiting t ≤ σ.waiting t ∧ (u ≠ t → (σ.cancel u).2.waiting t = σ.waiting t) := by
  unfold Agenda.cancel
  refine ⟨rfl, ?_, fun hu => ?_⟩
  · have : (σ.due.filter (fun d => d.task ≠ u)).countP (fun d => d.task = t) ≤ σ.due.countP (fun d => d.task = t) :=
      (List.filter_sublist).countP_le
    simp only [Agenda.waiting]
    omega
  · have : (σ.due.filter (fun d => d.task ≠ u)).countP (fun d => d.task = t) = σ.due.countP (fun d => d.task = t) := by
      rw [List.countP_filter]
      refine List.countP_congr fun d _ => ?_
      simp only [Bool.and_eq_true, decide_eq_true_eq]
      constructor
      · exact fun h => h.1
      · exact fun h => ⟨h, fun h' => hu (h'.symm.trans h)⟩
    simp only [Agenda.waiting, this]

theorem see_owed {t : CVal} (ht : t ≠ .null) {e : Seen} (hs : s.see prec off e = some s') (hi : s.σ.idle ≠ t)
    (he : ∀ r, e ≠ .did (.setIdle t) r) :
    s'.σ.idle ≠ t ∧ ∃ k, (if e = .called t then 1 else 0) + s'.owed t + k = (if e.scheduled t then 1 else 0) + s.owed t ∧
      (e.dropped t = false → k = 0) := by
  obtain ⟨σ, st, clk⟩ := s
  simp only at hi
  cases e with
  | did c r =>
    simp only [Replay.see] at hs
    split at hs
    · rename_i hc
      obtain rfl : _ = s' := Option.some.inj hs
      have hr : r = (c.answer prec off clk σ).1 := by
        have := (Bool.and_eq_true _ _ ▸ hc).2
        simpa using this
      subst hr
      have plain : ∀ {σ' : Agenda} {u : CVal} {x : SErr}, σ'.idle = σ.idle ∧ σ'.waiting t = (if u = t ∧ x = .none then 1 else 0) + σ.waiting t →
          σ'.idle ≠ t ∧ ∃ k, 0 + (Replay.mk σ' st clk).owed t + k =
            (if (decide (u = t) && decide (x.val = SErr.val .none)) = true then 1 else 0) + (Replay.mk σ st clk).owed t ∧ (false = false → k = 0) := by
        intro σ' u x ⟨h1, h2⟩
        refine ⟨h1 ▸ hi, 0, ?_, fun _ => rfl⟩
        simp only [Replay.owed, h2, Bool.and_eq_true, decide_eq_true_eq, SErr.val_none]
        omega
      cases c with
      | immed u => exact plain (waiting_schedule σ u t)
      | transfer u => exact plain (waiting_schedule σ u t)
      | fromIsr u => exact plain (waiting_interrupt σ u t)
      | deferUntil u time => exact plain (waiting_defer σ u time t)
      | deferFor u delay => exact plain (waiting_defer σ u (off clk delay) t)
      | remove u =>
        obtain ⟨h1, h2, h3⟩ := waiting_cancel σ u t
        refine ⟨h1 ▸ hi, σ.waiting t - (σ.cancel u).2.waiting t, ?_, ?_⟩
        · simp only [Replay.owed, Req.answer, Seen.scheduled, reduceCtorEq, if_false, Bool.false_eq_true]
          omega
        · intro hd
          have : u ≠ t := by simpa [Seen.dropped] using hd
          rw [h3 this]
          omega
      | reset =>
        refine ⟨hi, σ.waiting t, ?_, fun hd => by simp [Seen.dropped] at hd⟩
        simp [Replay.owed, Req.answer, Seen.scheduled, Agenda.reset, Agenda.waiting]
        omega
      | setIdle u =>
        refine ⟨fun hu => he .undef (by rw [← show u = t from hu]; rfl), 0, ?_, fun _ => rfl⟩
        simp [Replay.owed, Req.answer, Seen.scheduled, Agenda.waiting]
      | _ => exact ⟨hi, 0, by simp [Replay.owed, Req.answer, Seen.scheduled], fun _ => rfl⟩
    · cases hs
  | clock now =>
    simp only [Replay.see] at hs
    split at hs
    · rename_i l
      obtain rfl : _ = s' := Option.some.inj hs
      obtain ⟨h1, h2⟩ := owed_choose (prec := prec) (now := now) ht hi
      refine ⟨h2 ▸ hi, 0, ?_, fun _ => rfl⟩
      simp only [Replay.owed, Seen.scheduled, List.count_cons, reduceCtorEq, if_false, Bool.false_eq_true, beq_iff_eq, Phase.chosen.injEq]
      omega
    · split at hs
      · obtain rfl : _ = s' := Option.some.inj hs
        exact ⟨hi, 0, by simp [Replay.owed, Seen.scheduled], fun _ => rfl⟩
      · cases hs
  | step =>
    simp only [Replay.see] at hs
    split at hs
    · split at hs
      · rename_i u l hx
        obtain rfl : _ = s' := Option.some.inj hs
        refine ⟨hi, 0, ?_, fun _ => rfl⟩
        simp only [Replay.owed, Seen.scheduled, Agenda.waiting, hx, List.count_cons, reduceCtorEq, if_false, Bool.false_eq_true, beq_iff_eq, Phase.chosen.injEq]
        omega
      · obtain rfl : _ = s' := Option.some.inj hs
        exact ⟨hi, 0, by simp [Replay.owed, Seen.scheduled], fun _ => rfl⟩
    · cases hs
  | called u =>
    simp only [Replay.see] at hs
    split at hs
    · rename_i w l
      split at hs
      · rename_i hw
        obtain rfl : w = u := by simp at hw; exact hw.1
        obtain rfl : _ = s' := Option.some.inj hs
        refine ⟨hi, 0, ?_, fun _ => rfl⟩
        simp only [Replay.owed, Seen.scheduled, List.count_cons, reduceCtorEq, if_false, Bool.false_eq_true, beq_iff_eq, Phase.chosen.injEq, Seen.called.injEq]
        omega
      · cases hs
    · cases hs
  | hooked u => simp [Replay.see] at hs
  | transferring u => simp [Replay.see] at hs
  | stepped =>
    simp only [Replay.see] at hs
    split at hs
    · obtain rfl : _ = s' := Option.some.inj hs
      refine ⟨hi, 0, ?_, fun _ => rfl⟩
      simp [Replay.owed, Seen.scheduled, List.count_cons, Agenda.waiting, Ne.symm ht]
    · obtain rfl : _ = s' := Option.some.inj hs
      refine ⟨hi, 0, ?_, fun _ => rfl⟩
      simp [Replay.owed, Seen.scheduled, List.count_cons, Agenda.waiting]
    · cases hs

theorem replay_owed {t : CVal} (ht : t ≠ .null) {l : List Seen} (hs : replay prec off s l = some s') (hi : s.σ.idle ≠ t)
    (he : ∀ e ∈ l, ∀ r, e ≠ .did (.setIdle t) r) :
    ∃ k, l.countP (fun e => e = .called t) + s'.owed t + k = l.countP (Seen.scheduled t) + s.owed t ∧
      ((∀ e ∈ l, e.dropped t = false) → k = 0) := by
  induction l generalizing s with
  | nil =>
    simp only [replay, Option.some.injEq] at hs
    subst hs
    exact ⟨0, by simp, fun _ => rfl⟩
  | cons e l ih =>
    simp only [replay] at hs
    split at hs
    · rename_i s1 h1
      obtain ⟨hi1, k, hk, hk0⟩ := see_owed ht h1 hi (he e (by simp))
      obtain ⟨k', hk', hk0'⟩ := ih hs hi1 (fun e' h' => he e' (by simp [h']))
      refine ⟨k + k', ?_, fun hd => ?_⟩
      · simp only [List.countP_cons, decide_eq_true_eq]
        omega
      · rw [hk0 (hd e (by simp)), hk0' (fun e' h' => hd e' (by simp [h']))]
    · cases hs

/-- Only the innermost step can be anything but running its task. -/
def Replay.Nested (s : Replay) : Prop := ∀ p ∈ s.steps.tail, p = .running

theorem see_nested {e : Seen} (hs : s.see prec off e = some s') (hn : s.Nested) : s'.Nested := by
  obtain ⟨σ, st, clk⟩ := s
  have huser : (Replay.mk σ st clk).user = true → ∀ p ∈ st, p = .running := by
    intro hu p hp
    cases st with
    | nil => cases hp
    | cons x l =>
      rcases List.mem_cons.mp hp with rfl | hp
      · simpa [Replay.user] using hu
      · exact hn p hp
  cases e with
  | did c r =>
    simp only [Replay.see] at hs
    split at hs
    · obtain rfl : _ = s' := Option.some.inj hs
      exact hn
    · cases hs
  | clock now =>
    simp only [Replay.see] at hs
    split at hs
    · obtain rfl : _ = s' := Option.some.inj hs
      exact hn
    · split at hs
      · obtain rfl : _ = s' := Option.some.inj hs
        exact hn
      · cases hs
  | step =>
    simp only [Replay.see] at hs
    split at hs
    · rename_i hu
      split at hs
      · obtain rfl : _ = s' := Option.some.inj hs
        exact huser hu
      · obtain rfl : _ = s' := Option.some.inj hs
        exact huser hu
    · cases hs
  | called u =>
    simp only [Replay.see] at hs
    split at hs
    · split at hs
      · obtain rfl : _ = s' := Option.some.inj hs
        exact hn
      · cases hs
    · cases hs
  | hooked u => simp [Replay.see] at hs
  | transferring u => simp [Replay.see] at hs
  | stepped =>
    simp only [Replay.see] at hs
    split at hs
    · obtain rfl : _ = s' := Option.some.inj hs
      exact fun p hp => hn p (List.mem_of_mem_tail hp)
    · obtain rfl : _ = s' := Option.some.inj hs
      exact fun p hp => hn p (List.mem_of_mem_tail hp)
    · cases hs

theorem replay_nested {l : List Seen} (hs : replay prec off s l = some s') (hn : s.Nested) : s'.Nested := by
  induction l generalizing s with
  | nil => simp only [replay, Option.some.injEq] at hs; exact hs ▸ hn
  | cons e l ih =>
    simp only [replay] at hs
    split at hs
    · rename_i s1 h1
      exact ih hs (see_nested h1 hn)
    · cases hs

/-- **C131, no task lost, none called twice**: at every moment, a task that has never been made the idle task has been called as
often as it has been scheduled with success, less those that still wait on the agenda in memory - and less those that were
taken off it by `mu_sched_reset` or `mu_sched_remove_deferred_task`, if there were such calls. -/
theorem C131_accounts (hu : Honest A X U prec off) (m : Moment A X U h) {t : CVal} (ht : t ≠ .null)
    (hi : ∀ r, .did (.setIdle t) r ∉ U.log h) :
    ∃ σ hd ix, h.Scheduler hd ix σ ∧ (U.log h).countP (fun e => e = .called t) + σ.waiting t ≤ (U.log h).countP (Seen.scheduled t) ∧
      ((∀ e ∈ U.log h, e.dropped t = false) →
        (U.log h).countP (fun e => e = .called t) + σ.waiting t = (U.log h).countP (Seen.scheduled t)) := by
  obtain ⟨s, hs, hus, hd, ix, q⟩ := C131_moment hu m
  have hn := replay_nested hs (by simp [Replay.Nested, Replay.start])
  have h0 : s.steps.count (.chosen t) = 0 := by
    rw [List.count_eq_zero]
    intro hp
    have : ∀ p ∈ s.steps, p = .running := by
      intro p hp
      cases hst : s.steps with
      | nil => rw [hst] at hp; cases hp
      | cons x l =>
        rw [hst] at hp
        rcases List.mem_cons.mp hp with rfl | hp
        · simpa [Replay.user, hst] using hus
        · exact hn p (by rw [hst]; exact hp)
    cases this _ hp
  obtain ⟨k, hk, hk0⟩ := replay_owed ht hs (by simp [Replay.start, Ne.symm ht]) (fun e he r h' => hi r (h' ▸ he))
  have hst : Replay.start.owed t = 0 := by simp [Replay.owed, Replay.start, Agenda.waiting]
  unfold Replay.owed at hk
  unfold Replay.owed at hst
  refine ⟨s.σ, hd, ix, q, by omega, fun hd => ?_⟩
  have := hk0 hd
  omega

/-! ## A program

The functions of the tasks, the clock and the main program write their log into a variable of their own, as the digits of a
number.  The first task schedules the second, and the second calls `mu_sched_step` itself. -/

def progDemo : Heap where
  mem
    | .glob .s_sched => Src.init_s_sched
    | .glob .s_irq_store => Src.init_s_irq_store
    | .glob .s_immed_store => Src.init_s_immed_store
    | .glob .s_deferred_tasks => Src.init_s_deferred_tasks
    | .glob .s_call_hook => Src.init_s_call_hook
    | .glob .s_transfer_hook => Src.init_s_transfer_hook
    | .obj 0 => [.fn 1, .int 0, .null]
    | .obj 1 => [.fn 2, .int 0, .null]
    | .obj 2 => [.int 0]
    | _ => []
  next := 3

/-- Add a digit. -/
def progDemoNote (d : Nat) (h : Heap) : C Heap :=
  match h.at (.obj 2) 0 with
  | some (.int n) => if 0 ≤ n then .ok (h.upd (.obj 2) 0 (.int (d + 16 * n))) else .error .oob
  | _ => .error .oob

def progDemoImmed (S : Fn → SemFn) (h : Heap) (d : Nat) (t : CVal) : C Heap := do
  let (r, h) ← S .mu_sched_immed h [t]
  match r with
  | .int 0 => progDemoNote d h
  | _ => .error .oob

def progDemoStep (S : Fn → SemFn) (h : Heap) : C Heap := do
  let h ← progDemoNote 1 h
  let (_, h) ← S .mu_sched_step h []
  progDemoNote 5 h

def progDemoFns : Ext where
  fn f h args :=
    match f, args with
    | .mu_time_precedes, [a, b] => .ok (.ofBool (demoPrec a b), h)
    | .mu_time_offset, [a, b] => .ok (demoOff a b, h)
    | .mu_time_now, [] =>
      match progDemoNote 4 h with
      | .ok h' => .ok (.int 5, h')
      | .error _ => .ok (.int 5, h)
    | _, _ => .error .ptr
  cb S f h args :=
    match f, args with
    | 1, [.ptr (.obj 0) 0] => do
      let h ← progDemoNote 2 h
      let h ← progDemoImmed S h 7 (.ptr (.obj 1) 0)
      .ok (.undef, h)
    | 2, [.ptr (.obj 1) 0] => do
      let h ← progDemoNote 3 h
      let h ← progDemoStep S h
      .ok (.undef, h)
    | _, _ => .error .oob

def progDemoMain (S : Fn → SemFn) (h : Heap) : C Heap := do
  let h ← progDemoImmed S h 6 (.ptr (.obj 0) 0)
  let h ← progDemoStep S h
  progDemoStep S h

/-- What the digits mean. -/
def progDemoEntry : Nat → Seen
  | 1 => .step
  | 2 => .called (.ptr (.obj 0) 0)
  | 3 => .called (.ptr (.obj 1) 0)
  | 4 => .clock (.int 5)
  | 5 => .stepped
  | 6 => .did (.immed (.ptr (.obj 0) 0)) (SErr.val .none)
  | _ => .did (.immed (.ptr (.obj 1) 0)) (SErr.val .none)

def progDemoUser : User where
  log h :=
    match h.at (.obj 2) 0 with
    | some (.int n) => (Nat.digits 16 n.toNat).reverse.map progDemoEntry
    | _ => []
  inv h := ∃ n : Nat, h.at (.obj 2) 0 = some (.int n)

theorem progDemo_note {d : Nat} (hd : 0 < d) (hd' : d < 16) {h h' : Heap} (e : progDemoNote d h = .ok h') :
    progDemoUser.Adds [progDemoEntry d] h h' := by
  unfold progDemoNote at e
  cases hx : h.at (.obj 2) 0 with
  | none => rw [hx] at e; cases e
  | some v =>
    rw [hx] at e
    cases v with
    | int n =>
      simp only at e
      split at e
      · rename_i hn
        obtain rfl := Except.ok.inj e
        obtain ⟨m, rfl⟩ := Int.eq_ofNat_of_zero_le hn
        have h2 : (h.upd (.obj 2) 0 (.int (d + 16 * (m : Int)))).at (.obj 2) 0 = some (.int ((d + 16 * m : Nat) : Int)) := by
          rw [Heap.at_upd_same rfl (by simp [hx])]; simp
        refine ⟨?_, ⟨_, h2⟩, ?_⟩
        · exact Heap.Only.upd (.refl _ _) (by simp [Free, SchedVar])
        · simp only [progDemoUser, hx, h2, Int.toNat_natCast]
          rw [Nat.digits_add 16 (by omega) d m hd' (by omega)]
          simp
      · cases e
    | _ => cases e

theorem progDemo_ok {d : Nat} {h : Heap} (i : progDemoUser.inv h) : ∃ h', progDemoNote d h = .ok h' := by
  obtain ⟨n, hn⟩ := i
  exact ⟨h.upd (.obj 2) 0 (.int (d + 16 * n)), by simp [progDemoNote, hn]⟩

theorem progDemo_immed {S : Fn → SemFn} {h h' : Heap} {d : Nat} {t : CVal} (hd : 0 < d) (hd' : d < 16) (ht : t ≠ .undef)
    (he : progDemoEntry d = .did (.immed t) (SErr.val .none)) (e : progDemoImmed S h d t = .ok h') {h'' : Heap}
    (k : UserRun S progDemoUser h' h'') : UserRun S progDemoUser h h'' := by
  unfold progDemoImmed at e
  obtain ⟨⟨r, h1⟩, e1, e⟩ := C.bind_eq_ok e
  simp only at e
  split at e
  · exact .call (.immed t) ht e1 (by have := progDemo_note hd hd' e; rw [he] at this; exact this) k
  · cases e

theorem progDemo_step {S : Fn → SemFn} {h h' : Heap} (e : progDemoStep S h = .ok h') {h'' : Heap}
    (k : UserRun S progDemoUser h' h'') : UserRun S progDemoUser h h'' := by
  unfold progDemoStep at e
  obtain ⟨h1, e1, e⟩ := C.bind_eq_ok e
  obtain ⟨⟨r, h2⟩, e2, e⟩ := C.bind_eq_ok e
  exact .step (progDemo_note (d := 1) (by omega) (by omega) e1) e2 (progDemo_note (d := 5) (by omega) (by omega) e) k

theorem progDemo_honest : Honest .lp64 progDemoFns progDemoUser demoPrec demoOff where
  clock := by
    refine ⟨fun h a b _ _ => rfl, fun h a d _ _ => rfl, ?_, ?_⟩
    · intro a d ha hd
      simp only [demoOff]
      split <;> simp [ha]
    · intro h
      cases e : progDemoNote 4 h with
      | ok h' => exact ⟨.int 5, h', by simp [progDemoFns, e], by simp, (progDemo_note (by omega) (by omega) e).only.mono fun b o hb => hb.1⟩
      | error x => exact ⟨.int 5, h, by simp [progDemoFns, e], by simp, .refl _ _⟩
  mono := by
    intro S S' hS k h args
    have hi : ∀ h d t, Le (progDemoImmed S h d t) (progDemoImmed S' h d t) := fun h d t => (hS _ h _).bind fun _ => .refl _
    have hst : ∀ h, Le (progDemoStep S h) (progDemoStep S' h) := fun h => (Le.refl _).bind fun h => (hS _ h _).bind fun _ => .refl _
    simp only [progDemoFns]
    split
    · exact (Le.refl _).bind fun h => (hi _ _ _).bind fun _ => .refl _
    · exact (Le.refl _).bind fun h => (hst _).bind fun _ => .refl _
    · exact .refl _
  frame := by
    intro h h' o ⟨n, hn⟩
    have := o.cell (.obj 2) 0 (by simp [SchedVar])
    exact ⟨⟨n, this.trans hn⟩, by simp only [progDemoUser, this]⟩
  task := by
    intro n f h args v h' i e
    simp only [progDemoFns] at e
    split at e
    · obtain ⟨h1, e1, e⟩ := C.bind_eq_ok e
      obtain ⟨h2, e2, e⟩ := C.bind_eq_ok e
      obtain ⟨-, rfl⟩ := Prod.mk.inj (Except.ok.inj e)
      exact ⟨_, h1, rfl, progDemo_note (d := 2) (by omega) (by omega) e1, progDemo_immed (by omega) (by omega) (by simp) rfl e2 (.done _)⟩
    · obtain ⟨h1, e1, e⟩ := C.bind_eq_ok e
      obtain ⟨h2, e2, e⟩ := C.bind_eq_ok e
      obtain ⟨-, rfl⟩ := Prod.mk.inj (Except.ok.inj e)
      exact ⟨_, h1, rfl, progDemo_note (d := 3) (by omega) (by omega) e1, progDemo_step e2 (.done _)⟩
    · cases e
  reads := by
    intro h now h' i e
    obtain ⟨h1, e1⟩ := progDemo_ok (d := 4) i
    simp only [progDemoFns, e1] at e
    obtain ⟨rfl, rfl⟩ := Prod.mk.inj (Except.ok.inj e)
    exact progDemo_note (by omega) (by omega) e1

/-- Initialisation and the main program. -/
def progDemoResult : C Heap := do
  let (_, h) ← sem .lp64 progDemoFns prog 30 .mu_sched_init progDemo []
  progDemoMain (sem .lp64 progDemoFns prog 30) h

theorem progDemo_result : (match progDemoResult with
    | .ok h => decide (h.at (.obj 2) 0 = some (.int 0x6142751431455))
    | .error _ => false) = true := by decide +kernel

/-- The program runs, its log is what one expects, and the theorems apply to it. -/
theorem prog_demo : ∃ h1 h, sem .lp64 progDemoFns prog 30 .mu_sched_init progDemo [] = .ok (.undef, h1) ∧
    UserRun (sem .lp64 progDemoFns prog 30) progDemoUser h1 h ∧
    progDemoUser.log h = [.did (.immed (.ptr (.obj 0) 0)) (.int 0), .step, .clock (.int 5), .called (.ptr (.obj 0) 0),
      .did (.immed (.ptr (.obj 1) 0)) (.int 0), .stepped, .step, .clock (.int 5), .called (.ptr (.obj 1) 0), .step, .clock (.int 5),
      .stepped, .stepped] ∧
    progDemo.SchedVars ∧ progDemoUser.inv progDemo ∧ progDemoUser.log progDemo = [] ∧
    (∃ σ clock, replay demoPrec demoOff .start (progDemoUser.log h) = some ⟨σ, [], clock⟩ ∧ ∃ hd ix, h.Scheduler hd ix σ) := by
  have v : progDemo.SchedVars := by
    refine ⟨rfl, rfl, rfl, rfl, ?_⟩
    rintro b (rfl | rfl | rfl | rfl) <;> decide
  have i : progDemoUser.inv progDemo := ⟨0, rfl⟩
  have l : progDemoUser.log progDemo = [] := by
    have : progDemo.at (.obj 2) 0 = some (.int 0) := rfl
    simp [progDemoUser, this]
  have k := progDemo_result
  cases hr : progDemoResult with
  | error x => rw [hr] at k; cases k
  | ok h =>
    rw [hr] at k
    simp only [decide_eq_true_eq] at k
    unfold progDemoResult at hr
    obtain ⟨⟨r, h1⟩, e1, hr⟩ := C.bind_eq_ok hr
    unfold progDemoMain at hr
    simp only at hr
    obtain ⟨h2, e2, hr⟩ := C.bind_eq_ok hr
    obtain ⟨h3, e3, e4⟩ := C.bind_eq_ok hr
    have run : UserRun (sem .lp64 progDemoFns prog 30) progDemoUser h1 h :=
      progDemo_immed (d := 6) (by omega) (by omega) (by simp) rfl e2 (progDemo_step e3 (progDemo_step e4 (.done _)))
    obtain ⟨h1', -, -, e1', -⟩ := C128_init .lp64 progDemoFns 0 v
    have e1'' := sem_ok progDemo_honest.mono (show _ ≤ 30 by omega) e1'
    rw [e1] at e1''
    obtain ⟨rfl, rfl⟩ := Prod.mk.inj (Except.ok.inj e1'')
    refine ⟨h1, h, e1, run, ?_, v, i, l, C131_program progDemo_honest v i l rfl rfl e1 run⟩
    simp only [progDemoUser, k]
    simp [progDemoEntry, SErr.val]

end Mu.CS
