import Verif.Spec.SrcSystem
import Verif.Props.SrcProgram
import Verif.Props.SrcMqueue

/-! # C135: programs around the scheduler and message queues, from the parsed source

mu_sched.c, mu_spsc.c, mu_queue.c, mu_mqueue.c and mu_task.c as parsed, with arbitrary user code that keeps a log. -/

namespace Mu.CS.Sys

variable {I : Type} [DecidableEq I]
variable {A : Arch} {X : Ext} {Q : I → QPlace} {U : User I} {prec : CVal → CVal → Bool} {off : CVal → CVal → CVal}

/-! ## Replaying -/

theorem replay_append {s s' : State I} {l l' : List (Entry I)} (h : replay Q prec off s l = some s') :
    replay Q prec off s (l ++ l') = replay Q prec off s' l' := by
  induction l generalizing s with
  | nil => simp only [replay, Option.some.injEq] at h; subst h; rfl
  | cons e l ih =>
    simp only [replay, List.cons_append] at h ⊢
    cases hs : s.see Q prec off e with
    | none => rw [hs] at h; cases h
    | some s1 => rw [hs] at h; exact ih h

theorem replay_one {s s' s'' : State I} {l : List (Entry I)} {e : Entry I} (h : replay Q prec off s l = some s') (k : s'.see Q prec off e = some s'') :
    replay Q prec off s (l ++ [e]) = some s'' := by
  rw [replay_append h]
  simp [replay, k]

/-! ## The log and memory agree -/

/-- The log of memory `h` is right up to now and leads to what is in memory. -/
structure At (Q : I → QPlace) (U : User I) (prec : CVal → CVal → Bool) (off : CVal → CVal → CVal) (s0 s : State I) (h : Heap) : Prop where
  log : replay Q prec off s0 (U.log h) = some s
  mem : Mem Q U s h
  inv : U.inv h
  hook : h.at (.glob .s_call_hook) 0 = some .null
  transfer : h.at (.glob .s_transfer_hook) 0 = some .null

variable {s0 s s' : State I} {h h' : Heap}

omit [DecidableEq I] in
/-- The user's memory changes. -/
theorem Mem.mine (m : Mem Q U s h) (o : Heap.Only (Mine Q U) h h') : Mem Q U s h' := by
  obtain ⟨hd, ix, q⟩ := m.sched
  refine ⟨C128_frame q (o.mono fun b o hb => hb.1.1), fun i => ?_, fun b o' hb => ?_⟩
  · obtain ⟨ix, q⟩ := m.queues i
    exact ⟨ix, q.only o fun b o hb => hb.2.2 i⟩
  · rw [o.cell _ _ fun hm => hm.2.1 hb]; exact m.vars b o' hb

omit [DecidableEq I] in
/-- The scheduler's memory changes. -/
theorem Mem.lib (L : Layout A Q U) (m : Mem Q U s h) (o : Heap.Only (fun b _ => SchedVar b) h h') {σ : Agenda} {hd ix : Nat}
    (q : h'.Scheduler hd ix σ) : Mem Q U { s with σ := σ } h' := by
  refine ⟨⟨hd, ix, q⟩, fun i => ?_, fun b o' hb => ?_⟩
  · obtain ⟨ix, q⟩ := m.queues i
    exact ⟨ix, q.only o fun b o hb hc => (L.free i b o hc).1 hb⟩
  · rw [o.cell _ _ fun hm => (L.var b o' hb).1.1 hm]; exact m.vars b o' hb

theorem At.adds (a : At Q U prec off s0 s h) {es : List (Entry I)} (k : U.Adds Q es h h') (hs : replay Q prec off s es = some s')
    (h1 : s'.σ = s.σ) (h2 : s'.lists = s.lists) (h3 : s'.vars = s.vars) : At Q U prec off s0 s' h' := by
  refine ⟨?_, ?_, k.inv, ?_, ?_⟩
  · rw [k.log, replay_append a.log, hs]
  · have m := a.mem.mine k.only
    exact ⟨h1 ▸ m.sched, h2 ▸ m.queues, h3 ▸ m.vars⟩
  · rw [k.only.cell _ _ (fun hb => hb.1.2.1 rfl)]; exact a.hook
  · rw [k.only.cell _ _ (fun hb => hb.1.2.2 rfl)]; exact a.transfer

/-- The library changes its variables. -/
theorem At.lib (hu : Honest A X Q U prec off) (a : At Q U prec off s0 s h) (o : Heap.Only (fun b _ => SchedVar b) h h') {σ : Agenda} {hd ix : Nat}
    (q : h'.Scheduler hd ix σ) : Mem Q U { s with σ := σ } h' ∧ U.inv h' ∧ U.log h' = U.log h ∧ h'.at (.glob .s_call_hook) 0 = some .null ∧
      h'.at (.glob .s_transfer_hook) 0 = some .null := by
  obtain ⟨i, l⟩ := hu.frame _ _ (o.mono fun b o hb => .inl hb) a.inv
  refine ⟨a.mem.lib hu.layout o q, i, l, ?_, ?_⟩
  · rw [o.cell _ _ (by simp [SchedVar])]; exact a.hook
  · rw [o.cell _ _ (by simp [SchedVar])]; exact a.transfer

/-- A call of the scheduler, and the entry in the log. -/
theorem At.call (hu : Honest A X Q U prec off) (a : At Q U prec off s0 s h) (hs : s.user = true) {n : Nat} {c : Req} (hc : c.Defined) {r : CVal} {h1 h2 : Heap}
    (e : c.call (sem A X prog n) h = .ok (r, h1)) (k : U.Adds Q [.seen (.did c r)] h1 h2) :
    ∃ s', At Q U prec off s0 s' h2 ∧ s'.frames = s.frames := by
  replace e := Req.call_more hu.mono (show n ≤ n + 30 by omega) e
  obtain ⟨hd, ix, q⟩ := a.mem.sched
  -- what remains to be shown of each function
  suffices hq : ∃ s1 : State I, replay Q prec off s0 (U.log h1) = some s1 ∧ s1.frames = s.frames ∧
      Mem Q U { s1 with σ := (c.answer prec off s1.clock s1.σ).2 } h1 ∧ r = (c.answer prec off s1.clock s1.σ).1 ∧
      h1.at (.glob .s_call_hook) 0 = some .null ∧ h1.at (.glob .s_transfer_hook) 0 = some .null by
    obtain ⟨s1, l1, st1, m1, hr, k1, k2⟩ := hq
    have hu1 : s1.user = true := by simpa [State.user, st1] using hs
    refine ⟨{ s1 with σ := (c.answer prec off s1.clock s1.σ).2 }, ⟨?_, m1.mine k.only, k.inv, ?_, ?_⟩, st1⟩
    · rw [k.log]
      exact replay_one l1 (by simp [State.see, hu1, hr])
    · rw [k.only.cell _ _ (fun hb => hb.1.2.1 rfl)]; exact k1
    · rw [k.only.cell _ _ (fun hb => hb.1.2.2 rfl)]; exact k2
  -- the functions that leave the clock alone
  have simple : ∀ {v : CVal} {h' : Heap} {σ : Agenda} {hd ix : Nat}, c.call (sem A X prog (n + 30)) h = .ok (v, h') →
      h'.Scheduler hd ix σ → Heap.Only (fun b _ => SchedVar b) h h' → σ = (c.answer prec off s.clock s.σ).2 →
      v = (c.answer prec off s.clock s.σ).1 →
      ∃ s1 : State I, replay Q prec off s0 (U.log h1) = some s1 ∧ s1.frames = s.frames ∧
      Mem Q U { s1 with σ := (c.answer prec off s1.clock s1.σ).2 } h1 ∧ r = (c.answer prec off s1.clock s1.σ).1 ∧
      h1.at (.glob .s_call_hook) 0 = some .null ∧ h1.at (.glob .s_transfer_hook) 0 = some .null := by
    intro v h' σ hd ix e' q' o' e1 e2
    rw [e] at e'
    obtain ⟨rfl, rfl⟩ := Prod.mk.inj (Except.ok.inj e')
    obtain ⟨m1, i1, i2, i3, i4⟩ := a.lib hu o' q'
    exact ⟨s, by rw [i2]; exact a.log, rfl, e1 ▸ m1, e2, i3, i4⟩
  cases c with
  | immed t =>
    obtain ⟨h', hd', ix', f1, f2, f3⟩ := C128_immed A X (n + 27) q hc
    exact simple f1 f2 f3 rfl rfl
  | transfer t =>
    obtain ⟨tr, -⟩ := C128_transfer (hd := hd) (ix := ix) (σ := s.σ) A X (n + 26) (k := .null) trivial hc a.transfer
    obtain ⟨h', hd', ix', f1, f2, f3⟩ := tr h rfl q
    exact simple f1 f2 f3 rfl rfl
  | fromIsr t =>
    obtain ⟨h', hd', ix', f1, f2, f3⟩ := C128_from_isr A X (n + 28) q hc
    exact simple f1 f2 f3 rfl rfl
  | deferUntil t time =>
    obtain ⟨h', hd', ix', f1, f2, f3⟩ := C128_defer_until A (n + 7) hu.clock q hc.1 hc.2
    exact simple f1 f2 f3 rfl rfl
  | deferFor t delay =>
    obtain ⟨now, hN, c1, c2, c3⟩ := hu.clock.now h
    have ad := hu.reads _ _ _ a.inv c1
    obtain ⟨h', hd', ix', f1, f2, f3⟩ := C128_defer_for A (n + 7) hu.clock q hc.1 hc.2 c1
    have e' : Req.call (sem A X prog (n + 30)) h (.deferFor t delay) = .ok _ := f1
    rw [e] at e'
    obtain ⟨rfl, rfl⟩ := Prod.mk.inj (Except.ok.inj e')
    have hl : s.see Q prec off (.seen (.clock now)) = some { s with clock := now } := by
      simp only [State.see]
      split
      · rename_i l hx
        simp [State.user, hx, Frame.user] at hs
      · simp [hs]
    have a1 : At Q U prec off s0 { s with clock := now } hN := a.adds ad (by simp [replay, hl]) rfl rfl rfl
    obtain ⟨m1, i1, i2, i3, i4⟩ := a1.lib hu f3 f2
    exact ⟨{ s with clock := now }, by rw [i2]; exact a1.log, rfl, m1, rfl, i3, i4⟩
  | remove t =>
    obtain ⟨h', hd', ix', f1, f2, f3⟩ := C128_remove A X (n + 8) q hc
    exact simple f1 f2 f3 rfl rfl
  | reset =>
    obtain ⟨h', hd', ix', f1, f2, f3⟩ := C128_reset A X (n + 28) q
    exact simple f1 f2 f3 rfl rfl
  | setIdle t =>
    obtain ⟨h', hd', ix', f1, f2, f3⟩ := C128_set_idle A X (n + 29) q hc
    exact simple f1 f2 f3 rfl rfl
  | getIdle => exact simple (C128_questions A X (n + 29) q .null).2.1 q (Heap.Only.refl _ _) rfl rfl
  | current => exact simple (C128_questions A X (n + 29) q .null).1 q (Heap.Only.refl _ _) rfl rfl
  | next => exact simple (C128_questions A X (n + 28) q .null).2.2.1 q (Heap.Only.refl _ _) rfl rfl
  | wait t => exact simple (C128_questions A X (n + 29) q t).2.2.2 q (Heap.Only.refl _ _) rfl rfl

/-- What holds of user code that may use `n` steps. -/
def UserOk (A : Arch) (X : Ext) (Q : I → QPlace) (U : User I) (prec : CVal → CVal → Bool) (off : CVal → CVal → CVal) (n : Nat) : Prop :=
  ∀ {s0 s : State I} {h h' : Heap}, UserRun (sem A X prog n) Q U h h' → At Q U prec off s0 s h → s.user = true →
    ∃ s', At Q U prec off s0 s' h' ∧ s'.frames = s.frames

/-- A step, up to the call of the task; the user functions may be any (`Y`). -/
theorem At.about (hu : Honest A X Q U prec off) {Y : Ext} (hY : Y.fn = X.fn) (n : Nat) {h1 : Heap} (a : At Q U prec off s0 s h)
    (hs : s.user = true) (k1 : U.Adds Q [.seen .step] h h1) : ∃ (hA : Heap) (s' : State I), At Q U prec off s0 s' hA ∧
      s'.frames = .chosen s'.σ.cur :: s.frames ∧
      sem A Y prog (n + 4) .mu_sched_step h1 [] = (do
        let (_, h2) ← sem A Y prog (n + 3) .mu_task_call hA [s'.σ.cur]
        let h3 ← h2.store (.ptr (.glob .s_sched) 9) .null
        .ok (.undef, h3)) := by
  have hX : Clock Y prec off := by
    have := hu.clock
    refine ⟨?_, ?_, this.offsetDef, ?_⟩ <;> rw [hY]
    exacts [this.precedes, this.offset, this.now]
  have m1 := a.mem.mine k1.only
  obtain ⟨hd1, ix1, q1⟩ := m1.sched
  have t1 : h1.at (.glob .s_call_hook) 0 = some .null := by
    rw [k1.only.cell _ _ (fun hb => hb.1.2.1 rfl)]; exact a.hook
  have t2 : h1.at (.glob .s_transfer_hook) 0 = some .null := by
    rw [k1.only.cell _ _ (fun hb => hb.1.2.2 rfl)]; exact a.transfer
  obtain ⟨hA, hd', ix', σ', qA, eA, cA, cB⟩ := C128_step A n hX q1
  refine ⟨hA, ?_⟩
  cases hi : s.σ.irq with
  | cons t l =>
    obtain ⟨rfl, o⟩ := cA t l hi
    obtain ⟨i, l'⟩ := hu.frame _ _ (o.mono fun b o hb => .inl hb) k1.inv
    refine ⟨{ s with σ := { s.σ with irq := l, cur := t }, frames := .chosen t :: s.frames }, ⟨?_, ?_, i, ?_, ?_⟩, rfl, eA⟩
    · rw [l', k1.log]
      exact replay_one a.log (by simp [State.see, hs, hi])
    · have := m1.lib hu.layout o qA
      exact ⟨this.sched, this.queues, this.vars⟩
    · rw [o.cell _ _ (by simp [SchedVar])]; exact t1
    · rw [o.cell _ _ (by simp [SchedVar])]; exact t2
  | nil =>
    obtain ⟨now, hB, hC, c1, o1, o2, rfl⟩ := cB hi
    rw [hY] at c1
    obtain ⟨iB, lB⟩ := hu.frame _ _ (o1.mono fun b o hb => .inl hb) k1.inv
    have ad := hu.reads _ _ _ iB c1
    obtain ⟨iA, lA⟩ := hu.frame _ _ (o2.mono fun b o hb => .inl hb) ad.inv
    refine ⟨{ s with σ := s.σ.choose prec now, frames := .chosen (s.σ.choose prec now).cur :: s.frames, clock := now }, ⟨?_, ?_, iA, ?_, ?_⟩, rfl, eA⟩
    · rw [lA, ad.log, lB, k1.log]
      refine replay_one (replay_one (s'' := { s with frames := .looking :: s.frames }) a.log (by simp [State.see, hs, hi])) ?_
      simp [State.see]
    · refine ⟨⟨hd', ix', qA⟩, fun i => ?_, fun b o hb => ?_⟩
      · obtain ⟨ix, q⟩ := m1.queues i
        have nb : ∀ b o, SchedVar b → ¬ (Q i).cells b o := fun b o hb hc => (hu.layout.free i b o hc).1 hb
        exact ⟨ix, ((q.only o1 nb).only ad.only fun b o hb => hb.2.2 i).only o2 nb⟩
      · have nb := (hu.layout.var b o hb).1.1
        rw [o2.cell _ _ nb, ad.only.cell _ _ (fun hm => hm.2.1 hb), o1.cell _ _ nb]
        exact m1.vars b o hb
    · rw [o2.cell _ _ (by simp [SchedVar]), ad.only.cell _ _ (fun hb => hb.1.2.1 rfl), o1.cell _ _ (by simp [SchedVar])]; exact t1
    · rw [o2.cell _ _ (by simp [SchedVar]), ad.only.cell _ _ (fun hb => hb.1.2.2 rfl), o1.cell _ _ (by simp [SchedVar])]; exact t2

/-- The function of a task, called by the library. -/
theorem At.task (hu : Honest A X Q U prec off) {n f : Nat} (ih : UserOk A X Q U prec off n) {t w : CVal} {fr fr' : Frame} {l : List Frame}
    (a : At Q U prec off s0 s h) (hf : s.frames = fr :: l) (hs : s.see Q prec off (.seen (.called t)) = some { s with frames := fr' :: l })
    (hfu : fr'.user = true) (e : X.cb (sem A X prog n) f h [t] = .ok (w, h')) : ∃ s2, At Q U prec off s0 s2 h' ∧ s2.frames = fr' :: l := by
  obtain ⟨t', h1, ht, ad, ur⟩ := hu.task _ _ _ _ _ _ a.inv e
  obtain rfl : t = t' := by simpa using ht
  have a1 : At Q U prec off s0 { s with frames := fr' :: l } h1 := a.adds ad (by simp [replay, hs]) rfl rfl rfl
  exact ih ur a1 hfu

/-- A step: from the memory in which it is called to the memory in which it has returned. -/
theorem At.step (hu : Honest A X Q U prec off) {n : Nat} (ih : UserOk A X Q U prec off n) {r : CVal} {h1 h2 h3 : Heap} (a : At Q U prec off s0 s h)
    (hs : s.user = true) (k1 : U.Adds Q [.seen .step] h h1) (e : sem A X prog (n + 1) .mu_sched_step h1 [] = .ok (r, h2))
    (k3 : U.Adds Q [.seen .stepped] h2 h3) : ∃ s', At Q U prec off s0 s' h3 ∧ s'.frames = s.frames := by
  -- the step with user functions that may use `n` steps
  have e' := (sem_frozen (A := A) (prog := prog) hu.mono (Nat.le_refl (n + 1)) (show n + 1 ≤ n + 4 by omega) .mu_sched_step h1 []).ok e
  obtain ⟨hA, s1, aA, hf, eA⟩ := a.about hu (Y := X.frozen A prog n) rfl n hs k1
  -- the task, if any
  rw [eA] at e'
  obtain ⟨⟨v, hT⟩, eT, e'⟩ := C.bind_eq_ok e'
  obtain ⟨s2, aT, hs2⟩ : ∃ s2, At Q U prec off s0 s2 hT ∧
      (s2.frames = .chosen .null :: s.frames ∨ s2.frames = .running :: s.frames) := by
    rcases task_call_inv aA.hook eT with ⟨hc, rfl⟩ | ⟨f, w, hc, eF⟩
    · exact ⟨_, aA, .inl (by rw [hf, hc])⟩
    · obtain ⟨s2, aT, h2⟩ := aA.task hu ih (fr' := .running) hf (by simp [State.see, hf, hc]) rfl eF
      exact ⟨s2, aT, .inr h2⟩
  -- and back
  obtain ⟨hdT, ixT, qT⟩ := aT.mem.sched
  obtain ⟨h4, hd4, ix4, g1, g2, g3⟩ := C128_return qT
  have e4 : h4 = h2 := by
    simp only [g1] at e'
    exact (Prod.mk.inj (Except.ok.inj e')).2
  subst e4
  obtain ⟨m1, i1, i2, i3, i4⟩ := aT.lib hu g3 g2
  have m2 := m1.mine k3.only
  refine ⟨{ s2 with σ := { s2.σ with cur := .null }, frames := s.frames }, ⟨?_, ⟨m2.sched, m2.queues, m2.vars⟩, k3.inv, ?_, ?_⟩, rfl⟩
  · rw [k3.log, i2]
    refine replay_one aT.log ?_
    rcases hs2 with x | x <;> simp [State.see, x]
  · rw [k3.only.cell _ _ (fun hb => hb.1.2.1 rfl)]; exact i3
  · rw [k3.only.cell _ _ (fun hb => hb.1.2.2 rfl)]; exact i4

omit [DecidableEq I] in
theorem ok_legal (L : Layout A Q U) (m : Mem Q U s h) {i : I} {c : QCall} (hc : c.Ok U) : c.Legal (Q i).cells h := by
  cases c with
  | get eb eo => exact ⟨(L.var _ _ hc).2.1, by rw [m.vars _ _ hc]; rfl, (L.var _ _ hc).2.2 i⟩
  | peek eb eo => exact ⟨(L.var _ _ hc).2.1, by rw [m.vars _ _ hc]; rfl, (L.var _ _ hc).2.2 i⟩
  | put v => exact hc
  | _ => trivial

omit [DecidableEq I] in
theorem ok_writes {c : QCall} (hc : c.Ok U) {b : Base} {o : Int} (hw : c.writes b o) : U.var b o := by
  cases c with
  | get eb eo => obtain ⟨rfl, rfl⟩ := hw; exact hc
  | peek eb eo => obtain ⟨rfl, rfl⟩ := hw; exact hc
  | _ => exact hw.elim

/-- A call on a queue, up to the call of the task; the user functions may be any (`Y`). -/
theorem At.asks (hu : Honest A X Q U prec off) {Y : Ext} (n : Nat) {h1 : Heap} {i : I} {c : QCall} (hc : c.Ok U)
    (a : At Q U prec off s0 s h) (hs : s.user = true) (k1 : U.Adds Q [.ask i c] h h1) : ∃ (hA : Heap) (s' : State I) (m : Nat) (t : CVal),
      (m = n ∨ m = n + 1) ∧ At Q U prec off s0 s' hA ∧ TaskPtr t ∧
      s'.frames = .asked t (QCall.spec (Q i).b (Q i).o (Q i).cap (s.lists i) c).1.ret c.var :: s.frames ∧
      c.mrun (sem A Y prog (n + 3)) (Q i).b (Q i).o h1 = (do
        let h2 ← wake (sem A Y prog (m + 1)) t hA
        .ok (⟨(QCall.spec (Q i).b (Q i).o (Q i).cap (s.lists i) c).1.ret, c.var.bind fun v => h2.at v.1 v.2⟩, h2)) := by
  have m1 := a.mem.mine k1.only
  obtain ⟨ix, q⟩ := m1.queues i
  have L := hu.layout
  obtain ⟨hA, ix', m, hm, qA, oA, vA, eA⟩ := C127_call A Y n q (L.cap i) (L.pt i) (L.gt i) c (ok_legal L m1 hc)
  have oA' : Heap.Only (fun b o => SchedVar b ∨ U.var b o ∨ ∃ i, (Q i).cells b o) h1 hA :=
    oA.mono fun b o hb => hb.elim (fun hb => .inr (.inr ⟨i, hb⟩)) fun hb => .inr (.inl (ok_writes hc hb))
  obtain ⟨iA, lA⟩ := hu.frame _ _ oA' k1.inv
  have nf : ∀ {b : Base} {o : Int}, ¬ Free b → ¬ (mqueueCells (Q i).b (Q i).o (Q i).sb (Q i).so (Q i).cap b o ∨ c.writes b o) := by
    rintro b o hf (hb | hb)
    · exact hf (L.free i b o hb)
    · exact hf (L.var b o (ok_writes hc hb)).1
  have key : ∃ m', m = m' + 1 ∧ (m' = n ∨ m' = n + 1) := by
    rcases hm with rfl | rfl
    exacts [⟨n, rfl, .inl rfl⟩, ⟨n + 1, rfl, .inr rfl⟩]
  obtain ⟨m', rfl, hm'⟩ := key
  refine ⟨hA, { s with
      lists := setAt s.lists i (QCall.spec (Q i).b (Q i).o (Q i).cap (s.lists i) c).2
      vars := setVar s.vars c.var (QCall.spec (Q i).b (Q i).o (Q i).cap (s.lists i) c).1.elem
      frames := .asked (QCall.wakes (Q i).cap (s.lists i) (Q i).pt (Q i).gt c) (QCall.spec (Q i).b (Q i).o (Q i).cap (s.lists i) c).1.ret c.var :: s.frames },
    m', QCall.wakes (Q i).cap (s.lists i) (Q i).pt (Q i).gt c, hm', ⟨?_, ⟨?_, fun j => ?_, fun b o hb => ?_⟩, iA, ?_, ?_⟩, ?_, rfl, ?_⟩
  · rw [lA, k1.log]
    exact replay_one a.log (by simp [State.see, hs])
  · obtain ⟨hd, ix, q⟩ := m1.sched
    exact C128_frame q (oA.mono fun b o hb hv => nf (fun hf => hf.1 hv) hb)
  · by_cases hj : j = i
    · subst hj
      exact ⟨ix', by simpa [setAt] using qA⟩
    · obtain ⟨ix, q⟩ := m1.queues j
      have := q.only oA (by
        rintro b o (hb | hb) hc'
        · exact L.apart i j (Ne.symm hj) b o hb hc'
        · exact (L.var b o (ok_writes hc hb)).2.2 j hc')
      exact ⟨ix, by simpa [setAt, hj] using this⟩
  · by_cases hw : c.writes b o
    · rw [vA b o hw]
      cases c with
      | get eb eo =>
        obtain ⟨rfl, rfl⟩ := hw
        simp only [QCall.spec, QCall.var, setVar]
        split <;> simp
      | peek eb eo =>
        obtain ⟨rfl, rfl⟩ := hw
        simp only [QCall.spec, QCall.var, setVar]
        split <;> simp
      | _ => exact hw.elim
    · rw [oA.cell b o (fun hx => hx.elim ((L.var b o hb).2.2 i) hw), m1.vars b o hb]
      cases c with
      | get eb eo =>
        simp only [QCall.spec, QCall.var, setVar]
        have hw : ¬ (b = eb ∧ o = eo) := hw
        cases s.lists i <;> simp [hw]
      | peek eb eo =>
        simp only [QCall.spec, QCall.var, setVar]
        have hw : ¬ (b = eb ∧ o = eo) := hw
        cases s.lists i <;> simp [hw]
      | _ => rfl
  · rw [oA.cell _ _ (nf fun hf => hf.2.1 rfl), k1.only.cell _ _ (fun hb => hb.1.2.1 rfl)]; exact a.hook
  · rw [oA.cell _ _ (nf fun hf => hf.2.2 rfl), k1.only.cell _ _ (fun hb => hb.1.2.2 rfl)]; exact a.transfer
  · cases c <;> simp only [QCall.wakes] <;> (try split) <;> first | exact L.pt i | exact L.gt i | trivial
  · rw [eA]
    cases c <;> rfl

theorem mrun_ok {S S' : Fn → SemFn} (hS : ∀ f h args r, S f h args = .ok r → S' f h args = .ok r) {b : Base} {o : Int} {c : QCall} {r : QOut × Heap}
    (e : c.mrun S b o h = .ok r) : c.mrun S' b o h = .ok r := by
  cases c <;>
    (obtain ⟨⟨v, h1⟩, e1, e⟩ := C.bind_eq_ok e
     simp only [QCall.mrun, hS _ _ _ _ e1]
     exact e)

theorem mrun_error {S S' : Fn → SemFn} {x : Fault} (hS : ∀ f h args, S f h args = .error x → S' f h args = .error x) {b : Base} {o : Int} {c : QCall}
    (e : c.mrun S b o h = .error x) : c.mrun S' b o h = .error x := by
  have key : ∀ {f args} {k : CVal × Heap → C (QOut × Heap)} {k' : CVal × Heap → C (QOut × Heap)}, (∀ y, k y ≠ .error x) →
      (S f h args).bind k = .error x → (S' f h args).bind k' = .error x := by
    intro f args k k' hk e
    cases hx : S f h args with
    | ok y => rw [hx] at e; exact absurd e (hk y)
    | error z =>
      rw [hx] at e
      obtain rfl : z = x := Except.error.inj e
      rw [hS _ _ _ hx]
      rfl
  cases c <;> exact key (fun y => by simp) e

/-- A call on a queue: from the memory in which it is made to the memory in which it has returned. -/
theorem At.ask (hu : Honest A X Q U prec off) {n : Nat} (ih : UserOk A X Q U prec off n) {r : QOut} {h1 h2 h3 : Heap} {i : I} {c : QCall} (hc : c.Ok U)
    (a : At Q U prec off s0 s h) (hs : s.user = true) (k1 : U.Adds Q [.ask i c] h h1)
    (e : c.mrun (sem A X prog (n + 1)) (Q i).b (Q i).o h1 = .ok (r, h2)) (k3 : U.Adds Q [.told r] h2 h3) :
    ∃ s', At Q U prec off s0 s' h3 ∧ s'.frames = s.frames := by
  -- the call with user functions that may use `n` steps
  have e' : c.mrun (sem A (X.frozen A prog n) prog (n + 3)) (Q i).b (Q i).o h1 = .ok (r, h2) := mrun_ok (fun f h args r e =>
    (sem_frozen (A := A) (prog := prog) hu.mono (Nat.le_refl (n + 1)) (show n + 1 ≤ n + 3 by omega) f h args).ok e) e
  obtain ⟨hA, s1, m, t, -, aA, ht, hf, eA⟩ := a.asks hu (Y := X.frozen A prog n) n hc hs k1
  -- the task, if any
  rw [eA] at e'
  obtain ⟨hT, eT, e'⟩ := C.bind_eq_ok e'
  obtain ⟨rfl, rfl⟩ := Prod.mk.inj (Except.ok.inj e')
  obtain ⟨s2, aT, hs2⟩ : ∃ s2, At Q U prec off s0 s2 hT ∧
      (s2.frames = .asked .null (QCall.spec (Q i).b (Q i).o (Q i).cap (s.lists i) c).1.ret c.var :: s.frames ∨
        s2.frames = .waking (QCall.spec (Q i).b (Q i).o (Q i).cap (s.lists i) c).1.ret c.var :: s.frames) := by
    have call : ∀ {b o}, t = .ptr b o → ∃ v, sem A (X.frozen A prog n) prog (m + 1) .mu_task_call hA [t] = .ok (v, hT) := by
      rintro b o rfl
      obtain ⟨⟨v, hx⟩, e1, e2⟩ := C.bind_eq_ok eT
      obtain rfl := Except.ok.inj e2
      exact ⟨v, e1⟩
    cases t with
    | null =>
      obtain rfl : hA = hT := Except.ok.inj eT
      exact ⟨s1, aA, .inl hf⟩
    | ptr b o =>
      obtain ⟨v, e1⟩ := call rfl
      rcases task_call_inv aA.hook e1 with ⟨hc, rfl⟩ | ⟨f, w, hc, eF⟩
      · cases hc
      · obtain ⟨s2, aT, h2⟩ := aA.task hu ih (fr' := .waking (QCall.spec (Q i).b (Q i).o (Q i).cap (s.lists i) c).1.ret c.var) hf (by simp [State.see, hf]) rfl eF
        exact ⟨s2, aT, .inr h2⟩
    | _ => exact ht.elim
  refine ⟨{ s2 with frames := s.frames }, ?_, rfl⟩
  have hv : (c.var.bind fun v => hT.at v.1 v.2) = c.var.map fun v => s2.vars v.1 v.2 := by
    cases hx : c.var with
    | none => rfl
    | some v =>
      have : U.var v.1 v.2 := by
        cases c <;> simp only [QCall.var, Option.some.injEq, reduceCtorEq] at hx <;> subst hx <;> exact hc
      exact aT.mem.vars _ _ this
  refine aT.adds k3 ?_ rfl rfl rfl
  rcases hs2 with x | x <;> simp [replay, State.see, x, hv]

theorem userOk (hu : Honest A X Q U prec off) : ∀ n, UserOk A X Q U prec off n := by
  intro n
  induction n with
  | zero =>
    intro s0 s h h' ur
    induction ur generalizing s with
    | done h => exact fun a hs => ⟨s, a, rfl⟩
    | own k _ ih => exact fun a hs => ih (a.adds k rfl rfl rfl rfl) hs
    | call c hc e k _ ih =>
      intro a hs
      obtain ⟨s1, a1, h1⟩ := a.call hu hs hc e k
      obtain ⟨s2, a2, h2⟩ := ih a1 (by simpa [State.user, h1] using hs)
      exact ⟨s2, a2, h2.trans h1⟩
    | step k1 e k3 _ ih => cases e
    | ask i c hc k1 e k3 _ ih => cases c <;> cases e
  | succ n ihn =>
    intro s0 s h h' ur
    induction ur generalizing s with
    | done h => exact fun a hs => ⟨s, a, rfl⟩
    | own k _ ih => exact fun a hs => ih (a.adds k rfl rfl rfl rfl) hs
    | call c hc e k _ ih =>
      intro a hs
      obtain ⟨s1, a1, h1⟩ := a.call hu hs hc e k
      obtain ⟨s2, a2, h2⟩ := ih a1 (by simpa [State.user, h1] using hs)
      exact ⟨s2, a2, h2.trans h1⟩
    | step k1 e k3 _ ih =>
      intro a hs
      obtain ⟨s1, a1, h1⟩ := a.step hu ihn hs k1 e k3
      obtain ⟨s2, a2, h2⟩ := ih a1 (by simpa [State.user, h1] using hs)
      exact ⟨s2, a2, h2.trans h1⟩
    | ask i c hc k1 e k3 _ ih =>
      intro a hs
      obtain ⟨s1, a1, h1⟩ := a.ask hu ihn hc hs k1 e k3
      obtain ⟨s2, a2, h2⟩ := ih a1 (by simpa [State.user, h1] using hs)
      exact ⟨s2, a2, h2.trans h1⟩

/-- At first. -/
theorem At.init (f : Fresh Q U h) {vars : Base → Int → CVal} (hv : ∀ b o, U.var b o → h.at b o = some (vars b o)) :
    At Q U prec off (.start I vars) (.start I vars) h :=
  ⟨by rw [f.log]; rfl, ⟨f.sched, f.queues, hv⟩, f.inv, f.callHook, f.transferHook⟩

/-- **C135, programs**: after initialisation, user code runs, calls the scheduler and puts to and gets from message queues; tasks are
called from within `mu_sched_step`, `mu_mqueue_put` and `mu_mqueue_get` and do all this themselves, to any depth, on the same queue
or others.  Whenever the main program looks, its log is right: every answer is that of the agenda and of the first-in first-out
lists, every task that was called was the one to be called, and what the log leads to is in memory. -/
theorem C135_program (hu : Honest A X Q U prec off) {h0 : Heap} {n : Nat} {vars : Base → Int → CVal} (f : Fresh Q U h0)
    (hv : ∀ b o, U.var b o → h0.at b o = some (vars b o)) (run : UserRun (sem A X prog n) Q U h0 h) :
    ∃ s, replay Q prec off (.start I vars) (U.log h) = some s ∧ s.frames = [] ∧ Mem Q U s h := by
  obtain ⟨s, a', hs⟩ := userOk hu n run (At.init f hv) rfl
  exact ⟨s, a'.log, hs, a'.mem⟩

/-- What the probe finds. -/
theorem probe_task {n f : Nat} {t u : CVal} {hA h2 : Heap} (hh : hA.at (.glob .s_call_hook) 0 = some .null)
    (e : sem A (X.probe f h2 [u]) prog (n + 1) .mu_task_call hA [t] = .error .divZero) : t ≠ .null ∧ hA = h2 ∧ t = u := by
  obtain ⟨hc, g, eg⟩ := task_call_stop (X := X.probe f h2 [u]) (by
    intro g h' args
    unfold Ext.probe
    simp only
    split
    exacts [.inl rfl, .inr rfl]) hh e
  unfold Ext.probe at eg
  simp only at eg
  split at eg
  · rename_i hx
    obtain ⟨-, rfl, hx⟩ := hx
    exact ⟨hc, rfl, by simpa using hx⟩
  · cases eg

theorem probe_mono {f : Nat} {h2 : Heap} {args : List CVal} : (X.probe f h2 args).Monotone := fun _ _ _ _ _ _ => .refl _

/-- **C135, every moment**: the same holds at every moment at which user code runs, in the main program or in a task, whether or not
what is running will ever return. -/
theorem C135_moment (hu : Honest A X Q U prec off) {vars : Base → Int → CVal} (m : Moment A X Q U vars h) :
    ∃ s, replay Q prec off (.start I vars) (U.log h) = some s ∧ s.user = true ∧ Mem Q U s h := by
  suffices ∃ s, At Q U prec off (.start I vars) s h ∧ s.user = true by
    obtain ⟨s, a, hs⟩ := this
    exact ⟨s, a.log, hs, a.mem⟩
  induction m with
  | init f hv => exact ⟨_, At.init f hv, rfl⟩
  | run _ r ih =>
    obtain ⟨s, a, hs⟩ := ih
    obtain ⟨s', a', hs'⟩ := userOk hu _ r a hs
    exact ⟨s', a', by simpa [State.user, hs'] using hs⟩
  | @task h h1 h2 h3 f t vars _ k1 c k3 ih =>
    obtain ⟨s, a, hs⟩ := ih
    obtain ⟨n, e⟩ := c
    obtain ⟨hA, s1, aA, hf, eA⟩ := a.about hu (Y := X.probe f h2 [t]) rfl n hs k1
    rw [C131_steps probe_mono (show n ≤ n + 4 by omega) e (by simp)] at eA
    cases ht : sem A (X.probe f h2 [t]) prog (n + 3) .mu_task_call hA [s1.σ.cur] with
    | error x =>
      rw [ht] at eA
      obtain rfl : Fault.divZero = x := Except.error.inj eA
      obtain ⟨hc, rfl, rfl⟩ := probe_task aA.hook ht
      exact ⟨{ s1 with frames := .running :: s.frames }, aA.adds k3 (by simp [replay, State.see, hf, hc]) rfl rfl rfl, rfl⟩
    | ok y =>
      obtain ⟨v, hT⟩ := y
      rw [ht] at eA
      exfalso
      rcases task_call_inv aA.hook ht with ⟨-, rfl⟩ | ⟨g, w, -, eF⟩
      · obtain ⟨hd, ix, q⟩ := aA.mem.sched
        obtain ⟨h4, -, -, g1, -⟩ := C128_return q
        simp [g1] at eA
      · unfold Ext.probe at eF
        simp only at eF
        split at eF <;> cases eF
  | @woken h h1 h2 h3 f t i c vars _ hc k1 ac k3 ih =>
    obtain ⟨s, a, hs⟩ := ih
    obtain ⟨n, e⟩ := ac
    obtain ⟨hA, s1, m, t', -, aA, ht, hf, eA⟩ := a.asks hu (Y := X.probe f h2 [t]) n hc hs k1
    have e' : c.mrun (sem A (X.probe f h2 [t]) prog (n + 3)) (Q i).b (Q i).o h1 = .error .divZero :=
      mrun_error (fun f h args e => C131_steps probe_mono (show n ≤ n + 3 by omega) e (by simp)) e
    rw [e'] at eA
    cases t' with
    | null => cases eA
    | ptr b o =>
      cases ht : sem A (X.probe f h2 [t]) prog (m + 1) .mu_task_call hA [.ptr b o] with
      | error x =>
        simp only [wake, ht] at eA
        obtain rfl : Fault.divZero = x := Except.error.inj eA
        obtain ⟨-, rfl, rfl⟩ := probe_task aA.hook ht
        exact ⟨{ s1 with frames := .waking _ c.var :: s.frames }, aA.adds k3 (by simp [replay, State.see, hf]; rfl) rfl rfl rfl, rfl⟩
      | ok y =>
        obtain ⟨v, hT⟩ := y
        simp [wake, ht] at eA
    | _ => exact ht.elim

/-! ## Initialisation -/

omit [DecidableEq I] in
theorem Ready.only (L : Layout A Q U) {S : Base → Int → Prop} (r : Ready Q U h) (o : Heap.Only S h h') (hS : ∀ b o, S b o → SchedVar b ∨ ∃ i, (Q i).cells b o)
    (hv : h'.SchedVars) (fr : U.inv h' ∧ U.log h' = U.log h) : Ready Q U h' := by
  have nh : ∀ {b : Base} {o : Int}, ¬ SchedVar b → ¬ Free b → ¬ S b o := fun h1 h2 hs =>
    (hS _ _ hs).elim h1 fun ⟨i, hi⟩ => h2 (L.free i _ _ hi)
  refine ⟨hv, r.wr, fun i k hk => (o.isSome _ _).mpr (r.struct i k hk), fun i k hk => (o.isSome _ _).mpr (r.store i k hk), r.sep,
    fun b o' hb => (o.isSome _ _).mpr (r.vars b o' hb), ?_, ?_, fr.1, fr.2.trans r.log⟩
  · rw [o.cell _ _ (nh (by simp [SchedVar]) fun hf => hf.2.1 rfl)]; exact r.callHook
  · rw [o.cell _ _ (nh (by simp [SchedVar]) fun hf => hf.2.2 rfl)]; exact r.transferHook

/-- Initialising the queues of a list. -/
theorem init_queues (hu : Honest A X Q U prec off) (n : Nat) (l : List I) : ∀ {h : Heap} {hd ix : Nat} (P : I → Prop), Ready Q U h →
    h.Scheduler hd ix ⟨[], [], [], .null, .null⟩ → (∀ i, P i → ∃ ix, h.MQ (Q i).b (Q i).o (Q i).sb (Q i).so (Q i).cap (Q i).pt (Q i).gt ix []) →
    ∃ h', initAll (sem A X prog (n + 3)) Q l h = .ok h' ∧ Ready Q U h' ∧ (∃ hd ix, h'.Scheduler hd ix ⟨[], [], [], .null, .null⟩) ∧
      ∀ i, (P i ∨ i ∈ l) → ∃ ix, h'.MQ (Q i).b (Q i).o (Q i).sb (Q i).so (Q i).cap (Q i).pt (Q i).gt ix [] := by
  have L := hu.layout
  induction l with
  | nil => exact fun P r q hq => ⟨_, rfl, r, ⟨_, _, q⟩, fun i hi => hq i (hi.elim id fun hi => by cases hi)⟩
  | cons i l ih =>
    intro h hd ix P r q hq
    obtain ⟨h1, e1, q1, o1⟩ := C127_init A X (n + 1) (h := h) (b := (Q i).b) (o := (Q i).o) (sb := (Q i).sb) (so := (Q i).so) (cap := (Q i).cap)
      (pt := (Q i).pt) (gt := (Q i).gt) (r.wr i).1 (r.wr i).2 (r.struct i) (r.store i) (r.sep i) (L.pt i) (L.gt i)
    have hc : ∀ b o, span (Q i).b (Q i).o 6 b o → (Q i).cells b o := fun b o hs => .inl hs
    obtain ⟨hd1, ix1, q2⟩ := C128_frame q (o1.mono fun b o hs hv => (L.free i b o (hc b o hs)).1 hv)
    have r1 := r.only L o1 (fun b o hs => .inr ⟨i, hc b o hs⟩) q2.vars (hu.frame _ _ (o1.mono fun b o hs => .inr (.inr ⟨i, hc b o hs⟩)) r.inv)
    obtain ⟨h', e2, r', q', f⟩ := ih (fun j => j = i ∨ P j) r1 q2 (by
      intro j hj
      by_cases hji : j = i
      · subst hji
        exact ⟨0, q1⟩
      · obtain ⟨ix, qj⟩ := hq j (hj.resolve_left hji)
        exact ⟨ix, qj.only o1 fun b o hs => L.apart i j (Ne.symm hji) b o (hc b o hs)⟩)
    refine ⟨h', ?_, r', q', fun j hj => f j ?_⟩
    · simp only [initAll]
      rw [e1]
      exact e2
    · rcases hj with hj | hj
      · exact .inl (.inr hj)
      · rcases List.mem_cons.mp hj with rfl | hj
        exacts [.inl (.inl rfl), .inr hj]

/-- **C135, initialisation**: `mu_sched_init`, and `mu_mqueue_init` for every queue, lead to where programs start. -/
theorem C135_init (hu : Honest A X Q U prec off) (n : Nat) {l : List I} (all : ∀ i, i ∈ l) (r : Ready Q U h) :
    ∃ h1 h2, sem A X prog (n + 3) .mu_sched_init h [] = .ok (.undef, h1) ∧ initAll (sem A X prog (n + 3)) Q l h1 = .ok h2 ∧ Fresh Q U h2 := by
  obtain ⟨h1, hd, ix, e1, q, o⟩ := C128_init A X n r.sched
  have r1 := r.only hu.layout o (fun b o hs => .inl hs) q.vars (hu.frame _ _ (o.mono fun b o hs => .inl hs) r.inv)
  obtain ⟨h2, e2, r2, q2, f⟩ := init_queues hu n l (fun _ => False) r1 q fun i hi => hi.elim
  exact ⟨h1, h2, e1, e2, q2, fun i => f i (.inr (all i)), r2.vars, r2.callHook, r2.transferHook, r2.inv, r2.log⟩

/-! ## What a right log says about a queue -/

theorem replay_lists {l : List (Entry I)} (i : I) : ∀ {s s' : State I}, replay Q prec off s l = some s' →
    s'.lists i = (QCall.specAll (Q i).b (Q i).o (Q i).cap (s.lists i) (asks i l)).2 := by
  induction l with
  | nil =>
    intro s s' hs
    simp only [replay, Option.some.injEq] at hs
    subst hs
    rfl
  | cons e l ih =>
    intro s s' hs
    simp only [replay] at hs
    split at hs
    · rename_i s1 h1
      rw [ih hs]
      have same : ∀ {e : Entry I}, asks i (e :: l) = asks i l → s1.lists = s.lists →
          (QCall.specAll (Q i).b (Q i).o (Q i).cap (s1.lists i) (asks i l)).2 = (QCall.specAll (Q i).b (Q i).o (Q i).cap (s.lists i) (asks i (e :: l))).2 :=
        fun h1 h2 => by rw [h1, h2]
      cases e with
      | seen e =>
        refine same rfl ?_
        cases e with
        | did c r =>
          simp only [State.see] at h1
          split at h1
          · obtain rfl := Option.some.inj h1; rfl
          · cases h1
        | clock now =>
          simp only [State.see] at h1
          split at h1
          · obtain rfl := Option.some.inj h1; rfl
          · split at h1
            · obtain rfl := Option.some.inj h1; rfl
            · cases h1
        | step =>
          simp only [State.see] at h1
          split at h1
          · split at h1 <;> (obtain rfl := Option.some.inj h1; rfl)
          · cases h1
        | called t =>
          simp only [State.see] at h1
          split at h1
          · split at h1
            · obtain rfl := Option.some.inj h1; rfl
            · cases h1
          · split at h1
            · obtain rfl := Option.some.inj h1; rfl
            · cases h1
          · cases h1
        | hooked t => simp [State.see] at h1
        | transferring t => simp [State.see] at h1
        | stepped =>
          simp only [State.see] at h1
          split at h1
          · obtain rfl := Option.some.inj h1; rfl
          · obtain rfl := Option.some.inj h1; rfl
          · cases h1
      | told r =>
        refine same rfl ?_
        simp only [State.see] at h1
        split at h1
        · split at h1
          · obtain rfl := Option.some.inj h1; rfl
          · cases h1
        · split at h1
          · obtain rfl := Option.some.inj h1; rfl
          · cases h1
        · cases h1
      | ask j c =>
        simp only [State.see] at h1
        split at h1
        · obtain rfl := Option.some.inj h1
          by_cases hj : j = i
          · subst hj
            simp [asks, setAt, QCall.specAll]
          · simp [asks, setAt, hj, Ne.symm hj]
        · cases h1
    · cases hs

/-- **C135, contents**: at every moment, what a queue holds is what the calls made on it so far - by whatever code, at whatever depth, in
the order in which they were made - leave in a first-in first-out list. -/
theorem C135_contents (hu : Honest A X Q U prec off) {vars : Base → Int → CVal} (m : Moment A X Q U vars h) (i : I) :
    ∃ ix, h.MQ (Q i).b (Q i).o (Q i).sb (Q i).so (Q i).cap (Q i).pt (Q i).gt ix
      (QCall.specAll (Q i).b (Q i).o (Q i).cap [] (asks i (U.log h))).2 := by
  obtain ⟨s, hs, -, hm⟩ := C135_moment hu m
  obtain ⟨ix, q⟩ := hm.queues i
  rw [replay_lists i hs] at q
  exact ⟨ix, q⟩

/-! ## A program

A queue for one element.  The first task puts 7 into it; the queue then calls the second task, which takes it out - all before
`mu_mqueue_put` returns.  The log is a number, written in hexadecimal digits. -/

def sysDemo : Heap where
  mem
    | .glob .s_sched => Src.init_s_sched
    | .glob .s_irq_store => Src.init_s_irq_store
    | .glob .s_immed_store => Src.init_s_immed_store
    | .glob .s_deferred_tasks => Src.init_s_deferred_tasks
    | .glob .s_call_hook => Src.init_s_call_hook
    | .glob .s_transfer_hook => Src.init_s_transfer_hook
    | .obj 0 => [.fn 1, .int 0, .null]
    | .obj 1 => [.fn 2, .int 0, .null]
    | .obj 2 => [.int 0]
    | .obj 3 => [.undef, .undef, .undef, .undef, .undef, .undef]
    | .obj 4 => [.undef]
    | .obj 5 => [.undef]
    | _ => []
  next := 6

/-- The queue. -/
def sysDemoQ : Unit → QPlace := fun _ => ⟨.obj 3, 0, .obj 4, 0, 1, .ptr (.obj 1) 0, .null⟩

def sysDemoImmed (S : Fn → SemFn) (h : Heap) : C Heap := do
  let (r, h) ← S .mu_sched_immed h [.ptr (.obj 0) 0]
  match r with
  | .int 0 => progDemoNote 6 h
  | _ => .error .oob

def sysDemoAsk (S : Fn → SemFn) (h : Heap) (d d' : Nat) (c : QCall) (r : QOut) : C Heap := do
  let h ← progDemoNote d h
  let (r', h) ← c.mrun S (.obj 3) 0 h
  if r' = r then progDemoNote d' h else .error .oob

def sysDemoFns : Ext where
  fn := progDemoFns.fn
  cb S f h args :=
    match f, args with
    | 1, [.ptr (.obj 0) 0] => do
      let h ← progDemoNote 2 h
      let h ← sysDemoAsk S h 7 9 (.put (.int 7)) ⟨.int 1, none⟩
      .ok (.undef, h)
    | 2, [.ptr (.obj 1) 0] => do
      let h ← progDemoNote 3 h
      let h ← sysDemoAsk S h 8 10 (.get (.obj 5) 0) ⟨.int 1, some (.int 7)⟩
      .ok (.undef, h)
    | _, _ => .error .oob

def sysDemoMain (S : Fn → SemFn) (h : Heap) : C Heap := do
  let h ← sysDemoImmed S h
  progDemoStep S h

/-- What the digits mean. -/
def sysDemoEntry : Nat → Entry Unit
  | 1 => .seen .step
  | 2 => .seen (.called (.ptr (.obj 0) 0))
  | 3 => .seen (.called (.ptr (.obj 1) 0))
  | 4 => .seen (.clock (.int 5))
  | 5 => .seen .stepped
  | 6 => .seen (.did (.immed (.ptr (.obj 0) 0)) (SErr.val .none))
  | 7 => .ask () (.put (.int 7))
  | 8 => .ask () (.get (.obj 5) 0)
  | 9 => .told ⟨.int 1, none⟩
  | _ => .told ⟨.int 1, some (.int 7)⟩

def sysDemoUser : User Unit where
  log h :=
    match h.at (.obj 2) 0 with
    | some (.int n) => (Nat.digits 16 n.toNat).reverse.map sysDemoEntry
    | _ => []
  inv h := ∃ n : Nat, h.at (.obj 2) 0 = some (.int n)
  var b o := b = .obj 5 ∧ o = 0

theorem sysDemo_note {d : Nat} (hd : 0 < d) (hd' : d < 16) {h h' : Heap} (e : progDemoNote d h = .ok h') :
    sysDemoUser.Adds sysDemoQ [sysDemoEntry d] h h' := by
  unfold progDemoNote at e
  cases hx : h.at (.obj 2) 0 with
  | none => rw [hx] at e; cases e
  | some v =>
    rw [hx] at e
    cases v with
    | int n =>
      simp only at e
      split at e
      · rename_i hn
        obtain rfl := Except.ok.inj e
        obtain ⟨m, rfl⟩ := Int.eq_ofNat_of_zero_le hn
        have h2 : (h.upd (.obj 2) 0 (.int (d + 16 * (m : Int)))).at (.obj 2) 0 = some (.int ((d + 16 * m : Nat) : Int)) := by
          rw [Heap.at_upd_same rfl (by simp [hx])]; simp
        refine ⟨?_, ⟨_, h2⟩, ?_⟩
        · exact Heap.Only.upd (.refl _ _) (by simp [Mine, Free, SchedVar, sysDemoUser, sysDemoQ, QPlace.cells, mqueueCells])
        · simp only [sysDemoUser, hx, h2, Int.toNat_natCast]
          rw [Nat.digits_add 16 (by omega) d m hd' (by omega)]
          simp
      · cases e
    | _ => cases e

theorem sysDemo_immed {S : Fn → SemFn} {h h' : Heap} (e : sysDemoImmed S h = .ok h') {h'' : Heap}
    (k : UserRun S sysDemoQ sysDemoUser h' h'') : UserRun S sysDemoQ sysDemoUser h h'' := by
  unfold sysDemoImmed at e
  obtain ⟨⟨r, h1⟩, e1, e⟩ := C.bind_eq_ok e
  simp only at e
  split at e
  · exact .call (.immed (.ptr (.obj 0) 0)) (by simp [Req.Defined]) e1 (sysDemo_note (d := 6) (by omega) (by omega) e) k
  · cases e

theorem sysDemo_step {S : Fn → SemFn} {h h' : Heap} (e : progDemoStep S h = .ok h') {h'' : Heap}
    (k : UserRun S sysDemoQ sysDemoUser h' h'') : UserRun S sysDemoQ sysDemoUser h h'' := by
  unfold progDemoStep at e
  obtain ⟨h1, e1, e⟩ := C.bind_eq_ok e
  obtain ⟨⟨r, h2⟩, e2, e⟩ := C.bind_eq_ok e
  exact .step (sysDemo_note (d := 1) (by omega) (by omega) e1) e2 (sysDemo_note (d := 5) (by omega) (by omega) e) k

theorem sysDemo_ask {S : Fn → SemFn} {h h' : Heap} {d d' : Nat} {c : QCall} {r : QOut} (hd : 0 < d ∧ d < 16) (hd' : 0 < d' ∧ d' < 16)
    (hc : c.Ok sysDemoUser) (he : sysDemoEntry d = .ask () c) (he' : sysDemoEntry d' = .told r)
    (e : sysDemoAsk S h d d' c r = .ok h') {h'' : Heap}
    (k : UserRun S sysDemoQ sysDemoUser h' h'') : UserRun S sysDemoQ sysDemoUser h h'' := by
  unfold sysDemoAsk at e
  obtain ⟨h1, e1, e0⟩ := C.bind_eq_ok e
  obtain ⟨⟨r', h2⟩, e2, e3⟩ := C.bind_eq_ok e0
  simp only at e3
  split at e3
  · rename_i hr
    have a1 := sysDemo_note hd.1 hd.2 e1
    have a2 := sysDemo_note hd'.1 hd'.2 e3
    rw [hr] at e2
    rw [he] at a1
    rw [he'] at a2
    exact .ask () c hc a1 e2 a2 k
  · cases e3

theorem sysDemo_honest : Honest .lp64 sysDemoFns sysDemoQ sysDemoUser demoPrec demoOff where
  layout := by
    refine ⟨?_, fun i j hij => absurd rfl hij, ?_, fun i => show 2 * 1 ≤ Arch.lp64.szMod by decide, fun i => by simp [sysDemoQ, TaskPtr], fun i => by simp [sysDemoQ, TaskPtr]⟩
    · rintro i b o (⟨rfl, -⟩ | ⟨rfl, -⟩) <;> simp [sysDemoQ, Free, SchedVar]
    · rintro b o ⟨rfl, rfl⟩
      simp [Free, SchedVar, sysDemoQ, QPlace.cells, mqueueCells, Base.isLit]
  clock := ⟨progDemo_honest.clock.1, progDemo_honest.clock.2, progDemo_honest.clock.3, progDemo_honest.clock.4⟩
  mono := by
    intro S S' hS k h args
    have hc : ∀ h (c : QCall), Le (c.mrun S (.obj 3) 0 h) (c.mrun S' (.obj 3) 0 h) := by
      intro h c
      cases c <;> exact (hS _ h _).bind fun _ => .refl _
    have ha : ∀ h d d' c r, Le (sysDemoAsk S h d d' c r) (sysDemoAsk S' h d d' c r) := fun h d d' c r =>
      (Le.refl _).bind fun h => (hc h c).bind fun _ => .refl _
    simp only [sysDemoFns]
    split
    · exact (Le.refl _).bind fun h => (ha _ _ _ _ _).bind fun _ => .refl _
    · exact (Le.refl _).bind fun h => (ha _ _ _ _ _).bind fun _ => .refl _
    · exact .refl _
  frame := by
    intro h h' o ⟨n, hn⟩
    have := o.cell (.obj 2) 0 (by simp [SchedVar, sysDemoUser, sysDemoQ, QPlace.cells, mqueueCells])
    exact ⟨⟨n, this.trans hn⟩, by simp only [sysDemoUser, this]⟩
  task := by
    intro n f h args v h' i e
    simp only [sysDemoFns] at e
    split at e
    · obtain ⟨h1, e1, e⟩ := C.bind_eq_ok e
      obtain ⟨h2, e2, e⟩ := C.bind_eq_ok e
      obtain ⟨-, rfl⟩ := Prod.mk.inj (Except.ok.inj e)
      exact ⟨_, h1, rfl, sysDemo_note (d := 2) (by omega) (by omega) e1,
        sysDemo_ask (by omega) (by omega) (by simp [QCall.Ok]) rfl rfl e2 (.done _)⟩
    · obtain ⟨h1, e1, e⟩ := C.bind_eq_ok e
      obtain ⟨h2, e2, e⟩ := C.bind_eq_ok e
      obtain ⟨-, rfl⟩ := Prod.mk.inj (Except.ok.inj e)
      exact ⟨_, h1, rfl, sysDemo_note (d := 3) (by omega) (by omega) e1,
        sysDemo_ask (c := .get (.obj 5) 0) (by omega) (by omega) ⟨rfl, rfl⟩ rfl rfl e2 (.done _)⟩
    · cases e
  reads := by
    intro h now h' i e
    obtain ⟨h1, e1⟩ := progDemo_ok (d := 4) i
    simp only [sysDemoFns, progDemoFns, e1] at e
    obtain ⟨rfl, rfl⟩ := Prod.mk.inj (Except.ok.inj e)
    exact sysDemo_note (by omega) (by omega) e1

/-- Initialisation and the main program. -/
def sysDemoResult : C Heap := do
  let (_, h) ← sem .lp64 sysDemoFns prog 30 .mu_sched_init sysDemo []
  let h ← initAll (sem .lp64 sysDemoFns prog 30) sysDemoQ [()] h
  sysDemoMain (sem .lp64 sysDemoFns prog 30) h

theorem sysDemo_result : (match sysDemoResult with
    | .ok h => decide (h.at (.obj 2) 0 = some (.int 0x6142738A95) ∧ h.at (.obj 5) 0 = some (.int 7))
    | .error _ => false) = true := by decide +kernel

/-- The program runs, its log is what one expects, and the theorems apply to it. -/
example : ∃ h1 h2 h, Ready sysDemoQ sysDemoUser sysDemo ∧ sem .lp64 sysDemoFns prog 30 .mu_sched_init sysDemo [] = .ok (.undef, h1) ∧
    initAll (sem .lp64 sysDemoFns prog 30) sysDemoQ [()] h1 = .ok h2 ∧ Fresh sysDemoQ sysDemoUser h2 ∧
    UserRun (sem .lp64 sysDemoFns prog 30) sysDemoQ sysDemoUser h2 h ∧
    sysDemoUser.log h = [.seen (.did (.immed (.ptr (.obj 0) 0)) (.int 0)), .seen .step, .seen (.clock (.int 5)),
      .seen (.called (.ptr (.obj 0) 0)), .ask () (.put (.int 7)), .seen (.called (.ptr (.obj 1) 0)), .ask () (.get (.obj 5) 0),
      .told ⟨.int 1, some (.int 7)⟩, .told ⟨.int 1, none⟩, .seen .stepped] ∧
    (∃ s vars, replay sysDemoQ demoPrec demoOff (.start Unit vars) (sysDemoUser.log h) = some s ∧ s.frames = [] ∧
      s.lists () = [] ∧ Mem sysDemoQ sysDemoUser s h) := by
  have rd : Ready sysDemoQ sysDemoUser sysDemo := by
    refine ⟨⟨rfl, rfl, rfl, rfl, ?_⟩, fun _ => ⟨rfl, rfl⟩, ?_, ?_, ?_, ?_, rfl, rfl, ⟨0, rfl⟩, ?_⟩
    · rintro b (rfl | rfl | rfl | rfl) <;> decide
    · intro _ k hk
      have : k = 0 ∨ k = 1 ∨ k = 2 ∨ k = 3 ∨ k = 4 ∨ k = 5 := by omega
      rcases this with rfl | rfl | rfl | rfl | rfl | rfl <;> rfl
    · intro _ k hk
      have : k = 0 := by simp only [sysDemoQ] at hk; omega
      subst this; rfl
    · intro _ j _ k _ h
      cases h.1
    · rintro b o ⟨rfl, rfl⟩; rfl
    · have : sysDemo.at (.obj 2) 0 = some (.int 0) := rfl
      simp [sysDemoUser, this]
  have k := sysDemo_result
  cases hr : sysDemoResult with
  | error x => rw [hr] at k; cases k
  | ok h =>
    rw [hr] at k
    simp only [decide_eq_true_eq] at k
    unfold sysDemoResult at hr
    obtain ⟨⟨r, h1⟩, e1, hr⟩ := C.bind_eq_ok hr
    obtain ⟨h2, e2, hr⟩ := C.bind_eq_ok hr
    unfold sysDemoMain at hr
    obtain ⟨h3, e3, e4⟩ := C.bind_eq_ok hr
    have run : UserRun (sem .lp64 sysDemoFns prog 30) sysDemoQ sysDemoUser h2 h := sysDemo_immed e3 (sysDemo_step e4 (.done _))
    obtain ⟨h1', h2', e1', e2', f⟩ := C135_init sysDemo_honest 27 (l := [()]) (fun _ => by simp) rd
    rw [e1] at e1'
    obtain ⟨rfl, rfl⟩ := Prod.mk.inj (Except.ok.inj e1')
    rw [e2] at e2'
    obtain rfl := Except.ok.inj e2'
    have hlog : sysDemoUser.log h = [.seen (.did (.immed (.ptr (.obj 0) 0)) (.int 0)), .seen .step, .seen (.clock (.int 5)),
        .seen (.called (.ptr (.obj 0) 0)), .ask () (.put (.int 7)), .seen (.called (.ptr (.obj 1) 0)), .ask () (.get (.obj 5) 0),
        .told ⟨.int 1, some (.int 7)⟩, .told ⟨.int 1, none⟩, .seen .stepped] := by
      simp only [sysDemoUser, k.1]
      simp [sysDemoEntry, SErr.val]
    obtain ⟨x, hx⟩ := Option.isSome_iff_exists.mp (f.vars (.obj 5) 0 ⟨rfl, rfl⟩)
    obtain ⟨s, hs, hf, hm⟩ := C135_program sysDemo_honest (vars := fun _ _ => x) f (by rintro b o ⟨rfl, rfl⟩; exact hx) run
    refine ⟨h1, h2, h, rd, e1, e2, f, run, hlog, s, _, hs, hf, ?_, hm⟩
    have := replay_lists () hs
    rw [this, hlog]
    rfl

end Mu.CS.Sys
