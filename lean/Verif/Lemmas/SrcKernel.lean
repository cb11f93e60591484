import Verif.Spec.SrcKernel
import Verif.Props.SrcSystem

/-! # Lemmas for C141: log and memory of a program with hooks agree -/

namespace Mu.CS.Kern

open Sys (QPlace)

variable {I : Type} [DecidableEq I]
variable {A : Arch} {X : Ext} {Q : I → QPlace} {U : User I} {prec : CVal → CVal → Bool} {off : CVal → CVal → CVal}

/-! ## Replaying -/

theorem replay_append {known : Base → Int → Bool} {s s' : State I} {l l' : List (Entry I)} (h : replay Q known prec off s l = some s') :
    replay Q known prec off s (l ++ l') = replay Q known prec off s' l' := by
  induction l generalizing s with
  | nil => simp only [replay, Option.some.injEq] at h; subst h; rfl
  | cons e l ih =>
    simp only [replay, List.cons_append] at h ⊢
    cases hs : s.see Q known prec off e with
    | none => rw [hs] at h; cases h
    | some s1 => rw [hs] at h; exact ih h

theorem replay_one {known : Base → Int → Bool} {s s' s'' : State I} {l : List (Entry I)} {e : Entry I}
    (h : replay Q known prec off s l = some s') (k : s'.see Q known prec off e = some s'') :
    replay Q known prec off s (l ++ [e]) = some s'' := by
  rw [replay_append h]
  simp [replay, k]

/-! ## Memory, part by part -/

variable {s0 s s' : State I} {h h' : Heap}

omit [DecidableEq I] in
theorem Holds.only {W : Base → Int → Prop} {p : Part I} (a : Holds Q U s h p) (o : Heap.Only W h h')
    (hw : ∀ b o, W b o → ¬ Part.cells Q U p b o) : Holds Q U s h' p := by
  cases p with
  | sched =>
    obtain ⟨hd, ix, q⟩ := a
    exact C128_frame q (o.mono fun b o hb => hw b o hb)
  | queue i =>
    obtain ⟨ix, q⟩ := a
    exact ⟨ix, q.only o hw⟩
  | hook w => exact ⟨by rw [o.cell _ _ fun hb => hw _ _ hb rfl]; exact a.1, a.2⟩
  | var b o' =>
    intro hv
    rw [o.cell _ _ fun hb => hw _ _ hb ⟨hv, rfl, rfl⟩]
    exact a hv
  | task b o' =>
    intro ht
    have t := a ht
    exact ⟨t.wr, by rw [o.cell _ _ fun hb => hw _ _ hb ⟨ht, rfl, by omega, by omega⟩]; exact t.fn,
      by rw [o.cell _ _ fun hb => hw _ _ hb ⟨ht, rfl, by omega, by omega⟩]; exact t.st,
      by rw [o.cell _ _ fun hb => hw _ _ hb ⟨ht, rfl, by omega, by omega⟩]; exact t.info⟩

omit [DecidableEq I] in
theorem Mem.mine (m : Mem Q U s h) (o : Heap.Only (fun b o => ∀ p, ¬ Part.cells Q U p b o) h h') : Mem Q U s h' :=
  fun p => (m p).only o fun _ _ hb => hb p

omit [DecidableEq I] in
/-- Some parts change. -/
theorem Mem.parts (L : Layout A Q U) (P : Part I → Prop) (m : Mem Q U s h)
    (o : Heap.Only (fun b o => ∃ p, P p ∧ Part.cells Q U p b o) h h') (hp : ∀ p, P p → Holds Q U s' h' p)
    (hs : ∀ p, ¬ P p → Holds Q U s h' p → Holds Q U s' h' p) : Mem Q U s' h' := by
  intro p
  by_cases hP : P p
  · exact hp p hP
  · refine hs p hP ((m p).only o ?_)
    rintro b o ⟨p', hp', hc⟩ hc'
    exact hP (L.apart _ _ _ _ hc hc' ▸ hp')

omit [DecidableEq I] in
/-- One part changes. -/
theorem Mem.part (L : Layout A Q U) (p : Part I) (m : Mem Q U s h) (o : Heap.Only (Part.cells Q U p) h h') (hp : Holds Q U s' h' p)
    (hs : ∀ p', p' ≠ p → Holds Q U s h' p' → Holds Q U s' h' p') : Mem Q U s' h' :=
  m.parts L (· = p) (o.mono fun _ _ hb => ⟨p, rfl, hb⟩) (fun _ e => e ▸ hp) hs

omit [DecidableEq I] in
/-- What is in memory does not depend on frames and clock. -/
theorem Mem.same (m : Mem Q U s h) (h1 : s'.σ = s.σ) (h2 : s'.lists = s.lists) (h3 : s'.vars = s.vars) (h4 : s'.tasks = s.tasks)
    (h5 : s'.hooks = s.hooks) : Mem Q U s' h := by
  intro p
  have := m p
  cases p <;> simpa only [Holds, h1, h2, h3, h4, h5] using this

/-! ## The log and memory agree -/

/-- The log of memory `h` is right up to now and leads to what is in memory. -/
structure At (Q : I → QPlace) (U : User I) (prec : CVal → CVal → Bool) (off : CVal → CVal → CVal) (s0 s : State I) (h : Heap) : Prop where
  log : replay Q U.task prec off s0 (U.log h) = some s
  mem : Mem Q U s h
  inv : U.inv h

theorem At.adds (a : At Q U prec off s0 s h) {es : List (Entry I)} (k : U.Adds Q es h h') (hs : replay Q U.task prec off s es = some s')
    (h1 : s'.σ = s.σ) (h2 : s'.lists = s.lists) (h3 : s'.vars = s.vars) (h4 : s'.tasks = s.tasks) (h5 : s'.hooks = s.hooks) :
    At Q U prec off s0 s' h' :=
  ⟨by rw [k.log, replay_append a.log, hs], (a.mem.mine k.only).same h1 h2 h3 h4 h5, k.inv⟩

theorem Quick.answer_frames (c : Quick I) (s : State I) : (c.answer Q prec off s).2.frames = s.frames := by
  cases c <;> rfl

omit [DecidableEq I] in
theorem Quick.run_more (hX : X.Monotone) {n m : Nat} (hn : n ≤ m) {c : Quick I} {r : CVal × Heap}
    (e : c.run (sem A X prog n) Q h = .ok r) : c.run (sem A X prog m) Q h = .ok r := by
  cases c with
  | sched c => exact Req.call_more hX hn e
  | install w k => cases w <;> exact sem_ok hX hn e
  | _ => exact sem_ok hX hn e

omit [DecidableEq I] in
theorem Holds.hook_ok (m : Mem Q U s h) (w : Which) : h.at w.var 0 = some (s.hooks w) ∧ Hook (s.hooks w) := m (.hook w)

/-- The getters return what is there, if they return. -/
theorem getters_inv {n : Nat} {b : Base} {o : Int} {f s u r : CVal} (t : h.Task b o f s u) :
    (sem A X prog (n + 1) .mu_task_get_fn h [.ptr b o] = .ok (r, h') → r = f ∧ h' = h) ∧
    (sem A X prog (n + 1) .mu_task_get_state h [.ptr b o] = .ok (r, h') → r = s ∧ h' = h) ∧
    (sem A X prog (n + 1) .mu_task_get_user_info h [.ptr b o] = .ok (r, h') → r = u ∧ h' = h) := by
  have h0 := t.fn
  have h1 := t.st
  have h2 := t.info
  refine ⟨?_, ?_, ?_⟩
  · rw [sem_succ (d := Src.mu_task_get_fn) rfl, FunDef.run_regs rfl rfl]
    intro e
    by_cases hx : f = .undef
    · subst hx; simp [csrc, Src.mu_task_get_fn, h0, CVal.use] at e
    · simp [csrc, Src.mu_task_get_fn, h0, hx] at e
      exact ⟨e.1.symm, e.2.symm⟩
  · rw [sem_succ (d := Src.mu_task_get_state) rfl, FunDef.run_regs rfl rfl]
    intro e
    by_cases hx : s = .undef
    · subst hx; simp [csrc, Src.mu_task_get_state, h1, CVal.use] at e
    · simp [csrc, Src.mu_task_get_state, h1, hx] at e
      exact ⟨e.1.symm, e.2.symm⟩
  · rw [sem_succ (d := Src.mu_task_get_user_info) rfl, FunDef.run_regs rfl rfl]
    intro e
    by_cases hx : u = .undef
    · subst hx; simp [csrc, Src.mu_task_get_user_info, h2, CVal.use] at e
    · simp [csrc, Src.mu_task_get_user_info, h2, hx] at e
      exact ⟨e.1.symm, e.2.symm⟩

omit [DecidableEq I] in
/-- Only the agenda changes. -/
theorem Mem.sched (L : Layout A Q U) (m : Mem Q U s h) (o : Heap.Only (fun b _ => SchedVar b) h h') {σ : Agenda} {hd ix : Nat}
    (q : h'.Scheduler hd ix σ) : Mem Q U { s with σ := σ } h' := by
  refine m.part L .sched o ⟨hd, ix, q⟩ fun p hp a => ?_
  cases p with
  | sched => exact absurd rfl hp
  | _ => exact a

omit [DecidableEq I] in
/-- Only one task changes. -/
theorem Mem.task (L : Layout A Q U) (m : Mem Q U s h) {b : Base} {o : Int} (hk : U.task b o = true) (w : Heap.Only (span b o 3) h h') {x : TaskRec}
    (t : h'.Task b o x.fn x.st x.info) : Mem Q U { s with tasks := setTask s.tasks b o x } h' := by
  refine m.part L (.task b o) (w.mono ?_) ?_ fun p hp a => ?_
  · rintro b' o' ⟨rfl, h1, h2⟩
    exact ⟨hk, rfl, h1, by omega⟩
  · intro _
    simpa [setTask] using t
  · cases p with
    | task b' o' =>
      intro hk'
      have : ¬ (b' = b ∧ o' = o) := by
        rintro ⟨rfl, rfl⟩; exact hp rfl
      simpa [setTask, this] using a hk'
    | _ => exact a

omit [DecidableEq I] in
/-- Only one hook changes. -/
theorem Mem.hook (L : Layout A Q U) (m : Mem Q U s h) {w : Which} {k : CVal} (hk : Hook k) (o : Heap.Only (span w.var 0 1) h h')
    (e : h'.at w.var 0 = some k) : Mem Q U { s with hooks := setHook s.hooks w k } h' := by
  refine m.part L (.hook w) (o.mono ?_) ?_ fun p hp a => ?_
  · rintro b' o' ⟨rfl, h1, h2⟩
    rfl
  · exact ⟨by simpa [setHook] using e, by simpa [setHook] using hk⟩
  · cases p with
    | hook w' =>
      have : w' ≠ w := fun hx => hp (hx ▸ rfl)
      simpa [Holds, setHook, this] using a
    | _ => exact a

/-- A call that runs no user code, and the entry in the log. -/
theorem At.quick (hu : Honest A X Q U prec off) (a : At Q U prec off s0 s h) (hs : s.user = true) {n : Nat} {c : Quick I} (hc : c.Ok U) {r : CVal}
    {h1 h2 : Heap} (e : c.run (sem A X prog n) Q h = .ok (r, h1)) (k : U.Adds Q [.did c r] h1 h2) :
    ∃ s', At Q U prec off s0 s' h2 ∧ s'.frames = s.frames := by
  replace e := Quick.run_more hu.mono (show n ≤ n + 30 by omega) e
  have L := hu.layout
  -- what remains to be shown of each function
  suffices hq : ∃ s1 : State I, replay Q U.task prec off s0 (U.log h1) = some s1 ∧ s1.frames = s.frames ∧
      Mem Q U (c.answer Q prec off s1).2 h1 ∧ r = (c.answer Q prec off s1).1 by
    obtain ⟨s1, l1, st1, m1, hr⟩ := hq
    have hu1 : s1.user = true := by simpa [State.user, st1] using hs
    refine ⟨(c.answer Q prec off s1).2, ⟨?_, m1.mine k.only, k.inv⟩, (Quick.answer_frames c s1).trans st1⟩
    rw [k.log]
    exact replay_one l1 (by simp [State.see, hu1, hr])
  -- the functions that leave the clock alone
  have simple : ∀ {v : CVal} {h' : Heap}, c.run (sem A X prog (n + 30)) Q h = .ok (v, h') →
      Mem Q U (c.answer Q prec off s).2 h' → Heap.Only (fun b o => ∃ p, Part.cells Q U p b o) h h' → v = (c.answer Q prec off s).1 →
      ∃ s1 : State I, replay Q U.task prec off s0 (U.log h1) = some s1 ∧ s1.frames = s.frames ∧
      Mem Q U (c.answer Q prec off s1).2 h1 ∧ r = (c.answer Q prec off s1).1 := by
    intro v h' e' m' o' e2
    rw [e] at e'
    obtain ⟨rfl, rfl⟩ := Prod.mk.inj (Except.ok.inj e')
    obtain ⟨i1, i2⟩ := hu.frame _ _ o' a.inv
    exact ⟨s, by rw [i2]; exact a.log, rfl, m', e2⟩
  have sch : ∀ {h h' : Heap}, Heap.Only (fun b _ => SchedVar b) h h' → Heap.Only (fun b o => ∃ p, Part.cells Q U p b o) h h' :=
    fun o => o.mono fun b o hb => ⟨.sched, hb⟩
  obtain ⟨hd, ix, q⟩ := a.mem .sched
  cases c with
  | sched c =>
    obtain ⟨hc, nt⟩ := hc
    cases c with
    | immed t =>
      obtain ⟨h', hd', ix', f1, f2, f3⟩ := C128_immed A X (n + 27) q hc
      exact simple f1 (a.mem.sched L f3 f2) (sch f3) rfl
    | transfer t => exact absurd rfl (nt t)
    | fromIsr t =>
      obtain ⟨h', hd', ix', f1, f2, f3⟩ := C128_from_isr A X (n + 28) q hc
      exact simple f1 (a.mem.sched L f3 f2) (sch f3) rfl
    | deferUntil t time =>
      obtain ⟨h', hd', ix', f1, f2, f3⟩ := C128_defer_until A (n + 7) hu.clock q hc.1 hc.2
      exact simple f1 (a.mem.sched L f3 f2) (sch f3) rfl
    | deferFor t delay =>
      obtain ⟨now, hN, c1, c2, c3⟩ := hu.clock.now h
      have ad := hu.reads _ _ _ a.inv c1
      obtain ⟨h', hd', ix', f1, f2, f3⟩ := C128_defer_for A (n + 7) hu.clock q hc.1 hc.2 c1
      have e' : Quick.run (sem A X prog (n + 30)) Q h (.sched (.deferFor t delay)) = .ok _ := f1
      rw [e] at e'
      obtain ⟨rfl, rfl⟩ := Prod.mk.inj (Except.ok.inj e')
      have hl : s.see Q U.task prec off (.clock now) = some { s with clock := now } := by
        simp only [State.see]
        split
        · rename_i l hx
          simp [State.user, hx] at hs
        · simp [hs]
      have a1 : At Q U prec off s0 { s with clock := now } hN := a.adds ad (by simp [replay, hl]) rfl rfl rfl rfl rfl
      obtain ⟨i1, i2⟩ := hu.frame _ _ (sch f3) a1.inv
      exact ⟨{ s with clock := now }, by rw [i2]; exact a1.log, rfl, a1.mem.sched L f3 f2, rfl⟩
    | remove t =>
      obtain ⟨h', hd', ix', f1, f2, f3⟩ := C128_remove A X (n + 8) q hc
      exact simple f1 (a.mem.sched L f3 f2) (sch f3) rfl
    | reset =>
      obtain ⟨h', hd', ix', f1, f2, f3⟩ := C128_reset A X (n + 28) q
      exact simple f1 (a.mem.sched L f3 f2) (sch f3) rfl
    | setIdle t =>
      obtain ⟨h', hd', ix', f1, f2, f3⟩ := C128_set_idle A X (n + 29) q hc
      exact simple f1 (a.mem.sched L f3 f2) (sch f3) rfl
    | getIdle => exact simple (C128_questions A X (n + 29) q .null).2.1 a.mem (Heap.Only.refl _ _) rfl
    | current => exact simple (C128_questions A X (n + 29) q .null).1 a.mem (Heap.Only.refl _ _) rfl
    | next => exact simple (C128_questions A X (n + 28) q .null).2.2.1 a.mem (Heap.Only.refl _ _) rfl
    | wait t => exact simple (C128_questions A X (n + 29) q t).2.2.2 a.mem (Heap.Only.refl _ _) rfl
  | schedInit =>
    obtain ⟨h', hd', ix', f1, f2, f3⟩ := C128_init A X (n + 27) q.vars
    exact simple f1 (a.mem.sched L f3 f2) (sch f3) rfl
  | queueInit i =>
    obtain ⟨ix, m⟩ := a.mem (.queue i)
    obtain ⟨h', f1, f2, f3⟩ := C127_init A X (n + 28) m.wr m.swr (by
      intro k hk
      have : k = 0 ∨ k = 1 ∨ k = 2 ∨ k = 3 ∨ k = 4 ∨ k = 5 := by omega
      rcases this with rfl | rfl | rfl | rfl | rfl | rfl
      · simp [m.storage]
      · simpa using by rw [m.capa]; rfl
      · simpa using by rw [m.cnt]; rfl
      · simpa using by rw [m.idx]; rfl
      · simpa using by rw [m.onPut]; rfl
      · simpa using by rw [m.onGet]; rfl) m.slot m.sep (L.pt i) (L.gt i)
    have o' : Heap.Only (Part.cells Q U (.queue i)) h h' := f3.mono fun b o hb => .inl ⟨hb.1, hb.2.1, by have := hb.2.2; omega⟩
    refine simple f1 (a.mem.part L (.queue i) o' ⟨0, by simpa [Quick.answer, Sys.setAt] using f2⟩ fun p hp a => ?_) (o'.mono fun b o hb => ⟨_, hb⟩) rfl
    cases p with
    | queue j =>
      have : j ≠ i := fun hx => hp (hx ▸ rfl)
      simpa [Holds, Quick.answer, Sys.setAt, this] using a
    | _ => exact a
  | install w kk =>
    have hw := (a.mem (.hook w)).1
    obtain ⟨i1, i2, i3⟩ := C126_install (h := h) A X (n + 29) hc
    have key : ∃ h', Quick.run (sem A X prog (n + 30)) Q h (.install w kk) = .ok (.undef, h') ∧ h'.at w.var 0 = some kk ∧
        Heap.Only (span w.var 0 1) h h' := by
      cases w with
      | call => exact i1 _ hw
      | state => exact i2 _ hw
      | transfer => exact i3 _ hw
    obtain ⟨h', f1, f2, f3⟩ := key
    exact simple f1 (a.mem.hook L hc f3 f2) (f3.mono fun b o hb => ⟨.hook w, hb.1⟩) rfl
  | taskInit b o f st u =>
    obtain ⟨hk, d1, d2, d3⟩ := hc
    have t := a.mem (.task b o) hk
    obtain ⟨h', f1, f2, f3⟩ := C126_init (h := h) (o := o) A X (n + 29) t.wr (by
      intro k hk
      have : k = 0 ∨ k = 1 ∨ k = 2 := by omega
      rcases this with rfl | rfl | rfl
      · simp [t.fn]
      · simpa using by rw [t.st]; rfl
      · simpa using by rw [t.info]; rfl) d1 d2 d3
    exact simple f1 (a.mem.task L hk f3 f2) (f3.mono fun b' o' hb => ⟨.task b o, hk, hb.1, hb.2.1, by have := hb.2.2; omega⟩) rfl
  | getFn b o =>
    have t := a.mem (.task b o) hc
    obtain ⟨rfl, rfl⟩ := (getters_inv t).1 e
    exact simple e a.mem (Heap.Only.refl _ _) rfl
  | getState b o =>
    have t := a.mem (.task b o) hc
    obtain ⟨rfl, rfl⟩ := (getters_inv t).2.1 e
    exact simple e a.mem (Heap.Only.refl _ _) rfl
  | getInfo b o =>
    have t := a.mem (.task b o) hc
    obtain ⟨rfl, rfl⟩ := (getters_inv t).2.2 e
    exact simple e a.mem (Heap.Only.refl _ _) rfl
  | setInfo b o u =>
    obtain ⟨hk, d1⟩ := hc
    have t := a.mem (.task b o) hk
    obtain ⟨h', f1, f2, f3⟩ := C126_set_user_info A X (n + 29) t d1
    have f3' : Heap.Only (span b o 3) h h' := f3.mono fun b' o' hb => ⟨hb.1, by have := hb.2.1; omega, by have := hb.2.2; omega⟩
    exact simple f1 (a.mem.task L hk f3' f2) (f3'.mono fun b' o' hb => ⟨.task b o, hk, hb.1, hb.2.1, by have := hb.2.2; omega⟩) rfl

end Mu.CS.Kern
