import Verif.Lemmas.SrcKernelUser

/-! # C141: programs around scheduler, tasks, hooks and message queues, from the parsed source

mu_sched.c, mu_task.c, mu_mqueue.c, mu_queue.c and mu_spsc.c as parsed, with arbitrary user code that keeps a log. -/

namespace Mu.CS.Kern

open Sys (QPlace initAll)

variable {I : Type} [DecidableEq I]
variable {A : Arch} {X : Ext} {Q : I → QPlace} {U : User I} {prec : CVal → CVal → Bool} {off : CVal → CVal → CVal}
variable {s0 s s' : State I} {h h' : Heap}

theorem Starts.at (f : Starts Q U s h) : At Q U prec off s s h := ⟨by rw [f.log]; rfl, f.mem, f.inv⟩

/-- **C141, programs**: user code calls the scheduler, puts to and gets from message queues, installs hooks, initialises tasks, sets
their states, calls them, transfers, and initialises scheduler and queues anew; hooks and functions of tasks, called from within
these calls, do all this themselves, to any depth.  Whenever the main program looks, its log is right: every answer is the one the
lists, the agenda, the tasks and the hooks call for, the user functions that were entered are those that were to be called - hooks
before tasks, with these arguments, the function of a task being the one it has at that time - and what the log leads to is in
memory. -/
theorem C141_program (hu : Honest A X Q U prec off) {h0 : Heap} {n : Nat} (f : Starts Q U s h0) (run : UserRun (sem A X prog n) Q U h0 h) :
    ∃ s', replay Q U.task prec off s (U.log h) = some s' ∧ s'.frames = [] ∧ Mem Q U s' h := by
  obtain ⟨s', a', hs⟩ := userOk hu n run f.at (by simp [State.user, f.none])
  exact ⟨s', a'.log, hs.trans f.none, a'.mem⟩

theorem probe_mono {n f : Nat} {h2 : Heap} {args : List CVal} : (Ext.probe A X n f h2 args).Monotone := fun _ _ _ _ _ _ => .refl _

/-- **C141, every moment**: the same holds at every moment at which user code runs, in the main program, in the function of a task or in
a hook, whether or not what is running will ever return. -/
theorem C141_moment (hu : Honest A X Q U prec off) (m : Moment A X Q U s h) :
    ∃ s', replay Q U.task prec off s (U.log h) = some s' ∧ s'.user = true ∧ Mem Q U s' h := by
  suffices ∃ s', At Q U prec off s s' h ∧ s'.user = true by
    obtain ⟨s', a, hs⟩ := this
    exact ⟨s', a.log, hs, a.mem⟩
  induction m with
  | start f => exact ⟨_, f.at, by simp [State.user, f.none]⟩
  | run _ r ih =>
    obtain ⟨s1, a, hs⟩ := ih
    obtain ⟨s', a', hs'⟩ := userOk hu _ r a hs
    exact ⟨s', a', by simpa [State.user, hs'] using hs⟩
  | @enter h h1 h2 h3 c f args _ hc k1 ca k3 ih =>
    obtain ⟨s1, a, hs⟩ := ih
    obtain ⟨n, m, e⟩ := ca
    have e' : c.run (sem A (Ext.probe A X n f h2 args) prog (m + 30)) Q h1 = .error .divZero :=
      Deep.run_error (fun f h args e => C131_steps probe_mono (show m ≤ m + 30 by omega) e (by simp)) e
    have hB : Behaves Q U prec off s ((Ext.probe A X n f h2 args).cb (sem A X prog 0)) := by
      intro s h h' f' args' v l d fs a hs e
      unfold Ext.probe at e
      simp only at e
      split at e
      · cases e
      · cases hx : X.cb (sem A X prog n) f' h args' with
        | error y => rw [hx] at e; cases e
        | ok y =>
          rw [hx] at e
          obtain rfl := Except.ok.inj e
          exact UserOk.behaves hu (userOk hu n) a hs hx
    obtain ⟨hA, s2, l, d, p⟩ := plan hu (Y := Ext.probe A X n f h2 args) rfl (fun _ => rfl) hB m hc a hs k1
    obtain ⟨s3, h4, g, args', l', fs', a3, f3, e3⟩ := (p.at_.pend hB l p.frames).2 (p.stop e')
    unfold Ext.probe at e3
    simp only at e3
    split at e3
    · rename_i hx
      obtain ⟨rfl, rfl, rfl⟩ := hx
      exact ⟨{ s3 with frames := .runs l' d :: fs' }, a3.adds k3 (by simp [replay, f3]) rfl rfl rfl rfl rfl, rfl⟩
    · split at e3 <;> cases e3

/-! ## Initialisation -/

/-- Initialising the queues of a list. -/
theorem init_queues (hu : Honest A X Q U prec off) (n : Nat) (l : List I) : ∀ {h : Heap} (P : I → Prop), Ready Q U s h →
    (∃ hd ix, h.Scheduler hd ix s.σ) → (∀ i, s.lists i = []) → (∀ i, P i → Holds Q U s h (.queue i)) →
    ∃ h', initAll (sem A X prog (n + 3)) Q l h = .ok h' ∧ Ready Q U s h' ∧ (∃ hd ix, h'.Scheduler hd ix s.σ) ∧
      ∀ i, (P i ∨ i ∈ l) → Holds Q U s h' (.queue i) := by
  have L := hu.layout
  induction l with
  | nil => exact fun P r q _ hq => ⟨_, rfl, r, q, fun i hi => hq i (hi.elim id fun hi => by cases hi)⟩
  | cons i l ih =>
    intro h P r q hl hq
    obtain ⟨h1, e1, q1, o1⟩ := C127_init A X (n + 1) (h := h) (b := (Q i).b) (o := (Q i).o) (sb := (Q i).sb) (so := (Q i).so) (cap := (Q i).cap)
      (pt := (Q i).pt) (gt := (Q i).gt) (r.wr i).1 (r.wr i).2 (r.struct i) (r.store i) (r.sep i) (L.pt i) (L.gt i)
    have hc : ∀ b o, span (Q i).b (Q i).o 6 b o → Part.cells Q U (.queue i) b o := fun b o hs => .inl hs
    have other : ∀ p : Part I, p ≠ .queue i → Holds Q U s h p → Holds Q U s h1 p := fun p hp a =>
      a.only o1 fun b o hb hb' => hp (L.apart _ _ b o hb' (hc b o hb))
    have q2 : ∃ hd ix, h1.Scheduler hd ix s.σ := other .sched (by simp) q
    obtain ⟨i1, l1⟩ := hu.frame _ _ (o1.mono fun b o hs => ⟨.queue i, hc b o hs⟩) r.inv
    have r1 : Ready Q U s h1 := ⟨q2.elim fun _ ⟨_, q⟩ => q.vars, r.wr, fun i k hk => (o1.isSome _ _).mpr (r.struct i k hk),
      fun i k hk => (o1.isSome _ _).mpr (r.store i k hk), r.sep, fun w => other _ (by simp) (r.hooks w), fun b o => other _ (by simp) (r.vars b o),
      fun b o => other _ (by simp) (r.tasks b o), i1, l1.trans r.log⟩
    obtain ⟨h', e2, r', q', f⟩ := ih (fun j => j = i ∨ P j) r1 q2 hl (by
      intro j hj
      by_cases hji : j = i
      · subst hji
        exact ⟨0, by rw [hl j]; exact q1⟩
      · exact other _ (by simpa using hji) (hq j (hj.resolve_left hji)))
    refine ⟨h', ?_, r', q', fun j hj => f j ?_⟩
    · simp only [initAll]
      rw [e1]
      exact e2
    · rcases hj with hj | hj
      · exact .inl (.inr hj)
      · rcases List.mem_cons.mp hj with rfl | hj
        exacts [.inl (.inl rfl), .inr hj]

/-- **C141, initialisation**: `mu_sched_init`, and `mu_mqueue_init` for every queue, lead to where programs start: nothing is scheduled
and the queues are empty. -/
theorem C141_init (hu : Honest A X Q U prec off) (n : Nat) {l : List I} (all : ∀ i, i ∈ l) (r : Ready Q U s h) :
    ∃ h1 h2, sem A X prog (n + 3) .mu_sched_init h [] = .ok (.undef, h1) ∧ initAll (sem A X prog (n + 3)) Q l h1 = .ok h2 ∧
      Starts Q U { s with σ := ⟨[], [], [], .null, .null⟩, lists := fun _ => [], frames := [] } h2 := by
  obtain ⟨h1, hd, ix, e1, q, o⟩ := C128_init A X n r.sched
  have other : ∀ p : Part I, p ≠ .sched → Holds Q U s h p → Holds Q U s h1 p := fun p hp a =>
    a.only o fun b o hb hb' => hp (hu.layout.apart _ .sched b o hb' hb)
  obtain ⟨i1, l1⟩ := hu.frame _ _ (o.mono fun b o hs => ⟨.sched, hs⟩) r.inv
  have r1 : Ready Q U { s with σ := ⟨[], [], [], .null, .null⟩, lists := fun _ => [], frames := [] } h1 := ⟨q.vars, r.wr, fun i k hk => (o.isSome _ _).mpr (r.struct i k hk),
      fun i k hk => (o.isSome _ _).mpr (r.store i k hk), r.sep, fun w => other (.hook w) (by simp) (r.hooks w), fun b o => other (.var b o) (by simp) (r.vars b o),
      fun b o => other (.task b o) (by simp) (r.tasks b o), i1, l1.trans r.log⟩
  obtain ⟨h2, e2, r2, q2, f⟩ := init_queues hu n l (fun _ => False) r1 ⟨hd, ix, q⟩ (fun _ => rfl) fun i hi => hi.elim
  refine ⟨h1, h2, e1, e2, fun p => ?_, rfl, r2.inv, r2.log⟩
  cases p with
  | sched => exact q2
  | queue i => exact f i (.inr (all i))
  | hook w => exact r2.hooks w
  | var b o => exact r2.vars b o
  | task b o => exact r2.tasks b o

/-! ## What a right log says about a queue -/

omit [DecidableEq I] in
theorem Done.finish_lists (d : Done) (s : State I) : (d.finish s).2.lists = s.lists := by
  cases d with
  | setState t st => cases t <;> rfl
  | _ => rfl

theorem see_contents {known : Base → Int → Bool} {e : Entry I} {l : List (Entry I)} (i : I) (hs : s.see Q known prec off e = some s') :
    contents Q i (s'.lists i) l = contents Q i (s.lists i) (e :: l) := by
  cases e with
  | did c r =>
    simp only [State.see] at hs
    split at hs
    · obtain rfl := Option.some.inj hs
      cases c with
      | queueInit j =>
        by_cases hj : j = i
        · subst hj; simp [contents, Quick.answer, Sys.setAt]
        · simp [contents, Quick.answer, Sys.setAt, hj, Ne.symm hj]
      | _ => rfl
    · cases hs
  | clock now =>
    simp only [State.see] at hs
    split at hs
    · obtain rfl := Option.some.inj hs; rfl
    · split at hs
      · obtain rfl := Option.some.inj hs; rfl
      · cases hs
  | calls c =>
    simp only [State.see] at hs
    split at hs
    · obtain rfl := Option.some.inj hs
      cases c with
      | queue j c =>
        by_cases hj : j = i
        · subst hj; simp [contents, Deep.begin, Sys.setAt]
        · simp [contents, Deep.begin, Sys.setAt, hj, Ne.symm hj]
      | step => simp only [Deep.begin]; split <;> rfl
      | setState t st => cases t <;> rfl
      | _ => rfl
    · cases hs
  | enter f args =>
    simp only [State.see] at hs
    split at hs
    · split at hs
      · obtain rfl := Option.some.inj hs; rfl
      · cases hs
    · split at hs
      · obtain rfl := Option.some.inj hs; rfl
      · cases hs
    · cases hs
  | leave =>
    simp only [State.see] at hs
    split at hs
    · obtain rfl := Option.some.inj hs; rfl
    · cases hs
  | done r =>
    simp only [State.see] at hs
    split at hs
    · split at hs
      · obtain rfl := Option.some.inj hs
        simp [contents, Done.finish_lists]
      · cases hs
    · cases hs

theorem replay_contents {known : Base → Int → Bool} {l : List (Entry I)} (i : I) : ∀ {s : State I}, replay Q known prec off s l = some s' →
    s'.lists i = contents Q i (s.lists i) l := by
  induction l with
  | nil =>
    intro s hs
    simp only [replay, Option.some.injEq] at hs
    subst hs
    rfl
  | cons e l ih =>
    intro s hs
    simp only [replay] at hs
    split at hs
    · rename_i s1 h1
      rw [ih hs]
      exact see_contents i h1
    · cases hs

/-- **C141, contents**: at every moment, what a queue holds is what the calls made on it so far - by whatever code, at whatever depth, in
the order in which they were made - leave in a first-in first-out list. -/
theorem C141_contents (hu : Honest A X Q U prec off) (m : Moment A X Q U s h) (i : I) :
    ∃ ix, h.MQ (Q i).b (Q i).o (Q i).sb (Q i).so (Q i).cap (Q i).pt (Q i).gt ix (contents Q i (s.lists i) (U.log h)) := by
  obtain ⟨s', hs, -, hm⟩ := C141_moment hu m
  obtain ⟨ix, q⟩ := hm (.queue i)
  rw [replay_contents i hs] at q
  exact ⟨ix, q⟩

/-! ## A program

A queue for one element, two tasks and a call hook.  The main program installs the hook and schedules the first task.  The hook is called
before the task and sets its state; the task puts 7 into the queue, which calls the hook and then the second task before
`mu_mqueue_put` returns.  The log is a number, written in hexadecimal digits. -/

/-- Memory, with `c` as call hook. -/
def kernDemo (c : CVal) : Heap where
  mem
    | .glob .s_sched => Src.init_s_sched
    | .glob .s_irq_store => Src.init_s_irq_store
    | .glob .s_immed_store => Src.init_s_immed_store
    | .glob .s_deferred_tasks => Src.init_s_deferred_tasks
    | .glob .s_call_hook => [c]
    | .glob .s_set_state_hook => Src.init_s_set_state_hook
    | .glob .s_transfer_hook => Src.init_s_transfer_hook
    | .obj 0 => [.fn 1, .int 0, .null]
    | .obj 1 => [.fn 2, .int 0, .null]
    | .obj 2 => [.int 0]
    | .obj 3 => [.undef, .undef, .undef, .undef, .undef, .undef]
    | .obj 4 => [.undef]
    | .obj 5 => [.undef]
    | _ => []
  next := 6

/-- The queue. -/
def kernDemoQ : Unit → QPlace := fun _ => ⟨.obj 3, 0, .obj 4, 0, 1, .ptr (.obj 1) 0, .null⟩

/-- What the digits mean. -/
def kernDemoEntry : Nat → Entry Unit
  | 1 => .calls .step
  | 2 => .enter 3 [.ptr (.obj 0) 0]
  | 3 => .enter 1 [.ptr (.obj 0) 0]
  | 4 => .clock (.int 5)
  | 5 => .done ⟨.undef, none⟩
  | 6 => .did (.install .call (.fn 3)) .undef
  | 7 => .did (.sched (.immed (.ptr (.obj 0) 0))) (.int 0)
  | 9 => .calls (.setState (.ptr (.obj 0) 0) (.int 9))
  | 10 => .done ⟨.ptr (.obj 0) 0, none⟩
  | 11 => .calls (.queue () (.put (.int 7)))
  | 12 => .enter 3 [.ptr (.obj 1) 0]
  | 13 => .enter 2 [.ptr (.obj 1) 0]
  | 14 => .done ⟨.int 1, none⟩
  | _ => .leave

def kernDemoUser : User Unit where
  log h :=
    match h.at (.obj 2) 0 with
    | some (.int n) => (Nat.digits 16 n.toNat).reverse.map kernDemoEntry
    | _ => []
  inv h := ∃ n : Nat, h.at (.obj 2) 0 = some (.int n)
  var b o := b = .obj 5 ∧ o = 0
  task b o := (b = .obj 0 || b = .obj 1) && o = 0

def kernDemoQuick (S : Fn → SemFn) (h : Heap) (d : Nat) (c : Quick Unit) (r : CVal) : C Heap := do
  let (r', h) ← c.run S kernDemoQ h
  if r' = r then progDemoNote d h else .error .oob

def kernDemoDeep (S : Fn → SemFn) (h : Heap) (d d' : Nat) (c : Deep Unit) (r : QOut) : C Heap := do
  let h ← progDemoNote d h
  let (r', h) ← c.run S kernDemoQ h
  if r' = r then progDemoNote d' h else .error .oob

def kernDemoFns : Ext where
  fn := progDemoFns.fn
  cb S f h args :=
    match f, args with
    | 1, [.ptr (.obj 0) 0] => do
      let h ← progDemoNote 3 h
      let h ← kernDemoDeep S h 11 14 (.queue () (.put (.int 7))) ⟨.int 1, none⟩
      let h ← progDemoNote 15 h
      .ok (.undef, h)
    | 2, [.ptr (.obj 1) 0] => do
      let h ← progDemoNote 13 h
      let h ← progDemoNote 15 h
      .ok (.undef, h)
    | 3, [.ptr (.obj 0) 0] => do
      let h ← progDemoNote 2 h
      let h ← kernDemoDeep S h 9 10 (.setState (.ptr (.obj 0) 0) (.int 9)) ⟨.ptr (.obj 0) 0, none⟩
      let h ← progDemoNote 15 h
      .ok (.undef, h)
    | 3, [.ptr (.obj 1) 0] => do
      let h ← progDemoNote 12 h
      let h ← progDemoNote 15 h
      .ok (.undef, h)
    | _, _ => .error .oob

def kernDemoMain (S : Fn → SemFn) (h : Heap) : C Heap := do
  let h ← kernDemoQuick S h 6 (.install .call (.fn 3)) .undef
  let h ← kernDemoQuick S h 7 (.sched (.immed (.ptr (.obj 0) 0))) (.int 0)
  kernDemoDeep S h 1 5 .step ⟨.undef, none⟩

theorem kernDemo_mine : ∀ p : Part Unit, ¬ Part.cells kernDemoQ kernDemoUser p (.obj 2) 0 := by
  intro p
  cases p with
  | hook w => cases w <;> simp [Part.cells, Which.var]
  | _ => simp [Part.cells, SchedVar, kernDemoUser, kernDemoQ, QPlace.cells, mqueueCells] <;> grind

theorem kernDemo_note {d : Nat} (hd : 0 < d) (hd' : d < 16) {h h' : Heap} (e : progDemoNote d h = .ok h') :
    kernDemoUser.Adds kernDemoQ [kernDemoEntry d] h h' := by
  unfold progDemoNote at e
  cases hx : h.at (.obj 2) 0 with
  | none => rw [hx] at e; cases e
  | some v =>
    rw [hx] at e
    cases v with
    | int n =>
      simp only at e
      split at e
      · rename_i hn
        obtain rfl := Except.ok.inj e
        obtain ⟨m, rfl⟩ := Int.eq_ofNat_of_zero_le hn
        have h2 : (h.upd (.obj 2) 0 (.int (d + 16 * (m : Int)))).at (.obj 2) 0 = some (.int ((d + 16 * m : Nat) : Int)) := by
          rw [Heap.at_upd_same rfl (by simp [hx])]; simp
        refine ⟨?_, ⟨_, h2⟩, ?_⟩
        · exact Heap.Only.upd (.refl _ _) kernDemo_mine
        · simp only [kernDemoUser, hx, h2, Int.toNat_natCast]
          rw [Nat.digits_add 16 (by omega) d m hd' (by omega)]
          simp
      · cases e
    | _ => cases e

theorem kernDemo_quick {S : Fn → SemFn} {h h' : Heap} {d : Nat} {c : Quick Unit} {r : CVal} (hd : 0 < d ∧ d < 16) (hc : c.Ok kernDemoUser)
    (he : kernDemoEntry d = .did c r) (e : kernDemoQuick S h d c r = .ok h') {h'' : Heap}
    (k : UserRun S kernDemoQ kernDemoUser h' h'') : UserRun S kernDemoQ kernDemoUser h h'' := by
  unfold kernDemoQuick at e
  obtain ⟨⟨r', h2⟩, e2, e3⟩ := C.bind_eq_ok e
  simp only at e3
  split at e3
  · rename_i hr
    have a2 := kernDemo_note hd.1 hd.2 e3
    rw [hr] at e2
    rw [he] at a2
    exact .quick c hc e2 a2 k
  · cases e3

theorem kernDemo_deep {S : Fn → SemFn} {h h' : Heap} {d d' : Nat} {c : Deep Unit} {r : QOut} (hd : 0 < d ∧ d < 16) (hd' : 0 < d' ∧ d' < 16)
    (hc : c.Ok kernDemoUser) (he : kernDemoEntry d = .calls c) (he' : kernDemoEntry d' = .done r)
    (e : kernDemoDeep S h d d' c r = .ok h') {h'' : Heap}
    (k : UserRun S kernDemoQ kernDemoUser h' h'') : UserRun S kernDemoQ kernDemoUser h h'' := by
  unfold kernDemoDeep at e
  obtain ⟨h1, e1, e0⟩ := C.bind_eq_ok e
  obtain ⟨⟨r', h2⟩, e2, e3⟩ := C.bind_eq_ok e0
  simp only at e3
  split at e3
  · rename_i hr
    have a1 := kernDemo_note hd.1 hd.2 e1
    have a2 := kernDemo_note hd'.1 hd'.2 e3
    rw [hr] at e2
    rw [he] at a1
    rw [he'] at a2
    exact .deep c hc a1 e2 a2 k
  · cases e3

theorem kernDemo_layout : Layout .lp64 kernDemoQ kernDemoUser where
  apart := by
    have var : ∀ b' o' b (o : Int), Part.cells kernDemoQ kernDemoUser (.var b' o') b o → b = .obj 5 ∧ b' = .obj 5 ∧ o' = 0 := by
      rintro b' o' b o ⟨⟨rfl, rfl⟩, rfl, rfl⟩; exact ⟨rfl, rfl, rfl⟩
    have task : ∀ b' o' b (o : Int), Part.cells kernDemoQ kernDemoUser (.task b' o') b o → (b = .obj 0 ∨ b = .obj 1) ∧ b' = b ∧ o' = 0 := by
      rintro b' o' b o ⟨hb, rfl, -⟩
      have : (b = .obj 0 ∨ b = .obj 1) ∧ o' = 0 := by simpa [kernDemoUser] using hb
      exact ⟨this.1, rfl, this.2⟩
    have queue : ∀ i b (o : Int), Part.cells kernDemoQ kernDemoUser (.queue i) b o → b = .obj 3 ∨ b = .obj 4 := by
      rintro i b o (⟨rfl, -⟩ | ⟨rfl, -⟩)
      exacts [.inl rfl, .inr rfl]
    have hook : ∀ w b (o : Int), Part.cells kernDemoQ kernDemoUser (.hook w) b o → b = w.var := fun w b o h => h
    have sched : ∀ b (o : Int), Part.cells kernDemoQ kernDemoUser .sched b o → SchedVar b := fun b o h => h
    intro p p' b o h1 h2
    cases p with
    | sched =>
      have h1 := sched _ _ h1
      cases p' with
      | sched => rfl
      | queue i => rcases queue _ _ _ h2 with rfl | rfl <;> simp [SchedVar] at h1
      | hook w => have h2 := hook _ _ _ h2; subst h2; cases w <;> simp [SchedVar, Which.var] at h1
      | var b' o' => obtain ⟨rfl, -⟩ := var _ _ _ _ h2; simp [SchedVar] at h1
      | task b' o' => obtain ⟨rfl | rfl, -⟩ := task _ _ _ _ h2 <;> simp [SchedVar] at h1
    | queue i =>
      have h1 := queue _ _ _ h1
      cases p' with
      | sched => have h2 := sched _ _ h2; rcases h1 with rfl | rfl <;> simp [SchedVar] at h2
      | queue i => rfl
      | hook w => have h2 := hook _ _ _ h2; subst h2; cases w <;> simp [Which.var] at h1
      | var b' o' => obtain ⟨rfl, -⟩ := var _ _ _ _ h2; simp at h1
      | task b' o' => obtain ⟨rfl | rfl, -⟩ := task _ _ _ _ h2 <;> simp at h1
    | hook w =>
      have h1 := hook _ _ _ h1
      subst h1
      cases p' with
      | sched => have h2 := sched _ _ h2; cases w <;> simp [SchedVar, Which.var] at h2
      | queue i => have h2 := queue _ _ _ h2; cases w <;> simp [Which.var] at h2
      | hook w' => have h2 := hook _ _ _ h2; cases w <;> cases w' <;> first | rfl | simp [Which.var] at h2
      | var b' o' => have h2 := var _ _ _ _ h2; cases w <;> simp [Which.var] at h2
      | task b' o' => have h2 := task _ _ _ _ h2; cases w <;> simp [Which.var] at h2
    | var b1 o1 =>
      obtain ⟨rfl, rfl, rfl⟩ := var _ _ _ _ h1
      cases p' with
      | sched => have h2 := sched _ _ h2; simp [SchedVar] at h2
      | queue i => have h2 := queue _ _ _ h2; simp at h2
      | hook w => have h2 := hook _ _ _ h2; cases w <;> simp [Which.var] at h2
      | var b' o' => obtain ⟨-, rfl, rfl⟩ := var _ _ _ _ h2; rfl
      | task b' o' => have h2 := task _ _ _ _ h2; simp at h2
    | task b1 o1 =>
      obtain ⟨g1, rfl, rfl⟩ := task _ _ _ _ h1
      cases p' with
      | sched => have h2 := sched _ _ h2; rcases g1 with rfl | rfl <;> simp [SchedVar] at h2
      | queue i => have h2 := queue _ _ _ h2; rcases g1 with rfl | rfl <;> simp at h2
      | hook w => have h2 := hook _ _ _ h2; rcases g1 with rfl | rfl <;> cases w <;> simp [Which.var] at h2
      | var b' o' => obtain ⟨rfl, -, -⟩ := var _ _ _ _ h2; simp at g1
      | task b' o' => obtain ⟨-, rfl, rfl⟩ := task _ _ _ _ h2; rfl
  lit := by rintro b o ⟨rfl, -⟩; rfl
  cap := fun _ => by show 2 * 1 ≤ Arch.lp64.szMod; decide
  pt := fun _ => by simp [kernDemoQ, TaskPtr]
  gt := fun _ => by simp [kernDemoQ, TaskPtr]

theorem kernDemo_honest : Honest .lp64 kernDemoFns kernDemoQ kernDemoUser demoPrec demoOff where
  layout := kernDemo_layout
  clock := ⟨progDemo_honest.clock.1, progDemo_honest.clock.2, progDemo_honest.clock.3, progDemo_honest.clock.4⟩
  mono := by
    intro S S' hS k h args
    have hc : ∀ h (c : Deep Unit), Le (c.run S kernDemoQ h) (c.run S' kernDemoQ h) := by
      intro h c
      cases c with
      | queue i c => cases c <;> exact (hS _ h _).bind fun _ => .refl _
      | _ => exact (hS _ h _).bind fun _ => .refl _
    have ha : ∀ h d d' c r, Le (kernDemoDeep S h d d' c r) (kernDemoDeep S' h d d' c r) := fun h d d' c r =>
      (Le.refl _).bind fun h => (hc h c).bind fun _ => .refl _
    simp only [kernDemoFns]
    split
    · exact (Le.refl _).bind fun h => (ha _ _ _ _ _).bind fun _ => .refl _
    · exact .refl _
    · exact (Le.refl _).bind fun h => (ha _ _ _ _ _).bind fun _ => .refl _
    · exact .refl _
    · exact .refl _
  frame := by
    intro h h' o ⟨n, hn⟩
    have := o.cell (.obj 2) 0 fun ⟨p, hp⟩ => kernDemo_mine p hp
    exact ⟨⟨n, this.trans hn⟩, by simp only [kernDemoUser, this]⟩
  user := by
    intro n f h args v h' i e
    simp only [kernDemoFns] at e
    split at e
    · obtain ⟨h1, e1, e⟩ := C.bind_eq_ok e
      obtain ⟨h2, e2, e⟩ := C.bind_eq_ok e
      obtain ⟨h3, e3, e⟩ := C.bind_eq_ok e
      obtain ⟨-, rfl⟩ := Prod.mk.inj (Except.ok.inj e)
      exact ⟨h1, h2, kernDemo_note (d := 3) (by omega) (by omega) e1,
        kernDemo_deep (by omega) (by omega) (by simp [Deep.Ok]) rfl rfl e2 (.nil _), kernDemo_note (d := 15) (by omega) (by omega) e3⟩
    · obtain ⟨h1, e1, e⟩ := C.bind_eq_ok e
      obtain ⟨h3, e3, e⟩ := C.bind_eq_ok e
      obtain ⟨-, rfl⟩ := Prod.mk.inj (Except.ok.inj e)
      exact ⟨h1, h1, kernDemo_note (d := 13) (by omega) (by omega) e1, .nil _, kernDemo_note (d := 15) (by omega) (by omega) e3⟩
    · obtain ⟨h1, e1, e⟩ := C.bind_eq_ok e
      obtain ⟨h2, e2, e⟩ := C.bind_eq_ok e
      obtain ⟨h3, e3, e⟩ := C.bind_eq_ok e
      obtain ⟨-, rfl⟩ := Prod.mk.inj (Except.ok.inj e)
      exact ⟨h1, h2, kernDemo_note (d := 2) (by omega) (by omega) e1,
        kernDemo_deep (c := .setState (.ptr (.obj 0) 0) (.int 9)) (by omega) (by omega) ⟨by simp, .inr ⟨_, _, rfl, rfl⟩⟩ rfl rfl e2 (.nil _), kernDemo_note (d := 15) (by omega) (by omega) e3⟩
    · obtain ⟨h1, e1, e⟩ := C.bind_eq_ok e
      obtain ⟨h3, e3, e⟩ := C.bind_eq_ok e
      obtain ⟨-, rfl⟩ := Prod.mk.inj (Except.ok.inj e)
      exact ⟨h1, h1, kernDemo_note (d := 12) (by omega) (by omega) e1, .nil _, kernDemo_note (d := 15) (by omega) (by omega) e3⟩
    · cases e
  reads := by
    intro h now h' i e
    obtain ⟨h1, e1⟩ := progDemo_ok (d := 4) i
    simp only [kernDemoFns, progDemoFns, e1] at e
    obtain ⟨rfl, rfl⟩ := Prod.mk.inj (Except.ok.inj e)
    exact kernDemo_note (by omega) (by omega) e1

/-- What is in memory at first, as far as it is known. -/
def kernDemoState (c : CVal) : State Unit where
  σ := ⟨[], [], [], .null, .null⟩
  lists _ := []
  vars _ _ := .undef
  tasks b _ := if b = .obj 0 then ⟨.fn 1, .int 0, .null⟩ else ⟨.fn 2, .int 0, .null⟩
  hooks w := if w = .call then c else .null
  frames := []
  clock := .null

theorem kernDemo_ready {c : CVal} (hc : Hook c) : Ready kernDemoQ kernDemoUser (kernDemoState c) (kernDemo c) := by
  refine ⟨⟨rfl, rfl, rfl, rfl, ?_⟩, fun _ => ⟨rfl, rfl⟩, ?_, ?_, ?_, ?_, ?_, ?_, ⟨0, rfl⟩, ?_⟩
  · rintro b (rfl | rfl | rfl | rfl)
    · exact show ∀ v ∈ Src.init_s_sched, v ≠ CVal.undef by decide
    · exact show ∀ v ∈ Src.init_s_irq_store, v ≠ CVal.undef by decide
    · exact show ∀ v ∈ Src.init_s_immed_store, v ≠ CVal.undef by decide
    · exact show ∀ v ∈ Src.init_s_deferred_tasks, v ≠ CVal.undef by decide
  · intro _ k hk
    have : k = 0 ∨ k = 1 ∨ k = 2 ∨ k = 3 ∨ k = 4 ∨ k = 5 := by omega
    rcases this with rfl | rfl | rfl | rfl | rfl | rfl <;> rfl
  · intro _ k hk
    have : k = 0 := by simp only [kernDemoQ] at hk; omega
    subst this; rfl
  · intro _ j _ k _ h
    cases h.1
  · intro w
    cases w
    exacts [⟨rfl, hc⟩, ⟨rfl, trivial⟩, ⟨rfl, trivial⟩]
  · rintro b o ⟨rfl, rfl⟩; rfl
  · intro b o hb
    have : (b = .obj 0 ∨ b = .obj 1) ∧ o = 0 := by simpa [kernDemoUser] using hb
    obtain ⟨rfl | rfl, rfl⟩ := this <;> exact ⟨rfl, rfl, rfl, rfl⟩
  · have : (kernDemo c).at (.obj 2) 0 = some (.int 0) := rfl
    simp [kernDemoUser, this]

/-- Initialisation and the main program. -/
def kernDemoResult : C Heap := do
  let (_, h) ← sem .lp64 kernDemoFns prog 30 .mu_sched_init (kernDemo .null) []
  let h ← initAll (sem .lp64 kernDemoFns prog 30) kernDemoQ [()] h
  kernDemoMain (sem .lp64 kernDemoFns prog 30) h

theorem kernDemo_result : (match kernDemoResult with
    | .ok h => decide (h.at (.obj 2) 0 = some (.int 0x671429AF3BCFDFEF5) ∧ h.at (.obj 0) 1 = some (.int 9) ∧ h.at (.glob .s_call_hook) 0 = some (.fn 3))
    | .error _ => false) = true := by decide +kernel

/-- The log of the program. -/
def kernDemoLog : List (Entry Unit) := [.did (.install .call (.fn 3)) .undef, .did (.sched (.immed (.ptr (.obj 0) 0))) (.int 0), .calls .step,
  .clock (.int 5), .enter 3 [.ptr (.obj 0) 0], .calls (.setState (.ptr (.obj 0) 0) (.int 9)), .done ⟨.ptr (.obj 0) 0, none⟩, .leave,
  .enter 1 [.ptr (.obj 0) 0], .calls (.queue () (.put (.int 7))), .enter 3 [.ptr (.obj 1) 0], .leave, .enter 2 [.ptr (.obj 1) 0], .leave,
  .done ⟨.int 1, none⟩, .leave, .done ⟨.undef, none⟩]

/-- The program runs, its log is what one expects, and the theorems apply to it. -/
example : ∃ h1 h2 h, Ready kernDemoQ kernDemoUser (kernDemoState .null) (kernDemo .null) ∧ sem .lp64 kernDemoFns prog 30 .mu_sched_init (kernDemo .null) [] = .ok (.undef, h1) ∧
    initAll (sem .lp64 kernDemoFns prog 30) kernDemoQ [()] h1 = .ok h2 ∧ Starts kernDemoQ kernDemoUser (kernDemoState .null) h2 ∧
    UserRun (sem .lp64 kernDemoFns prog 30) kernDemoQ kernDemoUser h2 h ∧ kernDemoUser.log h = kernDemoLog ∧
    (∃ s, replay kernDemoQ kernDemoUser.task demoPrec demoOff (kernDemoState .null) (kernDemoUser.log h) = some s ∧ s.frames = [] ∧
      s.lists () = [.int 7] ∧ (s.tasks (.obj 0) 0).st = .int 9 ∧ Mem kernDemoQ kernDemoUser s h) := by
  have rd := kernDemo_ready (c := .null) trivial
  have k := kernDemo_result
  cases hr : kernDemoResult with
  | error x => rw [hr] at k; cases k
  | ok h =>
    rw [hr] at k
    simp only [decide_eq_true_eq] at k
    unfold kernDemoResult at hr
    obtain ⟨⟨r, h1⟩, e1, hr⟩ := C.bind_eq_ok hr
    obtain ⟨h2, e2, hr⟩ := C.bind_eq_ok hr
    unfold kernDemoMain at hr
    obtain ⟨h3, e3, hr⟩ := C.bind_eq_ok hr
    obtain ⟨h4, e4, e5⟩ := C.bind_eq_ok hr
    have run : UserRun (sem .lp64 kernDemoFns prog 30) kernDemoQ kernDemoUser h2 h :=
      kernDemo_quick (c := .install .call (.fn 3)) (by omega) trivial rfl e3 (kernDemo_quick (c := .sched (.immed (.ptr (.obj 0) 0))) (by omega) ⟨by simp [Req.Defined], by simp⟩ rfl e4
        (kernDemo_deep (c := .step) (by omega) (by omega) trivial rfl rfl e5 (.nil _)))
    obtain ⟨h1', h2', e1', e2', f⟩ := C141_init kernDemo_honest 27 (l := [()]) (fun _ => by simp) rd
    rw [e1] at e1'
    obtain ⟨rfl, rfl⟩ := Prod.mk.inj (Except.ok.inj e1')
    rw [e2] at e2'
    obtain rfl := Except.ok.inj e2'
    have hlog : kernDemoUser.log h = kernDemoLog := by
      simp only [kernDemoUser, k.1]
      simp [kernDemoEntry, kernDemoLog]
    obtain ⟨s, hs, hf, hm⟩ := C141_program kernDemo_honest f run
    refine ⟨h1, h2, h, rd, e1, e2, f, run, hlog, s, hs, hf, ?_, ?_, hm⟩
    · rw [replay_contents () hs, hlog]
      rfl
    · have t := (hm (.task (.obj 0) 0) rfl).st
      rw [show ((0 : Int) + 1) = 1 from rfl, k.2.1] at t
      exact (Option.some.inj t).symm

end Mu.CS.Kern
