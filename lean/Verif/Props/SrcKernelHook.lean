import Verif.Props.SrcKernel

/-! # C141: what the log of a program with a call hook shows -/

namespace Mu.CS.Kern

open Sys (QPlace)

variable {I : Type} [DecidableEq I]
variable {A : Arch} {X : Ext} {Q : I → QPlace} {U : User I} {prec : CVal → CVal → Bool} {off : CVal → CVal → CVal}
variable {s s' : State I} {h : Heap} {k : Nat}

omit [DecidableEq I]

theorem Balanced.append {l l' : List (Entry I)} (b : Balanced l) (b' : Balanced l') : Balanced (l ++ l') := by
  induction b with
  | nil => exact b'
  | other h1 h2 _ ih => exact .other h1 h2 ih
  | nest b1 _ _ ih =>
    rw [List.cons_append, List.append_assoc, List.cons_append]
    exact .nest b1 ih

theorem Balanced.one {e : Entry I} (h1 : ∀ f args, e ≠ .enter f args) (h2 : e ≠ .leave) : Balanced [e] := .other h1 h2 .nil

/-- User code, if no call of the library is under way since. -/
def UserTop (fs : List Frame) : Prop := ∀ l d fs', fs ≠ .waits l d :: fs'

/-- The frames fit the log: in each of them the hook has been called if the task is next. -/
def Fits (k : Nat) : List Frame → List (Entry I) → Prop
  | [], _ => True
  | .looking :: fs, L => ∃ L0 B, L = L0 ++ B ∧ Balanced B ∧ (Fits k fs L0 ∧ UserTop fs)
  | .waits l _ :: fs, L => ∃ L0 B, L = L0 ++ B ∧ Balanced B ∧ (Fits k fs L0 ∧ UserTop fs) ∧
      (l = [] ∨ (∃ t, l = [.hook k [t], .task t]) ∨ ∃ t B1 b, l = [.task t] ∧ B = B1 ++ .enter k [t] :: (b ++ [.leave]) ∧ Balanced b)
  | .runs l _ :: fs, L => ∃ L0 B f args b, L = L0 ++ (B ++ .enter f args :: b) ∧ Balanced B ∧ Balanced b ∧ (Fits k fs L0 ∧ UserTop fs) ∧
      (l = [] ∨ ∃ t, l = [.task t] ∧ f = k ∧ args = [t])

theorem Fits.extend {fs : List Frame} {L B : List (Entry I)} (a : Fits k fs L) (b : Balanced B) : Fits k fs (L ++ B) ∨ ∃ l d fs', fs = .waits l d :: fs' := by
  cases fs with
  | nil => exact .inl trivial
  | cons f fs =>
    cases f with
    | looking =>
      obtain ⟨L0, B0, rfl, b0, a0⟩ := a
      exact .inl ⟨L0, B0 ++ B, by simp, b0.append b, a0⟩
    | waits l d => exact .inr ⟨_, _, _, rfl⟩
    | runs l d =>
      obtain ⟨L0, B0, f, args, b1, rfl, b0, b1', a0, hl⟩ := a
      exact .inl ⟨L0, B0, f, args, b1 ++ B, by simp, b0, b1'.append b, a0, hl⟩

theorem Fits.user {L B : List (Entry I)} (a : Fits k s.frames L) (hs : s.user = true) (b : Balanced B) : Fits k s.frames (L ++ B) := by
  rcases a.extend b with a | ⟨l, d, fs, e⟩
  · exact a
  · simp [State.user, e] at hs

/-- Hooks do not change. -/
structure Fixed (k : Nat) (s : State I) : Prop where
  call : s.hooks .call = .fn k
  state : s.hooks .state = .null
  transfer : s.hooks .transfer = .null

theorem tasks_fn (k : Nat) (t : CVal) : Todo.tasks (.fn k) t = [] ∨ Todo.tasks (.fn k) t = [.hook k [t], .task t] := by
  cases t <;> simp [Todo.tasks, Todo.hooks]

omit [DecidableEq I] in
theorem Done.finish_hooks (d : Done) (s : State I) : (d.finish s).2.hooks = s.hooks := by
  cases d with
  | setState t st => cases t <;> rfl
  | _ => rfl

variable [DecidableEq I]

/-- One entry. -/
theorem see_fits {known : Base → Int → Bool} {L : List (Entry I)} {e : Entry I} (fx : Fixed k s) (a : Fits k s.frames L)
    (no : ∀ w v r, e ≠ .did (.install w v) r) (hs : s.see Q known prec off e = some s') :
    Fixed k s' ∧ Fits k s'.frames (L ++ [e]) ∧
      ∀ f args, e = .enter f args → f ≠ k → ∃ l0 b, L = l0 ++ .enter k args :: (b ++ [.leave]) ∧ Balanced b := by
  cases e with
  | did c r =>
    simp only [State.see] at hs
    split at hs
    · rename_i hx
      obtain rfl := Option.some.inj hs
      have hu : s.user = true := by simp at hx; exact hx.1
      refine ⟨?_, ?_, fun f args e => by cases e⟩
      · cases c with
        | install w v => exact absurd rfl (no w v r)
        | _ => exact ⟨fx.call, fx.state, fx.transfer⟩
      · rw [Quick.answer_frames]
        exact a.user hu (.one (by simp) (by simp))
    · cases hs
  | clock now =>
    refine ⟨?_, ?_, fun f args e => by cases e⟩
    · simp only [State.see] at hs
      split at hs
      · obtain rfl := Option.some.inj hs; exact ⟨fx.call, fx.state, fx.transfer⟩
      · split at hs
        · obtain rfl := Option.some.inj hs; exact ⟨fx.call, fx.state, fx.transfer⟩
        · cases hs
    · simp only [State.see] at hs
      split at hs
      · rename_i l hf
        obtain rfl := Option.some.inj hs
        rw [hf] at a
        obtain ⟨L0, B, rfl, b, a0⟩ := a
        refine ⟨L0, B ++ [.clock now], by simp, b.append (.one (by simp) (by simp)), a0, ?_⟩
        rw [fx.call]
        rcases tasks_fn k (s.σ.choose prec now).cur with x | x
        · exact .inl x
        · exact .inr (.inl ⟨_, x⟩)
      · split at hs
        · rename_i hu
          obtain rfl := Option.some.inj hs
          exact a.user hu (.one (by simp) (by simp))
        · cases hs
  | calls c =>
    simp only [State.see] at hs
    split at hs
    · rename_i hu
      obtain rfl := Option.some.inj hs
      have top : UserTop s.frames := fun l d fs e => by simp [State.user, e] at hu
      have wait : ∀ {l : List Todo} {d : Done}, (l = [] ∨ ∃ t, l = Todo.tasks (.fn k) t) → Fits k (.waits l d :: s.frames) (L ++ [.calls c]) := by
        intro l d hl
        refine ⟨L, [.calls c], rfl, .one (by simp) (by simp), ⟨a, top⟩, ?_⟩
        rcases hl with rfl | ⟨t, rfl⟩
        · exact .inl rfl
        · rcases tasks_fn k t with x | x
          · exact .inl x
          · exact .inr (.inl ⟨_, x⟩)
      refine ⟨?_, ?_, fun f args e => by cases e⟩
      · cases c with
        | step => simp only [Deep.begin]; split <;> exact ⟨fx.call, fx.state, fx.transfer⟩
        | setState t st => cases t <;> exact ⟨fx.call, fx.state, fx.transfer⟩
        | _ => exact ⟨fx.call, fx.state, fx.transfer⟩
      · cases c with
        | step =>
          simp only [Deep.begin]
          split
          · exact wait (.inr ⟨_, by rw [fx.call]⟩)
          · exact ⟨L, [.calls .step], rfl, .one (by simp) (by simp), a, top⟩
        | queue i c => exact wait (.inr ⟨_, by rw [fx.call]⟩)
        | call t => exact wait (.inr ⟨_, by rw [fx.call]⟩)
        | setState t st => cases t <;> exact wait (.inl (by first | rfl | (rw [fx.state]; rfl)))
        | transfer t => exact wait (.inl (by rw [fx.transfer]; rfl))
        | tell t => exact wait (.inl (by rw [fx.transfer]; rfl))
    · cases hs
  | enter f args =>
    simp only [State.see] at hs
    split at hs
    · rename_i g args' l d fs hf
      split at hs
      · rename_i hx
        obtain ⟨rfl, rfl⟩ := hx
        obtain rfl := Option.some.inj hs
        rw [hf] at a
        obtain ⟨L0, B, rfl, b, a0, hl⟩ := a
        have : ∃ t, f = k ∧ args = [t] ∧ l = [.task t] := by
          rcases hl with x | ⟨t, x⟩ | ⟨t, B1, b1, x, -⟩
          · cases x
          · simp only [List.cons.injEq, Todo.hook.injEq] at x
            exact ⟨t, x.1.1, x.1.2, x.2⟩
          · simp at x
        obtain ⟨t, rfl, rfl, rfl⟩ := this
        refine ⟨⟨fx.call, fx.state, fx.transfer⟩, ⟨L0, B, f, [t], [], by simp, b, .nil, a0, .inr ⟨t, rfl, rfl, rfl⟩⟩, fun f' args' e hk => ?_⟩
        cases e
        exact absurd rfl hk
      · cases hs
    · rename_i t l d fs hf
      split at hs
      · rename_i hx
        obtain ⟨rfl, -⟩ := hx
        obtain rfl := Option.some.inj hs
        rw [hf] at a
        obtain ⟨L0, B, rfl, b, a0, hl⟩ := a
        have : ∃ B1 b, l = [] ∧ B = B1 ++ .enter k [t] :: (b ++ [.leave]) ∧ Balanced b := by
          rcases hl with x | ⟨t', x⟩ | ⟨t', B1, b1, x, hb⟩
          · cases x
          · simp at x
          · simp only [List.cons.injEq, Todo.task.injEq] at x
            obtain ⟨rfl, rfl⟩ := x
            exact ⟨B1, b1, rfl, hb⟩
        obtain ⟨B1, b1, rfl, hB, hb⟩ := this
        refine ⟨⟨fx.call, fx.state, fx.transfer⟩, ⟨L0, B, f, [t], [], by simp, b, .nil, a0, .inl rfl⟩, fun f' args' e hk => ?_⟩
        cases e
        exact ⟨L0 ++ B1, b1, by rw [hB]; simp, hb⟩
      · cases hs
    · cases hs
  | leave =>
    simp only [State.see] at hs
    split at hs
    · rename_i l d fs hf
      obtain rfl := Option.some.inj hs
      rw [hf] at a
      obtain ⟨L0, B, f, args, b1, rfl, b, hb, a0, hl⟩ := a
      refine ⟨⟨fx.call, fx.state, fx.transfer⟩, ⟨L0, B ++ .enter f args :: (b1 ++ .leave :: []), by simp, b.append (.nest hb .nil), a0, ?_⟩, fun f args e => by cases e⟩
      rcases hl with rfl | ⟨t, rfl, rfl, rfl⟩
      · exact .inl rfl
      · exact .inr (.inr ⟨t, B, b1, rfl, rfl, hb⟩)
    · cases hs
  | done r =>
    simp only [State.see] at hs
    split at hs
    · rename_i d fs hf
      split at hs
      · obtain rfl := Option.some.inj hs
        rw [hf] at a
        obtain ⟨L0, B, rfl, b, a0, -⟩ := a
        refine ⟨⟨?_, ?_, ?_⟩, ?_, fun f args e => by cases e⟩
        · simp [Done.finish_hooks, fx.call]
        · simp [Done.finish_hooks, fx.state]
        · simp [Done.finish_hooks, fx.transfer]
        · rw [List.append_assoc]
          rcases a0.1.extend (b.append (.one (e := .done r) (by simp) (by simp))) with x | ⟨l', d', fs', x⟩
          · exact x
          · exact absurd x (a0.2 _ _ _)
      · cases hs
    · cases hs

theorem replay_fits {known : Base → Int → Bool} : ∀ {l L : List (Entry I)} {s s' : State I}, Fixed k s → Fits k s.frames L →
    (∀ w v r, .did (.install w v) r ∉ l) → replay Q known prec off s l = some s' →
    ∀ l1 f args l2, l = l1 ++ .enter f args :: l2 → f ≠ k → ∃ l0 b, L ++ l1 = l0 ++ .enter k args :: (b ++ [.leave]) ∧ Balanced b := by
  intro l
  induction l with
  | nil => intro L s s' _ _ _ _ l1 f args l2 e; simp at e
  | cons e l ih =>
    intro L s s' fx a no hs l1 f args l2 hl hk
    simp only [replay] at hs
    split at hs
    · rename_i s1 h1
      obtain ⟨fx1, a1, he⟩ := see_fits fx a (fun w v r x => no w v r (by simp [x])) h1
      cases l1 with
      | nil =>
        simp only [List.nil_append, List.cons.injEq] at hl
        rw [List.append_nil]
        exact he f args hl.1 hk
      | cons e' l1 =>
        simp only [List.cons_append, List.cons.injEq] at hl
        obtain ⟨rfl, hl⟩ := hl
        obtain ⟨l0, b, x, hb⟩ := ih fx1 a1 (fun w v r x => no w v r (by simp [x])) hs l1 f args l2 hl hk
        exact ⟨l0, b, by simpa using x, hb⟩
    · cases hs

omit [DecidableEq I] in
theorem Moment.none (m : Moment A X Q U s h) : s.frames = [] := by
  induction m with
  | start f => exact f.none
  | run _ _ ih => exact ih
  | enter _ _ _ _ _ ih => exact ih

/-- **C141, the call hook**: in a program that has installed a call hook, no other hook, and installs none later, every function of a task
is entered right after the hook has been entered with the same argument and has returned. -/
theorem C141_hooked (hu : Honest A X Q U prec off) (m : Moment A X Q U s h) (hc : s.hooks .call = .fn k) (hs : s.hooks .state = .null)
    (ht : s.hooks .transfer = .null) (no : ∀ w v r, .did (.install w v) r ∉ U.log h) {l1 l2 : List (Entry I)} {f : Nat} {args : List CVal}
    (hl : U.log h = l1 ++ .enter f args :: l2) (hk : f ≠ k) :
    ∃ l0 b, l1 = l0 ++ .enter k args :: (b ++ [.leave]) ∧ Balanced b := by
  obtain ⟨s', hr, -, -⟩ := C141_moment hu m
  obtain ⟨l0, b, x, hb⟩ := replay_fits (L := []) ⟨hc, hs, ht⟩ (by rw [m.none]; trivial) no hr l1 f args l2 hl hk
  exact ⟨l0, b, by simpa using x, hb⟩

/-- The program of Props/SrcKernel.lean, with the hook already installed. -/
def kernDemoHooked : C Heap := do
  let (_, h) ← sem .lp64 kernDemoFns prog 30 .mu_sched_init (kernDemo (.fn 3)) []
  let h ← Sys.initAll (sem .lp64 kernDemoFns prog 30) kernDemoQ [()] h
  let h ← kernDemoQuick (sem .lp64 kernDemoFns prog 30) h 7 (.sched (.immed (.ptr (.obj 0) 0))) (.int 0)
  kernDemoDeep (sem .lp64 kernDemoFns prog 30) h 1 5 .step ⟨.undef, none⟩

theorem kernDemo_hooked : (match kernDemoHooked with
    | .ok h => decide (h.at (.obj 2) 0 = some (.int 0x71429AF3BCFDFEF5))
    | .error _ => false) = true := by decide +kernel

/-- The theorem applies: both functions of tasks are entered in that program. -/
example : ∃ h, Moment .lp64 kernDemoFns kernDemoQ kernDemoUser (kernDemoState (.fn 3)) h ∧ kernDemoUser.log h = kernDemoLog.tail ∧
    (∀ w v r, Entry.did (.install w v) r ∉ kernDemoUser.log h) ∧
    Entry.enter 1 [.ptr (.obj 0) 0] ∈ kernDemoUser.log h ∧ Entry.enter 2 [.ptr (.obj 1) 0] ∈ kernDemoUser.log h := by
  have k := kernDemo_hooked
  cases hr : kernDemoHooked with
  | error x => rw [hr] at k; cases k
  | ok h =>
    rw [hr] at k
    simp only [decide_eq_true_eq] at k
    unfold kernDemoHooked at hr
    obtain ⟨⟨r, h1⟩, e1, hr⟩ := C.bind_eq_ok hr
    obtain ⟨h2, e2, hr⟩ := C.bind_eq_ok hr
    obtain ⟨h3, e3, e4⟩ := C.bind_eq_ok hr
    have run : UserRun (sem .lp64 kernDemoFns prog 30) kernDemoQ kernDemoUser h2 h :=
      kernDemo_quick (c := .sched (.immed (.ptr (.obj 0) 0))) (by omega) ⟨by simp [Req.Defined], by simp⟩ rfl e3
        (kernDemo_deep (c := .step) (by omega) (by omega) trivial rfl rfl e4 (.nil _))
    obtain ⟨h1', h2', e1', e2', f⟩ := C141_init kernDemo_honest 27 (l := [()]) (fun _ => by simp) (kernDemo_ready (c := .fn 3) trivial)
    rw [e1] at e1'
    obtain ⟨rfl, rfl⟩ := Prod.mk.inj (Except.ok.inj e1')
    rw [e2] at e2'
    obtain rfl := Except.ok.inj e2'
    have hlog : kernDemoUser.log h = kernDemoLog.tail := by
      simp only [kernDemoUser, k]
      simp [kernDemoEntry, kernDemoLog]
    refine ⟨h, .run (.start f) run, hlog, ?_, ?_, ?_⟩ <;> rw [hlog] <;> simp [kernDemoLog]

end Mu.CS.Kern
