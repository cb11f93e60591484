import Verif.Lemmas.SrcKernel

/-! # Lemmas for C141: calls that run user code -/

namespace Mu.CS.Kern

open Sys (QPlace)

variable {I : Type} [DecidableEq I]
variable {A : Arch} {X Y : Ext} {Q : I → QPlace} {U : User I} {prec : CVal → CVal → Bool} {off : CVal → CVal → CVal}
variable {s0 s s' : State I} {h h' : Heap} {K : Nat → SemFn}

/-! ## What the library calls -/

/-- The function that a task has. -/
def taskFn (h : Heap) : CVal → Option Nat
  | .ptr b o =>
    match h.at b o with
    | some (.fn f) => some f
    | _ => none
  | _ => none

/-- The calls, one after the other. -/
def pend (K : Nat → SemFn) : List Todo → Heap → C Heap
  | [], h => .ok h
  | .hook f args :: l, h => do
    let (_, h) ← K f h args
    pend K l h
  | .task t :: l, h =>
    match taskFn h t with
    | some f => do
      let (_, h) ← K f h [t]
      pend K l h
    | none => .error .uninit

theorem pend_append (l l' : List Todo) (h : Heap) : pend K (l ++ l') h = (do
    let h ← pend K l h
    pend K l' h) := by
  induction l generalizing h with
  | nil => rfl
  | cons t l ih =>
    cases t with
    | hook f args =>
      simp only [pend, List.cons_append]
      cases K f h args with
      | error e => rfl
      | ok r => exact ih _
    | task t =>
      simp only [pend, List.cons_append]
      cases taskFn h t with
      | none => rfl
      | some f =>
        simp only
        cases K f h [t] with
        | error e => rfl
        | ok r => exact ih _

theorem pend_hooks {k : CVal} {args : List CVal} : pend K (Todo.hooks k args) h = told K k h args := by
  cases k <;> rfl

theorem tasks_ptr {k : CVal} {b : Base} {o : Int} : Todo.tasks k (.ptr b o) = Todo.hooks k [.ptr b o] ++ [.task (.ptr b o)] := rfl

/-- What cannot be called. -/
theorem task_call_fault {n : Nat} {k t : CVal} {h1 : Heap} (hk : Hook k) (hh : h.at (.glob .s_call_hook) 0 = some k) (hn : t ≠ .null)
    (ht : told (Y.cb (sem A Y prog n)) k h [t] = .ok h1) (hf : taskFn h1 t = none) :
    ∃ e, sem A Y prog (n + 1) .mu_task_call h [t] = .error e ∧ e ≠ .divZero := by
  rw [sem_succ (d := Src.mu_task_call) rfl, FunDef.run_regs rfl rfl]
  generalize sem A Y prog n = S at *
  cases k with
  | null =>
    obtain rfl : h = h1 := Except.ok.inj ht
    cases t with
    | null => exact absurd rfl hn
    | ptr b o =>
      simp only [taskFn] at hf
      cases hx : h.at b o with
      | none => simp [csrc, Src.mu_task_call, hh, hx]
      | some v =>
        cases v with
        | fn f => simp [hx] at hf
        | _ => simp [csrc, Src.mu_task_call, hh, hx, CVal.use]
    | undef => simp [csrc, Src.mu_task_call, CVal.use]
    | _ => simp [csrc, Src.mu_task_call, COp.runPtr, hh, Except.bind, CVal.ofBool]
  | fn g =>
    obtain ⟨⟨r, h2⟩, e1, e2⟩ := C.bind_eq_ok (c := Y.cb S g h [t]) ht
    obtain rfl : h2 = h1 := Except.ok.inj e2
    cases t with
    | null => exact absurd rfl hn
    | ptr b o =>
      simp only [taskFn] at hf
      cases hx : h2.at b o with
      | none => simp [csrc, Src.mu_task_call, hh, hx, e1]
      | some v =>
        cases v with
        | fn f => simp [hx] at hf
        | _ => simp [csrc, Src.mu_task_call, hh, hx, e1, CVal.use]
    | undef => simp [csrc, Src.mu_task_call, CVal.use]
    | _ => simp [csrc, Src.mu_task_call, COp.runPtr, hh, Except.bind, CVal.ofBool, e1]
  | _ => exact hk.elim

/-- `mu_task_call` makes the calls. -/
theorem task_call_pend (hK : ∀ S, Y.cb S = K) {n : Nat} {k t : CVal} (hk : Hook k) (hh : h.at (.glob .s_call_hook) 0 = some k) :
    (∀ r h', sem A Y prog (n + 1) .mu_task_call h [t] = .ok (r, h') → r = .undef ∧ pend K (Todo.tasks k t) h = .ok h') ∧
    (sem A Y prog (n + 1) .mu_task_call h [t] = .error .divZero → pend K (Todo.tasks k t) h = .error .divZero) := by
  by_cases hn : t = .null
  · subst hn
    rw [(C126_null (h := h) (s := .null) A Y n (by simp)).1]
    refine ⟨fun r h' e => ?_, fun e => by cases e⟩
    obtain ⟨rfl, rfl⟩ := Prod.mk.inj (Except.ok.inj e)
    exact ⟨rfl, rfl⟩
  have hT : Todo.tasks k t = Todo.hooks k [t] ++ [.task t] := by cases t <;> first | rfl | exact absurd rfl hn
  rw [hT, pend_append, pend_hooks]
  cases ht : told K k h [t] with
  | error x =>
    have ht' : told (Y.cb (sem A Y prog n)) k h [t] = .error x := by rw [hK]; exact ht
    have key : sem A Y prog (n + 1) .mu_task_call h [t] = .error x ∨ ∃ e, sem A Y prog (n + 1) .mu_task_call h [t] = .error e ∧ e ≠ .divZero := by
      cases t with
      | null => exact absurd rfl hn
      | ptr b o => exact .inl ((C126_call A Y n hk hh).2 x ht')
      | undef =>
        right
        rw [sem_succ (d := Src.mu_task_call) rfl, FunDef.run_regs rfl rfl]
        simp [csrc, Src.mu_task_call, CVal.use]
      | _ =>
        left
        rw [sem_succ (d := Src.mu_task_call) rfl, FunDef.run_regs rfl rfl]
        generalize sem A Y prog n = S at *
        cases k with
        | null => cases ht
        | fn g =>
          simp only [told] at ht'
          generalize hy : Y.cb S g h _ = y at ht'
          cases y with
          | ok r => cases ht'
          | error y =>
            obtain rfl : y = x := Except.error.inj ht'
            simp [csrc, Src.mu_task_call, COp.runPtr, hh, Except.bind, CVal.ofBool, hy]
        | _ => exact hk.elim
    rcases key with e | ⟨y, e, ne⟩
    · rw [e]
      exact ⟨fun r h' e => (by cases e), fun e => congrArg Except.error (Except.error.inj e)⟩
    · rw [e]
      exact ⟨fun r h' e => (by cases e), fun e => absurd (Except.error.inj e) ne⟩
  | ok h1 =>
    have ht' : told (Y.cb (sem A Y prog n)) k h [t] = .ok h1 := by rw [hK]; exact ht
    cases hf : taskFn h1 t with
    | none =>
      obtain ⟨y, e, ne⟩ := task_call_fault hk hh hn ht' hf
      rw [e]
      exact ⟨fun r h' e => (by cases e), fun e => absurd (Except.error.inj e) ne⟩
    | some f =>
      cases t with
      | ptr b o =>
        have hat : h1.at b o = some (.fn f) := by
          simp only [taskFn] at hf
          split at hf
          · rename_i g hg
            obtain rfl := Option.some.inj hf
            exact hg
          · cases hf
        rw [(C126_call A Y n hk hh).1 h1 f ht' hat, hK]
        have hp : pend K [.task (.ptr b o)] h1 = (do
            let (_, h) ← K f h1 [.ptr b o]
            .ok h) := by simp only [pend, hf]
        show (∀ (r : CVal) (h' : Heap), _ = Except.ok (r, h') → r = .undef ∧ pend K [.task (.ptr b o)] h1 = .ok h') ∧ (_ = Except.error Fault.divZero → pend K [.task (.ptr b o)] h1 = .error .divZero)
        rw [hp]
        cases hx : K f h1 [.ptr b o] with
        | error y => exact ⟨fun r h' e => (by cases e), fun e => congrArg Except.error (Except.error.inj e)⟩
        | ok y =>
          refine ⟨fun r h' e => ?_, fun e => by cases e⟩
          obtain ⟨rfl, rfl⟩ := Prod.mk.inj (Except.ok.inj e)
          exact ⟨rfl, rfl⟩
      | _ => cases hf

/-! ## User functions in the log -/

/-- What holds of user functions: when the library calls one, and it returns, the log is right again. -/
def Behaves (Q : I → QPlace) (U : User I) (prec : CVal → CVal → Bool) (off : CVal → CVal → CVal) (s0 : State I) (K : Nat → SemFn) : Prop :=
  ∀ {s : State I} {h h' : Heap} {f : Nat} {args : List CVal} {v : CVal} {l : List Todo} {d : Done} {fs : List Frame},
    At Q U prec off s0 s h → s.see Q U.task prec off (.enter f args) = some { s with frames := .runs l d :: fs } → K f h args = .ok (v, h') →
    ∃ s', At Q U prec off s0 s' h' ∧ s'.frames = .waits l d :: fs

theorem At.mayBe (a : At Q U prec off s0 s h) {t : CVal} {f : Nat} (hf : taskFn h t = some f) : s.mayBe U.task t f = true := by
  cases t with
  | ptr b o =>
    simp only [State.mayBe, Bool.or_eq_true, Bool.not_eq_eq_eq_not, Bool.not_true, decide_eq_true_eq]
    by_cases hk : U.task b o = true
    · right
      have := (a.mem (.task b o) hk).fn
      simp only [taskFn, this] at hf
      split at hf
      · rename_i g hg
        obtain rfl := Option.some.inj hf
        exact Option.some.inj hg
      · cases hf
    · left; simpa using hk
  | _ => rfl

/-- The library calls them all, or is stopped in one. -/
theorem At.pend (hB : Behaves Q U prec off s0 K) {d : Done} {fs : List Frame} : ∀ (l : List Todo) {s : State I} {h : Heap},
    At Q U prec off s0 s h → s.frames = .waits l d :: fs →
    (∀ h', Kern.pend K l h = .ok h' → ∃ s', At Q U prec off s0 s' h' ∧ s'.frames = .waits [] d :: fs) ∧
    (Kern.pend K l h = .error .divZero → ∃ s1 h1 f args l' fs', At Q U prec off s0 s1 h1 ∧
      s1.see Q U.task prec off (.enter f args) = some { s1 with frames := .runs l' d :: fs' } ∧ K f h1 args = .error .divZero) := by
  intro l
  induction l with
  | nil =>
    intro s h a hf
    exact ⟨fun h' e => ⟨s, (by obtain rfl := Except.ok.inj e; exact a), hf⟩, fun e => by cases e⟩
  | cons t l ih =>
    intro s h a hf
    have go : ∀ {f : Nat} {args : List CVal}, s.see Q U.task prec off (.enter f args) = some { s with frames := .runs l d :: fs } →
        Kern.pend K (t :: l) h = (do
          let (_, h) ← K f h args
          Kern.pend K l h) →
        (∀ h', Kern.pend K (t :: l) h = .ok h' → ∃ s', At Q U prec off s0 s' h' ∧ s'.frames = .waits [] d :: fs) ∧
        (Kern.pend K (t :: l) h = .error .divZero → ∃ s1 h1 f args l' fs', At Q U prec off s0 s1 h1 ∧
          s1.see Q U.task prec off (.enter f args) = some { s1 with frames := .runs l' d :: fs' } ∧ K f h1 args = .error .divZero) := by
      intro f args hs hp
      rw [hp]
      cases hx : K f h args with
      | error y =>
        refine ⟨fun h' e => (by cases e), fun e => ⟨s, h, f, args, l, fs, a, hs, ?_⟩⟩
        obtain rfl : y = .divZero := Except.error.inj e
        exact hx
      | ok y =>
        obtain ⟨v, h1⟩ := y
        obtain ⟨s1, a1, f1⟩ := hB a hs hx
        exact ih a1 f1
    cases t with
    | hook f args => exact go (f := f) (args := args) (by simp [State.see, hf]) rfl
    | task t =>
      cases hx : taskFn h t with
      | none =>
        simp only [Kern.pend, hx]
        exact ⟨fun h' e => (by cases e), fun e => by cases e⟩
      | some f => exact go (f := f) (args := [t]) (by simp [State.see, hf, a.mayBe hx]) (by simp only [Kern.pend, hx])

/-! ## The calls -/

/-- What is known of a call that may run user code: before it runs any, memory is `hA` and the state `s'`; it makes the calls `l`; and then
finishes as `d` says. -/
structure Plan (A : Arch) (Y : Ext) (K : Nat → SemFn) (Q : I → QPlace) (U : User I) (prec : CVal → CVal → Bool) (off : CVal → CVal → CVal)
    (s0 : State I) (n : Nat) (c : Deep I) (h1 : Heap) (fs : List Frame) (hA : Heap) (s' : State I) (l : List Todo) (d : Done) : Prop where
  at_ : At Q U prec off s0 s' hA
  frames : s'.frames = .waits l d :: fs
  ok : ∀ r h2, c.run (sem A Y prog n) Q h1 = .ok (r, h2) → ∃ hB, Kern.pend K l hA = .ok hB ∧
    ∀ s'', At Q U prec off s0 s'' hB → s''.frames = .waits [] d :: fs →
      r = (d.finish s'').1 ∧ Mem Q U (d.finish s'').2 h2 ∧ Heap.Only (fun b o => ∃ p, Part.cells Q U p b o) hB h2
  stop : c.run (sem A Y prog n) Q h1 = .error .divZero → Kern.pend K l hA = .error .divZero

theorem plain_ok {r : C (CVal × Heap)} {x : QOut × Heap} (e : plain r = .ok x) : ∃ v h, r = .ok (v, h) ∧ x = (⟨v, none⟩, h) := by
  obtain ⟨⟨v, h⟩, e1, e2⟩ := C.bind_eq_ok e
  exact ⟨v, h, e1, (Except.ok.inj e2).symm⟩

theorem plain_error {r : C (CVal × Heap)} {x : Fault} (e : plain r = .error x) : r = .error x := by
  cases r with
  | ok y => cases e
  | error y => exact congrArg Except.error (Except.error.inj e)

theorem store_ne (h : Heap) (p v : CVal) : h.store p v ≠ .error .divZero := by
  unfold Heap.store
  split
  · simp
  · split <;> simp
  · simp
  · simp

/-- Calls that change nothing before they run user code. -/
theorem At.starts {h1 : Heap} {c : Deep I} (a : At Q U prec off s0 s h) (hs : s.user = true) (k1 : U.Adds Q [.calls c] h h1) {l : List Todo} {d : Done}
    (hb : c.begin Q s = { s with frames := .waits l d :: s.frames }) :
    At Q U prec off s0 { s with frames := .waits l d :: s.frames } h1 :=
  a.adds k1 (by simp [replay, State.see, hs, hb]) rfl rfl rfl rfl rfl

theorem plan_call (hK : ∀ S, Y.cb S = K) (n : Nat) {h1 : Heap} {t : CVal} (a : At Q U prec off s0 s h)
    (hs : s.user = true) (k1 : U.Adds Q [.calls (.call t)] h h1) :
    ∃ hA s' l d, Plan A Y K Q U prec off s0 (n + 30) (.call t) h1 s.frames hA s' l d := by
  have a1 := a.starts hs k1 (l := Todo.tasks (s.hooks .call) t) (d := .call) rfl
  obtain ⟨w1, w2⟩ := a1.mem (.hook .call)
  obtain ⟨t1, t2⟩ := task_call_pend (A := A) hK (n := n + 29) (t := t) w2 w1
  refine ⟨h1, _, _, _, a1, rfl, fun r h2 e => ?_, fun e => t2 (plain_error e)⟩
  obtain ⟨v, hx, e1, e2⟩ := plain_ok e
  obtain ⟨rfl, rfl⟩ := Prod.mk.inj e2
  obtain ⟨rfl, e3⟩ := t1 _ _ e1
  exact ⟨_, e3, fun s'' a'' _ => ⟨rfl, a''.mem, Heap.Only.refl _ _⟩⟩

theorem plan_tell (hK : ∀ S, Y.cb S = K) (n : Nat) {h1 : Heap} {t : CVal} (ht : t ≠ .undef) (a : At Q U prec off s0 s h)
    (hs : s.user = true) (k1 : U.Adds Q [.calls (.tell t)] h h1) :
    ∃ hA s' l d, Plan A Y K Q U prec off s0 (n + 30) (.tell t) h1 s.frames hA s' l d := by
  have a1 := a.starts hs k1 (l := Todo.hooks (s.hooks .transfer) [t]) (d := .tell) rfl
  obtain ⟨w1, w2⟩ := a1.mem (.hook .transfer)
  have eq := C126_transfer A Y (n + 29) w2 ht w1
  rw [hK] at eq
  refine ⟨h1, _, _, _, a1, rfl, fun r h2 e => ?_, fun e => ?_⟩
  · obtain ⟨v, hx, e1, e2⟩ := plain_ok e
    obtain ⟨rfl, rfl⟩ := Prod.mk.inj e2
    rw [eq] at e1
    obtain ⟨hy, e3, e4⟩ := C.bind_eq_ok e1
    obtain ⟨rfl, rfl⟩ := Prod.mk.inj (Except.ok.inj e4)
    exact ⟨_, pend_hooks.trans e3, fun s'' a'' _ => ⟨rfl, a''.mem, Heap.Only.refl _ _⟩⟩
  · have e1 := plain_error e
    rw [eq] at e1
    rw [pend_hooks]
    show told K (s.hooks .transfer) h1 [t] = _
    have e1 : (do
      let h1 ← told K (s.hooks .transfer) h1 [t]
      .ok (CVal.undef, h1)) = .error .divZero := e1
    cases hx : told K (s.hooks .transfer) h1 [t] with
    | ok y => rw [hx] at e1; cases e1
    | error y => rw [hx] at e1; exact congrArg Except.error (Except.error.inj e1)

theorem plan_transfer (hu : Honest A X Q U prec off) (hK : ∀ S, Y.cb S = K) (hB : Behaves Q U prec off s0 K) (n : Nat) {h1 : Heap} {t : CVal} (ht : t ≠ .undef)
    (a : At Q U prec off s0 s h) (hs : s.user = true) (k1 : U.Adds Q [.calls (.transfer t)] h h1) :
    ∃ hA s' l d, Plan A Y K Q U prec off s0 (n + 30) (.transfer t) h1 s.frames hA s' l d := by
  have a1 := a.starts hs k1 (l := Todo.hooks (s.hooks .transfer) [t]) (d := .transfer t) rfl
  obtain ⟨w1, w2⟩ := a1.mem (.hook .transfer)
  have tr : ∀ {hd ix : Nat} {σ : Agenda}, _ := fun {hd ix σ} => C128_transfer (hd := hd) (ix := ix) (σ := σ) A Y (n + 26) w2 ht w1
  rw [hK] at tr
  have key : ∀ e, told K (s.hooks .transfer) h1 [t] = .error e → sem A Y prog (n + 30) .mu_sched_transfer h1 [t] = .error e :=
    (tr (hd := 0) (ix := 0) (σ := s.σ)).2
  refine ⟨h1, _, _, _, a1, rfl, fun r h2 e => ?_, fun e => ?_⟩
  · obtain ⟨v, hx, e1, e2⟩ := plain_ok e
    obtain ⟨rfl, rfl⟩ := Prod.mk.inj e2
    cases hy : told K (s.hooks .transfer) h1 [t] with
    | error y => rw [key y hy] at e1; cases e1
    | ok hC =>
      refine ⟨hC, pend_hooks.trans hy, fun s'' a'' _ => ?_⟩
      obtain ⟨hd, ix, q⟩ := a''.mem .sched
      obtain ⟨h', hd', ix', f1, f2, f3⟩ := (tr (hd := hd) (ix := ix) (σ := s''.σ)).1 hC hy q
      have e1' : sem A Y prog (n + 30) .mu_sched_transfer h1 [t] = _ := f1
      rw [e1] at e1'
      obtain ⟨rfl, rfl⟩ := Prod.mk.inj (Except.ok.inj e1')
      exact ⟨rfl, a''.mem.sched hu.layout f3 f2, f3.mono fun b o hb => ⟨.sched, hb⟩⟩
  · have e1 := plain_error e
    rw [pend_hooks]
    show told K (s.hooks .transfer) h1 [t] = _
    cases hy : told K (s.hooks .transfer) h1 [t] with
    | error y =>
      rw [key y hy] at e1
      exact congrArg Except.error (Except.error.inj e1)
    | ok hC =>
      -- the rest of the function does not stop
      obtain ⟨s'', a'', -⟩ := (a1.pend hB _ rfl).1 hC (pend_hooks.trans hy)
      obtain ⟨hd, ix, q⟩ := a''.mem .sched
      obtain ⟨h', hd', ix', f1, f2, f3⟩ := (tr (hd := hd) (ix := ix) (σ := s''.σ)).1 hC hy q
      have e1' : sem A Y prog (n + 30) .mu_sched_transfer h1 [t] = _ := f1
      rw [e1] at e1'
      cases e1'

theorem plan_setState (hu : Honest A X Q U prec off) (hK : ∀ S, Y.cb S = K) (hB : Behaves Q U prec off s0 K) (n : Nat) {h1 : Heap} {t st : CVal}
    (hc : Deep.Ok U (.setState t st)) (a : At Q U prec off s0 s h) (hs : s.user = true) (k1 : U.Adds Q [.calls (.setState t st)] h h1) :
    ∃ hA s' l d, Plan A Y K Q U prec off s0 (n + 30) (.setState t st) h1 s.frames hA s' l d := by
  obtain ⟨hst, rfl | ⟨b, o, rfl, hk⟩⟩ := hc
  · have a1 := a.starts hs k1 (l := []) (d := .setState .null st) rfl
    have eq := (C126_null (h := h1) A Y (n + 29) hst).2
    refine ⟨h1, _, _, _, a1, rfl, fun r h2 e => ?_, fun e => ?_⟩
    · obtain ⟨v, hx, e1, e2⟩ := plain_ok e
      obtain ⟨rfl, rfl⟩ := Prod.mk.inj e2
      rw [eq] at e1
      obtain ⟨rfl, rfl⟩ := Prod.mk.inj (Except.ok.inj e1)
      exact ⟨h1, rfl, fun s'' a'' _ => ⟨rfl, a''.mem, Heap.Only.refl _ _⟩⟩
    · have e1 := plain_error e
      rw [eq] at e1
      cases e1
  · have a1 := a.starts hs k1 (l := Todo.hooks (s.hooks .state) [.ptr b o, st]) (d := .setState (.ptr b o) st) rfl
    obtain ⟨w1, w2⟩ := a1.mem (.hook .state)
    have hb := (a1.mem (.task b o) hk).wr
    obtain ⟨ss, se⟩ := C126_set_state (o := o) A Y (n + 29) w2 hst hb w1
    rw [hK] at ss se
    have ss' : ∀ {hC : Heap} {s'' : State I}, told K (s.hooks .state) h1 [.ptr b o, st] = .ok hC → At Q U prec off s0 s'' hC → ∃ h',
        sem A Y prog (n + 30) .mu_task_set_state h1 [.ptr b o, st] = .ok (.ptr b o, h') ∧
        h'.at b (o + 1) = some st ∧ Heap.Only (span b (o + 1) 1) hC h' := fun hy a'' =>
      ss _ hy (by rw [(a''.mem (.task b o) hk).st]; rfl)
    have key : ∀ e, told K (s.hooks .state) h1 [.ptr b o, st] = .error e → sem A Y prog (n + 30) .mu_task_set_state h1 [.ptr b o, st] = .error e := se
    refine ⟨h1, _, _, _, a1, rfl, fun r h2 e => ?_, fun e => ?_⟩
    · obtain ⟨v, hx, e1, e2⟩ := plain_ok e
      obtain ⟨rfl, rfl⟩ := Prod.mk.inj e2
      cases hy : told K (s.hooks .state) h1 [.ptr b o, st] with
      | error y => rw [key y hy] at e1; cases e1
      | ok hC =>
        refine ⟨hC, pend_hooks.trans hy, fun s'' a'' _ => ?_⟩
        obtain ⟨h', f1, f2, f3⟩ := ss' hy a''
        rw [e1] at f1
        obtain ⟨rfl, rfl⟩ := Prod.mk.inj (Except.ok.inj f1)
        have t := a''.mem (.task b o) hk
        have f3' : Heap.Only (span b o 3) hC h2 := f3.mono fun b' o' hb => ⟨hb.1, by have := hb.2.1; omega, by have := hb.2.2; omega⟩
        refine ⟨rfl, a''.mem.task hu.layout hk f3' ⟨t.wr, ?_, f2, ?_⟩, f3'.mono fun b' o' hb => ⟨.task b o, hk, hb.1, hb.2.1, by have := hb.2.2; omega⟩⟩
        · rw [f3.cell _ _ (fun hx => by have := hx.2.1; omega)]; exact t.fn
        · rw [f3.cell _ _ (fun hx => by have := hx.2.2; omega)]; exact t.info
    · have e1 := plain_error e
      rw [pend_hooks]
      show told K (s.hooks .state) h1 [.ptr b o, st] = _
      cases hy : told K (s.hooks .state) h1 [.ptr b o, st] with
      | error y =>
        rw [key y hy] at e1
        exact congrArg Except.error (Except.error.inj e1)
      | ok hC =>
        obtain ⟨s'', a'', -⟩ := (a1.pend hB _ rfl).1 hC (pend_hooks.trans hy)
        obtain ⟨h', f1, f2, f3⟩ := ss' hy a''
        rw [e1] at f1
        cases f1

theorem plan_step (hu : Honest A X Q U prec off) (hY : Y.fn = X.fn) (hK : ∀ S, Y.cb S = K) (n : Nat) {h1 : Heap}
    (a : At Q U prec off s0 s h) (hs : s.user = true) (k1 : U.Adds Q [.calls .step] h h1) :
    ∃ hA s' l d, Plan A Y K Q U prec off s0 (n + 30) .step h1 s.frames hA s' l d := by
  have hX : Clock Y prec off := by
    have := hu.clock
    refine ⟨?_, ?_, this.offsetDef, ?_⟩ <;> rw [hY]
    exacts [this.precedes, this.offset, this.now]
  have m1 := a.mem.mine k1.only
  obtain ⟨hd1, ix1, q1⟩ := m1 .sched
  obtain ⟨hA, hd', ix', σ', qA, eA, cA, cB⟩ := C128_step A (n + 26) hX q1
  have sch : ∀ {h h' : Heap}, Heap.Only (fun b _ => SchedVar b) h h' → Heap.Only (fun b o => ∃ p, Part.cells Q U p b o) h h' :=
    fun o => o.mono fun b o hb => ⟨.sched, hb⟩
  have hq : ∃ s' : State I, At Q U prec off s0 s' hA ∧ s'.frames = .waits (Todo.tasks (s'.hooks .call) σ'.cur) .step :: s.frames := by
    cases hi : s.σ.irq with
    | cons t l =>
      obtain ⟨rfl, o⟩ := cA t l hi
      obtain ⟨i, l'⟩ := hu.frame _ _ (sch o) k1.inv
      refine ⟨{ s with σ := { s.σ with irq := l, cur := t }, frames := .waits (Todo.tasks (s.hooks .call) t) .step :: s.frames }, ⟨?_, ?_, i⟩, rfl⟩
      · rw [l', k1.log]
        exact replay_one a.log (by simp [State.see, Deep.begin, hs, hi])
      · exact (m1.sched hu.layout o qA).same rfl rfl rfl rfl rfl
    | nil =>
      obtain ⟨now, hB, hC, c1, o1, o2, rfl⟩ := cB hi
      rw [hY] at c1
      obtain ⟨iB, lB⟩ := hu.frame _ _ (sch o1) k1.inv
      have ad := hu.reads _ _ _ iB c1
      obtain ⟨iA, lA⟩ := hu.frame _ _ (sch o2) ad.inv
      refine ⟨{ s with σ := s.σ.choose prec now, frames := .waits (Todo.tasks (s.hooks .call) (s.σ.choose prec now).cur) .step :: s.frames, clock := now },
        ⟨?_, ?_, iA⟩, rfl⟩
      · rw [lA, ad.log, lB, k1.log]
        refine replay_one (replay_one (s'' := { s with frames := .looking :: s.frames }) a.log (by simp [State.see, Deep.begin, hs, hi])) ?_
        simp [State.see]
      · intro p
        have nb : ∀ p : Part I, p ≠ .sched → ∀ b (o : Int), SchedVar b → ¬ Part.cells Q U p b o := fun p hp b o hb hc =>
          hp (hu.layout.apart p .sched b o hc hb)
        by_cases hp : p = .sched
        · subst hp
          exact ⟨hd', ix', qA⟩
        · have := (((m1 p).only o1 (nb p hp)).only ad.only fun b o hb => hb p).only o2 (nb p hp)
          cases p with
          | sched => exact absurd rfl hp
          | _ => exact this
  obtain ⟨s', a', hf⟩ := hq
  obtain ⟨w1, w2⟩ := a'.mem (.hook .call)
  obtain ⟨t1, t2⟩ := task_call_pend (A := A) hK (n := n + 28) (t := σ'.cur) w2 w1
  refine ⟨hA, s', _, _, a', hf, fun r h2 e => ?_, fun e => ?_⟩
  · obtain ⟨v, hx, e1, e2⟩ := plain_ok e
    obtain ⟨rfl, rfl⟩ := Prod.mk.inj e2
    rw [eA] at e1
    obtain ⟨⟨v', hB⟩, e3, e4⟩ := C.bind_eq_ok e1
    obtain ⟨-, e5⟩ := t1 _ _ e3
    refine ⟨hB, e5, fun s'' a'' _ => ?_⟩
    obtain ⟨hdT, ixT, qT⟩ := a''.mem .sched
    obtain ⟨h4, hd4, ix4, g1, g2, g3⟩ := C128_return qT
    simp only [g1] at e4
    obtain ⟨rfl, rfl⟩ := Prod.mk.inj (Except.ok.inj e4)
    exact ⟨rfl, a''.mem.sched hu.layout g3 g2, sch g3⟩
  · have e1 := plain_error e
    rw [eA] at e1
    cases hx : sem A Y prog (n + 26 + 3) .mu_task_call hA [σ'.cur] with
    | error y =>
      rw [hx] at e1
      refine t2 (hx.trans ?_)
      exact congrArg Except.error (Except.error.inj e1)
    | ok y =>
      obtain ⟨v, hB⟩ := y
      rw [hx] at e1
      exfalso
      cases hy : hB.store (.ptr (.glob .s_sched) 9) .null with
      | error z =>
        have e1' : (hB.store (.ptr (.glob .s_sched) 9) .null >>= fun h3 => Except.ok (CVal.undef, h3)) = Except.error .divZero := e1
        rw [hy] at e1'
        have : z = .divZero := Except.error.inj e1'
        subst this
        exact store_ne _ _ _ hy
      | ok z => simp [hy] at e1

end Mu.CS.Kern
