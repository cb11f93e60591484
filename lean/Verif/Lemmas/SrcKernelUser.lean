import Verif.Lemmas.SrcKernelDeep
import Verif.Props.SrcSystem

/-! # C141: calls on queues, and user code -/

namespace Mu.CS.Kern

open Sys (QPlace)

variable {I : Type} [DecidableEq I]
variable {A : Arch} {X Y : Ext} {Q : I → QPlace} {U : User I} {prec : CVal → CVal → Bool} {off : CVal → CVal → CVal}
variable {s0 s s' : State I} {h h' : Heap} {K : Nat → SemFn}

omit [DecidableEq I] in
theorem ok_var {i : I} {c : QCall} (hc : (Deep.queue i c).Ok U) {v : Base × Int} (hv : c.var = some v) : U.var v.1 v.2 := by
  cases c <;> simp only [QCall.var, Option.some.injEq, reduceCtorEq] at hv <;> subst hv <;> exact hc

omit [DecidableEq I] in
theorem writes_var {c : QCall} {b : Base} {o : Int} : c.writes b o ↔ c.var = some (b, o) := by
  cases c <;> simp [QCall.writes, QCall.var, eq_comm]

omit [DecidableEq I] in
theorem ok_legal (L : Layout A Q U) (m : Mem Q U s h) {i : I} {c : QCall} (hc : (Deep.queue i c).Ok U) : c.Legal (Q i).cells h := by
  have key : ∀ eb eo, U.var eb eo → eb.isLit = false ∧ (h.at eb eo).isSome ∧ ¬ (Q i).cells eb eo := fun eb eo hv =>
    ⟨L.lit _ _ hv, by rw [m (.var eb eo) hv]; rfl, fun hc' => by cases L.apart (.var eb eo) (.queue i) eb eo ⟨hv, rfl, rfl⟩ hc'⟩
  cases c with
  | get eb eo => exact key _ _ hc
  | peek eb eo => exact key _ _ hc
  | put v => exact hc
  | _ => trivial

theorem plan_queue (hu : Honest A X Q U prec off) (hK : ∀ S, Y.cb S = K) (n : Nat) {h1 : Heap} {i : I} {c : QCall}
    (hc : (Deep.queue i c).Ok U) (a : At Q U prec off s0 s h) (hs : s.user = true) (k1 : U.Adds Q [.calls (.queue i c)] h h1) :
    ∃ hA s' l d, Plan A Y K Q U prec off s0 (n + 30) (.queue i c) h1 s.frames hA s' l d := by
  have m1 := a.mem.mine k1.only
  obtain ⟨ix, q⟩ := m1 (.queue i)
  have L := hu.layout
  obtain ⟨hA, ix', m, hm, qA, oA, vA, eA⟩ := C127_call A Y (n + 27) q (L.cap i) (L.pt i) (L.gt i) c (ok_legal L m1 hc)
  have oA' : Heap.Only (fun b o => ∃ p, (p = .queue i ∨ ∃ v, c.var = some v ∧ p = .var v.1 v.2) ∧ Part.cells Q U p b o) h1 hA :=
    oA.mono fun b o hb => hb.elim (fun hb => ⟨.queue i, .inl rfl, hb⟩) fun hb =>
      ⟨.var b o, .inr ⟨(b, o), writes_var.1 hb, rfl⟩, ok_var hc (writes_var.1 hb), rfl, rfl⟩
  obtain ⟨iA, lA⟩ := hu.frame _ _ (oA'.mono fun b o hb => hb.elim fun p hp => ⟨p, hp.2⟩) k1.inv
  have aA : At Q U prec off s0 ((Deep.queue i c).begin Q s) hA := by
    refine ⟨?_, ?_, iA⟩
    · rw [lA, k1.log]
      exact replay_one a.log (by simp [State.see, hs])
    · refine m1.parts L _ oA' ?_ ?_
      · rintro p (rfl | ⟨v, hv, rfl⟩)
        · exact ⟨ix', by simpa [Deep.begin, Sys.setAt] using qA⟩
        · intro _
          rw [vA _ _ (writes_var.2 hv)]
          cases c with
          | get eb eo =>
            obtain rfl := Option.some.inj hv
            simp only [Deep.begin, QCall.spec, QCall.var, Sys.setVar]
            split <;> simp
          | peek eb eo =>
            obtain rfl := Option.some.inj hv
            simp only [Deep.begin, QCall.spec, QCall.var, Sys.setVar]
            split <;> simp
          | _ => cases hv
      · intro p hp ho
        cases p with
        | queue j =>
          have hj : j ≠ i := fun e => hp (.inl (by rw [e]))
          obtain ⟨ix, q⟩ := ho
          exact ⟨ix, by simpa [Deep.begin, Sys.setAt, hj] using q⟩
        | var b o =>
          intro hv
          rw [ho hv]
          have hw : c.var ≠ some (b, o) := fun e => hp (.inr ⟨_, e, rfl⟩)
          cases c with
          | get eb eo =>
            have hw : ¬ (b = eb ∧ o = eo) := fun e => hw (by rw [e.1, e.2]; rfl)
            simp only [Deep.begin, QCall.spec, QCall.var, Sys.setVar]
            cases s.lists i <;> simp [hw]
          | peek eb eo =>
            have hw : ¬ (b = eb ∧ o = eo) := fun e => hw (by rw [e.1, e.2]; rfl)
            simp only [Deep.begin, QCall.spec, QCall.var, Sys.setVar]
            cases s.lists i <;> simp [hw]
          | _ => rfl
        | _ => exact ho
  obtain ⟨w1, w2⟩ := aA.mem (.hook .call)
  have key : ∃ m', m = m' + 1 := by
    rcases hm with rfl | rfl
    exacts [⟨n + 27, rfl⟩, ⟨n + 28, rfl⟩]
  obtain ⟨m', rfl⟩ := key
  obtain ⟨t1, t2⟩ := task_call_pend (A := A) hK (n := m') (t := QCall.wakes (Q i).cap (s.lists i) (Q i).pt (Q i).gt c) w2 w1
  have ht : TaskPtr (QCall.wakes (Q i).cap (s.lists i) (Q i).pt (Q i).gt c) := by
    cases c <;> simp only [QCall.wakes] <;> (try split) <;> first | exact L.pt i | exact L.gt i | trivial
  refine ⟨hA, _, _, _, aA, rfl, fun r h2 e => ?_, fun e => ?_⟩
  · replace e := eA.symm.trans e
    obtain ⟨hT, eT, e'⟩ := C.bind_eq_ok e
    obtain ⟨rfl, rfl⟩ := Prod.mk.inj (Except.ok.inj e')
    refine ⟨hT, ?_, fun s'' a'' _ => ⟨?_, a''.mem, Heap.Only.refl _ _⟩⟩
    · generalize QCall.wakes (Q i).cap (s.lists i) (Q i).pt (Q i).gt c = t at *
      cases t with
      | null => exact eT
      | ptr b o =>
        obtain ⟨⟨v, hx⟩, e1, e2⟩ := C.bind_eq_ok eT
        obtain rfl := Except.ok.inj e2
        exact (t1 _ _ e1).2
      | _ => exact ht.elim
    · have : ∀ v, c.var = some v → hT.at v.1 v.2 = some (s''.vars v.1 v.2) := fun v hv => a''.mem (.var v.1 v.2) (ok_var hc hv)
      cases c with
      | get eb eo => simp [Done.finish, QCall.var, this (eb, eo) rfl]
      | peek eb eo => simp [Done.finish, QCall.var, this (eb, eo) rfl]
      | _ => rfl
  · replace e := eA.symm.trans e
    generalize QCall.wakes (Q i).cap (s.lists i) (Q i).pt (Q i).gt c = t at *
    cases t with
    | null => cases e
    | ptr b o =>
      refine t2 ?_
      cases hx : sem A Y prog (m' + 1) .mu_task_call hA [.ptr b o] with
      | ok y =>
        exfalso
        simp [wake, hx] at e
      | error y =>
        simp only [wake, hx] at e
        exact congrArg Except.error (Except.error.inj e)
    | _ => exact ht.elim

/-- What every call that may run user code does. -/
theorem plan (hu : Honest A X Q U prec off) (hY : Y.fn = X.fn) (hK : ∀ S, Y.cb S = K) (hB : Behaves Q U prec off s0 K) (n : Nat) {h1 : Heap}
    {c : Deep I} (hc : c.Ok U) (a : At Q U prec off s0 s h) (hs : s.user = true) (k1 : U.Adds Q [.calls c] h h1) :
    ∃ hA s' l d, Plan A Y K Q U prec off s0 (n + 30) c h1 s.frames hA s' l d := by
  cases c with
  | step => exact plan_step hu hY hK n a hs k1
  | queue i c => exact plan_queue hu hK n hc a hs k1
  | call t => exact plan_call hK n a hs k1
  | setState t st => exact plan_setState hu hK hB n hc a hs k1
  | transfer t => exact plan_transfer hu hK hB n hc a hs k1
  | tell t => exact plan_tell hK n hc a hs k1

/-- A call that may run user code, from the memory in which it is made to the memory in which it has returned. -/
theorem At.deep (hu : Honest A X Q U prec off) (hY : Y.fn = X.fn) (hK : ∀ S, Y.cb S = K) (hB : Behaves Q U prec off s0 K) (n : Nat) {h1 h2 h3 : Heap}
    {c : Deep I} {r : QOut} (hc : c.Ok U) (a : At Q U prec off s0 s h) (hs : s.user = true) (k1 : U.Adds Q [.calls c] h h1)
    (e : c.run (sem A Y prog (n + 30)) Q h1 = .ok (r, h2)) (k3 : U.Adds Q [.done r] h2 h3) :
    ∃ s', At Q U prec off s0 s' h3 ∧ s'.frames = s.frames := by
  obtain ⟨hA, s1, l, d, p⟩ := plan hu hY hK hB n hc a hs k1
  obtain ⟨hB', e1, fin⟩ := p.ok _ _ e
  obtain ⟨s2, a2, f2⟩ := (p.at_.pend hB l p.frames).1 _ e1
  obtain ⟨rfl, m2, o2⟩ := fin s2 a2 f2
  obtain ⟨i3, l3⟩ := hu.frame _ _ o2 a2.inv
  refine ⟨{ (d.finish s2).2 with frames := s.frames }, ⟨?_, (m2.mine k3.only).same rfl rfl rfl rfl rfl, k3.inv⟩, rfl⟩
  rw [k3.log, l3]
  exact replay_one a2.log (by simp [State.see, f2])

/-- What holds of user code that may use `n` steps. -/
def UserOk (A : Arch) (X : Ext) (Q : I → QPlace) (U : User I) (prec : CVal → CVal → Bool) (off : CVal → CVal → CVal) (n : Nat) : Prop :=
  ∀ {s0 s : State I} {h h' : Heap}, UserRun (sem A X prog n) Q U h h' → At Q U prec off s0 s h → s.user = true →
    ∃ s', At Q U prec off s0 s' h' ∧ s'.frames = s.frames

/-- A user function. -/
theorem UserOk.behaves (hu : Honest A X Q U prec off) {n : Nat} (ih : UserOk A X Q U prec off n) : Behaves Q U prec off s0 (X.cb (sem A X prog n)) := by
  intro s h h' f args v l d fs a hs e
  obtain ⟨h1, h2, k1, ur, k2⟩ := hu.user _ _ _ _ _ _ a.inv e
  have a1 : At Q U prec off s0 { s with frames := .runs l d :: fs } h1 := a.adds k1 (by simp [replay, hs]) rfl rfl rfl rfl rfl
  obtain ⟨s2, a2, f2⟩ := ih ur a1 rfl
  exact ⟨{ s2 with frames := .waits l d :: fs }, a2.adds k2 (by simp [replay, State.see, f2]) rfl rfl rfl rfl rfl, rfl⟩

omit [DecidableEq I] in
theorem Deep.run_ok {S S' : Fn → SemFn} (hS : ∀ f h args r, S f h args = .ok r → S' f h args = .ok r) {c : Deep I} {r : QOut × Heap}
    (e : c.run S Q h = .ok r) : c.run S' Q h = .ok r := by
  cases c with
  | queue i c => exact Sys.mrun_ok hS e
  | _ =>
    obtain ⟨v, h1, e1, rfl⟩ := plain_ok e
    simp only [Deep.run, hS _ _ _ _ e1]
    rfl

omit [DecidableEq I] in
theorem Deep.run_error {S S' : Fn → SemFn} {x : Fault} (hS : ∀ f h args, S f h args = .error x → S' f h args = .error x) {c : Deep I}
    (e : c.run S Q h = .error x) : c.run S' Q h = .error x := by
  cases c with
  | queue i c => exact Sys.mrun_error hS e
  | _ =>
    have e1 := plain_error e
    simp only [Deep.run, hS _ _ _ e1]
    rfl

theorem userOk (hu : Honest A X Q U prec off) : ∀ n, UserOk A X Q U prec off n := by
  intro n
  induction n with
  | zero =>
    intro s0 s h h' ur
    induction ur generalizing s with
    | nil h => exact fun a hs => ⟨s, a, rfl⟩
    | own k _ ih => exact fun a hs => ih (a.adds k rfl rfl rfl rfl rfl rfl) hs
    | quick c hc e k _ ih =>
      intro a hs
      obtain ⟨s1, a1, h1⟩ := a.quick hu hs hc e k
      obtain ⟨s2, a2, h2⟩ := ih a1 (by simpa [State.user, h1] using hs)
      exact ⟨s2, a2, h2.trans h1⟩
    | deep c hc k1 e k3 _ ih =>
      cases c with
      | queue i c => cases c <;> cases e
      | _ => cases e
  | succ n ihn =>
    intro s0 s h h' ur
    induction ur generalizing s with
    | nil h => exact fun a hs => ⟨s, a, rfl⟩
    | own k _ ih => exact fun a hs => ih (a.adds k rfl rfl rfl rfl rfl rfl) hs
    | quick c hc e k _ ih =>
      intro a hs
      obtain ⟨s1, a1, h1⟩ := a.quick hu hs hc e k
      obtain ⟨s2, a2, h2⟩ := ih a1 (by simpa [State.user, h1] using hs)
      exact ⟨s2, a2, h2.trans h1⟩
    | deep c hc k1 e k3 _ ih =>
      intro a hs
      have e' := Deep.run_ok (S' := sem A (X.frozen A prog n) prog (n + 30)) (fun f h args r e =>
        (sem_frozen (A := A) (prog := prog) hu.mono (Nat.le_refl (n + 1)) (show n + 1 ≤ n + 30 by omega) f h args).ok e) e
      obtain ⟨s1, a1, h1⟩ := a.deep hu (Y := X.frozen A prog n) (K := X.cb (sem A X prog n)) rfl (fun _ => rfl) (ihn.behaves hu) n hc hs k1 e' k3
      obtain ⟨s2, a2, h2⟩ := ih a1 (by simpa [State.user, h1] using hs)
      exact ⟨s2, a2, h2.trans h1⟩

end Mu.CS.Kern
