import Verif.Lemmas.SrcIsrStep

/-! # `mu_sched_reset`, interrupted -/

namespace Mu.CS.Isr

open Act Conc

variable {A : Arch} {X : AExt} {U : User} {prec : CVal → CVal → Bool} {off : CVal → CVal → CVal}
variable {Gd : List Seen → Prop} {T : Tale U prec off Gd}
variable {s : Replay} {m h : Heap}

/-- How logs are explained while `mu_sched_reset` works. -/
structure Tale.Wipe {U : User} {prec : CVal → CVal → Bool} {off : CVal → CVal → CVal} {G : List Seen → Prop} (T : Tale U prec off G) where
  C : Tale U prec off G
  D : Tale U prec off G
  stale : C.stale = true
  live : D.stale = false
  clear : ∀ {l s old}, T.holds l s → s.user = true → old.length ≤ 7 → C.holds l (s.at old)
  cleared : ∀ {l s}, C.holds l s → D.holds l (s.at [])
  reset : ∀ {l s}, D.holds l s → T.holds (l ++ [.did .reset .undef]) { s with σ := { s.σ.reset with irq := s.σ.irq } }

/-- The rest of `mu_sched_reset`, when the interrupt queue is empty. -/
def wipeRest : Stmt :=
  .seq (.expr (.call .mu_queue_reset [.fld (.glob .s_sched) 4]))
    (.seq (.expr (.store (.fld (.glob .s_sched) 8) (.num 0))) (.expr (.store (.fld (.glob .s_sched) 9) .null)))

/-- Without interrupts. -/
theorem wipe_seq {Y : Ext} {K : Calls} {σ : Agenda} {hd ix : Nat} (q : m.Scheduler hd ix σ) (n : Nat) (hK : K.fn = sem A Y prog (n + 1)) :
    ∃ m1 m' hd' ix', (∀ b o, Own b o → m1.at b o = m.at b o) ∧
      exec A K (n + 1) wipeRest ⟨[], m1⟩ = .ok (.next, ⟨[], m'⟩) ∧ m'.Scheduler hd' ix' σ.reset := by
  obtain ⟨s, r, m0, hc⟩ := q.model (A := A) (prec := fun _ _ => false) (off := fun a _ => a)
  have m' := Mu.Sched.reset_ok m0
  rw [num_reset] at m'
  obtain ⟨h1, e1, q1, o1⟩ := src_spsc_reset (A := A) (X := Y) n r.irq
  have r1 := r.setIrq o1 (fun _ _ hc => hc) q1 r.irqLen r.irqDef
  obtain ⟨h2, e2, q2, o2⟩ := src_queue_reset (X := Y) n r1.immed
  have r2 := r1.setImmed o2 (fun _ _ hc => hc) q2 r.immedLen r.immedDef
  have r3 := (r2.setCount 0).setCurr (v := .null) (by simp)
  have on : Heap.Only schedOwn m ((h2.upd (.glob .s_sched) 8 (.int 0)).upd (.glob .s_sched) 9 .null) :=
    (((o1.mono (fun _ _ hc => r.own_s hc)).trans (o2.mono (fun _ _ hc => r1.own_q hc))).upd (Or.inl rfl)).upd (Or.inl rfl)
  obtain ⟨hd', ix', q'⟩ := Heap.Scheduler.of_model (prec := fun _ _ => false) (off := fun a _ => a) (q.vars.sizes.only on)
    (by simpa [Mu.Sched.reset, NULL] using r3) m'
  refine ⟨h1, _, hd', ix', fun b o ho => ?_, ?_, q'⟩
  · refine o1.cell _ _ fun hx => ?_
    rw [r.irqLen] at hx
    exact ho.not_irq hx
  · simp [csrc, wipeRest, hK, e2, r2.cnt, r2.curr]

/-- With interrupts: the memory of the agenda is as after a reset, whatever interrupts put into the interrupt queue. -/
theorem wipe_safe (H : Honest A X U prec off) {σ : Agenda} (hm : Mem m σ) (i : In T s m h) (n : Nat) :
    (execA A (lib A X n) n wipeRest []).safe (env A X T) h fun x h' => x = (.next, []) ∧ ∃ m', Mem m' σ.reset ∧ In T s m' h' := by
  obtain ⟨hd, ix, q⟩ := hm
  let K : Calls := ⟨sem A (stillX prec off .null) prog (n + 1), (stillX prec off .null).cb (sem A (stillX prec off .null) prog (n + 1))⟩
  obtain ⟨m1, m', hd', ix', a1, e, q'⟩ := wipe_seq (K := K) (A := A) q n rfl
  have tm : Typed m1 := by
    show m1.at _ _ = _
    rw [a1 _ _ (.inl ⟨rfl, by decide⟩)]
    exact q.immedStore
  have i1 : In T s m1 h := i.only H (Heap.Only.refl _ _) fun b o ho => by rw [a1 b o ho]; exact i.load ho
  have hr : (lib A (stillA prec off .null) (n + 1)).Runs K := ⟨semA_run (still_runs .null) prog (n + 1), fun _ _ _ => rfl⟩
  have fm : (execA A (lib A (stillA prec off .null) (n + 1)) (n + 1) wipeRest []).Firm :=
    firm_execA ⟨firm_semA (still_runs .null) (still_confluent .null) _, fun _ _ => firm_fail _⟩ hr (sem_quiet _) _ wipeRest (by decide) _
  have run : (execA A (lib A (stillA prec off .null) (n + 1)) (n + 1) wipeRest []).run m1 = .ok ((.next, []), m') := by
    rw [execA_run hr, e]; rfl
  have x := off_execA (A := A) (Γ := []) (R := .any) (off_semA (A := A) (still_typed H .null) (d := 4) (n := n) (m := n + 1) (by omega)) (n := n) (m := n + 1)
    (by omega) wipeRest [] (by decide) (by intro i t v ht; cases ht)
  refine safe_mono (frozen H x tm i1 fun e' o => ?_) ?_
  · have := (fm m1 _ o _).2 run
    cases this
  · rintro v h' ⟨-, m2, o, j⟩
    have := (fm m1 _ o (v, m2)).1 rfl
    rw [run] at this
    obtain ⟨rfl, rfl⟩ := Prod.mk.inj (Except.ok.inj this)
    exact ⟨rfl, m', ⟨hd', ix', q'⟩, j⟩

/-- `mu_spsc_reset`, access by access. -/
theorem spsc_reset_act (n : Nat) : semA A X prog (n + 1) .mu_spsc_reset [.ptr (.glob .s_sched) 0] =
    .pick fun _ => (store (.ptr (.glob .s_sched) 1) (.int 0)).bind fun _ =>
      .pick fun _ => (store (.ptr (.glob .s_sched) 2) (.int 0)).bind fun _ => .done (.int 0) := by
  show ((execA A (lib A X n) n Src.mu_spsc_reset.body [.ptr (.glob .s_sched) 0]).bind fun x => .done x.1.result) = _
  simp only [Src.mu_spsc_reset, execA, evalA, bind_eq, Act.both, Act.bind]
  congr 1
  funext b
  cases b
  all_goals
    show Act.mem _ _ = Act.mem _ _
    congr 1
    funext v
    show Act.pick _ = Act.pick _
    congr 1
    funext b2
    cases b2 <;> rfl

/-- The head has been written: the queue holds what is in its first slots. -/
def InC (W : T.Wipe) (s : Replay) (m h : Heap) : Prop := ∃ irq q, q.var = none ∧ q.d = 0 ∧ In0 W.C noCell (s.at irq) m q h

theorem InC.outsides {W : T.Wipe} {h1 : Heap} (H : Honest A X U prec off) (i : InC W s m h) (o : Outsides A X U h h1) : InC W s m h1 := by
  obtain ⟨irq, q, hv, hd, i⟩ := i
  obtain ⟨irq2, q2, j, r⟩ := i.outsides H (varOk_none hv) o
  exact ⟨irq2, q2, r.2.2.2.1.trans hv, r.1.trans hd, j⟩

theorem InC.good {W : T.Wipe} (i : InC W s m h) : Gd (U.log h) := by
  obtain ⟨irq, q, -, -, i⟩ := i
  exact W.C.sound i.log

theorem slot_sep {i : Nat} {k : Int} : ¬ ((Base.glob .s_sched) = .glob .s_irq_store ∧ k = (0 : Int) + i) := by rintro ⟨h, -⟩; cases h

/-- The first store of `mu_spsc_reset`. -/
theorem clear_safe (W : T.Wipe) (H : Honest A X U prec off) (i : In T s m h) (hu : s.user = true) {Q : CVal → Heap → Prop}
    (hq : ∀ h', InC W s m h' → Q (.int 0) h') : (store (.ptr (.glob .s_sched) 1) (.int 0)).safe (env A X T) h Q := by
  intro h1 r
  have j := i.outsides H r
  refine ⟨j.good, .int 0, h1.upd (.glob .s_sched) 1 (.int 0), ?_, ?_⟩
  · obtain ⟨irq, q, hv, i0⟩ := j
    have hst : h1.store (.ptr (.glob .s_sched) 1) (.int 0) = .ok (h1.upd (.glob .s_sched) 1 (.int 0)) :=
      Heap.store_in (v := .int 0) rfl (by have := i0.rep.head; simp only [irqPlace] at this; rw [show (1 : Int) = 0 + 1 from rfl, this]; rfl)
    simp only [hst]; rfl
  · have key : InC W s m (h1.upd (.glob .s_sched) 1 (.int 0)) := by
      obtain ⟨irq, q, hv, i0⟩ := j
      have hh : h1.at (.glob .s_sched) 1 = some (.int (q.d % 8 : Nat)) := i0.rep.head
      let L := (q.d + q.obj.items.length) % 8
      have hL : L < 8 := Nat.mod_lt _ (by decide)
      let old : List CVal := (List.range L).map fun i => (h1.at (.glob .s_irq_store) (i : Nat)).getD .null
      have hlen : old.length = L := by simp [old]
      have on : Heap.Only (fun b _ => SchedVar b) h1 (h1.upd (.glob .s_sched) 1 (.int 0)) :=
        (Heap.Only.refl _ _).upd (by simp [SchedVar])
      obtain ⟨f1, f2⟩ := H.frame _ _ on i0.inv
      refine ⟨old, { q with d := 0, obj := { q.obj with items := old } }, hv, rfl, ?_⟩
      have r := i0.rep
      refine ⟨?_, f1, ⟨?_, ?_, ?_, ?_, ?_, ?_, ?_, ?_, ?_⟩, rfl, ?_, ?_, ?_, ?_, ?_⟩
      · rw [f2]
        exact W.clear (s := s.at irq) i0.log hu (by rw [hlen]; omega)
      · rw [Heap.at_upd_sep (by rintro ⟨-, e⟩; simp [irqPlace] at e)]; exact r.mask
      · simp only [irqPlace]
        exact Heap.at_upd_same rfl (by rw [hh]; rfl)
      · rw [Heap.at_upd_sep (by rintro ⟨-, e⟩; simp [irqPlace] at e)]
        rw [r.tail]
        simp only [irqPlace, hlen, Nat.zero_add]
        rw [Nat.mod_eq_of_lt hL]
      · rw [Heap.at_upd_sep (by rintro ⟨-, e⟩; simp [irqPlace] at e)]; exact r.store
      · simp only [hlen, irqPlace]; exact hL
      · intro i v hi
        have hiL : i < L := by rw [← hlen]; exact (List.getElem?_eq_some_iff.mp hi).1
        have hv : v = (h1.at (.glob .s_irq_store) (i : Nat)).getD .null := by
          simp only [old, List.getElem?_map, List.getElem?_range hiL, Option.map_some, Option.some.injEq] at hi
          exact hi.symm
        have hs := r.slots i (by simp only [irqPlace]; omega)
        obtain ⟨w, hw⟩ := Option.isSome_iff_exists.mp hs
        have hw' : h1.at (.glob .s_irq_store) (i : Nat) = some w := by simpa [irqPlace] using hw
        have hx : v = w := by rw [hv, hw']; rfl
        subst hx
        refine ⟨?_, fun e => i0.full i (by omega) (by rw [hw', e])⟩
        rw [Heap.at_upd_sep (by rintro ⟨e, -⟩; simp [irqPlace] at e)]
        simp only [irqPlace, Nat.zero_add]
        rw [Nat.mod_eq_of_lt (by omega)]
        simpa using hw'
      · rw [Heap.at_upd_sep (by rintro ⟨e, -⟩; simp [irqPlace] at e)]
        have := r.nx
        simp only [irqPlace, hlen, Nat.zero_add] at this ⊢
        rw [Nat.mod_eq_of_lt hL]; exact this
      · intro i hi
        rw [Heap.isSome_upd]; exact r.slots i hi
      · intro eb eo he
        have he : q.var = some (eb, eo) := he
        rw [hv] at he; cases he
      · intro e; rw [W.stale] at e; cases e
      · intro i hi
        rw [Heap.at_upd_sep (by rintro ⟨e, -⟩; cases e)]; exact i0.full i hi
      · intro b o ho hb
        rw [Heap.at_upd_sep (by
          rintro ⟨rfl, rfl⟩
          rcases ho with ⟨-, ho⟩ | ho | ho
          · omega
          · cases ho
          · cases ho)]
        exact i0.agree b o ho hb
      · rw [Heap.at_upd_sep (by rintro ⟨e, -⟩; cases e)]; exact i0.callHook
      · rw [Heap.at_upd_sep (by rintro ⟨e, -⟩; cases e)]; exact i0.transferHook
    intro h2 r2
    exact ⟨(key.outsides H r2).good, hq _ (key.outsides H r2)⟩

/-- The second store of `mu_spsc_reset`. -/
theorem cleared_safe (W : T.Wipe) (H : Honest A X U prec off) (i : InC W s m h) {Q : CVal → Heap → Prop}
    (hq : ∀ h', In W.D s m h' → Q (.int 0) h') : (store (.ptr (.glob .s_sched) 2) (.int 0)).safe (env A X T) h Q := by
  intro h1 r
  have j := i.outsides H r
  refine ⟨j.good, .int 0, h1.upd (.glob .s_sched) 2 (.int 0), ?_, ?_⟩
  · obtain ⟨irq, q, hv, hd, i0⟩ := j
    have hst : h1.store (.ptr (.glob .s_sched) 2) (.int 0) = .ok (h1.upd (.glob .s_sched) 2 (.int 0)) :=
      Heap.store_in (v := .int 0) rfl (by have := i0.rep.tail; simp only [irqPlace] at this; rw [show (2 : Int) = 0 + 2 from rfl, this]; rfl)
    simp only [hst]; rfl
  · have key : In W.D s m (h1.upd (.glob .s_sched) 2 (.int 0)) := by
      obtain ⟨irq, q, hv, hd, i0⟩ := j
      have hh : h1.at (.glob .s_sched) 2 = some (.int ((q.d + q.obj.items.length) % 8 : Nat)) := i0.rep.tail
      have on : Heap.Only (fun b _ => SchedVar b) h1 (h1.upd (.glob .s_sched) 2 (.int 0)) :=
        (Heap.Only.refl _ _).upd (by simp [SchedVar])
      obtain ⟨f1, f2⟩ := H.frame _ _ on i0.inv
      have r := i0.rep
      obtain ⟨w, hw⟩ := Option.isSome_iff_exists.mp (r.slots 0 (by decide))
      refine ⟨[], { q with d := 0, obj := { q.obj with items := [] }, nx := w }, hv, ?_⟩
      refine ⟨?_, f1, ⟨?_, ?_, ?_, ?_, ?_, ?_, ?_, ?_, ?_⟩, rfl, ?_, ?_, ?_, ?_, ?_⟩
      · rw [f2]
        exact W.cleared (s := s.at irq) i0.log
      · rw [Heap.at_upd_sep (by rintro ⟨-, e⟩; simp [irqPlace] at e)]; exact r.mask
      · rw [Heap.at_upd_sep (by rintro ⟨-, e⟩; simp [irqPlace] at e)]
        rw [r.head, hd]
      · simp only [irqPlace]
        exact Heap.at_upd_same rfl (by rw [hh]; rfl)
      · rw [Heap.at_upd_sep (by rintro ⟨-, e⟩; simp [irqPlace] at e)]; exact r.store
      · simp [irqPlace]
      · intro i v hi; simp at hi
      · rw [Heap.at_upd_sep (by rintro ⟨e, -⟩; simp [irqPlace] at e)]
        simpa [irqPlace] using hw
      · intro i hi
        rw [Heap.isSome_upd]; exact r.slots i hi
      · intro eb eo he
        have he : q.var = some (eb, eo) := he
        rw [hv] at he; cases he
      · intro _ t ht; simp at ht
      · intro i hi
        rw [Heap.at_upd_sep (by rintro ⟨e, -⟩; cases e)]; exact i0.full i hi
      · intro b o ho hb
        rw [Heap.at_upd_sep (by
          rintro ⟨rfl, rfl⟩
          rcases ho with ⟨-, ho⟩ | ho | ho
          · omega
          · cases ho
          · cases ho)]
        exact i0.agree b o ho hb
      · rw [Heap.at_upd_sep (by rintro ⟨e, -⟩; cases e)]; exact i0.callHook
      · rw [Heap.at_upd_sep (by rintro ⟨e, -⟩; cases e)]; exact i0.transferHook
    intro h2 r2
    exact ⟨(key.outsides H r2).good, hq _ (key.outsides H r2)⟩

/-- `mu_sched_reset`, up to the note that it has returned. -/
theorem reset_safe (W : T.Wipe) (H : Honest A X U prec off) {σ : Agenda} (hm : Mem m σ) (i : In T s m h) (hu : s.user = true) (n : Nat) :
    (semA A X prog n .mu_sched_reset []).safe (env A X T) h fun r h' => r = .undef ∧ ∃ m', Mem m' σ.reset ∧ In W.D s m' h' := by
  cases n with
  | zero => exact ⟨rfl, fun h1 r => (i.outsides H r).good⟩
  | succ n =>
    show ((execA A (lib A X n) n (.seq (.expr (.call .mu_spsc_reset [.fld (.glob .s_sched) 0])) wipeRest) []).bind fun x => .done x.1.result).safe _ _ _
    rw [safe_bind_iff]
    refine safe_seq ?_
    have split : execA A (lib A X n) n (.expr (.call .mu_spsc_reset [.fld (.glob .s_sched) 0])) [] =
        .pick fun _ => (semA A X prog n .mu_spsc_reset [.ptr (.glob .s_sched) 0]).bind fun _ => .done (.next, []) := by
      simp only [execA, evalA, evalArgsA, bind_eq, Act.both, Act.bind]
      congr 1
      funext b1
      cases b1 <;> simp only [Act.bind, Act.bind_assoc] <;> rfl
    rw [split]
    intro _
    rw [safe_bind_iff]
    cases n with
    | zero => exact ⟨rfl, fun h1 r => (i.outsides H r).good⟩
    | succ n =>
      rw [spsc_reset_act]
      intro _
      rw [safe_bind_iff]
      refine clear_safe W H i hu fun h1 i1 => ?_
      intro _
      rw [safe_bind_iff]
      refine cleared_safe W H i1 fun h2 i2 => ?_
      refine safe_in_done (T := W.D) H i2 fun h3 i3 => ?_
      refine safe_in_done (T := W.D) H i3 fun h4 i4 => ⟨rfl, ?_⟩
      refine safe_mono (wipe_safe (T := W.D) H hm i4 (n + 1)) ?_
      rintro _ h5 ⟨rfl, m', hm', i5⟩
      exact safe_in_done (T := W.D) H i5 fun h6 i6 => ⟨rfl, m', hm', i6⟩

/-- The note that `mu_sched_reset` has returned. -/
theorem In.reset (W : T.Wipe) (i : In W.D s m h) {h' : Heap} (a : U.Adds [.did .reset .undef] h h') : In T { s with σ := s.σ.reset } m h' := by
  obtain ⟨irq, q, hv, i⟩ := i
  have nf : ∀ b, Free b → ¬ SchedVar b := fun b h => h.1
  refine ⟨irq, q, hv, by rw [a.log]; exact W.reset i.log, a.inv, rep_frame i.rep a.only (fun b o hb hf => nf b hf (irq_schedVar hb))
    (fun eb eo he hf => by rw [hv] at he; cases he), i.items, fun _ => i.tasks W.live,
    i.full.only a.only (fun i _ hf => nf _ hf (by simp [SchedVar])), fun b o ho hb => ?_, ?_, ?_⟩
  · rw [a.only.cell _ _ (fun hf => nf b hf ho.schedVar)]; exact i.agree b o ho hb
  · rw [a.only.cell _ _ (fun hf => hf.2.1 rfl)]; exact i.callHook
  · rw [a.only.cell _ _ (fun hf => hf.2.2 rfl)]; exact i.transferHook

end Mu.CS.Isr
