import Verif.Lemmas.SrcSchedRep
import Verif.Lemmas.SrcBBufRotate

/-! # mu_sched.c from the parsed source: the functions that only move tasks -/

namespace Mu.CS

open Mu.Sched (Sched Entry Cfg)

/-- The number of an error code in the enumeration of mu_sched.h:114-118. -/
def schedErr : Mu.Sched.Err → CVal
  | .none => .int 0
  | .full => .int 1
  | .notFound => .int 2

/-- The configuration of mu_sched.h:102-112 in the repository, on the platform `A`, with the clock arithmetic of the
platform. -/
def schedCfg (A : Arch) (prec : CVal → CVal → Bool) (off : CVal → CVal → CVal) : Cfg CVal CVal :=
  ⟨A.toPlat, prec, off, 8, 20, 20⟩

theorem queue_put_store {P : Plat} {m m' : Queue.Queue} {x r} (hm : Queue.put P m x = .ok (r, m')) :
    m'.storage.length = m.storage.length ∧ ∀ y ∈ m'.storage, y = x ∨ y ∈ m.storage := by
  unfold Queue.put at hm
  split at hm
  · obtain ⟨st, hst, hm⟩ := C.bind_eq_ok hm
    unfold stN at hst
    split at hst
    · obtain rfl := Except.ok.inj hst
      split at hm
      · cases hm
      obtain ⟨-, rfl⟩ := Prod.mk.inj (Except.ok.inj hm)
      refine ⟨by simp, fun y hy => ?_⟩
      rcases List.mem_or_eq_of_mem_set hy with hy | hy
      · exact Or.inr hy
      · exact Or.inl hy
    · cases hst
  · obtain ⟨-, rfl⟩ := Prod.mk.inj (Except.ok.inj hm)
    exact ⟨rfl, fun y hy => Or.inr hy⟩

theorem queue_get_store {P : Plat} {m m' : Queue.Queue} {v r} (hm : Queue.get P m = .ok (r, v, m')) :
    m'.storage = m.storage ∧ (v = NULL ∨ v ∈ m.storage) := by
  unfold Queue.get Queue.accessQueue at hm
  split at hm
  · obtain ⟨el, hel, hm⟩ := C.bind_eq_ok hm
    injection hm with hm
    injection hm with e1 hm
    injection hm with e2 e3
    subst e1 e2 e3
    refine ⟨rfl, Or.inr ?_⟩
    unfold ldN at hel
    split at hel
    · rename_i y hy
      injection hel with hel
      subst hel
      exact List.mem_of_getElem? hy
    · cases hel
  · injection hm with hm
    injection hm with e1 hm
    injection hm with e2 e3
    subst e1 e2 e3
    exact ⟨rfl, Or.inl rfl⟩

theorem spsc_put_store {m m' : Spsc.Spsc} {x r} (hm : Spsc.put m x = .ok (r, m')) :
    m'.store.length = m.store.length ∧ ∀ y ∈ m'.store, y = x ∨ y ∈ m.store := by
  unfold Spsc.put at hm
  simp only at hm
  split at hm
  · obtain ⟨-, rfl⟩ := Prod.mk.inj (Except.ok.inj hm)
    exact ⟨rfl, fun y hy => Or.inr hy⟩
  · obtain ⟨st, hst, hm⟩ := C.bind_eq_ok hm
    unfold stN at hst
    split at hst
    · obtain rfl := Except.ok.inj hst
      obtain ⟨-, rfl⟩ := Prod.mk.inj (Except.ok.inj hm)
      refine ⟨by simp, fun y hy => ?_⟩
      rcases List.mem_or_eq_of_mem_set hy with hy | hy
      · exact Or.inr hy
      · exact Or.inl hy
    · cases hst

theorem spsc_get_store {m m' : Spsc.Spsc} {v r} (hm : Spsc.get m = .ok (r, v, m')) :
    m'.store = m.store ∧ (v = NULL ∨ v ∈ m.store) := by
  unfold Spsc.get at hm
  split at hm
  · injection hm with hm
    injection hm with e1 hm
    injection hm with e2 e3
    subst e1 e2 e3
    exact ⟨rfl, Or.inl rfl⟩
  · obtain ⟨el, hel, hm⟩ := C.bind_eq_ok hm
    injection hm with hm
    injection hm with e1 hm
    injection hm with e2 e3
    subst e1 e2 e3
    refine ⟨rfl, Or.inr ?_⟩
    unfold ldN at hel
    split at hel
    · rename_i y hy
      injection hel with hel
      subst hel
      exact List.mem_of_getElem? hy
    · cases hel

/-- Conversions of the constants of an enumeration without negative constants. -/
theorem conv_enum (A : Arch) {k : Nat} (hk : k < 32768) : (A.it (.common .enum .int)).conv k = k := by
  have hi : IT.conv ⟨A.ib, true⟩ (k : Int) = k := conv_int_small (by omega) (by omega)
  have hu : IT.conv ⟨A.ib, false⟩ (k : Int) = k := by
    rw [IT.conv_unsigned]
    have h16 : 2 ^ 16 ≤ 2 ^ A.ib := Nat.pow_le_pow_right (by decide) A.toPlat.hib
    have : (k : Int) % ((2 ^ A.ib : Nat) : Int) = k := by
      rw [← Int.natCast_emod, Nat.mod_eq_of_lt (by omega)]
    rw [two_pow_cast]
    exact this
  simp only [Arch.it, Arch.promote]
  cases A.enumSigned <;> simp [hi, hu]

theorem conv_enum0 (A : Arch) : (A.it (.common .enum .int)).conv 0 = 0 := conv_enum A (k := 0) (by decide)
theorem conv_enum1 (A : Arch) : (A.it (.common .enum .int)).conv 1 = 1 := conv_enum A (k := 1) (by decide)
theorem conv_enum2 (A : Arch) : (A.it (.common .enum .int)).conv 2 = 2 := conv_enum A (k := 2) (by decide)
theorem conv_enum3 (A : Arch) : (A.it (.common .enum .int)).conv 3 = 3 := conv_enum A (k := 3) (by decide)

variable {A : Arch} {X : Ext} {prec : CVal → CVal → Bool} {off : CVal → CVal → CVal}

section
variable {h h' : Heap} {s s' : Sched CVal}

theorem SchedRep.own_q (r : SchedRep A h s) {b o}
    (hc : QCells (.glob .s_sched) 4 (.glob .s_immed_store) 0 s.immed.storage.length b o) : schedOwn b o := by
  rcases hc with hc | hc <;> simp [schedOwn, hc.1]

theorem SchedRep.own_s (r : SchedRep A h s) {b o}
    (hc : SCells (.glob .s_sched) 0 (.glob .s_irq_store) 0 s.irq.store.length b o) : schedOwn b o := by
  rcases hc with hc | hc <;> simp [schedOwn, hc.1]

theorem src_sched_immed (n : Nat) (r : SchedRep A h s) {v : CVal} (hv : v ≠ .undef) {e}
    (hm : Mu.Sched.immed (schedCfg A prec off) s (enc v) = .ok (e, s')) :
    ∃ h', sem A X prog (n + 3) .mu_sched_immed h [v] = .ok (schedErr e, h') ∧ SchedRep A h' s' ∧
      Heap.Only schedOwn h h' := by
  unfold Mu.Sched.immed at hm
  obtain ⟨⟨b, q⟩, hq, hm⟩ := C.bind_eq_ok hm
  simp only [schedCfg] at hq
  obtain ⟨h', e1, e2, e3⟩ := src_queue_put (X := X) n r.immed (x := enc v) (by simpa using hv) hq
  obtain ⟨l1, l2⟩ := queue_put_store hq
  have r' := r.setImmed e3 (fun _ _ hc => hc) e2 (l1.trans r.immedLen) (fun x hx => by
    rcases l2 x hx with rfl | hx
    · exact Good.enc hv
    · exact r.immedDef x hx)
  rw [code_enc] at e1
  refine ⟨h', ?_, ?_, e3.mono (fun _ _ hc => r.own_q hc)⟩
  · rw [sem_succ (d := Src.mu_sched_immed) rfl, FunDef.run_regs rfl rfl]
    cases b
    all_goals
      simp at hm
      obtain ⟨rfl, -⟩ := hm
      simp [csrc, Src.mu_sched_immed, hv, e1, schedErr, CVal.ofBool]
  · cases b
    · obtain ⟨-, rfl⟩ := Prod.mk.inj (Except.ok.inj hm)
      exact r'
    · obtain ⟨-, rfl⟩ := Prod.mk.inj (Except.ok.inj hm)
      exact r'

theorem src_sched_from_isr (n : Nat) (r : SchedRep A h s) {v : CVal} (hv : v ≠ .undef) {e}
    (hm : Mu.Sched.fromIsr s (enc v) = .ok (e, s')) :
    ∃ h', sem A X prog (n + 2) .mu_sched_from_isr h [v] = .ok (schedErr e, h') ∧ SchedRep A h' s' ∧
      Heap.Only schedOwn h h' := by
  unfold Mu.Sched.fromIsr at hm
  obtain ⟨⟨b, q⟩, hq, hm⟩ := C.bind_eq_ok hm
  obtain ⟨h', e1, e2, e3⟩ := src_spsc_put (A := A) (X := X) n r.irq (x := enc v) (by simpa using hv) hq
  obtain ⟨l1, l2⟩ := spsc_put_store hq
  have r' := r.setIrq e3 (fun _ _ hc => hc) e2 (l1.trans r.irqLen) (fun x hx => by
    rcases l2 x hx with rfl | hx
    · exact Good.enc hv
    · exact r.irqDef x hx)
  rw [code_enc] at e1
  refine ⟨h', ?_, ?_, e3.mono (fun _ _ hc => r.own_s hc)⟩
  · rw [sem_succ (d := Src.mu_sched_from_isr) rfl, FunDef.run_regs rfl rfl]
    cases b
    all_goals
      simp only [reduceCtorEq, if_false, if_true] at hm
      obtain ⟨rfl, -⟩ := Prod.mk.inj (Except.ok.inj hm)
      simp [csrc, Src.mu_sched_from_isr, hv, e1, schedErr, spscErr, conv_enum0, conv_enum1, conv_enum2, conv_enum3]
  · cases b <;> (obtain ⟨-, rfl⟩ := Prod.mk.inj (Except.ok.inj hm); exact r')

theorem src_sched_getters (n : Nat) (r : SchedRep A h s) :
    sem A X prog (n + 1) .mu_sched_get_idle_task h [] = .ok (code s.idle, h) ∧
    sem A X prog (n + 1) .mu_sched_current_task h [] = .ok (code s.curr, h) := by
  constructor
  · rw [sem_succ (d := Src.mu_sched_get_idle_task) rfl, FunDef.run_regs rfl rfl]
    simp [csrc, Src.mu_sched_get_idle_task, r.idle, r.idleDef.2]
  · rw [sem_succ (d := Src.mu_sched_current_task) rfl, FunDef.run_regs rfl rfl]
    simp [csrc, Src.mu_sched_current_task, r.curr, r.currDef.2]

theorem src_sched_wait (n : Nat) (v : CVal) : sem A X prog (n + 1) .mu_sched_wait h [v] = .ok (.int 0, h) := by
  rw [sem_succ (d := Src.mu_sched_wait) rfl, FunDef.run_regs rfl rfl]
  simp [csrc, Src.mu_sched_wait]

theorem src_sched_set_idle (n : Nat) (r : SchedRep A h s) {v : CVal} (hv : v ≠ .undef) :
    ∃ h', sem A X prog (n + 1) .mu_sched_set_idle_task h [v] = .ok (.undef, h') ∧ SchedRep A h' { s with idle := enc v } ∧
      Heap.Only schedOwn h h' := by
  refine ⟨h.upd (.glob .s_sched) 10 v, ?_, r.setIdle hv, (Heap.Only.refl _ _).upd (Or.inl rfl)⟩
  rw [sem_succ (d := Src.mu_sched_set_idle_task) rfl, FunDef.run_regs rfl rfl]
  simp [csrc, Src.mu_sched_set_idle_task, r.idle, hv]

theorem src_sched_reset (n : Nat) (r : SchedRep A h s) :
    ∃ h', sem A X prog (n + 2) .mu_sched_reset h [] = .ok (.undef, h') ∧ SchedRep A h' (Mu.Sched.reset s) ∧
      Heap.Only schedOwn h h' := by
  obtain ⟨h1, e1, q1, o1⟩ := src_spsc_reset (A := A) (X := X) n r.irq
  have r1 := r.setIrq o1 (fun _ _ hc => hc) q1 r.irqLen r.irqDef
  obtain ⟨h2, e2, q2, o2⟩ := src_queue_reset (X := X) n r1.immed
  have r2 := r1.setImmed o2 (fun _ _ hc => hc) q2 r.immedLen r.immedDef
  have r3 := (r2.setCount 0).setCurr (v := .null) (by simp)
  refine ⟨(h2.upd (.glob .s_sched) 8 (.int 0)).upd (.glob .s_sched) 9 .null, ?_, ?_,
    (((o1.mono (fun _ _ hc => r.own_s hc)).trans (o2.mono (fun _ _ hc => r1.own_q hc))).upd
    (Or.inl rfl)).upd (Or.inl rfl)⟩
  · rw [sem_succ (d := Src.mu_sched_reset) rfl, FunDef.run_regs rfl rfl]
    simp [csrc, Src.mu_sched_reset, e1, e2, r2.cnt, r2.curr]
  · simpa [Mu.Sched.reset, NULL] using r3

/-- The memory of mu_sched.c before `mu_sched_init`: variables of the right sizes without indeterminate cells, as
at the start of the program. -/
structure SchedMem (h : Heap) : Prop where
  sched : (h.cells (.glob .s_sched)).length = 11
  irq : (h.cells (.glob .s_irq_store)).length = 8
  immed : (h.cells (.glob .s_immed_store)).length = 20
  deferred : (h.cells (.glob .s_deferred_tasks)).length = 40
  irqDef : ∀ v ∈ h.cells (.glob .s_irq_store), v ≠ .undef
  immedDef : ∀ v ∈ h.cells (.glob .s_immed_store), v ≠ .undef
  deferredDef : ∀ v ∈ h.cells (.glob .s_deferred_tasks), v ≠ .undef

theorem exists_flat : ∀ (k : Nat) (l : List CVal), l.length = 2 * k → (∀ v ∈ l, v ≠ .undef) →
    ∃ d : List (Entry CVal), d.length = k ∧ l = flat d ∧ ∀ e ∈ d, e.time ≠ .undef ∧ Good e.task := by
  intro k
  induction k with
  | zero =>
    intro l hl _
    obtain rfl := List.length_eq_zero_iff.mp (by omega : l.length = 0)
    exact ⟨[], rfl, rfl, by simp⟩
  | succ k ih =>
    intro l hl hd
    match l, hl with
    | a :: b :: t, hl =>
      obtain ⟨d, h1, h2, h3⟩ := ih t (by simp at hl; omega) (fun v hv => hd v (by simp [hv]))
      refine ⟨⟨a, enc b⟩ :: d, by simp [h1], by simp [flat, h2], ?_⟩
      intro e he
      rcases List.mem_cons.mp he with rfl | he
      · exact ⟨hd a (by simp), Good.enc (hd b (by simp))⟩
      · exact h3 e he

theorem enc_cells_def {sb : Base} {N : Nat} (hl : (h.cells sb).length = N) (hd : ∀ v ∈ h.cells sb, v ≠ .undef) :
    ∀ x ∈ (List.range N).map (fun i : Nat => enc ((h.at sb (0 + i)).getD .null)), Good x := by
  intro x hx
  obtain ⟨i, hi, rfl⟩ := List.mem_map.mp hx
  have hi' : i < (h.cells sb).length := by rw [hl]; exact List.mem_range.mp hi
  refine Good.enc ?_
  rw [Int.zero_add]
  have : h.at sb i = some ((h.cells sb)[i]) := by
    simp [Heap.at, List.getElem?_eq_getElem hi']
  rw [this]
  exact hd _ (List.getElem_mem hi')

theorem src_sched_init (n : Nat) (m : SchedMem h) :
    ∃ h' s', sem A X prog (n + 3) .mu_sched_init h [] = .ok (.undef, h') ∧ SchedRep A h' s' ∧
      Mu.Sched.Boot (schedCfg A prec off) s' ∧ Heap.Only (fun b _ => b = .glob .s_sched) h h' := by
  have hsome : ∀ (b : Base) (k : Nat), k < (h.cells b).length → ∀ o : Int, o = k → (h.at b o).isSome = true := by
    intro b k hk o ho
    rw [Heap.isSome_at]; omega
  have h16 := szMod_ge A.toPlat
  obtain ⟨h1, m1, e1, q1, -, l1, o1, d1⟩ := src_spsc_init (A := A) (X := X) (h := h) (b := .glob .s_sched) (o := 0)
    (sb := .glob .s_irq_store) (so := 0) n 8 (by omega) rfl rfl
    (fun k hk => hsome _ k (by rw [m.sched]; omega) _ (by omega)) (fun i hi => hsome _ i (by rw [m.irq]; omega) _ (by omega))
    (fun _ _ _ _ e => by simp at e) ⟨⟨3, rfl⟩, by omega⟩
  obtain ⟨h2, m2, e2, q2, -, c2, l2, o2, d2⟩ := src_queue_init (A := A) (X := X) (h := h1) (b := .glob .s_sched) (o := 4)
    (sb := .glob .s_immed_store) (so := 0) n 20 rfl rfl
    (fun k hk => (o1.isSome _ _).mpr (hsome _ (4 + k) (by rw [m.sched]; omega) _ (by omega)))
    (fun i hi => (o1.isSome _ _).mpr (hsome _ i (by rw [m.immed]; omega) _ (by omega)))
    (fun _ _ _ _ e => by simp at e) (by omega)
  obtain ⟨d, k1, k2, k3⟩ := exists_flat 20 (h.cells (.glob .s_deferred_tasks)) m.deferred m.deferredDef
  have w : Heap.Only (fun b o => b = .glob .s_sched ∧ o < 8) h h2 :=
    (o1.mono (fun _ _ hc => ⟨hc.1, by omega⟩)).trans (o2.mono (fun _ _ hc => ⟨hc.1, by omega⟩))
  have s8 := (w.isSome (.glob .s_sched) 8).mpr (hsome _ 8 (by rw [m.sched]; omega) _ rfl)
  have s9 := (w.isSome (.glob .s_sched) 9).mpr (hsome _ 9 (by rw [m.sched]; omega) _ rfl)
  have s10 := (w.isSome (.glob .s_sched) 10).mpr (hsome _ 10 (by rw [m.sched]; omega) _ rfl)
  have nS : ∀ o : Int, 8 ≤ o → ¬ SCells (.glob .s_sched) 0 (.glob .s_irq_store) 0 m1.store.length (.glob .s_sched) o := by
    rintro o ho (hc | hc)
    · omega
    · simp at hc
  have nQ : ∀ o : Int, 8 ≤ o → ¬ QCells (.glob .s_sched) 4 (.glob .s_immed_store) 0 m2.storage.length (.glob .s_sched) o := by
    rintro o ho (hc | hc)
    · omega
    · simp at hc
  refine ⟨((h2.upd (.glob .s_sched) 8 (.int 0)).upd (.glob .s_sched) 9 .null).upd (.glob .s_sched) 10 .null,
    ⟨m1, m2, d, 0, NULL, NULL⟩, ?_, ?_, ?_, (((w.mono (fun _ _ hc => hc.1)).upd rfl).upd rfl).upd rfl⟩
  · rw [sem_succ (d := Src.mu_sched_init) rfl, FunDef.run_regs rfl rfl]
    have e1' : sem A X prog (n + 2) .mu_spsc_init h [.ptr (.glob .s_sched) 0, .ptr (.glob .s_irq_store) 0, .int 8] =
      .ok (.int 0, h1) := e1
    have e2' : sem A X prog (n + 2) .mu_queue_init h1 [.ptr (.glob .s_sched) 4, .ptr (.glob .s_immed_store) 0, .int 20] =
      .ok (.ptr (.glob .s_sched) 4, h2) := e2
    simp [csrc, Src.mu_sched_init, e1', e2', s8, s9, s10]
  · have q1' : SRep h2 (.glob .s_sched) 0 (.glob .s_irq_store) 0 m1 := q1.only o2 (by
      rintro b' o' hx (hc | hc)
      · omega
      · simp [hx.1] at hc)
    refine ⟨((q1'.upd_other (nS 8 (by omega))).upd_other (nS 9 (by omega))).upd_other (nS 10 (by omega)),
      ((q2.upd_other (nQ 8 (by omega))).upd_other (nQ 9 (by omega))).upd_other (nQ 10 (by omega)), ?_, ?_, ?_, ?_, l1, l2,
      ?_, ?_, k3, Good.null, Good.null, k1⟩
    · simp [csrc, s8]
    · simp [csrc, s9, NULL]
    · simp [csrc, s10, NULL]
    · refine Eq.trans ?_ k2
      rw [← w.cells_eq (b := .glob .s_deferred_tasks) (fun o hx => by simp at hx)]
      simp [Heap.upd, Heap.cells, Heap.put]
    · rw [d1]
      exact enc_cells_def m.irq m.irqDef
    · rw [d2]
      refine enc_cells_def ?_ ?_
      · rw [o1.size, m.immed]
      · rw [o1.cells_eq (fun o hx => by simp at hx)]
        exact m.immedDef
  · refine ⟨⟨m1, m2, d, 0, NULL, NULL⟩, m1.store, m2.storage, by simp [schedCfg, l1], by simp [schedCfg, l2],
      by simpa [schedCfg] using k1, ?_⟩
    have i1 : (Spsc.init m1 m1.store 8).2 = m1 := by rw [d1]; rfl
    have i2 : Queue.init m2 m2.storage 20 = m2 := by rw [d2]; rfl
    simp only [Mu.Sched.init, schedCfg, i1, i2]

end
end Mu.CS
