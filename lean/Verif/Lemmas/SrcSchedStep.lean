import Verif.Lemmas.SrcSchedRemove
import Verif.Lemmas.SrcArraySort

/-! # mu_sched.c from the parsed source: choosing a task -/

namespace Mu.CS

open Mu.Sched (Sched Entry Cfg)

variable {A : Arch} {X : Ext} {prec : CVal → CVal → Bool} {off : CVal → CVal → CVal}

section
variable {h h' : Heap} {s s' : Sched CVal}

/-- Another interrupt queue and another current task. -/
theorem SchedRep.setIrqCurr (r : SchedRep A h s) {n : Nat} (hn : n = s.irq.store.length)
    (e : Heap.Only (fun b o => SCells (.glob .s_sched) 0 (.glob .s_irq_store) 0 n b o ∨
      (b = .glob .s_sched ∧ o = 9)) h h') {m : Spsc.Spsc} {x : Val}
    (q : SRep h' (.glob .s_sched) 0 (.glob .s_irq_store) 0 m) (hl : m.store.length = 8)
    (hd : ∀ x ∈ m.store, Good x) (hx : h'.at (.glob .s_sched) 9 = some (code x)) (hg : Good x) :
    SchedRep A h' { s with irq := m, curr := x } ∧ Heap.Only schedOwn h h' := by
  have k : ∀ o, 8 ≤ o → o ≠ 9 → h'.at (.glob .s_sched) o = h.at (.glob .s_sched) o := fun o ho h9 =>
    e.cell _ _ (fun hx => by
      rcases hx with (hc | hc) | hc
      · omega
      · simp at hc
      · exact h9 hc.2)
  refine ⟨⟨q, r.immed.only e ?_, (k 8 (by omega) (by omega)).trans r.cnt, hx, (k 10 (by omega) (by omega)).trans r.idle,
    (e.cells_eq (fun o hx => by rcases hx with (hc | hc) | hc <;> simp at hc)).trans r.arr, hl, r.immedLen, hd, r.immedDef,
    r.defDef, hg, r.idleDef, r.len⟩, e.mono ?_⟩
  · rintro b' o' hx (hc | hc) <;> rcases hx with (hd | hd) | hd
    · omega
    · simp [hc.1] at hd
    · omega
    · simp [hc.1] at hd
    · simp [hc.1] at hd
    · simp [hc.1] at hd
  · rintro b o ((hc | hc) | hc) <;> simp [schedOwn, hc.1]

/-- Another immediate queue and another current task. -/
theorem SchedRep.setImmedCurr (r : SchedRep A h s) {n : Nat} (hn : n = s.immed.storage.length)
    (e : Heap.Only (fun b o => QCells (.glob .s_sched) 4 (.glob .s_immed_store) 0 n b o ∨
      (b = .glob .s_sched ∧ o = 9)) h h') {m : Queue.Queue} {x : Val}
    (q : QRep A h' (.glob .s_sched) 4 (.glob .s_immed_store) 0 m) (hl : m.storage.length = 20)
    (hd : ∀ x ∈ m.storage, Good x) (hx : h'.at (.glob .s_sched) 9 = some (code x)) (hg : Good x) :
    SchedRep A h' { s with immed := m, curr := x } ∧ Heap.Only schedOwn h h' := by
  have k : ∀ o, 8 ≤ o → o ≠ 9 → h'.at (.glob .s_sched) o = h.at (.glob .s_sched) o := fun o ho h9 =>
    e.cell _ _ (fun hx => by
      rcases hx with (hc | hc) | hc
      · omega
      · simp at hc
      · exact h9 hc.2)
  refine ⟨⟨r.irq.only e ?_, q, (k 8 (by omega) (by omega)).trans r.cnt, hx, (k 10 (by omega) (by omega)).trans r.idle,
    (e.cells_eq (fun o hx => by rcases hx with (hc | hc) | hc <;> simp at hc)).trans r.arr, r.irqLen, hl, r.irqDef, hd,
    r.defDef, hg, r.idleDef, r.len⟩, e.mono ?_⟩
  · rintro b' o' hx (hc | hc) <;> rcases hx with (hd | hd) | hd
    · omega
    · simp [hc.1] at hd
    · omega
    · simp [hc.1] at hd
    · simp [hc.1] at hd
    · simp [hc.1] at hd
  · rintro b o ((hc | hc) | hc) <;> simp [schedOwn, hc.1]

/-- `next_deferred_task`. -/
theorem src_next_deferred (n : Nat) (r : SchedRep A h s) (hc : s.count ≤ 20) :
    sem A X prog (n + 1) .next_deferred_task__sched h [] =
      .ok (if s.count = 0 then .null else .ptr (.glob .s_deferred_tasks) (2 * ((s.count - 1 : Nat) : Int)), h) := by
  have hmod := szMod_ge A.toPlat
  rw [sem_succ (d := Src.next_deferred_task__sched) rfl, FunDef.run_regs rfl rfl]
  have hcnt := r.cnt
  by_cases hz : s.count = 0
  · rw [hz] at hcnt
    simp [csrc, Src.next_deferred_task__sched, hcnt, hz]
  · have pp := r.ptr (i := s.count - 1) (by omega)
    have cc := conv_size_lt (A := A) (n := s.count) (by omega)
    have hsub1 : A.szSub s.count 1 = s.count - 1 := Plat.szSub_of_le (by omega) (by omega)
    have hpos : (0 < s.count) = True := eq_true (by omega)
    generalize s.count - 1 = k at *
    simp [csrc, Src.next_deferred_task__sched, hcnt, hz, cc, hsub1, pp, hpos]

theorem src_sched_next (n : Nat) (r : SchedRep A h s) (hc : s.count ≤ 20) {x}
    (hm : Mu.Sched.nextTask (schedCfg A prec off) s = .ok x) :
    sem A X prog (n + 2) .mu_sched_next_task h [] = .ok (code x, h) ∧ Good x := by
  have hmod := szMod_ge A.toPlat
  rw [sem_succ (d := Src.mu_sched_next_task) rfl, FunDef.run_regs rfl rfl]
  have nx := src_next_deferred (X := X) n r hc
  unfold Mu.Sched.nextTask at hm
  by_cases hz : s.count = 0
  · rw [if_neg (by omega)] at hm
    obtain rfl := Except.ok.inj hm
    rw [if_pos hz] at nx
    refine ⟨?_, Good.null⟩
    simp [csrc, Src.mu_sched_next_task, nx, NULL]
  · rw [if_pos (by omega)] at hm
    obtain ⟨d, hd, hm⟩ := C.bind_eq_ok hm
    have hsub1 : A.szSub s.count 1 = s.count - 1 := Plat.szSub_of_le (by omega) (by omega)
    simp only [schedCfg, hsub1] at hd
    obtain ⟨l1, l2, l3, l4⟩ := r.ld (ldN_some hd)
    obtain rfl := Except.ok.inj hm
    rw [if_neg hz] at nx
    refine ⟨?_, l4⟩
    generalize s.count - 1 = k at *
    simp [csrc, Src.mu_sched_next_task, nx, l2, l4.2]

theorem src_fetch (n : Nat) (hX : Clock X prec off) (r : SchedRep A h s) (hc : s.count ≤ 20) {now : CVal} {h1 : Heap}
    (hnow : X.fn .mu_time_now h [] = .ok (now, h1)) {x evs}
    (hm : Mu.Sched.fetch (schedCfg A prec off) now s = .ok (x, evs, s')) :
    ∃ h', sem A X prog (n + 2) .fetch_runnable_deferred_task__sched h [] = .ok (code x, h') ∧ SchedRep A h' s' ∧
      Good x ∧ Heap.Only schedOwn h1 h' ∧ now ≠ .undef := by
  have hmod := szMod_ge A.toPlat
  obtain ⟨now', h1', k1, k2, k3⟩ := hX.now h
  rw [hnow] at k1
  obtain ⟨rfl, rfl⟩ := Prod.mk.inj (Except.ok.inj k1)
  have r1 := r.frame k3
  have nx := src_next_deferred (X := X) n r1 hc
  have hnow' : sem A X prog (n + 1) .mu_time_now h [] = .ok (now, h1) := hnow
  have hprec : ∀ h a b, a ≠ .undef → b ≠ .undef →
      sem A X prog (n + 1) .mu_time_precedes h [a, b] = .ok (.ofBool (prec a b), h) := hX.precedes
  rw [sem_succ (d := Src.fetch_runnable_deferred_task__sched) rfl, FunDef.run_regs rfl rfl]
  generalize sem A X prog (n + 1) = S at *
  unfold Mu.Sched.fetch at hm
  by_cases hz : s.count = 0
  · rw [if_neg (by omega)] at hm
    obtain ⟨rfl, -, rfl⟩ : x = NULL ∧ _ = evs ∧ s = s' := by
      injection hm with hm
      injection hm with e1 hm
      injection hm with e2 e3
      exact ⟨e1.symm, e2, e3⟩
    rw [if_pos hz] at nx
    refine ⟨h1, ?_, r1, Good.null, Heap.Only.refl _ _, k2⟩
    simp [csrc, Src.fetch_runnable_deferred_task__sched, nx, hnow', NULL]
  · rw [if_pos (by omega)] at hm
    obtain ⟨d, hd, hm⟩ := C.bind_eq_ok hm
    have hsub1 : A.szSub s.count 1 = s.count - 1 := Plat.szSub_of_le (by omega) (by omega)
    simp only [schedCfg, hsub1] at hd hm
    obtain ⟨l1, l2, l3, l4⟩ := r1.ld (ldN_some hd)
    rw [if_neg hz] at nx
    have hcnt := r1.cnt
    have cc := conv_size_lt (A := A) (n := s.count) (by omega)
    have cc1 := conv_size_lt (A := A) (n := s.count - 1) (by omega)
    have hk := hprec h1 now d.time k2 l3
    by_cases hp : prec now d.time = false
    · rw [if_pos hp] at hm
      obtain ⟨rfl, -, rfl⟩ : d.task = x ∧ _ = evs ∧ _ = s' := by
        injection hm with hm
        injection hm with e1 hm
        injection hm with e2 e3
        exact ⟨e1, e2, e3⟩
      refine ⟨_, ?_, r1.setCount (s.count - 1), l4, (Heap.Only.refl _ _).upd (Or.inl rfl), k2⟩
      generalize s.count - 1 = k at *
      simp [csrc, Src.fetch_runnable_deferred_task__sched, nx, hnow', k2, l1, l2, l3, l4.2, hk, hp, hcnt, cc, cc1, hsub1,
        CVal.ofBool]
    · rw [if_neg hp] at hm
      obtain ⟨rfl, -, rfl⟩ : x = NULL ∧ _ = evs ∧ s = s' := by
        injection hm with hm
        injection hm with e1 hm
        injection hm with e2 e3
        exact ⟨e1.symm, e2, e3⟩
      refine ⟨h1, ?_, r1, Good.null, Heap.Only.refl _ _, k2⟩
      have hp' : prec now d.time = true := by simpa using hp
      generalize s.count - 1 = k at *
      simp [csrc, Src.fetch_runnable_deferred_task__sched, nx, hnow', k2, l1, l3, hk, hp', NULL,
        CVal.ofBool]

/-- The choice in `mu_sched_step`. -/
theorem src_select (n : Nat) (hX : Clock X prec off) (r : SchedRep A h s) (hc : s.count ≤ 20)
    (hok : ∀ now, ∃ evs s', Mu.Sched.select (schedCfg A prec off) now s = .ok (evs, s'))
    {K : Calls} (hK : K.fn = sem A X prog (n + 3)) :
    ∃ now evs s' hA, Mu.Sched.select (schedCfg A prec off) now s = .ok (evs, s') ∧ SchedRep A hA s' ∧
      exec A K (n + 3) Src.mu_sched_step.body.snd.fst ⟨[.ptr (.glob .s_sched) 9], h⟩ =
        .ok (.next, ⟨[.ptr (.glob .s_sched) 9], hA⟩) ∧
      ((evs.head? = some (.clock now) ∧ now ≠ .undef ∧ ∃ hB hC, X.fn .mu_time_now hB [] = .ok (now, hC) ∧ Heap.Only schedOwn h hB ∧
          Heap.Only schedOwn hC hA) ∨
        (∃ t, evs = [.sel .irq t]) ∧ Heap.Only schedOwn h hA) := by
  -- the interrupt queue
  obtain ⟨⟨re, x, m⟩, hget⟩ : ∃ p, Spsc.get s.irq = .ok p := by
    obtain ⟨evs, s', hm⟩ := hok .null
    unfold Mu.Sched.select at hm
    obtain ⟨p, hp, -⟩ := C.bind_eq_ok hm
    exact ⟨p, hp⟩
  obtain ⟨l1, l2⟩ := spsc_get_store hget
  have hgx : Good x := by
    rcases l2 with rfl | l2
    · exact Good.null
    · exact r.irqDef x l2
  have n9 : ¬ SCells (.glob .s_sched) 0 (.glob .s_irq_store) 0 s.irq.store.length (.glob .s_sched) 9 := by
    rintro (hc | hc)
    · omega
    · simp at hc
  obtain ⟨hB, e1, e2, e3, e4⟩ := src_spsc_get (A := A) (X := X) (n + 2) r.irq (eb := .glob .s_sched) (eo := 9) rfl
    (by rw [r.curr]; rfl) n9 hget hgx.2
  obtain ⟨rB, oB⟩ := r.setIrqCurr (n := s.irq.store.length) rfl e4 e2 (by rw [l1]; exact r.irqLen)
    (by rw [l1]; exact r.irqDef) e3 hgx
  by_cases hre : re = .none
  · subst hre
    refine ⟨.null, [.sel .irq x], { s with irq := m, curr := x }, hB, ?_, rB, ?_, Or.inr ⟨⟨x, rfl⟩, oB⟩⟩
    · unfold Mu.Sched.select
      rw [hget]
      rfl
    · simp [csrc, Src.mu_sched_step, Stmt.fst, Stmt.snd, hK, e1, spscErr, CVal.ofBool]
  · obtain ⟨now, hC, c1, c2, c3⟩ := hX.now hB
    obtain ⟨evs, s', hm⟩ := hok now
    have hm0 := hm
    unfold Mu.Sched.select at hm
    rw [hget] at hm
    simp only [C.ok_bind] at hm
    rw [if_neg hre] at hm
    obtain ⟨⟨task, evs1, s2⟩, hf, hm⟩ := C.bind_eq_ok hm
    dsimp only at hm
    obtain ⟨hD, f1, f2, f3, f4, -⟩ := src_fetch (A := A) (n + 1) hX rB hc c1 hf
    have r9 := f2.setCurr f3.2
    have hfc : evs1.head? = some (.clock now) := by
      unfold Mu.Sched.fetch at hf
      split at hf
      · obtain ⟨d, -, hf⟩ := C.bind_eq_ok hf
        split at hf <;>
        · injection hf with hf
          injection hf with _ hf
          injection hf with hf _
          rw [← hf]; rfl
      · injection hf with hf
        injection hf with _ hf
        injection hf with hf _
        rw [← hf]; rfl
    rw [f3.1] at r9
    have hspsc : (spscErr re) = .int 3 ∨ spscErr re = .int 2 ∨ spscErr re = .int 1 := by
      cases re <;> simp [spscErr] at hre ⊢
    have h9 : (hD.at (.glob .s_sched) 9).isSome = true := by rw [f2.curr]; rfl
    have oD : Heap.Only schedOwn hC (hD.upd (.glob .s_sched) 9 (code task)) := f4.upd (Or.inl rfl)
    by_cases ht : task = NULL
    · rw [if_neg (by simpa using ht)] at hm
      obtain ⟨⟨b, y, q⟩, hq, hm⟩ := C.bind_eq_ok hm
      dsimp only at hm
      obtain ⟨l1, l2⟩ := queue_get_store hq
      simp only [schedCfg] at hq
      have hgy : Good y := by
        rcases l2 with rfl | l2
        · exact Good.null
        · exact r9.immedDef y l2
      have n9 : ¬ QCells (.glob .s_sched) 4 (.glob .s_immed_store) 0 s2.immed.storage.length (.glob .s_sched) 9 := by
        rintro (hc | hc)
        · omega
        · simp at hc
      obtain ⟨hE, g1, g2, g3, g4⟩ := src_queue_get (X := X) n r9.immed (eb := .glob .s_sched) (eo := 9) rfl
        (by rw [r9.curr]; rfl) n9 hq hgy.2
      obtain ⟨rE, oE⟩ := r9.setImmedCurr (n := s2.immed.storage.length) rfl g4 g2 (by rw [l1]; exact r9.immedLen)
        (by rw [l1]; exact r9.immedDef) g3 hgy
      have hnull : code task = .null := f3.ne_null.mp ht
      rw [hnull] at f1 g1 oD oE
      cases b with
      | true =>
        simp only [if_true] at hm
        obtain ⟨rfl, rfl⟩ := Prod.mk.inj (Except.ok.inj hm)
        refine ⟨now, _, _, hE, hm0, rE, ?_, Or.inl ⟨by simp [hfc], c2, hB, hC, c1, oB, oD.trans oE⟩⟩
        rcases hspsc with hx | hx | hx <;> rw [hx] at e1 <;>
          simp [csrc, Src.mu_sched_step, Stmt.fst, Stmt.snd, hK, e1, f1, g1, h9, CVal.ofBool, conv_enum0, conv_enum1,
            conv_enum2, conv_enum3, COp.runPtr]
      | false =>
        simp only [Bool.false_eq_true, if_false] at hm
        obtain ⟨rfl, rfl⟩ := Prod.mk.inj (Except.ok.inj hm)
        have rI := rE.setCurr (v := code s2.idle) r9.idleDef.2
        rw [r9.idleDef.1] at rI
        refine ⟨now, _, _, hE.upd (.glob .s_sched) 9 (code s2.idle), hm0, rI, ?_,
          Or.inl ⟨by simp [hfc], c2, hB, hC, c1, oB, (oD.trans oE).upd (Or.inl rfl)⟩⟩
        have hid := rE.idle
        have hid2 := rE.idleDef.2
        have h9E : (hE.at (.glob .s_sched) 9).isSome = true := by rw [rE.curr]; rfl
        rcases hspsc with hx | hx | hx <;> rw [hx] at e1 <;>
          simp [csrc, Src.mu_sched_step, Stmt.fst, Stmt.snd, hK, e1, f1, g1, h9, h9E, hid, hid2, CVal.ofBool, conv_enum0,
            conv_enum1, conv_enum2, conv_enum3, COp.runPtr]
    · rw [if_pos ht] at hm
      obtain ⟨rfl, rfl⟩ := Prod.mk.inj (Except.ok.inj hm)
      refine ⟨now, _, _, _, hm0, r9, ?_, Or.inl ⟨hfc, c2, hB, hC, c1, oB, oD⟩⟩
      have hnn : COp.runPtr .ne (code task) .null = .ok true := by
        have h1 : code task ≠ .null := fun hx => ht (f3.ne_null.mpr hx)
        have h2 := f3.2
        cases hct : code task <;> rw [hct] at h1 h2 <;> first | rfl | exact absurd rfl h1 | exact absurd rfl h2
      rcases hspsc with hx | hx | hx <;> rw [hx] at e1 <;>
        simp [csrc, Src.mu_sched_step, Stmt.fst, Stmt.snd, hK, e1, f1, f3.2, h9, CVal.ofBool, conv_enum0, conv_enum1,
          conv_enum2, conv_enum3, hnn]

theorem src_sched_step (n : Nat) (hX : Clock X prec off) (r : SchedRep A h s) (hc : s.count ≤ 20)
    (hok : ∀ now, ∃ evs s', Mu.Sched.select (schedCfg A prec off) now s = .ok (evs, s')) :
    ∃ now evs s' hA, Mu.Sched.select (schedCfg A prec off) now s = .ok (evs, s') ∧ SchedRep A hA s' ∧
      sem A X prog (n + 4) .mu_sched_step h [] = (do
        let (_, h2) ← sem A X prog (n + 3) .mu_task_call hA [code s'.curr]
        let h3 ← h2.store (.ptr (.glob .s_sched) 9) .null
        .ok (.undef, h3)) ∧
      ((evs.head? = some (.clock now) ∧ now ≠ .undef ∧ ∃ hB hC, X.fn .mu_time_now hB [] = .ok (now, hC) ∧ Heap.Only schedOwn h hB ∧
          Heap.Only schedOwn hC hA) ∨
        (∃ t, evs = [.sel .irq t]) ∧ Heap.Only schedOwn h hA) := by
  obtain ⟨now, evs, s', hA, e1, e2, e3, e4⟩ := src_select n hX r hc hok
    (K := ⟨sem A X prog (n + 3), X.cb (sem A X prog (n + 3))⟩) rfl
  refine ⟨now, evs, s', hA, e1, e2, ?_, e4⟩
  rw [sem_succ (d := Src.mu_sched_step) rfl, FunDef.run_regs rfl rfl]
  have hK : (⟨sem A X prog (n + 3), X.cb (sem A X prog (n + 3))⟩ : Calls).fn .mu_task_call =
    sem A X prog (n + 3) .mu_task_call := rfl
  generalize (⟨sem A X prog (n + 3), X.cb (sem A X prog (n + 3))⟩ : Calls) = K at e3 hK ⊢
  have e3' : exec A K (n + 3) (.ite (.bin (.cmp .eq (.common .enum .int)) (.call .mu_spsc_get [.fld (.glob .s_sched) 0, .var 0]) (.num 0))
       .skip
       (.ite (.bin (.pcmp .ne) (.store (.fld (.glob .s_sched) 9) (.call .fetch_runnable_deferred_task__sched [])) .null)
        .skip
        (.ite (.bin (.cmp .eq .int) (.call .mu_queue_get [.fld (.glob .s_sched) 4, .fld (.glob .s_sched) 9]) (.num 1))
         .skip
         (.expr (.store (.fld (.glob .s_sched) 9) (.load (.fld (.glob .s_sched) 10)))))))
      ⟨[.ptr (.glob .s_sched) 9], h⟩ = _ := e3
  simp only [Src.mu_sched_step, List.replicate, List.nil_append]
  rw [exec_seq_next (s' := ⟨[.ptr (.glob .s_sched) 9], h⟩) (by simp [csrc])]
  rw [exec_seq_next e3']
  have hcu := e2.curr
  have hcu2 := e2.currDef.2
  cases hx : sem A X prog (n + 3) .mu_task_call hA [code s'.curr] with
  | error e => simp [csrc, hcu, hcu2, hK, hx]
  | ok p =>
    obtain ⟨v, h2⟩ := p
    cases hy : h2.store (.ptr (.glob .s_sched) 9) .null <;> simp [csrc, hcu, hcu2, hK, hx, hy]

end
end Mu.CS
