import Verif.Lemmas.SrcSchedDefer

/-! # mu_sched.c from the parsed source: removing and taking deferred tasks -/

namespace Mu.CS

open Mu.Sched (Sched Entry Cfg)

variable {A : Arch} {X : Ext} {prec : CVal → CVal → Bool} {off : CVal → CVal → CVal}

section
variable {h h' : Heap} {s s' : Sched CVal}

theorem ldN_some {α : Type} {l : List α} {i : Nat} {d : α} (hd : ldN l i = .ok d) : l[i]? = some d := by
  unfold ldN at hd
  split at hd
  · rename_i y hy
    rw [hy]; exact congrArg some (Except.ok.inj hd)
  · cases hd

set_option maxHeartbeats 1000000 in
theorem src_remove_loop {K : Calls} {v : CVal} (hv : v ≠ .undef) (hMM : K.fn .memmove = Lib.memmove) {N : Nat} :
    ∀ (i fuel : Nat) (c3 c4 c5 : CVal) {h : Heap} {s s' : Sched CVal} {e e'}, i < fuel → SchedRep A h s → i ≤ s.count →
      s.count ≤ 20 → Mu.Sched.removeLoop (schedCfg A prec off) (enc v) i e s = .ok (e', s') →
      ∃ c3' c4' c5' h', Src.mu_sched_remove_deferred_task_loop1.rounds A K N fuel ⟨[v, schedErr e, .int i, c3, c4, c5], h⟩ =
        .ok (.next, ⟨[v, schedErr e', .int 0, c3', c4', c5'], h'⟩) ∧ SchedRep A h' s' ∧ Heap.Only schedOwn h h' := by
  have hmod := szMod_ge A.toPlat
  intro i
  induction i with
  | zero =>
    intro fuel c3 c4 c5 h s s' e e' hf r _ _ hm
    obtain ⟨fuel, rfl⟩ : ∃ m, fuel = m + 1 := ⟨fuel - 1, by omega⟩
    obtain ⟨rfl, rfl⟩ := Prod.mk.inj (Except.ok.inj hm)
    refine ⟨c3, c4, c5, h, Stmt.rounds_exit ?_, r, Heap.Only.refl _ _⟩
    simp [csrc, Src.mu_sched_remove_deferred_task_loop1, Stmt.cond]
  | succ i ih =>
    intro fuel c3 c4 c5 h s s' e e' hf r hi hc hm
    obtain ⟨fuel, rfl⟩ : ∃ m, fuel = m + 1 := ⟨fuel - 1, by omega⟩
    rw [Mu.Sched.removeLoop] at hm
    obtain ⟨d, hd, hm⟩ := C.bind_eq_ok hm
    obtain ⟨l1, l2, l3, l4⟩ := r.ld (ldN_some hd)
    have c1 := conv_size_lt (A := A) (n := i + 1) (by omega)
    have c2 := conv_size_lt (A := A) (n := i) (by omega)
    have hs1 : A.szSub (i + 1) 1 = i := by rw [Plat.szSub_of_le (by omega) (by omega)]; omega
    have hcond : evalCond A K Src.mu_sched_remove_deferred_task_loop1.cond
        ⟨[v, schedErr e, .int (i + 1 : Nat), c3, c4, c5], h⟩ =
        .ok (true, ⟨[v, schedErr e, .int (i + 1 : Nat), c3, c4, c5], h⟩) := by
      have : (0 < i + 1) = True := eq_true (by omega)
      generalize i + 1 = i1 at *
      simp [csrc, Src.mu_sched_remove_deferred_task_loop1, Stmt.cond, c1, this]
    have pp := r.ptr (i := i) (by omega)
    have hcmp := runPtr_eq l4.2 hv
    by_cases hp : code d.task = v
    · have hp' : d.task = enc v := l4.eq.mpr hp
      rw [if_pos hp'] at hm
      have hsub : A.szSub s.count (i + 1) = s.count - (i + 1) := Plat.szSub_of_le hi (by omega)
      have hsub1 : A.szSub s.count 1 = s.count - 1 := Plat.szSub_of_le (by omega) (by omega)
      simp only [schedCfg, hsub, hsub1] at hm
      obtain ⟨df, hdf, hm⟩ : ∃ df, (if s.count - (i + 1) > 0 then Mu.memmove s.deferred i (i + 1) (s.count - (i + 1))
          else .ok s.deferred) = .ok df ∧ Mu.Sched.removeLoop (schedCfg A prec off) (enc v) i .none
            { s with deferred := df, count := s.count - 1 } = .ok (e', s') := by
        split at hm
        · obtain ⟨d, h1, h2⟩ := C.bind_eq_ok hm
          rename_i hpos
          exact ⟨d, by rw [if_pos hpos, h1], h2⟩
        · rename_i hpos
          exact ⟨_, by rw [if_neg hpos], hm⟩
      obtain ⟨h1, c5', x1, r1, o1⟩ : ∃ h1 c5',
          exec A K N (.ite (.bin (.cmp .gt .size) (.var 4) (.num 0))
            (.seq
              (.expr (.setv 5 (.bin (.padd 2) (.glob .s_deferred_tasks) (.var 2))))
              (.expr (.call .memmove [.var 3, .var 5, .bin (.arith .mul .size) (.var 4) (.num 2)])))
            .skip) ⟨[v, schedErr e, .int (i + 1 : Nat), .ptr (.glob .s_deferred_tasks) (2 * (i : Int)),
              .int (s.count - (i + 1) : Nat), c5], h⟩ =
            .ok (.next, ⟨[v, schedErr e, .int (i + 1 : Nat), .ptr (.glob .s_deferred_tasks) (2 * (i : Int)),
              .int (s.count - (i + 1) : Nat), c5'], h1⟩) ∧
          SchedRep A h1 { s with deferred := df } ∧ Heap.Only schedOwn h h1 := by
        split at hdf
        · rename_i hpos
          obtain ⟨h1, m1, r1, o1⟩ := r.memmove hdf
          refine ⟨h1, .ptr (.glob .s_deferred_tasks) (2 * ((i + 1 : Nat) : Int)), ?_, r1, o1⟩
          have p2 := r.ptr (i := i + 1) (by omega)
          have ck2 := conv_size_lt (A := A) (n := s.count - (i + 1)) (by omega)
          have c2 : IT.conv ⟨A.sb, false⟩ 2 = 2 := conv_size_lt (A := A) (n := 2) (by omega)
          have mul2 : AOp.run ⟨A.sb, false⟩ .mul ((s.count - (i + 1) : Nat) : Int) 2 =
              .ok (2 * ((s.count - (i + 1) : Nat) : Int)) := by
            have := conv_size_lt (A := A) (n := 2 * (s.count - (i + 1))) (by omega)
            rw [IT.conv_unsigned] at this
            simp only [AOp.run, IT.arith, Bool.false_eq_true, if_false]
            rw [show ((s.count - (i + 1) : Nat) : Int) * 2 = ((2 * (s.count - (i + 1)) : Nat) : Int) by omega, this]
            congr 1
          generalize s.count - (i + 1) = k at *
          generalize i + 1 = i1 at *
          have hpos' : (0 < k) = True := eq_true (by omega)
          simp [csrc, hpos', p2, ck2, c2, mul2, hMM, m1]
        · rename_i hpos
          obtain rfl := Except.ok.inj hdf
          refine ⟨h, c5, ?_, r, Heap.Only.refl _ _⟩
          have hz : s.count - (i + 1) = 0 := by omega
          simp [csrc, hz]
      have r2 := r1.setCount (s.count - 1)
      obtain ⟨c3', c4', c5'', h', e1, e2, e3⟩ := ih fuel (.ptr (.glob .s_deferred_tasks) (2 * (i : Int)))
        (.int (s.count - (i + 1) : Nat)) c5' (e := .none) (by omega) r2 (by show i ≤ s.count - 1; omega)
        (by show s.count - 1 ≤ 20; omega) hm
      refine ⟨c3', c4', c5'', h', ?_, e2, (o1.upd (v := .int (s.count - 1 : Nat)) (Or.inl rfl)).trans e3⟩
      rw [← e1]
      refine Stmt.rounds_next (s'' := ⟨[v, .int 0, .int i, .ptr (.glob .s_deferred_tasks) (2 * (i : Int)),
        .int (s.count - (i + 1) : Nat), c5'], h1.upd (.glob .s_sched) 8 (.int (s.count - 1 : Nat))⟩) hcond ?_ rfl
      have hcnt := r.cnt
      have hcnt1 := r1.cnt
      have cc := conv_size_lt (A := A) (n := s.count) (by omega)
      have cc1 := conv_size_lt (A := A) (n := s.count - 1) (by omega)
      have sub2 : AOp.run ⟨A.sb, false⟩ .sub (s.count : Int) ((i + 1 : Nat) : Int) =
          .ok ((s.count - (i + 1) : Nat) : Int) := by
        have := sub_size A s.count (i + 1)
        rw [hsub] at this; exact this
      generalize s.count - (i + 1) = k at *
      generalize i + 1 = i1 at *
      generalize s.count - 1 = m1 at *
      simp only [Src.mu_sched_remove_deferred_task_loop1, Stmt.body]
      rw [exec_seq_next (s' := ⟨[v, schedErr e, .int i1, .ptr (.glob .s_deferred_tasks) (2 * (i : Int)), c4, c5], h⟩)
        (by simp [csrc, c1, hs1, pp])]
      have inner : exec A K N (.ite (.bin (.pcmp .eq) (.load (.fld (.var 3) 1)) (.var 0))
          (.seq
           (.expr (.setv 4 (.bin (.arith .sub .size) (.load (.fld (.glob .s_sched) 8)) (.var 2))))
           (.seq
            (.ite (.bin (.cmp .gt .size) (.var 4) (.num 0))
             (.seq
              (.expr (.setv 5 (.bin (.padd 2) (.glob .s_deferred_tasks) (.var 2))))
              (.expr (.call .memmove [.var 3, .var 5, .bin (.arith .mul .size) (.var 4) (.num 2)])))
             .skip)
            (.seq
             (.expr (.upd (.fld (.glob .s_sched) 8) (.arith .sub .size) (some .size) false (.num 1)))
             (.expr (.setv 1 (.num 0))))))
          .skip) ⟨[v, schedErr e, .int i1, .ptr (.glob .s_deferred_tasks) (2 * (i : Int)), c4, c5], h⟩ =
          .ok (.next, ⟨[v, .int 0, .int i1, .ptr (.glob .s_deferred_tasks) (2 * (i : Int)), .int k, c5'],
            h1.upd (.glob .s_sched) 8 (.int m1)⟩) := by
        have hc1 : evalCond A K (.bin (.pcmp .eq) (.load (.fld (.var 3) 1)) (.var 0))
            ⟨[v, schedErr e, .int i1, .ptr (.glob .s_deferred_tasks) (2 * (i : Int)), c4, c5], h⟩ =
            .ok (true, ⟨[v, schedErr e, .int i1, .ptr (.glob .s_deferred_tasks) (2 * (i : Int)), c4, c5], h⟩) := by
          rw [hp] at l2 hcmp
          simp [csrc, l2, hv, hcmp]
        rw [exec, hc1, C.ok_bind]
        dsimp only
        rw [if_pos rfl]
        rw [exec_seq_next (s' := ⟨[v, schedErr e, .int i1, .ptr (.glob .s_deferred_tasks) (2 * (i : Int)), .int k, c5], h⟩)
          (by simp [csrc, hcnt, cc, c1, sub2])]
        rw [exec_seq_next x1]
        simp [csrc, hcnt1, cc, cc1, hsub1]
      rw [exec_seq_next inner]
      simp [csrc, c1, c2, hs1]
    · have hp' : ¬ d.task = enc v := fun hx => hp (l4.eq.mp hx)
      rw [if_neg hp'] at hm
      obtain ⟨c3', c4', c5', h', e1, e2, e3⟩ := ih fuel (.ptr (.glob .s_deferred_tasks) (2 * (i : Int))) c4 c5
        (by omega) r (by omega) hc hm
      refine ⟨c3', c4', c5', h', ?_, e2, e3⟩
      rw [← e1]
      refine Stmt.rounds_next (s'' := ⟨[v, schedErr e, .int i, .ptr (.glob .s_deferred_tasks) (2 * (i : Int)), c4, c5], h⟩)
        hcond ?_ rfl
      generalize i + 1 = i1 at *
      simp [csrc, Src.mu_sched_remove_deferred_task_loop1, Stmt.body, c1, c2, hs1, pp, l2, l4.2, hv, hcmp, hp]

theorem schedErr_def (e) : schedErr e ≠ .undef := by cases e <;> simp [schedErr]

theorem src_sched_remove (n : Nat) (r : SchedRep A h s) (hc : s.count ≤ 20) {v : CVal} (hv : v ≠ .undef) {e} (hn : 21 ≤ n)
    (hm : Mu.Sched.remove (schedCfg A prec off) s (enc v) = .ok (e, s')) :
    ∃ h', sem A X prog (n + 1) .mu_sched_remove_deferred_task h [v] = .ok (schedErr e, h') ∧ SchedRep A h' s' ∧
      Heap.Only schedOwn h h' := by
  obtain ⟨n, rfl⟩ : ∃ m, n = m + 1 := ⟨n - 1, by omega⟩
  rw [sem_succ (d := Src.mu_sched_remove_deferred_task) rfl, FunDef.run_regs rfl rfl]
  have hMM : (⟨sem A X prog (n + 1), X.cb (sem A X prog (n + 1))⟩ : Calls).fn .memmove = Lib.memmove := rfl
  generalize (⟨sem A X prog (n + 1), X.cb (sem A X prog (n + 1))⟩ : Calls) = K at hMM ⊢
  obtain ⟨c3', c4', c5', h', e1, e2, e3⟩ := src_remove_loop (prec := prec) (off := off) (N := n + 1) hv hMM s.count (n + 1)
    .undef .undef .undef (e := .notFound) (by omega) r (Nat.le_refl _) hc hm
  have e1' : exec A K (n + 1) Src.mu_sched_remove_deferred_task_loop1
    ⟨[v, .int 2, .int s.count, .undef, .undef, .undef], h⟩ = _ := e1
  refine ⟨h', ?_, e2, e3⟩
  have hcnt := r.cnt
  simp only [Src.mu_sched_remove_deferred_task, List.replicate, List.cons_append, List.nil_append]
  rw [exec_seq_next (s' := ⟨[v, .int 2, .undef, .undef, .undef, .undef], h⟩) (by simp [csrc])]
  rw [exec_seq_next (s' := ⟨[v, .int 2, .int s.count, .undef, .undef, .undef], h⟩) (by simp [csrc, hcnt])]
  rw [exec_seq_next e1']
  simp [csrc, schedErr_def]

end
end Mu.CS
