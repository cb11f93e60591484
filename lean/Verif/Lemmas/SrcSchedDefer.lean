import Verif.Lemmas.SrcSched
import Verif.Spec.SrcSched

/-! # mu_sched.c from the parsed source: the deferred tasks -/

namespace Mu.CS

open Mu.Sched (Sched Entry Cfg)

/-! ## The array of deferred tasks -/

theorem flat_cons (e : Entry CVal) (l) : flat (e :: l) = e.time :: code e.task :: flat l := rfl

theorem flat_append (a b : List (Entry CVal)) : flat (a ++ b) = flat a ++ flat b := by simp [flat]

theorem flat_length (l : List (Entry CVal)) : (flat l).length = 2 * l.length := by
  induction l with
  | nil => rfl
  | cons e l ih => rw [flat_cons]; simp [ih]; omega

theorem flat_get0 (l : List (Entry CVal)) (i : Nat) : (flat l)[2 * i]? = l[i]?.map (·.time) := by
  induction l generalizing i with
  | nil => simp [flat]
  | cons e l ih =>
    cases i with
    | zero => rfl
    | succ i => rw [flat_cons]; simpa [Nat.mul_succ] using ih i

theorem flat_get1 (l : List (Entry CVal)) (i : Nat) : (flat l)[2 * i + 1]? = l[i]?.map (fun e => code e.task) := by
  induction l generalizing i with
  | nil => simp [flat]
  | cons e l ih =>
    cases i with
    | zero => rfl
    | succ i => rw [flat_cons]; simpa [Nat.mul_succ] using ih i

theorem flat_take (l : List (Entry CVal)) (k : Nat) : flat (l.take k) = (flat l).take (2 * k) := by
  induction l generalizing k with
  | nil => simp [flat]
  | cons e l ih =>
    cases k with
    | zero => rfl
    | succ k => simp [flat_cons, Nat.mul_succ, ih]

theorem flat_drop (l : List (Entry CVal)) (k : Nat) : flat (l.drop k) = (flat l).drop (2 * k) := by
  induction l generalizing k with
  | nil => simp [flat]
  | cons e l ih =>
    cases k with
    | zero => rfl
    | succ k => simp [flat_cons, Nat.mul_succ, ih]

theorem flat_set (l : List (Entry CVal)) (i : Nat) (e : Entry CVal) :
    flat (l.set i e) = ((flat l).set (2 * i) e.time).set (2 * i + 1) (code e.task) := by
  induction l generalizing i with
  | nil => simp [flat]
  | cons d l ih =>
    cases i with
    | zero => rfl
    | succ i => simp [flat_cons, Nat.mul_succ, ih]

variable {A : Arch} {X : Ext} {prec : CVal → CVal → Bool} {off : CVal → CVal → CVal}

section
variable {h h' : Heap} {s s' : Sched CVal}

theorem SchedRep.size (r : SchedRep A h s) : (h.cells (.glob .s_deferred_tasks)).length = 40 := by
  rw [r.arr, flat_length, r.len]

/-- Reading an entry. -/
theorem SchedRep.ld (r : SchedRep A h s) {i : Nat} {d : Entry CVal} (hd : s.deferred[i]? = some d) :
    h.at (.glob .s_deferred_tasks) (2 * (i : Int)) = some d.time ∧
    h.at (.glob .s_deferred_tasks) (2 * (i : Int) + 1) = some (code d.task) ∧ d.time ≠ .undef ∧ Good d.task := by
  have e0 : (2 * (i : Int)) = ((2 * i : Nat) : Int) := by omega
  have e1 : (2 * (i : Int) + 1) = ((2 * i + 1 : Nat) : Int) := by omega
  refine ⟨?_, ?_, r.defDef d (List.mem_of_getElem? hd)⟩
  · rw [e0, Heap.at_eq _ _ (by omega), r.arr]
    simp only [Int.toNat_natCast]
    rw [flat_get0, hd]; rfl
  · rw [e1, Heap.at_eq _ _ (by omega), r.arr]
    simp only [Int.toNat_natCast]
    rw [flat_get1, hd]; rfl

theorem SchedRep.ptr (r : SchedRep A h s) {i : Nat} (hi : i < 20) :
    h.padd 2 (.ptr (.glob .s_deferred_tasks) 0) (i : Int) = .ok (.ptr (.glob .s_deferred_tasks) (2 * (i : Int))) := by
  have := Heap.padd_in (h := h) (b := .glob .s_deferred_tasks) (o := 0) (i := (i : Int)) (n := 2)
    (by rw [Heap.isSome_at, r.size]; omega)
  rw [this]
  simp

/-- Another array of deferred tasks. -/
theorem SchedRep.setArr (r : SchedRep A h s) {d : List (Entry CVal)} (hl : d.length = 20)
    (hd : ∀ e ∈ d, e.time ≠ .undef ∧ Good e.task) :
    SchedRep A (h.put (.glob .s_deferred_tasks) (flat d)) { s with deferred := d } ∧
    Heap.Only schedOwn h (h.put (.glob .s_deferred_tasks) (flat d)) := by
  have e : Heap.Only (fun b _ => b = .glob .s_deferred_tasks) h (h.put (.glob .s_deferred_tasks) (flat d)) := by
    refine ⟨?_, ?_, rfl⟩
    · intro b o hb
      unfold Heap.at
      rw [show (h.put (.glob .s_deferred_tasks) (flat d)).cells b = h.cells b by
        cases b <;> simp [Heap.cells, Heap.put]
        intro hc
        exact absurd (by rw [hc]) hb]
    · intro b
      by_cases hb : b = .glob .s_deferred_tasks
      · subst hb
        rw [r.size]
        simp [Heap.cells, Heap.put, flat_length, hl]
      · congr 1
        cases b <;> simp [Heap.cells, Heap.put]
        intro hc
        exact absurd (by rw [hc]) hb
  have k : ∀ o, (h.put (.glob .s_deferred_tasks) (flat d)).at (.glob .s_sched) o = h.at (.glob .s_sched) o := fun o =>
    e.cell _ _ (fun hx => by simp at hx)
  refine ⟨⟨r.irq.only e ?_, r.immed.only e ?_, (k 8).trans r.cnt, (k 9).trans r.curr, (k 10).trans r.idle, ?_,
    r.irqLen, r.immedLen, r.irqDef, r.immedDef, hd, r.currDef, r.idleDef, hl⟩,
    e.mono (fun b _ hb => by simp [schedOwn, hb])⟩
  · rintro b' o' rfl (hc | hc) <;> simp at hc
  · rintro b' o' rfl (hc | hc) <;> simp at hc
  · simp [Heap.cells, Heap.put]

/-- Moving entries. -/
theorem SchedRep.memmove (r : SchedRep A h s) {i j k : Nat} {d : List (Entry CVal)}
    (hm : Mu.memmove s.deferred j i k = .ok d) :
    ∃ h', Lib.memmove h [.ptr (.glob .s_deferred_tasks) (2 * (j : Int)), .ptr (.glob .s_deferred_tasks) (2 * (i : Int)),
        .int (2 * (k : Int))] = .ok (.ptr (.glob .s_deferred_tasks) (2 * (j : Int)), h') ∧
      SchedRep A h' { s with deferred := d } ∧ Heap.Only schedOwn h h' := by
  unfold Mu.memmove at hm
  split at hm
  · rename_i hb
    obtain ⟨b1, b2⟩ := hb
    rw [r.len] at b1 b2
    obtain rfl := Except.ok.inj hm
    refine ⟨_, ?_, r.setArr (d := s.deferred.take j ++ (s.deferred.drop i).take k ++ s.deferred.drop (j + k)) ?_ ?_⟩
    · have hsz := r.size
      have g : h.getN (.ptr (.glob .s_deferred_tasks) (2 * (i : Int))) (2 * (k : Int)).toNat =
          .ok ((flat s.deferred).drop (2 * i) |>.take (2 * k)) := by
        unfold Heap.getN
        dsimp only
        rw [if_pos ⟨by omega, by omega⟩, r.arr]
        rw [show (2 * (i : Int)).toNat = 2 * i by omega, show (2 * (k : Int)).toNat = 2 * k by omega]
      have hlen : ((flat s.deferred).drop (2 * i) |>.take (2 * k)).length = 2 * k := by
        simp [flat_length, r.len]; omega
      have p : h.putN (.ptr (.glob .s_deferred_tasks) (2 * (j : Int))) ((flat s.deferred).drop (2 * i) |>.take (2 * k)) =
          .ok (h.put (.glob .s_deferred_tasks)
            (flat (s.deferred.take j ++ (s.deferred.drop i).take k ++ s.deferred.drop (j + k)))) := by
        unfold Heap.putN
        dsimp only
        have hmem : h.mem (.glob .s_deferred_tasks) = flat s.deferred := r.arr
        rw [hlen, hmem, if_pos ⟨by omega, by rw [flat_length, r.len]; omega⟩]
        rw [show (2 * (j : Int)).toNat = 2 * j by omega]
        simp only [flat_append, flat_take, flat_drop, Nat.mul_add]
      unfold Lib.memmove
      simp only [g, C.ok_bind, p]
    · simp [r.len]; omega
    · intro e he
      apply r.defDef
      simp only [List.mem_append] at he
      rcases he with (he | he) | he
      · exact List.mem_of_mem_take he
      · exact List.mem_of_mem_drop (List.mem_of_mem_take he)
      · exact List.mem_of_mem_drop he
  · cases hm

theorem src_search (r : SchedRep A h s) {K : Calls} {t v c4 c5 c6 : CVal} (hv : v ≠ .undef) (ht : t ≠ .undef)
    (hK : ∀ h a b, a ≠ .undef → b ≠ .undef → K.fn .mu_time_precedes h [a, b] = .ok (.ofBool (prec a b), h)) {N : Nat} :
    ∀ (i fuel : Nat) (c : CVal) {j : Nat}, i < fuel → i ≤ 20 →
      Mu.Sched.searchLoop (schedCfg A prec off) s.deferred t i = .ok j →
      ∃ c', Src.defer_aux__sched_loop1.rounds A K N fuel ⟨[v, t, c, .int i, c4, c5, c6], h⟩ =
        .ok (.next, ⟨[v, t, c', .int j, c4, c5, c6], h⟩) ∧ j ≤ i := by
  have hmod := szMod_ge A.toPlat
  intro i
  induction i with
  | zero =>
    intro fuel c j hf _ hm
    obtain ⟨fuel, rfl⟩ : ∃ m, fuel = m + 1 := ⟨fuel - 1, by omega⟩
    obtain rfl := Except.ok.inj hm
    refine ⟨c, Stmt.rounds_exit ?_, by omega⟩
    simp [csrc, Src.defer_aux__sched_loop1, Stmt.cond]
  | succ i ih =>
    intro fuel c j hf hi hm
    obtain ⟨fuel, rfl⟩ : ∃ m, fuel = m + 1 := ⟨fuel - 1, by omega⟩
    rw [Mu.Sched.searchLoop] at hm
    obtain ⟨d, hd, hm⟩ := C.bind_eq_ok hm
    have hd' : s.deferred[i]? = some d := by
      unfold ldN at hd
      split at hd
      · rename_i y hy
        rw [hy]; exact congrArg some (Except.ok.inj hd)
      · cases hd
    obtain ⟨l1, l2, l3, l4⟩ := r.ld hd'
    have c1 := conv_size_lt (A := A) (n := i + 1) (by omega)
    have c2 := conv_size_lt (A := A) (n := i) (by omega)
    have hs1 : A.szSub (i + 1) 1 = i := by rw [Plat.szSub_of_le (by omega) (by omega)]; omega
    have hcond : evalCond A K Src.defer_aux__sched_loop1.cond ⟨[v, t, c, .int (i + 1 : Nat), c4, c5, c6], h⟩ =
        .ok (true, ⟨[v, t, c, .int (i + 1 : Nat), c4, c5, c6], h⟩) := by
      have : (0 < i + 1) = True := eq_true (by omega)
      generalize i + 1 = i1 at *
      simp [csrc, Src.defer_aux__sched_loop1, Stmt.cond, c1, this]
    have pp := r.ptr (i := i) (by omega)
    have hk := hK h t d.time ht l3
    generalize hi1 : i + 1 = i1 at *
    by_cases hp : prec t d.time = true
    · rw [if_pos (by simpa [schedCfg] using hp)] at hm
      obtain rfl := Except.ok.inj hm
      refine ⟨.ptr (.glob .s_deferred_tasks) (2 * (i : Int)), Stmt.rounds_brk hcond ?_, by omega⟩
      simp [csrc, Src.defer_aux__sched_loop1, Stmt.body, c1, hs1, pp, l1, l3, hk, hp, ht, CVal.ofBool]
    · rw [if_neg (by simpa [schedCfg] using hp)] at hm
      obtain ⟨c', e1, e2⟩ := ih fuel (.ptr (.glob .s_deferred_tasks) (2 * (i : Int))) (by omega) (by omega) hm
      refine ⟨c', ?_, by omega⟩
      rw [← e1]
      refine Stmt.rounds_next (s'' := ⟨[v, t, .ptr (.glob .s_deferred_tasks) (2 * (i : Int)), .int i, c4, c5, c6], h⟩)
        hcond ?_ rfl
      simp [csrc, Src.defer_aux__sched_loop1, Stmt.body, c1, c2, hs1, pp, l1, l3, hk, hp, ht, CVal.ofBool]

theorem Heap.put_put (h : Heap) (b : Base) (x y : List CVal) : (h.put b x).put b y = h.put b y := by
  simp only [Heap.put]
  congr 1
  funext z
  split <;> rfl

/-- Writing an entry. -/
theorem SchedRep.st (r : SchedRep A h s) {i : Nat} {d : List (Entry CVal)} {t v : CVal} (ht : t ≠ .undef) (hv : v ≠ .undef)
    (hm : stN s.deferred i ⟨t, enc v⟩ = .ok d) :
    SchedRep A ((h.upd (.glob .s_deferred_tasks) (2 * (i : Int)) t).upd (.glob .s_deferred_tasks) (2 * (i : Int) + 1) v)
      { s with deferred := d } ∧
    Heap.Only schedOwn h
      ((h.upd (.glob .s_deferred_tasks) (2 * (i : Int)) t).upd (.glob .s_deferred_tasks) (2 * (i : Int) + 1) v) := by
  unfold stN at hm
  split at hm
  · obtain rfl := Except.ok.inj hm
    have e : (h.upd (.glob .s_deferred_tasks) (2 * (i : Int)) t).upd (.glob .s_deferred_tasks) (2 * (i : Int) + 1) v =
        h.put (.glob .s_deferred_tasks) (flat (s.deferred.set i ⟨t, enc v⟩)) := by
      have hmem : h.mem (.glob .s_deferred_tasks) = flat s.deferred := r.arr
      unfold Heap.upd
      rw [if_pos (by omega), if_pos (by omega), Heap.put_put, flat_set]
      simp only [Heap.put, if_true, hmem, code_enc]
      rw [show (2 * (i : Int)).toNat = 2 * i by omega, show (2 * (i : Int) + 1).toNat = 2 * i + 1 by omega]
    rw [e]
    refine r.setArr (by simp [r.len]) ?_
    intro x hx
    rcases List.mem_or_eq_of_mem_set hx with hx | rfl
    · exact r.defDef x hx
    · exact ⟨ht, Good.enc hv⟩
  · cases hm

set_option maxHeartbeats 1000000 in
theorem src_defer_aux (n : Nat) (hX : Clock X prec off) (r : SchedRep A h s) (hc : s.count ≤ 20) {t v : CVal}
    (ht : t ≠ .undef) (hv : v ≠ .undef) {e} (hn : 21 ≤ n)
    (hm : Mu.Sched.deferAux (schedCfg A prec off) s (enc v) t = .ok (e, s')) :
    ∃ h', sem A X prog (n + 1) .defer_aux__sched h [v, t] = .ok (schedErr e, h') ∧ SchedRep A h' s' ∧
      Heap.Only schedOwn h h' := by
  obtain ⟨n, rfl⟩ : ∃ m, n = m + 1 := ⟨n - 1, by omega⟩
  have hmod := szMod_ge A.toPlat
  have hmx := A.intMax_ge
  have c20 : IT.conv ⟨A.sb, false⟩ 20 = 20 := conv_size_lt (A := A) (n := 20) (by omega)
  have cc := conv_size_lt (A := A) (n := s.count) (by omega)
  have hcnt := r.cnt
  rw [sem_succ (d := Src.defer_aux__sched) rfl, FunDef.run_regs rfl rfl]
  have hK : ∀ h a b, a ≠ .undef → b ≠ .undef →
      (⟨sem A X prog (n + 1), X.cb (sem A X prog (n + 1))⟩ : Calls).fn .mu_time_precedes h [a, b] =
        .ok (.ofBool (prec a b), h) := hX.precedes
  have hMM : (⟨sem A X prog (n + 1), X.cb (sem A X prog (n + 1))⟩ : Calls).fn .memmove = Lib.memmove := rfl
  generalize (⟨sem A X prog (n + 1), X.cb (sem A X prog (n + 1))⟩ : Calls) = K at hK hMM ⊢
  unfold Mu.Sched.deferAux at hm
  by_cases hfull : s.count = 20
  · rw [if_pos (by simpa [schedCfg] using hfull)] at hm
    obtain ⟨rfl, rfl⟩ := Prod.mk.inj (Except.ok.inj hm)
    refine ⟨h, ?_, r, Heap.Only.refl _ _⟩
    rw [hfull] at hcnt
    simp [csrc, Src.defer_aux__sched, hcnt, c20, schedErr, CVal.ofBool]
  · rw [if_neg (by simpa [schedCfg] using hfull)] at hm
    obtain ⟨i, hi, hm⟩ := C.bind_eq_ok hm
    obtain ⟨c', e1, hle⟩ := src_search (c4 := .undef) (c5 := .undef) (c6 := .undef) (N := n + 1) r hv ht hK s.count (n + 1)
      .undef (by omega) (by omega) hi
    have e1' : exec A K (n + 1) Src.defer_aux__sched_loop1 ⟨[v, t, .undef, .int s.count, .undef, .undef, .undef], h⟩ = _ := e1
    have hsub : A.szSub s.count i = s.count - i := Plat.szSub_of_le hle (by omega)
    have htoI : A.toInt (s.count - i) = ((s.count - i : Nat) : Int) := Plat.toInt_of_le (by omega)
    have htoS : A.toSz ((s.count - i : Nat) : Int) = s.count - i := by rw [Plat.toSz_int (by omega) (by omega)]; omega
    have hsz : A.sz (i + 1) = i + 1 := Plat.sz_of_lt (by omega)
    have hsz2 : A.sz (s.count + 1) = s.count + 1 := Plat.sz_of_lt (by omega)
    simp only [schedCfg, hsub, htoI, htoS, hsz, hsz2] at hm
    obtain ⟨d, hd, hm⟩ : ∃ d, (if ((s.count - i : Nat) : Int) > 0 then Mu.memmove s.deferred (i + 1) i (s.count - i)
        else .ok s.deferred) = .ok d ∧
        (do
          let deferred ← stN d i ⟨t, enc v⟩
          .ok (Mu.Sched.Err.none, { s with deferred := deferred, count := s.count + 1 })) = (.ok (e, s') : C _) := by
      split at hm
      · obtain ⟨d, h1, h2⟩ := C.bind_eq_ok hm
        rename_i hpos
        exact ⟨d, by rw [if_pos hpos, h1], h2⟩
      · rename_i hpos
        exact ⟨_, by rw [if_neg hpos], hm⟩
    have hi20 : i < 20 := by omega
    obtain ⟨h1, c5, c6, x1, r1, o1⟩ : ∃ h1 c5 c6,
        exec A K (n + 1) (.ite (.bin (.cmp .gt .int) (.var 4) (.num 0))
           (.seq
            (.expr (.setv 5 (.bin (.padd 2) (.glob .s_deferred_tasks) (.var 3))))
            (.seq
             (.expr (.setv 6 (.bin (.padd 2) (.glob .s_deferred_tasks) (.bin (.arith .add .size) (.var 3) (.num 1)))))
             (.expr (.call .memmove [.var 6, .var 5, .bin (.arith .mul .size) (.var 4) (.num 2)]))))
           .skip) ⟨[v, t, c', .int i, .int (s.count - i : Nat), .undef, .undef], h⟩ =
          .ok (.next, ⟨[v, t, c', .int i, .int (s.count - i : Nat), c5, c6], h1⟩) ∧
        SchedRep A h1 { s with deferred := d } ∧ Heap.Only schedOwn h h1 := by
      have ck : IT.conv ⟨A.ib, true⟩ ((s.count - i : Nat) : Int) = ((s.count - i : Nat) : Int) :=
        conv_int_small (by omega) (by omega)
      split at hd
      · rename_i hpos
        obtain ⟨h1, m1, r1, o1⟩ := r.memmove hd
        refine ⟨h1, .ptr (.glob .s_deferred_tasks) (2 * (i : Int)), .ptr (.glob .s_deferred_tasks) (2 * ((i + 1 : Nat) : Int)),
          ?_, r1, o1⟩
        have p1 := r.ptr hi20
        have p2 := r.ptr (i := i + 1) (by omega)
        have ci := conv_size_lt (A := A) (n := i) (by omega)
        have ck2 := conv_size_lt (A := A) (n := s.count - i) (by omega)
        have c2 : IT.conv ⟨A.sb, false⟩ 2 = 2 := conv_size_lt (A := A) (n := 2) (by omega)
        have add1 : AOp.run ⟨A.sb, false⟩ .add (i : Int) 1 = .ok ((i + 1 : Nat) : Int) := by
          have := conv_size_lt (A := A) (n := i + 1) (by omega)
          rw [IT.conv_unsigned] at this
          simp only [AOp.run, IT.arith, Bool.false_eq_true, if_false]
          exact congrArg _ this
        have mul2 : AOp.run ⟨A.sb, false⟩ .mul ((s.count - i : Nat) : Int) 2 = .ok (2 * ((s.count - i : Nat) : Int)) := by
          have := conv_size_lt (A := A) (n := 2 * (s.count - i)) (by omega)
          rw [IT.conv_unsigned] at this
          simp only [AOp.run, IT.arith, Bool.false_eq_true, if_false]
          rw [show ((s.count - i : Nat) : Int) * 2 = ((2 * (s.count - i) : Nat) : Int) by omega, this]
          congr 1
        generalize s.count - i = k at *
        generalize i + 1 = i1 at *
        have hpos' : (0 < k) = True := eq_true (by omega)
        simp [csrc, ck, hpos', p1, p2, ci, ck2, c2, add1, mul2, hMM, m1]
      · rename_i hpos
        obtain rfl := Except.ok.inj hd
        refine ⟨h, .undef, .undef, ?_, r, Heap.Only.refl _ _⟩
        have hz : s.count - i = 0 := by omega
        simp [csrc, hz]
    obtain ⟨d2, hd2, hm⟩ := C.bind_eq_ok hm
    obtain ⟨rfl, rfl⟩ := Prod.mk.inj (Except.ok.inj hm)
    obtain ⟨r2, o2⟩ := r1.st ht hv hd2
    have r3 := r2.setCount (s.count + 1)
    refine ⟨_, ?_, r3, (o1.trans o2).upd (Or.inl rfl)⟩
    have sz1 := r1.size
    have hst0 : (h1.at (.glob .s_deferred_tasks) (2 * (i : Int))).isSome = true := by rw [Heap.isSome_at]; omega
    have hst1 : (h1.at (.glob .s_deferred_tasks) (2 * (i : Int) + 1)).isSome = true := by rw [Heap.isSome_at]; omega
    have p3 := r1.ptr hi20
    have ci := conv_size_lt (A := A) (n := i) (by omega)
    have hcnt2 := r1.cnt
    have add2 : AOp.run ⟨A.sb, false⟩ .add (s.count : Int) 1 = .ok ((s.count + 1 : Nat) : Int) := by
      have := conv_size_lt (A := A) (n := s.count + 1) (by omega)
      rw [IT.conv_unsigned] at this
      simp only [AOp.run, IT.arith, Bool.false_eq_true, if_false]
      exact congrArg _ this
    have cc1 := conv_size_lt (A := A) (n := s.count + 1) (by omega)
    have sub2 : AOp.run ⟨A.sb, false⟩ .sub (s.count : Int) (i : Int) = .ok ((s.count - i : Nat) : Int) := by
      have := sub_size A s.count i
      rw [hsub] at this; exact this
    have ck : IT.conv ⟨A.ib, true⟩ ((s.count - i : Nat) : Int) = ((s.count - i : Nat) : Int) :=
        conv_int_small (by omega) (by omega)
    have hne : ((s.count : Int) = 20) = False := eq_false (by omega)
    generalize s.count - i = k at *
    generalize s.count + 1 = m1 at *
    simp only [Src.defer_aux__sched, List.replicate, List.cons_append, List.nil_append]
    rw [exec_seq_next (s' := ⟨[v, t, .undef, .undef, .undef, .undef, .undef], h⟩) (by simp [csrc])]
    rw [exec_seq_next (s' := ⟨[v, t, .undef, .undef, .undef, .undef, .undef], h⟩)
      (by simp [csrc, hcnt, cc, c20, hne, CVal.ofBool])]
    rw [exec_seq_next (s' := ⟨[v, t, .undef, .int s.count, .undef, .undef, .undef], h⟩) (by simp [csrc, hcnt])]
    rw [exec_seq_next e1']
    rw [exec_seq_next (s' := ⟨[v, t, c', .int i, .int k, .undef, .undef], h⟩)
      (by simp [csrc, hcnt, cc, ci, sub2, ck, convTo])]
    rw [exec_seq_next x1]
    simp [csrc, ci, p3, hst0, hst1, hv, ht, hcnt2, cc, add2, cc1, schedErr]

end
end Mu.CS
