import Verif.Lemmas.SrcBBufReverse

/-! # `mu_bbuf_rrotate` and `mu_bbuf_copy_into`, from the parsed source -/

namespace Mu.CS

open BBuf

variable {A : Arch} {X : Ext}

theorem FunDef.run_mem2 {A : Arch} {K : Calls} {fuel : Nat} {d : FunDef} {i n j m : Nat}
    (hm : d.mems = [(i, n), (j, m)]) (hv : d.va = none) (h : Heap) (args : List CVal) :
    d.run A K fuel h args = (do
      let (f, s) ← exec A K fuel d.body
        ⟨((args.take d.params ++ List.replicate d.locals CVal.undef).set i (.ptr (.obj h.next) 0)).set j
          (.ptr (.obj (h.next + 1)) 0), (h.alloc n).alloc m⟩
      .ok (f.result, s.h.release h.next)) := by
  simp [FunDef.run, hm, hv, allocs, allocVa, Heap.alloc]

/-- Not one of the objects that a function may take for its locals. -/
def Old (h : Heap) (b : Base) : Prop := ∀ k, b = .obj k → k < h.next

theorem old_or (h : Heap) (b : Base) : (∃ k, b = .obj k ∧ h.next ≤ k) ∨ Old h b := by
  cases b with
  | obj k =>
    by_cases hk : h.next ≤ k
    · exact Or.inl ⟨k, rfl, hk⟩
    · exact Or.inr (fun k' e => by cases e; omega)
  | lit s => exact Or.inr (fun k e => by cases e)
  | glob g => exact Or.inr (fun k e => by cases e)

theorem Heap.Fresh.old {h : Heap} (hf : h.Fresh) {b : Base} {o : Int} (e : (h.at b o).isSome = true) :
    Old h b := by
  rcases old_or h b with ⟨k, rfl, hk⟩ | hb
  · unfold Heap.at at e
    have h1 : h.cells (.obj k) = [] := hf k hk
    rw [h1] at e
    simp at e
  · exact hb

/-- What happened to new objects is not seen after the return. -/
theorem Heap.Only.leave {S : Base → Int → Prop} {h h' : Heap} (hf : h.Fresh)
    (e : ∀ b o, Old h b → ¬ S b o → h'.at b o = h.at b o)
    (e2 : ∀ b, Old h b → (h'.cells b).length = (h.cells b).length) :
    Heap.Only S h (h'.release h.next) := by
  refine ⟨?_, ?_, rfl⟩
  · intro b o hs
    rcases old_or h b with ⟨k, rfl, hk⟩ | hb
    · have h1 : h.cells (.obj k) = [] := hf k hk
      unfold Heap.at
      rw [Heap.cells_release_ge hk, h1]
    · have := e b o hb hs
      unfold Heap.at at this ⊢
      rw [Heap.at_release_of_lt hb]; exact this
  · intro b
    rcases old_or h b with ⟨k, rfl, hk⟩ | hb
    · have h1 : h.cells (.obj k) = [] := hf k hk
      rw [Heap.cells_release_ge hk, h1]
    · rw [Heap.at_release_of_lt hb, e2 b hb]

theorem Heap.at_release {h : Heap} {n : Nat} {b : Base} {o : Int} (hb : ∀ k, b = .obj k → k < n) :
    (h.release n).at b o = h.at b o := by
  unfold Heap.at; rw [Heap.at_release_of_lt hb]

section
variable {h h' : Heap} {b bb : Base} {o ob : Int} {l l2 : List UInt8}

theorem Heap.Bytes.append (h1 : h.Bytes b o l) (h2 : h.Bytes b (o + l.length) l2) :
    h.Bytes b o (l ++ l2) := by
  obtain ⟨a1, a2, a3⟩ := h1
  obtain ⟨b1, b2, b3⟩ := h2
  refine ⟨a1, by simp; omega, ?_⟩
  intro i c e
  by_cases hi : i < l.length
  · rw [List.getElem?_append_left hi] at e; exact a3 i c e
  · rw [List.getElem?_append_right (by omega)] at e
    have := b3 _ _ e
    rw [show o + (l.length : Int) + ((i - l.length : Nat) : Int) = o + i by omega] at this
    exact this

theorem Heap.Bytes.congr (h1 : h.Bytes b o l) (e : h'.cells b = h.cells b) : h'.Bytes b o l := by
  refine ⟨h1.1, by rw [e]; exact h1.2.1, fun i c hc => ?_⟩
  have := h1.2.2 i c hc
  unfold Heap.at at this ⊢
  rw [e]; exact this

theorem Heap.BBuf.congr (h1 : h.BBuf b o bb ob l) (e : h'.cells b = h.cells b)
    (e2 : h'.cells bb = h.cells bb) : h'.BBuf b o bb ob l := by
  refine ⟨?_, ?_, h1.bytes.congr e2⟩
  · have := h1.ptr
    unfold Heap.at at this ⊢
    rw [e]; exact this
  · have := h1.cap
    unfold Heap.at at this ⊢
    rw [e]; exact this

/-! ## The loops that reduce the shift -/

theorem rrotate_loop1 (KK : Calls) (N : Nat) (v v3 v4 : CVal) (h : Heap) {c : Nat} (hc : 0 < c)
    (hcm : (c : Int) ≤ A.intMax) :
    ∀ (fuel : Nat) (s : Int), A.InInt s → s.natAbs < fuel → ∃ s' : Int, A.InInt s' ∧ s' < c ∧
      s'.natAbs ≤ s.natAbs ∧ s' % c = s % c ∧
      Src.mu_bbuf_rrotate_loop1.rounds A KK N fuel ⟨[v, .int s, .int c, v3, v4], h⟩ =
        .ok (.next, ⟨[v, .int s', .int c, v3, v4], h⟩) := by
  have hmin := A.intMin_eq
  have hmax := A.intMax_ge
  have cc : IT.conv ⟨A.ib, true⟩ (c : Int) = c := conv_int ⟨by omega, by omega⟩
  intro fuel
  induction fuel with
  | zero => intro s _ hs; omega
  | succ fuel ih =>
    intro s hin hs
    have cs : IT.conv ⟨A.ib, true⟩ s = s := conv_int hin
    obtain ⟨hi1, hi2⟩ := hin
    by_cases hlt : s < c
    · refine ⟨s, ⟨hi1, hi2⟩, hlt, Nat.le_refl _, rfl, ?_⟩
      have hcond : ((c : Int) ≤ s) = False := by simp; omega
      apply Stmt.rounds_exit
      simp [csrc, Src.mu_bbuf_rrotate_loop1, Stmt.cond, cs, cc, hcond]
    · have hcond : ((c : Int) ≤ s) = True := by simp; omega
      obtain ⟨s', a1, a2, a3, a4, a5⟩ := ih (s - c) ⟨by omega, by omega⟩ (by omega)
      refine ⟨s', a1, a2, by omega, ?_, ?_⟩
      · rw [a4, Int.sub_emod_right]
      · rw [← a5]
        have e1 : A.int (s - c) = .ok (s - c) := Plat.int_ok (by omega) (by omega)
        have e2 : IT.conv ⟨A.ib, true⟩ (s - c) = s - c := conv_int ⟨by omega, by omega⟩
        apply Stmt.rounds_next
        · simp [csrc, Src.mu_bbuf_rrotate_loop1, Stmt.cond, cs, cc, hcond]
          rfl
        · simp [csrc, Src.mu_bbuf_rrotate_loop1, Stmt.body, cs, cc, e1, e2]
          rfl
        · rfl

theorem rrotate_loop2 (KK : Calls) (N : Nat) (v v3 v4 : CVal) (h : Heap) {c : Nat} (hc : 0 < c)
    (hcm : (c : Int) ≤ A.intMax) :
    ∀ (fuel : Nat) (s : Int), A.InInt s → s < c → s.natAbs < fuel → ∃ s' : Int, 0 ≤ s' ∧ s' < c ∧
      s' % c = s % c ∧
      Src.mu_bbuf_rrotate_loop2.rounds A KK N fuel ⟨[v, .int s, .int c, v3, v4], h⟩ =
        .ok (.next, ⟨[v, .int s', .int c, v3, v4], h⟩) := by
  have hmin := A.intMin_eq
  have hmax := A.intMax_ge
  have cc : IT.conv ⟨A.ib, true⟩ (c : Int) = c := conv_int ⟨by omega, by omega⟩
  intro fuel
  induction fuel with
  | zero => intro s _ _ hs; omega
  | succ fuel ih =>
    intro s hin hsc hs
    have cs : IT.conv ⟨A.ib, true⟩ s = s := conv_int hin
    obtain ⟨hi1, hi2⟩ := hin
    by_cases hlt : s < 0
    · have hcond : (s < 0) = True := by simp; omega
      have e1 : A.int (s + c) = .ok (s + c) := Plat.int_ok (by omega) (by omega)
      have e2 : IT.conv ⟨A.ib, true⟩ (s + c) = s + c := conv_int ⟨by omega, by omega⟩
      have key : ∃ s' : Int, 0 ≤ s' ∧ s' < c ∧ s' % c = (s + c) % c ∧
          Src.mu_bbuf_rrotate_loop2.rounds A KK N fuel ⟨[v, .int (s + c), .int c, v3, v4], h⟩ =
            .ok (.next, ⟨[v, .int s', .int c, v3, v4], h⟩) := by
        by_cases h0 : s + c < 0
        · exact ih (s + c) ⟨by omega, by omega⟩ (by omega) (by omega)
        · refine ⟨s + c, by omega, by omega, rfl, ?_⟩
          have hcond' : (s + c < 0) = False := by simp; omega
          obtain ⟨fuel, rfl⟩ : ∃ f, fuel = f + 1 := ⟨fuel - 1, by omega⟩
          apply Stmt.rounds_exit
          simp [csrc, Src.mu_bbuf_rrotate_loop2, Stmt.cond, e2, cc, hcond']
      obtain ⟨s', a2, a3, a4, a5⟩ := key
      refine ⟨s', a2, a3, ?_, ?_⟩
      · rw [a4, Int.add_emod_right]
      · rw [← a5]
        apply Stmt.rounds_next
        · simp [csrc, Src.mu_bbuf_rrotate_loop2, Stmt.cond, cs, cc, hcond]
          rfl
        · simp [csrc, Src.mu_bbuf_rrotate_loop2, Stmt.body, cs, cc, e1, e2]
          rfl
        · rfl
    · refine ⟨s, by omega, hsc, rfl, ?_⟩
      have hcond : (s < 0) = False := by simp; omega
      apply Stmt.rounds_exit
      simp [csrc, Src.mu_bbuf_rrotate_loop2, Stmt.cond, cs, cc, hcond]

theorem rrotate_loop1_zero (KK : Calls) (N : Nat) (v v3 v4 : CVal) (h : Heap) {s : Int} (hs : 0 ≤ s)
    (hin : A.InInt s) : ∀ fuel : Nat,
      Src.mu_bbuf_rrotate_loop1.rounds A KK N fuel ⟨[v, .int s, .int 0, v3, v4], h⟩ = .error .diverge := by
  have cs : IT.conv ⟨A.ib, true⟩ s = s := conv_int hin
  intro fuel
  induction fuel with
  | zero => rfl
  | succ fuel ih =>
    rw [← ih]
    have e1 : A.int s = .ok s := Plat.int_ok hin.1 hin.2
    apply Stmt.rounds_next
    · simp [csrc, Src.mu_bbuf_rrotate_loop1, Stmt.cond, cs, hs]
      rfl
    · simp [csrc, Src.mu_bbuf_rrotate_loop1, Stmt.body, cs, e1]
      rfl
    · rfl

theorem rrotate_loop2_zero (KK : Calls) (N : Nat) (v v3 v4 : CVal) (h : Heap) {s : Int} (hs : s < 0)
    (hin : A.InInt s) : ∀ fuel : Nat,
      Src.mu_bbuf_rrotate_loop2.rounds A KK N fuel ⟨[v, .int s, .int 0, v3, v4], h⟩ = .error .diverge := by
  have cs : IT.conv ⟨A.ib, true⟩ s = s := conv_int hin
  intro fuel
  induction fuel with
  | zero => rfl
  | succ fuel ih =>
    rw [← ih]
    have e1 : A.int s = .ok s := Plat.int_ok hin.1 hin.2
    apply Stmt.rounds_next
    · simp [csrc, Src.mu_bbuf_rrotate_loop2, Stmt.cond, cs, hs]
      rfl
    · simp [csrc, Src.mu_bbuf_rrotate_loop2, Stmt.body, cs, e1]
      rfl
    · rfl

theorem Heap.Only.at_of {S : Base → Int → Prop} {h h' : Heap} (e : Heap.Only S h h') {b : Base} {o : Int}
    {v : CVal} (hv : h.at b o = some v) (hs : ¬ S b o) : h'.at b o = some v := by
  rw [e.cell _ _ hs]; exact hv

/-- `mu_bbuf_rrotate` on a buffer that is not empty. -/
theorem src_rrotate (n : Nat) (h1 : h.BBuf b o bb ob l) (hw : bb.isLit = false)
    (ha : Apart b o 2 bb ob l.length) (s1 : Short A l) (h0 : l ≠ []) (hf : h.Fresh) {shift : Int}
    (hin : A.InInt shift) (hn : l.length + shift.natAbs + 2 ≤ n) :
    ∃ h' s, sem A X prog (n + 1) .mu_bbuf_rrotate h [.ptr b o, .int shift] = .ok (.ptr b o, h') ∧
      s < l.length ∧ ((s : Nat) : Int) = shift % (l.length : Int) ∧
      h'.Bytes bb ob (l.drop (l.length - s) ++ l.take (l.length - s)) ∧
      Heap.Only (span bb ob l.length) h h' := by
  have hmin := A.intMin_eq
  have hmax := A.intMax_ge
  have hszm := A.intMax_lt_szMod
  have s1' : (l.length : Int) ≤ A.intMax := s1
  have hpos : 0 < l.length := List.length_pos_iff.mpr h0
  have hob : Old h b := hf.old (o := o) (by rw [h1.ptr]; rfl)
  have hobb : Old h bb := hf.old (h1.bytes.isSome hpos)
  have hnb : b ≠ .obj h.next ∧ b ≠ .obj (h.next + 1) :=
    ⟨fun e => by have := hob _ e; omega, fun e => by have := hob _ e; omega⟩
  have hnbb : bb ≠ .obj h.next ∧ bb ≠ .obj (h.next + 1) :=
    ⟨fun e => by have := hobb _ e; omega, fun e => by have := hobb _ e; omega⟩
  have hcell : ∀ c : Base, c ≠ .obj h.next ∧ c ≠ .obj (h.next + 1) →
      ((h.alloc 2).alloc 2).cells c = h.cells c := by
    intro c hc
    rw [Heap.cells_alloc_ne (by simpa [Heap.alloc] using hc.2), Heap.cells_alloc_ne hc.1]
  have k1 := h1.congr (hcell b hnb) (hcell bb hnbb)
  have rl : Room2 ((h.alloc 2).alloc 2) (.obj h.next) 0 := by
    refine ⟨rfl, ?_, ?_⟩ <;>
    · rw [Heap.at_alloc_ne (by simp [Heap.alloc])]
      exact Heap.at_alloc_new.mpr ⟨by omega, by omega⟩
  have rr : Room2 ((h.alloc 2).alloc 2) (.obj (h.next + 1)) 0 := by
    have e : (h.alloc 2).next = h.next + 1 := rfl
    refine ⟨rfl, ?_, ?_⟩ <;>
    · rw [← e]
      exact Heap.at_alloc_new.mpr ⟨by omega, by omega⟩
  rw [sem_succ (d := Src.mu_bbuf_rrotate) rfl, FunDef.run_mem2 rfl rfl]
  have hcells2 : ∀ c, Old h c → ((h.alloc 2).alloc 2).cells c = h.cells c := by
    intro c hc
    exact hcell c ⟨fun e => by have := hc _ e; omega, fun e => by have := hc _ e; omega⟩
  generalize (h.alloc 2).alloc 2 = g at *
  generalize hK : (⟨sem A X prog n, X.cb (sem A X prog n)⟩ : Calls) = KK
  obtain ⟨t, b1, b2, b3, b4, b5⟩ := rrotate_loop1 (A := A) KK n (.ptr b o) (.ptr (.obj h.next) 0)
    (.ptr (.obj (h.next + 1)) 0) g hpos s1' n shift hin (by omega)
  obtain ⟨s, d1, d2, d3, d4⟩ := rrotate_loop2 (A := A) KK n (.ptr b o) (.ptr (.obj h.next) 0)
    (.ptr (.obj (h.next + 1)) 0) g hpos s1' n t b1 b2 (by omega)
  have b5' : exec A KK n Src.mu_bbuf_rrotate_loop1 ⟨[.ptr b o, .int shift, .int l.length,
    .ptr (.obj h.next) 0, .ptr (.obj (h.next + 1)) 0], g⟩ = _ := b5
  have d4' : exec A KK n Src.mu_bbuf_rrotate_loop2 ⟨[.ptr b o, .int t, .int l.length,
    .ptr (.obj h.next) 0, .ptr (.obj (h.next + 1)) 0], g⟩ = _ := d4
  obtain ⟨s, rfl⟩ := Int.eq_ofNat_of_zero_le d1
  have hs : ((s : Nat) : Int) = shift % (l.length : Int) := by
    rw [← b4, ← d3, Int.emod_eq_of_lt d1 d2]
  have cl : IT.conv ⟨A.ib, true⟩ (l.length : Int) = l.length := conv_int ⟨by omega, by omega⟩
  have csn : IT.conv ⟨A.ib, true⟩ (s : Int) = s := conv_int ⟨by omega, by omega⟩
  have e0 := k1.ptr
  have e1 := k1.cap
  by_cases hs0 : s = 0
  · subst hs0
    refine ⟨g.release h.next, 0, ?_, hpos, hs, ?_, ?_⟩
    · simp only [Int.natCast_zero] at d4'
      simp [csrc, Src.mu_bbuf_rrotate, e0, e1, cl, b5', d4']
    · simp only [Nat.sub_zero, List.drop_length, List.take_length, List.nil_append]
      exact k1.bytes.congr (Heap.at_release_of_lt hobb)
    · refine Heap.Only.leave hf (fun c o' hc _ => ?_) (fun c hc => ?_)
      · unfold Heap.at; rw [hcells2 c hc]
      · rw [hcells2 c hc]
  · -- reverse everything
    obtain ⟨g1, f1, f2, f3⟩ := src_reverse (A := A) (X := X) (n - 1) k1 hw (by omega) h0 (by omega)
    have k2 := k1.write ha f3 f2 (by simp)
    -- split
    have rl2 : Room2 g1 (.obj h.next) 0 := f3.room rl
    have rr2 : Room2 g1 (.obj (h.next + 1)) 0 := f3.room rr
    have s2 : Short A l.reverse := by simpa [Short] using s1'
    obtain ⟨g2, q1, q2, q3, q4⟩ := C121_bisect A X (n - 2) g1 b bb o ob l.reverse
      (.ptr (.obj h.next) 0) (.ptr (.obj (h.next + 1)) 0) s k2 s2
      (.inr ⟨_, _, rfl, rl2, .inr (.inl (Ne.symm hnb.1))⟩)
      (.inr ⟨_, _, rfl, rr2, .inr (.inl (Ne.symm hnb.2))⟩)
      (by intro c o1 c2 o2 e e2; cases e; cases e2; exact .inl (by simp))
      (by intro c o1 e; cases e; exact .inl (Ne.symm hnbb.1))
      (by intro c o1 e; cases e; exact .inl (Ne.symm hnbb.2))
      (by simp) (by omega)
    have hpos' : position l.reverse.length (s : Int) = s := by
      unfold position; rw [if_neg (by omega), List.length_reverse]; omega
    rw [hpos'] at q2 q3
    have k3 := q2 _ _ rfl
    have k4 := q3 _ _ rfl
    have hl3 : (l.reverse.take s).length = s := by simp; omega
    have hl4 : (l.reverse.drop s).length = l.length - s := by simp
    -- reverse the left part
    obtain ⟨g3, u1, u2, u3⟩ := src_reverse (A := A) (X := X) (n - 1) k3 hw (by omega)
      (List.length_pos_iff.mp (by omega)) (by omega)
    rw [hl3] at u3
    have k5 : g3.BBuf (.obj (h.next + 1)) 0 bb (ob + s) (l.reverse.drop s) := by
      refine ⟨u3.at_of k4.ptr ?_, u3.at_of k4.cap ?_, u3.bytes k4.bytes ?_⟩
      · rintro ⟨e, -⟩; exact hnbb.2 e.symm
      · rintro ⟨e, -⟩; exact hnbb.2 e.symm
      · rintro i hi ⟨-, x, y⟩; omega
    -- reverse the right part
    obtain ⟨g4, w1, w2, w3⟩ := src_reverse (A := A) (X := X) (n - 1) k5 hw (by omega)
      (List.length_pos_iff.mp (by omega)) (by omega)
    rw [hl4] at w3
    have u4 : g4.Bytes bb ob (l.reverse.take s).reverse := by
      refine w3.bytes u2 ?_
      rintro i hi ⟨-, x, y⟩
      rw [List.length_reverse, hl3] at hi
      omega
    have hfin : g4.Bytes bb ob (l.drop (l.length - s) ++ l.take (l.length - s)) := by
      have := u4.append (l2 := (l.reverse.drop s).reverse) (by
        rw [List.length_reverse, hl3]; exact w2)
      have ea : (l.reverse.take s).reverse = l.drop (l.length - s) := by
        rw [List.take_reverse, List.reverse_reverse]
      have eb : (l.reverse.drop s).reverse = l.take (l.length - s) := by
        rw [List.drop_reverse, List.reverse_reverse]
      rw [ea, eb] at this
      exact this
    refine ⟨g4.release h.next, s, ?_, by omega, hs, ?_, ?_⟩
    · have m1 : KK.fn .mu_bbuf_reverse g [.ptr b o] = .ok (.ptr b o, g1) := by
        rw [show n - 1 + 1 = n by omega] at f1; subst hK; exact f1
      have m2 : KK.fn .mu_bbuf_bisect g1 [.ptr (.obj h.next) 0, .ptr (.obj (h.next + 1)) 0, .ptr b o, .int s] =
          .ok (.ptr b o, g2) := by
        rw [show n - 2 + 2 = n by omega] at q1; subst hK; exact q1
      have m3 : KK.fn .mu_bbuf_reverse g2 [.ptr (.obj h.next) 0] = .ok (.ptr (.obj h.next) 0, g3) := by
        rw [show n - 1 + 1 = n by omega] at u1; subst hK; exact u1
      have m4 : KK.fn .mu_bbuf_reverse g3 [.ptr (.obj (h.next + 1)) 0] =
          .ok (.ptr (.obj (h.next + 1)) 0, g4) := by
        rw [show n - 1 + 1 = n by omega] at w1; subst hK; exact w1
      have hsp : (0 < s) = True := by simp; omega
      simp [csrc, Src.mu_bbuf_rrotate, e0, e1, cl, b5', d4', csn, hsp, m1, m2, m3, m4]
    · exact hfin.congr (Heap.at_release_of_lt hobb)
    · refine Heap.Only.leave hf (fun c o' hc hS => ?_) (fun c hc => ?_)
      · rw [w3.cell, u3.cell, q4.cell, f3.cell]
        · unfold Heap.at; rw [hcells2 c hc]
        · exact hS
        · rintro (⟨c2, o2, e, e2, -⟩ | ⟨c2, o2, e, e2, -⟩)
          · cases e; have := hc _ e2; omega
          · cases e; have := hc _ e2; omega
        · rintro ⟨x, y, z⟩; exact hS ⟨x, y, by omega⟩
        · rintro ⟨x, y, z⟩; exact hS ⟨x, by omega, by omega⟩
      · rw [w3.size, u3.size, q4.size, f3.size, hcells2 c hc]

/-- `mu_bbuf_rrotate` on an empty buffer runs out of any amount of fuel. -/
theorem src_rrotate_empty (n : Nat) (h1 : h.BBuf b o bb ob []) (hf : h.Fresh) {shift : Int}
    (hin : A.InInt shift) :
    sem A X prog n .mu_bbuf_rrotate h [.ptr b o, .int shift] = .error .diverge := by
  have hmin := A.intMin_eq
  have hmax := A.intMax_ge
  cases n with
  | zero => rfl
  | succ n =>
  have hob : Old h b := hf.old (o := o) (by rw [h1.ptr]; rfl)
  have e1 : ((h.alloc 2).alloc 2).at b (o + 1) = some (.int 0) := by
    rw [Heap.at_alloc_ne (by intro e; have := hob (h.next + 1) e; omega),
      Heap.at_alloc_ne (by intro e; have := hob _ e; omega)]
    exact h1.cap
  rw [sem_succ (d := Src.mu_bbuf_rrotate) rfl, FunDef.run_mem2 rfl rfl]
  generalize (h.alloc 2).alloc 2 = g at *
  generalize hK : (⟨sem A X prog n, X.cb (sem A X prog n)⟩ : Calls) = KK
  by_cases hs : 0 ≤ shift
  · have := rrotate_loop1_zero (A := A) KK n (.ptr b o) (.ptr (.obj h.next) 0)
      (.ptr (.obj (h.next + 1)) 0) g hs hin n
    have d4' : exec A KK n Src.mu_bbuf_rrotate_loop1 ⟨[.ptr b o, .int shift, .int 0,
      .ptr (.obj h.next) 0, .ptr (.obj (h.next + 1)) 0], g⟩ = _ := this
    simp [csrc, Src.mu_bbuf_rrotate, e1, d4']
  · cases n with
    | zero =>
      have d4' : exec A KK 0 Src.mu_bbuf_rrotate_loop1 ⟨[.ptr b o, .int shift, .int 0,
        .ptr (.obj h.next) 0, .ptr (.obj (h.next + 1)) 0], g⟩ = .error .diverge := rfl
      simp [csrc, Src.mu_bbuf_rrotate, e1, d4']
    | succ n =>
      have d5 : exec A KK (n + 1) Src.mu_bbuf_rrotate_loop1 ⟨[.ptr b o, .int shift, .int 0,
        .ptr (.obj h.next) 0, .ptr (.obj (h.next + 1)) 0], g⟩ = .ok (.next, ⟨[.ptr b o, .int shift, .int 0,
        .ptr (.obj h.next) 0, .ptr (.obj (h.next + 1)) 0], g⟩) := by
        show Src.mu_bbuf_rrotate_loop1.rounds A KK (n + 1) (n + 1) _ = _
        have cs : IT.conv ⟨A.ib, true⟩ shift = shift := conv_int hin
        have hcond : (0 ≤ shift) = False := by simp; omega
        apply Stmt.rounds_exit
        simp [csrc, Src.mu_bbuf_rrotate_loop1, Stmt.cond, cs, hcond]
      have := rrotate_loop2_zero (A := A) KK (n + 1) (.ptr b o) (.ptr (.obj h.next) 0)
        (.ptr (.obj (h.next + 1)) 0) g (by omega : shift < 0) hin (n + 1)
      have d4' : exec A KK (n + 1) Src.mu_bbuf_rrotate_loop2 ⟨[.ptr b o, .int shift, .int 0,
        .ptr (.obj h.next) 0, .ptr (.obj (h.next + 1)) 0], g⟩ = _ := this
      simp [csrc, Src.mu_bbuf_rrotate, e1, d5, d4']

set_option maxHeartbeats 1000000 in
/-- `mu_bbuf_copy_into` never copies. -/
theorem src_copy_into (n : Nat) {b2 : Base} {o2 : Int} {k1 k2 : Nat} (hd : h.at b (o + 1) = some (.int k1))
    (hs : h.at b2 (o2 + 1) = some (.int k2)) (z1 : k1 < A.szMod) (z2 : k2 < A.szMod) {off : Int}
    (hin : A.InInt off) :
    sem A X prog (n + 2) .mu_bbuf_copy_into h [.ptr b o, .ptr b2 o2, .int off] =
      if off = A.intMin then .error .overflow
      else if (0 < off ∧ (k1 : Int) ≤ off) ∨ (off < 0 ∧ (k2 : Int) ≤ -off) then .ok (.int 0, h)
      else .error .uninit := by
  have hmin := A.intMin_eq
  have hmax := A.intMax_ge
  have hszm := A.intMax_lt_szMod
  obtain ⟨i1, i2⟩ := hin
  have cs : IT.conv ⟨A.ib, true⟩ off = off := conv_int ⟨i1, i2⟩
  rw [sem_succ (d := Src.mu_bbuf_copy_into) rfl, FunDef.run_regs rfl rfl]
  generalize hK : (⟨sem A X prog (n + 1), X.cb (sem A X prog (n + 1))⟩ : Calls) = KK
  have c1 : KK.fn .mu_bbuf_capacity h [.ptr b o] = .ok (.int k1, h) := by
    subst hK
    show sem A X prog (n + 1) .mu_bbuf_capacity h _ = _
    rw [sem_succ (d := Src.mu_bbuf_capacity) rfl, FunDef.run_regs rfl rfl]
    simp [csrc, Src.mu_bbuf_capacity, hd]
  have c2 : KK.fn .mu_bbuf_capacity h [.ptr b2 o2] = .ok (.int k2, h) := by
    subst hK
    show sem A X prog (n + 1) .mu_bbuf_capacity h _ = _
    rw [sem_succ (d := Src.mu_bbuf_capacity) rfl, FunDef.run_regs rfl rfl]
    simp [csrc, Src.mu_bbuf_capacity, hs]
  have z1' : IT.conv ⟨A.sb, false⟩ (k1 : Int) = k1 := conv_size_lt z1
  have z2' : IT.conv ⟨A.sb, false⟩ (k2 : Int) = k2 := conv_size_lt z2
  by_cases hp : 0 < off
  · obtain ⟨k, rfl⟩ := Int.eq_ofNat_of_zero_le (Int.le_of_lt hp)
    have ck : IT.conv ⟨A.sb, false⟩ (k : Int) = k := conv_size_lt (by omega)
    have hp' : (0 < k) = True := by simp; omega
    rw [if_neg (by omega)]
    by_cases hc : k1 ≤ k
    · have hc' : (k1 ≤ k) = True := by simp [hc]
      rw [if_pos (by omega)]
      simp [csrc, Src.mu_bbuf_copy_into, c1, c2, cs, ck, hp', hc', z1', z2']
    · have hc' : (k1 ≤ k) = False := by simp [hc]
      rw [if_neg (by omega)]
      simp [csrc, Src.mu_bbuf_copy_into, c1, c2, cs, ck, hp', hc', z1', z2', CVal.use]
  · have hp' : (0 < off) = False := by simp; omega
    by_cases hz : off = 0
    · subst hz
      rw [if_neg (by omega), if_neg (by omega)]
      simp [csrc, Src.mu_bbuf_copy_into, c1, c2, CVal.use]
    · have hlt : (off < 0) = True := by simp; omega
      by_cases hm : off = A.intMin
      · rw [if_pos hm]
        have en : IT.arith ⟨A.ib, true⟩ (-off) = .error .overflow := by
          show A.int (-off) = _
          unfold Plat.int
          rw [if_neg (by omega)]
        simp [csrc, Src.mu_bbuf_copy_into, c1, c2, cs, hp', hlt, en]
      · rw [if_neg hm]
        obtain ⟨k, hk⟩ := Int.eq_ofNat_of_zero_le (show 0 ≤ -off by omega)
        have en : IT.arith ⟨A.ib, true⟩ (-off) = .ok (k : Int) := by
          have : A.int (-off) = .ok (-off) := Plat.int_ok (by omega) (by omega)
          show A.int (-off) = _
          rw [this, hk]
        have ck : IT.conv ⟨A.sb, false⟩ (k : Int) = k := conv_size_lt (by omega)
        by_cases hc : k2 ≤ k
        · have hc' : (k2 ≤ k) = True := by simp [hc]
          rw [if_pos (by omega)]
          simp [csrc, Src.mu_bbuf_copy_into, c1, c2, cs, ck, hp', hlt, en, hc', z1', z2']
        · have hc' : (k2 ≤ k) = False := by simp [hc]
          have esub : A.szSub k2 k = k2 - k := by
            unfold Plat.szSub
            rw [show (k2 : Int) - k = ((k2 - k : Nat) : Int) by omega]
            exact toSz_nat (by omega)
          have hne : (k2 - k = 0) = False := by
            simp only [eq_iff_iff, iff_false]; omega
          have hu : CVal.undef.use = .error .uninit := rfl
          rw [if_neg (by omega)]
          generalize k2 - k = kk at *
          simp [csrc, Src.mu_bbuf_copy_into, c1, c2, cs, ck, hp', hlt, en, hc', z1', z2', hu, esub, hne]

end

end Mu.CS
