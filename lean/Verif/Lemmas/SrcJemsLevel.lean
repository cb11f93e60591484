import Verif.Lemmas.SrcJemsText

/-! # The parsed source of mu_jems.c: levels -/

namespace Mu.CS

open Mu.Jems (Jems Level Emit WF sep bump)
open Mu.Jems.Spec

variable {A : Arch} {X : Ext} {E : Emitter} {h h' : Heap} {j j' : Jems}

theorem src_level_ref (n : Nat) {k : Nat} (p : E.Placed A h) (hk : k < E.len) (f0 : h.at E.b E.o = some (.ptr E.lb E.lo))
    (f2 : h.at E.b (E.o + 2) = some (.int k)) :
    sem A X prog (n + 1) .level_ref__jems h [.ptr E.b E.o] = .ok (.ptr E.lb (E.lo + (2 * k : Nat)), h) := by
  rw [sem_succ (d := Src.level_ref__jems) rfl, FunDef.run_regs rfl rfl]
  have hs := p.levels (2 * k) (by omega)
  have hs' : (h.at E.lb (E.lo + 2 * (k : Int))).isSome = true := by
    rwa [show E.lo + ((2 * k : Nat) : Int) = E.lo + 2 * (k : Int) by omega] at hs
  simp [csrc, Src.level_ref__jems, f0, f2, hs']

theorem Emitter.Placed.only (p : E.Placed A h) (e : Heap.Only E.Uses h h') : E.Placed A h' := by
  have sz : ∀ b o, (h.at b o).isSome = true → (h'.at b o).isSome = true := by
    intro b o hs
    rw [Heap.isSome_at] at hs ⊢
    rw [e.size b]
    exact hs
  refine ⟨?_, p.wr, p.wrl, fun i hi => sz _ _ (p.struct i hi), fun i hi => sz _ _ (p.levels i hi), p.apart, p.own,
    by rw [e.next]; exact p.old, p.arg, p.len, p.lit⟩
  intro k hk
  rw [e.next] at hk
  have h1 : h.mem (.obj k) = [] := p.fresh k hk
  have := e.size (.obj k)
  simp only [Heap.cells, h1, List.length_nil] at this
  exact List.eq_nil_of_length_eq_zero this

/-- The address of a level. -/
abbrev Emitter.lv (E : Emitter) (k : Nat) : Int := E.lo + (2 * k : Nat)

/-- Memory after level `k` has become the current one, with no items. -/
def Emitter.enter (E : Emitter) (h : Heap) (k : Nat) (ob : Bool) : Heap :=
  ((h.upd E.b (E.o + 2) (.int k)).upd E.lb (E.lv k) (.int 0)).upd E.lb (E.lv k + 1) (.ofBool ob)

theorem Emitter.own_curr (E : Emitter) : E.Own E.b (E.o + 2) := Or.inl ⟨rfl, by omega, by omega⟩

theorem Emitter.own_lv (E : Emitter) {k : Nat} (hk : k < E.len) : E.Own E.lb (E.lv k) :=
  Or.inr ⟨rfl, by simp only [Emitter.lv]; omega, by simp only [Emitter.lv]; omega⟩

theorem Emitter.own_lv1 (E : Emitter) {k : Nat} (hk : k < E.len) : E.Own E.lb (E.lv k + 1) :=
  Or.inr ⟨rfl, by simp only [Emitter.lv]; omega, by simp only [Emitter.lv]; omega⟩

theorem Emitter.enter_only (E : Emitter) {k : Nat} (hk : k < E.len) (ob : Bool) (h : Heap) :
    Heap.Only E.Own h (E.enter h k ob) :=
  (((Heap.Only.refl _ _).upd E.own_curr).upd (E.own_lv hk)).upd (E.own_lv1 hk)

/-- A struct member is not in the levels. -/
theorem Emitter.Placed.sep (p : E.Placed A h) (i k : Nat) (hi : i < 5) (hk : k < E.len) :
    ¬ (E.lb = E.b ∧ E.lv k = E.o + i) ∧ ¬ (E.lb = E.b ∧ E.lv k + 1 = E.o + i) := by
  refine ⟨fun e => p.apart i (2 * k) hi (by omega) ⟨e.1.symm, e.2.symm⟩,
    fun e => p.apart i (2 * k + 1) hi (by omega) ⟨e.1.symm, ?_⟩⟩
  rw [← e.2]
  simp only [Emitter.lv]
  omega

theorem Emitter.Placed.sep2 (p : E.Placed A h) (k : Nat) (hk : k < E.len) :
    ¬ (E.lb = E.b ∧ E.lv k = E.o + 2) ∧ ¬ (E.lb = E.b ∧ E.lv k + 1 = E.o + 2) := p.sep 2 k (by omega) hk

theorem Emitter.Placed.lvSome (p : E.Placed A h) {k : Nat} (hk : k < E.len) :
    (h.at E.lb (E.lv k)).isSome = true ∧ (h.at E.lb (E.lv k + 1)).isSome = true := by
  refine ⟨p.levels (2 * k) (by omega), ?_⟩
  have := p.levels (2 * k + 1) (by omega)
  rwa [show E.lo + ((2 * k + 1 : Nat) : Int) = E.lv k + 1 by simp only [Emitter.lv]; omega] at this

theorem Emitter.enter_at (p : E.Placed A h) {k : Nat} (hk : k < E.len) (ob : Bool) :
    (∀ i : Nat, i < 5 → i ≠ 2 → (E.enter h k ob).at E.b (E.o + i) = h.at E.b (E.o + i)) ∧
    (E.enter h k ob).at E.b (E.o + 2) = some (.int k) ∧
    (E.enter h k ob).at E.lb (E.lv k) = some (.int 0) ∧
    (E.enter h k ob).at E.lb (E.lv k + 1) = some (.ofBool ob) ∧
    ∀ i, i < E.len → i ≠ k → (E.enter h k ob).at E.lb (E.lv i) = h.at E.lb (E.lv i) ∧
      (E.enter h k ob).at E.lb (E.lv i + 1) = h.at E.lb (E.lv i + 1) := by
  have s2 : (h.at E.b (E.o + 2)).isSome = true := p.struct 2 (by omega)
  obtain ⟨l0, l1⟩ := p.lvSome hk
  have x2 := p.sep2 k hk
  refine ⟨fun i hi hne => ?_, ?_, ?_, ?_, fun i hi hne => ?_⟩
  · have x := p.sep i k hi hk
    unfold Emitter.enter
    rw [Heap.at_upd_sep x.2, Heap.at_upd_sep x.1, Heap.at_upd_ne (Or.inr (by omega))]
  · unfold Emitter.enter
    rw [Heap.at_upd_sep x2.2, Heap.at_upd_sep x2.1, Heap.at_upd_same p.wr s2]
  · unfold Emitter.enter
    rw [Heap.at_upd_ne (Or.inr (by omega)), Heap.at_upd_same p.wrl]
    rw [Heap.at_upd_sep (fun e => x2.1 ⟨e.1.symm, e.2.symm⟩)]
    exact l0
  · unfold Emitter.enter
    rw [Heap.at_upd_same p.wrl]
    rw [Heap.at_upd_ne (Or.inr (by omega)), Heap.at_upd_sep (fun e => x2.2 ⟨e.1.symm, e.2.symm⟩)]
    exact l1
  · have x := p.sep2 i hi
    unfold Emitter.enter
    constructor
    · rw [Heap.at_upd_ne (Or.inr (by simp only [Emitter.lv]; omega)), Heap.at_upd_ne (Or.inr (by simp only [Emitter.lv]; omega)),
        Heap.at_upd_sep (fun e => x.1 ⟨e.1.symm, e.2.symm⟩)]
    · rw [Heap.at_upd_ne (Or.inr (by simp only [Emitter.lv]; omega)), Heap.at_upd_ne (Or.inr (by simp only [Emitter.lv]; omega)),
        Heap.at_upd_sep (fun e => x.2 ⟨e.1.symm, e.2.symm⟩)]

/-- Level `k` has become the current one. -/
theorem Emitter.enter_rep {cb : Nat → SemFn} (hw : WriterOk A cb E) (p : E.Placed A h) {k : Nat} (ob : Bool)
    (f0 : h.at E.b E.o = some (.ptr E.lb E.lo)) (f1 : h.at E.b (E.o + 1) = some (.int j.maxLevel))
    (f3 : h.at E.b (E.o + 3) = some (.fn E.w)) (f4 : h.at E.b (E.o + 4) = some E.arg)
    (wf : WF A.toPlat { j with curr := k }) (len : j.levels.length = E.len)
    (items : ∀ i l, i < k → j.levels[i]? = some l → h.at E.lb (E.lo + (2 * i : Nat)) = some (.int l.itemCount) ∧
      h.at E.lb (E.lo + (2 * i + 1 : Nat)) = some (.ofBool l.isObject) ∧ l.itemCount < A.szMod)
    (inv : E.inv (j.out.map Emit.ch) h) :
    E.Rep A (E.enter h k ob) { j with curr := k, levels := j.levels.set k ⟨0, ob⟩ } := by
  have hk : k < E.len := by
    have h1 := wf.curr
    have h2 := wf.len
    simp only at h1 h2
    omega
  obtain ⟨a1, a2, a3, a4, a5⟩ := E.enter_at p hk ob
  have eo := E.enter_only hk ob h
  have lv1 : ∀ i, E.lo + ((2 * i + 1 : Nat) : Int) = E.lv i + 1 := fun i => by simp only [Emitter.lv]; omega
  refine ⟨p.only (eo.mono (fun _ _ hb => Or.inr hb)), ?_, (a1 1 (by omega) (by omega)).trans f1, a2,
    (a1 3 (by omega) (by omega)).trans f3, (a1 4 (by omega) (by omega)).trans f4,
    ⟨wf.writer, wf.curr, by simpa using wf.len, wf.max⟩, by simpa using len, ?_, ?_⟩
  · have := a1 0 (by omega) (by omega)
    rw [Int.natCast_zero, Int.add_zero] at this
    exact this.trans f0
  · intro i l hi hl
    simp only at hi hl
    by_cases he : i = k
    · subst he
      rw [List.getElem?_set_self (by omega)] at hl
      cases hl
      rw [lv1]
      exact ⟨a3, a4, Nat.two_pow_pos _⟩
    · rw [List.getElem?_set_ne (Ne.symm he)] at hl
      obtain ⟨x, y, z⟩ := items i l (by omega) hl
      have hil : i < E.len := by have := (List.getElem?_eq_some_iff.mp hl).1; omega
      rw [lv1] at y ⊢
      exact ⟨(a5 i hil he).1.trans x, (a5 i hil he).2.trans y, z⟩
  · exact hw.keep _ _ _ inv (fun b o hb => eo.cell _ _ (p.own b o hb))

set_option maxHeartbeats 1000000 in
theorem src_reset_any {n : Nat} (p : E.Placed A h) (h0 : 0 < E.len) (f0 : h.at E.b E.o = some (.ptr E.lb E.lo)) :
    sem A X prog (n + 2) .mu_jems_reset h [.ptr E.b E.o] = .ok (.ptr E.b E.o, E.enter h 0 false) := by
  have s2 : (h.at E.b (E.o + 2)).isSome = true := p.struct 2 (by omega)
  have g1 : (h.upd E.b (E.o + 2) (.int 0)).at E.b E.o = some (.ptr E.lb E.lo) := by
    rw [Heap.at_upd_ne (Or.inr (by omega))]; exact f0
  have g2 : (h.upd E.b (E.o + 2) (.int 0)).at E.b (E.o + 2) = some (.int (0 : Nat)) := by
    rw [Heap.at_upd_same p.wr s2]; rfl
  have o1 : Heap.Only E.Uses h (h.upd E.b (E.o + 2) (.int 0)) := (Heap.Only.refl _ _).upd (Or.inr E.own_curr)
  have p1 := p.only o1
  have r1 := src_level_ref (A := A) (X := X) n p1 h0 g1 g2
  have x0 : ¬ (E.lb = E.b ∧ E.lv 0 = E.o) := by
    have := (p.sep 0 0 (by omega) h0).1
    rwa [Int.natCast_zero, Int.add_zero] at this
  have x2 := p.sep2 0 h0
  have o2 : Heap.Only E.Uses h ((h.upd E.b (E.o + 2) (.int 0)).upd E.lb (E.lv 0) (.int 0)) := o1.upd (Or.inr (E.own_lv h0))
  have p2 := p.only o2
  have r2 := src_level_ref (A := A) (X := X) n p2 h0 ((Heap.at_upd_sep x0).trans g1) ((Heap.at_upd_sep x2.1).trans g2)
  have w1 := (p1.lvSome h0).1
  have w2 := fun v => Heap.store_in (v := v) p.wrl (p2.lvSome h0).2
  rw [sem_succ (d := Src.mu_jems_reset) rfl, FunDef.run_regs rfl rfl]
  unfold Emitter.enter
  rw [Int.natCast_zero]
  have l1 : E.lb.isLit = false := p.wrl
  have l2 : E.b.isLit = false := p.wr
  simp only [Emitter.lv] at *
  generalize E.lo + ((2 * 0 : Nat) : Int) = q at *
  generalize sem A X prog (n + 1) = S at *
  simp [csrc, Src.mu_jems_reset, s2, r1, r2, w1, w2, l1, l2]

set_option maxHeartbeats 1000000 in
theorem src_push_level {n n0 : Nat} (hw : E.Writes A X n0) (r : E.Rep A h j) (ob : Bool) :
    ∃ h' j', sem A X prog (n + 2) .push_level__jems h [.ptr E.b E.o, .ofBool ob] = .ok (.ptr E.b E.o, h') ∧
      Mu.Jems.pushLevel A.toPlat j ob = .ok j' ∧ E.Rep A h' j' ∧ Heap.Only E.Own h h' := by
  have p := r.placed
  have wf := r.wf
  have w1 := wf.curr
  have w2 := wf.len
  have w3 := wf.max
  have hl := r.len
  have w3' : j.maxLevel < A.szMod := w3
  have sm : A.szSub j.maxLevel 1 = j.maxLevel - 1 := Plat.szSub_of_le (by omega) (by omega)
  have c1 := conv_size_lt (A := A) (n := j.curr) (by omega)
  have c2 := conv_size_lt (A := A) (n := j.maxLevel) (by omega)
  have c3 := conv_size_lt (A := A) (n := j.maxLevel - 1) (by omega)
  have hone := conv_size_lt (A := A) (n := 1) (by have := szMod_ge A.toPlat; omega)
  rw [Int.natCast_one] at hone
  by_cases hc : j.curr < j.maxLevel - 1
  · have hk : j.curr + 1 < E.len := by omega
    have s2 : (h.at E.b (E.o + 2)).isSome = true := p.struct 2 (by omega)
    have sz1 : A.sz (j.curr + 1) = j.curr + 1 := Plat.sz_of_lt (by omega)
    refine ⟨E.enter h (j.curr + 1) ob, { j with curr := j.curr + 1, levels := j.levels.set (j.curr + 1) ⟨0, ob⟩ }, ?_, ?_,
      E.enter_rep (hw n0 (Nat.le_refl _)) p ob r.f0 r.f1 r.f3 r.f4 ⟨wf.writer, by simp only; omega, wf.len, wf.max⟩ r.len
        (fun i l hi e => r.items i l (by omega) e) r.inv, E.enter_only hk ob h⟩
    · have g1 : (h.upd E.b (E.o + 2) (.int (j.curr + 1 : Nat))).at E.b E.o = some (.ptr E.lb E.lo) := by
        rw [Heap.at_upd_ne (Or.inr (by omega))]; exact r.f0
      have g2 : (h.upd E.b (E.o + 2) (.int (j.curr + 1 : Nat))).at E.b (E.o + 2) = some (.int (j.curr + 1 : Nat)) := by
        rw [Heap.at_upd_same p.wr s2]
      have o1 : Heap.Only E.Uses h (h.upd E.b (E.o + 2) (.int (j.curr + 1 : Nat))) :=
        (Heap.Only.refl _ _).upd (Or.inr E.own_curr)
      have p1 := p.only o1
      have r1 := src_level_ref (A := A) (X := X) n p1 hk g1 g2
      have x0 : ¬ (E.lb = E.b ∧ E.lv (j.curr + 1) = E.o) := by
        have := (p.sep 0 (j.curr + 1) (by omega) hk).1
        rwa [Int.natCast_zero, Int.add_zero] at this
      have x2 := p.sep2 (j.curr + 1) hk
      have o2 : Heap.Only E.Uses h ((h.upd E.b (E.o + 2) (.int (j.curr + 1 : Nat))).upd E.lb (E.lv (j.curr + 1)) (.int 0)) :=
        o1.upd (Or.inr (E.own_lv hk))
      have p2 := p.only o2
      have r2 := src_level_ref (A := A) (X := X) n p2 hk ((Heap.at_upd_sep x0).trans g1) ((Heap.at_upd_sep x2.1).trans g2)
      have w1 := (p1.lvSome hk).1
      have w2 := fun v => Heap.store_in (v := v) p.wrl (p2.lvSome hk).2
      have add1 : AOp.run ⟨A.sb, false⟩ .add (j.curr : Int) 1 = .ok ((j.curr + 1 : Nat) : Int) := by
        have := conv_size_lt (A := A) (n := j.curr + 1) (by omega)
        rw [IT.conv_unsigned] at this
        simp only [AOp.run, IT.arith, Bool.false_eq_true, if_false]
        rw [← Int.natCast_succ, this]
      have c4 := conv_size_lt (A := A) (n := j.curr + 1) (by omega)
      have lt : ((j.curr : Nat) : Int) < ((j.maxLevel - 1 : Nat) : Int) := by omega
      have sm' := sub_size_one A j.maxLevel
      rw [sm] at sm'
      have f1 := r.f1
      have f2 := r.f2
      rw [sem_succ (d := Src.push_level__jems) rfl, FunDef.run_regs rfl rfl]
      unfold Emitter.enter
      have l1 : E.lb.isLit = false := p.wrl
      have l2 : E.b.isLit = false := p.wr
      simp only [Emitter.lv] at *
      generalize E.lo + ((2 * (j.curr + 1) : Nat) : Int) = q at *
      generalize sem A X prog (n + 1) = S at *
      generalize j.maxLevel - 1 = mm at *
      generalize j.curr + 1 = cc at *
      cases ob <;> simp [csrc, Src.push_level__jems, s2, r1, r2, w1, w2, l1, l2, c1, c2, c3, c4, f1, f2, sm', hone, add1, lt,
        COp.run, CVal.ofBool]
    · have hlt : j.curr + 1 < j.levels.length := by omega
      unfold Mu.Jems.pushLevel
      rw [sm, if_pos hc, sz1]
      unfold Mu.Jems.level Mu.Jems.setLevel
      simp only [ldN_ok hlt, C.ok_bind, stN_ok hlt]
      rw [ldN_some (List.getElem?_set_self hlt)]
      simp only [C.ok_bind]
      rw [stN_ok (by rw [List.length_set]; exact hlt)]
      simp
  · refine ⟨h, j, ?_, ?_, r, Heap.Only.refl _ _⟩
    · have sm' := sub_size_one A j.maxLevel
      rw [sm] at sm'
      have f1 := r.f1
      have f2 := r.f2
      have lt : ¬ ((j.curr : Nat) : Int) < ((j.maxLevel - 1 : Nat) : Int) := by omega
      rw [sem_succ (d := Src.push_level__jems) rfl, FunDef.run_regs rfl rfl]
      generalize sem A X prog (n + 1) = S at *
      generalize j.maxLevel - 1 = mm at *
      simp [csrc, Src.push_level__jems, c1, c2, c3, f1, f2, sm', hone, lt, COp.run, CVal.ofBool]
    · unfold Mu.Jems.pushLevel
      rw [sm, if_neg hc]

theorem src_pop_level {n n0 : Nat} (hw : E.Writes A X n0) (r : E.Rep A h j) :
    ∃ h', sem A X prog (n + 1) .pop_level__jems h [.ptr E.b E.o] = .ok (.ptr E.b E.o, h') ∧
      E.Rep A h' (Mu.Jems.popLevel A.toPlat j) ∧ Heap.Only E.Own h h' := by
  have p := r.placed
  have wf := r.wf
  have w1 := wf.curr
  have w2 := wf.len
  have w3 : j.maxLevel < A.szMod := wf.max
  have c1 := conv_size_lt (A := A) (n := j.curr) (by omega)
  have hone := conv_size_lt (A := A) (n := 1) (by have := szMod_ge A.toPlat; omega)
  have hzero := conv_size_lt (A := A) (n := 0) (by omega)
  rw [Int.natCast_one] at hone
  rw [Int.natCast_zero] at hzero
  have f2 := r.f2
  have l2 : E.b.isLit = false := p.wr
  have s2 : (h.at E.b (E.o + 2)).isSome = true := p.struct 2 (by omega)
  unfold Mu.Jems.popLevel
  by_cases hc : j.curr > 0
  · have sm : A.szSub j.curr 1 = j.curr - 1 := Plat.szSub_of_le (by omega) (by omega)
    rw [if_pos hc, sm]
    have o1 : Heap.Only E.Own h (h.upd E.b (E.o + 2) (.int (j.curr - 1 : Nat))) := (Heap.Only.refl _ _).upd E.own_curr
    refine ⟨h.upd E.b (E.o + 2) (.int (j.curr - 1 : Nat)), ?_, ?_, o1⟩
    · have sm' := sub_size_one A j.curr
      rw [sm] at sm'
      have c3 := conv_size_lt (A := A) (n := j.curr - 1) (by omega)
      have lt : (0 : Int) < (j.curr : Int) := by omega
      rw [sem_succ (d := Src.pop_level__jems) rfl, FunDef.run_regs rfl rfl]
      generalize j.curr - 1 = mm at *
      simp [csrc, Src.pop_level__jems, c1, c3, f2, sm', hone, hzero, hc, COp.run, CVal.ofBool, s2, l2]
    · have a1 : ∀ i : Nat, i ≠ 2 → (h.upd E.b (E.o + 2) (.int (j.curr - 1 : Nat))).at E.b (E.o + i) = h.at E.b (E.o + i) :=
        fun i hne => Heap.at_upd_ne (Or.inr (by omega))
      refine ⟨p.only (o1.mono (fun _ _ hb => Or.inr hb)), ?_, (a1 1 (by omega)).trans r.f1, Heap.at_upd_same p.wr s2,
        (a1 3 (by omega)).trans r.f3, (a1 4 (by omega)).trans r.f4, ⟨wf.writer, by simp only; omega, wf.len, wf.max⟩, r.len,
        ?_, (hw n0 (Nat.le_refl _)).keep _ _ _ r.inv (fun b o hb => o1.cell _ _ (p.own b o hb))⟩
      · have := a1 0 (by omega)
        rw [Int.natCast_zero, Int.add_zero] at this
        exact this.trans r.f0
      · intro i l hi hl
        simp only at hi hl
        have hlt : i < E.len := by have := (List.getElem?_eq_some_iff.mp hl).1; have := r.len; omega
        obtain ⟨a, b, c⟩ := r.items i l (by omega) hl
        have x := p.sep2 i hlt
        have lv1 : E.lo + ((2 * i + 1 : Nat) : Int) = E.lv i + 1 := by simp only [Emitter.lv]; omega
        rw [lv1] at b ⊢
        exact ⟨(Heap.at_upd_sep (fun e => x.1 ⟨e.1.symm, e.2.symm⟩)).trans a,
          (Heap.at_upd_sep (fun e => x.2 ⟨e.1.symm, e.2.symm⟩)).trans b, c⟩
  · rw [if_neg hc]
    refine ⟨h, ?_, r, Heap.Only.refl _ _⟩
    have lt : ¬ (0 : Int) < (j.curr : Int) := by omega
    rw [sem_succ (d := Src.pop_level__jems) rfl, FunDef.run_regs rfl rfl]
    have hc0 : j.curr = 0 := by omega
    rw [hc0] at f2
    rw [Int.natCast_zero] at f2
    simp [csrc, Src.pop_level__jems, f2, hzero, COp.run, CVal.ofBool]

theorem Emitter.Rep.lvl (r : E.Rep A h j) {l : Level} (hl : j.levels[j.curr]? = some l) :
    j.curr < E.len ∧ h.at E.lb (E.lv j.curr) = some (.int l.itemCount) ∧
      h.at E.lb (E.lv j.curr + 1) = some (.ofBool l.isObject) ∧ l.itemCount < A.szMod := by
  obtain ⟨a, b, c⟩ := r.items _ l (Nat.le_refl _) hl
  have lv1 : E.lo + ((2 * j.curr + 1 : Nat) : Int) = E.lv j.curr + 1 := by simp only [Emitter.lv]; omega
  rw [lv1] at b
  exact ⟨by have := (List.getElem?_eq_some_iff.mp hl).1; have := r.len; omega, a, b, c⟩

/-- One more item at the current level. -/
theorem Emitter.Rep.bumped {cb : Nat → SemFn} (hw : WriterOk A cb E) (r : E.Rep A h j) {l : Level}
    (hl : j.levels[j.curr]? = some l) :
    E.Rep A (h.upd E.lb (E.lv j.curr) (.int ((l.itemCount + 1) % A.szMod : Nat))) (bump A.toPlat j l) := by
  have p := r.placed
  obtain ⟨hk, a, b, c⟩ := r.lvl hl
  have o1 : Heap.Only E.Own h (h.upd E.lb (E.lv j.curr) (.int ((l.itemCount + 1) % A.szMod : Nat))) :=
    (Heap.Only.refl _ _).upd (E.own_lv hk)
  have a1 : ∀ i : Nat, i < 5 → (h.upd E.lb (E.lv j.curr) (.int ((l.itemCount + 1) % A.szMod : Nat))).at E.b (E.o + i) =
      h.at E.b (E.o + i) := fun i hi => Heap.at_upd_sep (p.sep i _ hi hk).1
  refine ⟨p.only (o1.mono (fun _ _ hb => Or.inr hb)), ?_, (a1 1 (by omega)).trans r.f1, (a1 2 (by omega)).trans r.f2,
    (a1 3 (by omega)).trans r.f3, (a1 4 (by omega)).trans r.f4, ⟨r.wf.writer, r.wf.curr, by simpa [bump] using r.wf.len, r.wf.max⟩,
    by simpa [bump] using r.len, ?_, hw.keep _ _ _ r.inv (fun b o hb => o1.cell _ _ (p.own b o hb))⟩
  · have := a1 0 (by omega)
    rw [Int.natCast_zero, Int.add_zero] at this
    exact this.trans r.f0
  · intro i l' hi hl'
    simp only [bump] at hi hl'
    have lv1 : E.lo + ((2 * i + 1 : Nat) : Int) = E.lv i + 1 := by simp only [Emitter.lv]; omega
    rw [lv1]
    by_cases he : i = j.curr
    · subst he
      rw [List.getElem?_set_self (by have := r.len; omega)] at hl'
      cases hl'
      exact ⟨Heap.at_upd_same p.wrl (by show (h.at E.lb (E.lv j.curr)).isSome = true; rw [a]; rfl), (Heap.at_upd_ne (Or.inr (by omega))).trans b,
        Nat.mod_lt _ (Nat.two_pow_pos _)⟩
    · rw [List.getElem?_set_ne (Ne.symm he)] at hl'
      obtain ⟨x, y, z⟩ := r.items i l' hi hl'
      rw [lv1] at y
      exact ⟨(Heap.at_upd_ne (Or.inr (by simp only [Emitter.lv]; omega))).trans x,
        (Heap.at_upd_ne (Or.inr (by simp only [Emitter.lv]; omega))).trans y, z⟩

set_option maxHeartbeats 1000000 in
theorem src_commify {n n0 : Nat} (hw : E.Writes A X n0) (hn : n0 ≤ n) (r : E.Rep A h j) {l : Level}
    (hl : j.levels[j.curr]? = some l) :
    ∃ h', sem A X prog (n + 2) .commify__jems h [.ptr E.b E.o] = .ok (.ptr E.b E.o, h') ∧
      E.Rep A h' (bump A.toPlat (say j (sep l)) l) ∧ Heap.Only E.Uses h h' := by
  have p := r.placed
  obtain ⟨hk, a, b, c⟩ := r.lvl hl
  have lr := src_level_ref (A := A) (X := X) n p hk r.f0 r.f2
  have hone := conv_size_lt (A := A) (n := 1) (by have := szMod_ge A.toPlat; omega)
  have hzero := conv_size_lt (A := A) (n := 0) (by omega)
  rw [Int.natCast_one] at hone
  rw [Int.natCast_zero] at hzero
  have c1 := conv_size_lt (A := A) (n := l.itemCount) c
  have c5 : IT.conv ⟨A.sb, false⟩ (((l.itemCount + 1) % A.szMod : Nat) : Int) = ((l.itemCount + 1) % A.szMod : Nat) :=
    conv_size_lt (Nat.mod_lt _ (Nat.two_pow_pos _))
  have add1 : AOp.run ⟨A.sb, false⟩ .add (l.itemCount : Int) 1 = .ok (((l.itemCount + 1) % A.szMod : Nat) : Int) := by
    have := conv_size A (l.itemCount + 1)
    rw [IT.conv_unsigned] at this
    simp only [AOp.run, IT.arith, Bool.false_eq_true, if_false]
    rw [← Int.natCast_succ, this]
    rfl
  have l1 : E.lb.isLit = false := p.wrl
  -- the end, whatever was emitted
  have key : ∀ t h1, E.Rep A h1 (say j t) → Heap.Only E.cells h h1 →
      E.Rep A (h1.upd E.lb (E.lv j.curr) (.int ((l.itemCount + 1) % A.szMod : Nat))) (bump A.toPlat (say j t) l) ∧
      Heap.Only E.Uses h (h1.upd E.lb (E.lv j.curr) (.int ((l.itemCount + 1) % A.szMod : Nat))) ∧
      h1.at E.lb (E.lv j.curr) = some (.int l.itemCount) := by
    intro t h1 r1 o1
    exact ⟨r1.bumped (hw n0 (Nat.le_refl _)) (l := l) hl,
      (o1.mono (fun _ _ hb => Or.inl hb)).upd (Or.inr (E.own_lv hk)), (r1.lvl (l := l) hl).2.1⟩
  have c58 : chr A 58 = 58 := chr_small (by decide)
  have c44 : chr A 44 = 44 := chr_small (by decide)
  have d58 : (A.it .char).conv 58 = 58 := c58
  have d44 : (A.it .char).conv 44 = 44 := c44
  have bnd := band_u16 ⟨A.sb, false⟩ l.itemCount 1
  rw [Int.natCast_one, Nat.and_one_is_mod] at bnd
  simp only [Emitter.lv] at *
  generalize (l.itemCount + 1) % A.szMod = cnt at *
  generalize E.lo + ((2 * j.curr : Nat) : Int) = q at *
  by_cases h0 : l.itemCount = 0
  · have hs : sep l = [] := by simp [sep, h0]
    rw [hs]
    obtain ⟨k1, k2, k3⟩ := key [] h (by rw [say_nil]; exact r) (Heap.Only.refl _ _)
    refine ⟨_, ?_, k1, k2⟩
    rw [sem_succ (d := Src.commify__jems) rfl, FunDef.run_regs rfl rfl]
    generalize sem A X prog (n + 1) = S at *
    rw [h0] at a add1
    rw [Int.natCast_zero] at a add1
    cases hob : l.isObject <;> rw [hob] at b <;>
      simp [csrc, Src.commify__jems, lr, a, b, CVal.ofBool, hzero, hone, add1, c5, COp.run, l1, k3]
  · have gt : (0 : Int) < (l.itemCount : Int) := by omega
    have gt' : 0 < l.itemCount := by omega
    by_cases hodd : l.isObject = true ∧ l.itemCount % 2 = 1
    · have hs : sep l = [58] := by simp [sep, h0, hodd]
      rw [hs]
      obtain ⟨h1, s1, r1, o1⟩ := src_emit_char hw (n := n) hn r 58
      rw [c58] at s1
      obtain ⟨k1, k2, k3⟩ := key [58] h1 r1 o1
      refine ⟨_, ?_, k1, k2⟩
      rw [sem_succ (d := Src.commify__jems) rfl, FunDef.run_regs rfl rfl]
      generalize sem A X prog (n + 1) = S at *
      obtain ⟨hob, hodd⟩ := hodd
      rw [hob] at b
      rw [hodd] at bnd
      simp [csrc, Src.commify__jems, lr, a, b, CVal.ofBool, hzero, hone, add1, c1, c5, COp.run, l1, k3, gt', bnd, d58, s1]
    · have hs : sep l = [44] := by simp [sep, h0, hodd]
      rw [hs]
      obtain ⟨h1, s1, r1, o1⟩ := src_emit_char hw (n := n) hn r 44
      rw [c44] at s1
      obtain ⟨k1, k2, k3⟩ := key [44] h1 r1 o1
      refine ⟨_, ?_, k1, k2⟩
      rw [sem_succ (d := Src.commify__jems) rfl, FunDef.run_regs rfl rfl]
      generalize sem A X prog (n + 1) = S at *
      cases hob : l.isObject with
      | false =>
        rw [hob] at b
        simp [csrc, Src.commify__jems, lr, a, b, CVal.ofBool, hzero, hone, add1, c1, c5, COp.run, l1, k3, gt', s1]
      | true =>
        have hev : l.itemCount % 2 = 0 := by
          have : ¬ l.itemCount % 2 = 1 := fun e => hodd ⟨hob, e⟩
          omega
        rw [hob] at b
        rw [hev] at bnd
        simp [csrc, Src.commify__jems, lr, a, b, CVal.ofBool, hzero, hone, add1, c1, c5, COp.run, l1, k3, gt', bnd, d44, s1]

theorem src_curr_level (n : Nat) (r : E.Rep A h j) :
    sem A X prog (n + 1) .mu_jems_curr_level h [.ptr E.b E.o] = .ok (.int j.curr, h) := by
  rw [sem_succ (d := Src.mu_jems_curr_level) rfl, FunDef.run_regs rfl rfl]
  simp [csrc, Src.mu_jems_curr_level, r.f2]

theorem src_item_count (n : Nat) (r : E.Rep A h j) {l : Level} (hl : j.levels[j.curr]? = some l) :
    sem A X prog (n + 2) .mu_jems_item_count h [.ptr E.b E.o] = .ok (.int l.itemCount, h) := by
  obtain ⟨hk, a, b, c⟩ := r.lvl hl
  have lr := src_level_ref (A := A) (X := X) n r.placed hk r.f0 r.f2
  rw [sem_succ (d := Src.mu_jems_item_count) rfl, FunDef.run_regs rfl rfl]
  generalize sem A X prog (n + 1) = S at *
  simp only [Emitter.lv] at *
  generalize E.lo + ((2 * j.curr : Nat) : Int) = q at *
  simp [csrc, Src.mu_jems_item_count, lr, a]

end Mu.CS
