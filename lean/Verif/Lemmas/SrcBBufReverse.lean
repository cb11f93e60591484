import Verif.Lemmas.SrcBBufWrite

/-! # `mu_bbuf_reverse` and `mu_bbuf_rrotate`, from the parsed source -/

namespace Mu.CS

open BBuf

variable {A : Arch} {X : Ext}

/-- The list after `i` exchanges. -/
def revStep (l : List UInt8) (i : Nat) (cur : List UInt8) : Prop :=
  cur.length = l.length ∧ ∀ t, t < l.length →
    cur[t]? = if t < i ∨ l.length - i ≤ t then l[l.length - 1 - t]? else l[t]?

theorem revStep_next {l cur : List UInt8} {i : Nat} (hr : revStep l i cur) (hi : 2 * i + 1 < l.length)
    {x y : UInt8} (hx : cur[i]? = some x) (hy : cur[l.length - 1 - i]? = some y) :
    revStep l (i + 1) ((cur.set i y).set (l.length - 1 - i) x) := by
  obtain ⟨hl, hr⟩ := hr
  refine ⟨by simp [hl], fun t ht => ?_⟩
  have h1 := hr i (by omega)
  have h2 := hr (l.length - 1 - i) (by omega)
  rw [if_neg (by omega), hx] at h1
  rw [if_neg (by omega), hy] at h2
  rw [List.getElem?_set, List.getElem?_set]
  by_cases e1 : l.length - 1 - i = t
  · rw [if_pos e1, if_pos (by simp; omega), if_pos (by omega)]
    rw [show l.length - 1 - t = i by omega, ← h1]
  · rw [if_neg e1]
    by_cases e2 : i = t
    · rw [if_pos e2, if_pos (by omega), if_pos (by omega), ← e2, ← h2]
    · rw [if_neg e2, hr t ht]
      by_cases e3 : t < i ∨ l.length - i ≤ t
      · rw [if_pos e3, if_pos (by omega)]
      · rw [if_neg e3, if_neg (by omega)]

theorem revStep_last {l cur : List UInt8} {i : Nat} (hr : revStep l i cur) (hi : l.length ≤ 2 * i + 1) :
    cur = l.reverse := by
  obtain ⟨hl, hr⟩ := hr
  apply List.ext_getElem?
  intro t
  by_cases ht : t < l.length
  · rw [hr t ht, List.getElem?_reverse ht]
    split
    · rfl
    · congr 1; omega
  · rw [List.getElem?_eq_none (by omega), List.getElem?_eq_none (by simp; omega)]

section
variable {h : Heap} {b bb : Base} {o ob : Int} {l : List UInt8}

theorem reverse_rounds (KK : Calls) (N : Nat) (v : CVal) (hw : bb.isLit = false) :
    ∀ (fuel i : Nat) (h : Heap) (cur : List UInt8) (tmp : CVal), l.length ≤ i + fuel → i < l.length →
      revStep l i cur → h.Bytes bb ob cur → ∃ (i' : Nat) (tmp' : CVal) (h' : Heap),
      Src.mu_bbuf_reverse_loop1.rounds A KK N fuel
        ⟨[v, .ptr bb (ob + i), .ptr bb (ob + ((l.length - 1 - i : Nat) : Int)), tmp], h⟩ =
        .ok (.next, ⟨[v, .ptr bb (ob + i'), .ptr bb (ob + ((l.length - 1 - i' : Nat) : Int)), tmp'], h'⟩) ∧
      h'.Bytes bb ob l.reverse ∧ Heap.Only (span bb ob l.length) h h' := by
  intro fuel
  induction fuel with
  | zero => intro i h cur tmp hm hi; omega
  | succ fuel ih =>
    intro i h cur tmp hm hi hr hb
    by_cases hc : 2 * i + 1 < l.length
    · have hlen := hr.1
      have hi' : i < cur.length := by omega
      have hj' : l.length - 1 - i < cur.length := by omega
      have a1 := hb.at hi'
      have a2 := hb.at hj'
      have hb1 := hb.upd hw hi' cur[l.length - 1 - i]
      have hj1 : l.length - 1 - i < (cur.set i cur[l.length - 1 - i]).length := by simp; omega
      have hb2 := hb1.upd hw hj1 cur[i]
      have hs1 := hb.isSome hi'
      have hs2 := hb1.isSome hj1
      have p1 : h.padd 1 (.ptr bb (ob + i)) 1 = .ok (.ptr bb (ob + ((i + 1 : Nat) : Int))) := by
        have := Heap.padd_one (h := h) (b := bb) (o := ob + i) (i := 1)
          (by have := hb.1; omega) (by have := hb.2.1; omega)
        rw [this]; simp only [Int.natCast_add, Int.natCast_one, Int.add_assoc]
      have p2 : (h.upd bb (ob + i) (.int cur[l.length - 1 - i].toNat)).padd 1
          (.ptr bb (ob + ((l.length - 1 - i : Nat) : Int))) (-1) =
          .ok (.ptr bb (ob + ((l.length - 1 - (i + 1) : Nat) : Int))) := by
        have := Heap.padd_one (h := h.upd bb (ob + i) (.int cur[l.length - 1 - i].toNat)) (b := bb)
          (o := ob + ((l.length - 1 - i : Nat) : Int)) (i := -1)
          (by have := hb.1; omega) (by rw [Heap.length_upd]; have := hb.2.1; omega)
        rw [this, show ob + ((l.length - 1 - i : Nat) : Int) + -1 =
          ob + ((l.length - 1 - (i + 1) : Nat) : Int) by omega]
      have hstep := revStep_next hr hc (List.getElem?_eq_getElem hi') (List.getElem?_eq_getElem hj')
      obtain ⟨i', tmp', h', e, e2, e3⟩ := ih (i + 1) _ _ (.int cur[i].toNat) (by omega) (by omega) hstep hb2
      refine ⟨i', tmp', h', ?_, e2, Heap.Only.trans ?_ e3⟩
      · rw [← e]
        have hcond : (ob + (i : Int) < ob + ((l.length - 1 - i : Nat) : Int)) = True := by
          simp only [eq_iff_iff, iff_true]; omega
        generalize hjn : l.length - 1 - i = j at *
        apply Stmt.rounds_next
        · simp [csrc, Src.mu_bbuf_reverse_loop1, Stmt.cond, COp.runPtr, hcond]
          rfl
        · simp [csrc, Src.mu_bbuf_reverse_loop1, Stmt.body, a1, a2, p1, p2, hs1, hs2, hw]
          rfl
        · rfl
      · refine ((Heap.Only.refl _ _).upd ?_).upd ?_
        · exact ⟨rfl, by omega, by omega⟩
        · exact ⟨rfl, by omega, by omega⟩
    · refine ⟨i, tmp, h, ?_, ?_, .refl _ _⟩
      · have hcond : (ob + (i : Int) < ob + ((l.length - 1 - i : Nat) : Int)) = False := by
          simp only [eq_iff_iff, iff_false]; omega
        generalize hjn : l.length - 1 - i = j at *
        apply Stmt.rounds_exit
        simp [csrc, Src.mu_bbuf_reverse_loop1, Stmt.cond, COp.runPtr, hcond]
      · rw [← revStep_last hr (by omega)]; exact hb

theorem src_reverse (n : Nat) (h1 : h.BBuf b o bb ob l) (hw : bb.isLit = false)
    (hsz : l.length < A.szMod) (h0 : l ≠ []) (hn : l.length ≤ n) :
    ∃ h', sem A X prog (n + 1) .mu_bbuf_reverse h [.ptr b o] = .ok (.ptr b o, h') ∧
      h'.Bytes bb ob l.reverse ∧ Heap.Only (span bb ob l.length) h h' := by
  have hpos : 0 < l.length := List.length_pos_iff.mpr h0
  rw [sem_succ (d := Src.mu_bbuf_reverse) rfl, FunDef.run_regs rfl rfl]
  generalize hK : (⟨sem A X prog n, X.cb (sem A X prog n)⟩ : Calls) = KK
  have e0 := h1.ptr
  have e1 := h1.cap
  have clz : IT.conv ⟨A.sb, false⟩ (l.length : Int) = l.length := conv_size_lt hsz
  have esub : A.szSub l.length 1 = l.length - 1 := by
    unfold Plat.szSub
    rw [show (l.length : Int) - (1 : Nat) = ((l.length - 1 : Nat) : Int) by omega]
    exact toSz_nat (by omega)
  have p0 := h1.bytes.padd (i := 0) (by omega)
  have p1 := h1.bytes.padd (i := l.length - 1) (by omega)
  have hr0 : revStep l 0 l := ⟨rfl, fun t ht => by rw [if_neg (by omega)]⟩
  obtain ⟨i', tmp', h', e, e2, e3⟩ := reverse_rounds (A := A) (ob := ob) KK n (.ptr b o) hw n 0 h l .undef
    (by omega) hpos hr0 h1.bytes
  have e' : exec A KK n Src.mu_bbuf_reverse_loop1 ⟨[.ptr b o, .ptr bb (ob + (0 : Nat)),
    .ptr bb (ob + ((l.length - 1 - 0 : Nat) : Int)), .undef], h⟩ = _ := e
  refine ⟨h', ?_, e2, e3⟩
  simp only [Int.natCast_zero, Int.add_zero, Nat.sub_zero] at e' p0
  generalize hm : l.length - 1 = m at *
  simp [csrc, Src.mu_bbuf_reverse, e0, e1, clz, esub, p0, p1, e']

theorem src_reverse_empty (n : Nat) (h1 : h.BBuf b o bb ob []) (hsz : (h.cells bb).length + 1 < A.szMod) :
    sem A X prog (n + 1) .mu_bbuf_reverse h [.ptr b o] = .error .ptr := by
  rw [sem_succ (d := Src.mu_bbuf_reverse) rfl, FunDef.run_regs rfl rfl]
  generalize hK : (⟨sem A X prog n, X.cb (sem A X prog n)⟩ : Calls) = KK
  have e0 := h1.ptr
  have e1 := h1.cap
  have p0 := h1.bytes.padd (i := 0) (by omega)
  have esub : A.szSub 0 1 = A.szMod - 1 := by
    unfold Plat.szSub Plat.toSz
    have := A.szMod_pos
    have h2 := szMod_ge A.toPlat
    have : ((0 : Nat) - (1 : Nat) : Int) % (A.szMod : Int) = ((A.szMod - 1 : Nat) : Int) := by
      rw [← Int.add_emod_right, Int.emod_eq_of_lt (by omega) (by omega)]; omega
    rw [this]; rfl
  have p1 : h.padd 1 (.ptr bb ob) ((A.szMod - 1 : Nat) : Int) = .error .ptr := by
    have := h1.bytes.1
    simp only [Heap.padd]
    rw [if_neg (by omega)]
  have es : AOp.run ⟨A.sb, false⟩ .sub 0 1 = .ok ((A.szMod - 1 : Nat) : Int) := by
    rw [← esub]; exact sub_size A 0 1
  simp only [Int.natCast_zero, Int.add_zero, List.length_nil] at p0 e1
  generalize hm : A.szMod - 1 = m at *
  simp [csrc, Src.mu_bbuf_reverse, e0, e1, es, p0, p1]

end

end Mu.CS
