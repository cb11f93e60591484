import Verif.Lemmas.SrcBBufRotate
import Verif.Spec.SrcBVec

/-! # mu_bvec.c from the parsed source -/

namespace Mu.CS

open BBuf

variable {A : Arch} {X : Ext}

/-- At `(b, o)` memory holds a `mu_bvec_t` with the bytes `l` and the count `c`. -/
structure Heap.BVec (h : Heap) (b : Base) (o : Int) (bb : Base) (ob : Int) (l : List UInt8) (c : Nat) :
    Prop where
  buf : h.BBuf b o bb ob l
  cnt : h.at b (o + 2) = some (.int c)

section
variable {h h' : Heap} {b bb : Base} {o ob : Int} {l l' : List UInt8} {c : Nat}

theorem src_ref_ro (n : Nat) (h1 : h.BBuf b o bb ob l) (hsz : l.length < A.szMod) {i : Nat}
    (hi : i < A.szMod) :
    sem A X prog (n + 1) .mu_bbuf_ref_ro h [.ptr b o, .int i] =
      .ok (if i < l.length then .ptr bb (ob + i) else .null, h) := by
  rw [sem_succ (d := Src.mu_bbuf_ref_ro) rfl, FunDef.run_regs rfl rfl]
  have e0 := h1.ptr
  have e1 := h1.cap
  have c1 := conv_size_lt hi
  have c2 := conv_size_lt hsz
  by_cases hl : i < l.length
  · have e2 := h1.bytes.padd (i := i) (by omega)
    simp [csrc, Src.mu_bbuf_ref_ro, e0, e1, c1, c2, e2, hl]
  · simp [csrc, Src.mu_bbuf_ref_ro, e0, e1, c1, c2, hl]

theorem src_ref_rw (n : Nat) (h1 : h.BBuf b o bb ob l) (hsz : l.length < A.szMod) {i : Nat}
    (hi : i < A.szMod) :
    sem A X prog (n + 1) .mu_bbuf_ref_rw h [.ptr b o, .int i] =
      .ok (if i < l.length then .ptr bb (ob + i) else .null, h) := by
  rw [sem_succ (d := Src.mu_bbuf_ref_rw) rfl, FunDef.run_regs rfl rfl]
  have e0 := h1.ptr
  have e1 := h1.cap
  have c1 := conv_size_lt hi
  have c2 := conv_size_lt hsz
  by_cases hl : i < l.length
  · have e2 := h1.bytes.padd (i := i) (by omega)
    simp [csrc, Src.mu_bbuf_ref_rw, e0, e1, c1, c2, e2, hl]
  · simp [csrc, Src.mu_bbuf_ref_rw, e0, e1, c1, c2, hl]

theorem src_vref_ro (n : Nat) (h1 : h.BBuf b o bb ob l) (hsz : l.length < A.szMod) {i : Nat}
    (hi : i < A.szMod) :
    sem A X prog (n + 2) .mu_bvec_ref_ro h [.ptr b o, .int i] =
      .ok (if i < l.length then .ptr bb (ob + i) else .null, h) := by
  rw [sem_succ (d := Src.mu_bvec_ref_ro) rfl, FunDef.run_regs rfl rfl]
  have e := src_ref_ro (A := A) (X := X) n h1 hsz hi
  simp [csrc, Src.mu_bvec_ref_ro, e]

theorem src_vref_rw (n : Nat) (h1 : h.BBuf b o bb ob l) (hsz : l.length < A.szMod) {i : Nat}
    (hi : i < A.szMod) :
    sem A X prog (n + 2) .mu_bvec_ref_rw h [.ptr b o, .int i] =
      .ok (if i < l.length then .ptr bb (ob + i) else .null, h) := by
  rw [sem_succ (d := Src.mu_bvec_ref_rw) rfl, FunDef.run_regs rfl rfl]
  have e := src_ref_rw (A := A) (X := X) n h1 hsz hi
  simp [csrc, Src.mu_bvec_ref_rw, e]

theorem src_bbuf_capacity (n : Nat) (h1 : h.BBuf b o bb ob l) :
    sem A X prog (n + 1) .mu_bbuf_capacity h [.ptr b o] = .ok (.int l.length, h) := by
  rw [sem_succ (d := Src.mu_bbuf_capacity) rfl, FunDef.run_regs rfl rfl]
  simp [csrc, Src.mu_bbuf_capacity, h1.cap]

theorem src_vcapacity (n : Nat) (h1 : h.BVec b o bb ob l c) :
    sem A X prog (n + 2) .mu_bvec_get_capacity h [.ptr b o] = .ok (.int l.length, h) := by
  rw [sem_succ (d := Src.mu_bvec_get_capacity) rfl, FunDef.run_regs rfl rfl]
  have e := src_bbuf_capacity (A := A) (X := X) n h1.buf
  simp [csrc, Src.mu_bvec_get_capacity, e]

theorem src_vcount (n : Nat) (h1 : h.BVec b o bb ob l c) :
    sem A X prog (n + 1) .mu_bvec_get_count h [.ptr b o] = .ok (.int c, h) := by
  rw [sem_succ (d := Src.mu_bvec_get_count) rfl, FunDef.run_regs rfl rfl]
  simp [csrc, Src.mu_bvec_get_count, h1.cnt]

theorem src_vbbuf (n : Nat) :
    sem A X prog (n + 1) .mu_bvec_get_bbuf h [.ptr b o] = .ok (.ptr b o, h) := by
  rw [sem_succ (d := Src.mu_bvec_get_bbuf) rfl, FunDef.run_regs rfl rfl]
  simp [csrc, Src.mu_bvec_get_bbuf]

theorem src_vavailable (n : Nat) (h1 : h.BVec b o bb ob l c) (hsz : l.length < A.szMod)
    (hc : c < A.szMod) :
    sem A X prog (n + 2) .mu_bvec_get_available h [.ptr b o] = .ok (.int (l.length - c : Nat), h) := by
  rw [sem_succ (d := Src.mu_bvec_get_available) rfl, FunDef.run_regs rfl rfl]
  have e := src_bbuf_capacity (A := A) (X := X) n h1.buf
  have c1 := conv_size_lt hc
  have c2 := conv_size_lt hsz
  have e2 := h1.cnt
  by_cases hl : l.length < c
  · have hl' : (l.length < c) = True := by simp [hl]
    have h0 : l.length - c = 0 := by omega
    rw [h0]
    simp [csrc, Src.mu_bvec_get_available, e, e2, c1, c2, hl']
  · have hl' : (l.length < c) = False := by simp [hl]
    have es : A.szSub l.length c = l.length - c := Plat.szSub_of_le (by omega) hsz
    generalize l.length - c = d at *
    simp [csrc, Src.mu_bvec_get_available, e, e2, c1, c2, hl', es]

/-- Setting the count. -/
theorem Heap.BVec.setCnt (h1 : h.BVec b o bb ob l c) (hw : b.isLit = false)
    (ha : Apart b o 3 bb ob l.length) (d : Nat) :
    (h.upd b (o + 2) (.int d)).BVec b o bb ob l d := by
  have hs : (h.at b (o + 2)).isSome = true := by rw [h1.cnt]; rfl
  refine ⟨⟨?_, ?_, ?_⟩, Heap.at_upd_same hw hs⟩
  · rw [Heap.at_upd_sep (by omega)]; exact h1.buf.ptr
  · rw [Heap.at_upd_sep (by omega)]; exact h1.buf.cap
  · have o1 : Heap.Only (span b o 3) h (h.upd b (o + 2) (.int d)) :=
      (Heap.Only.refl _ _).upd ⟨rfl, by omega, by omega⟩
    exact o1.bytes h1.buf.bytes ha.not_span

theorem src_vreset (n : Nat) (hs : (h.at b (o + 2)).isSome = true) (hw : b.isLit = false) :
    sem A X prog (n + 1) .mu_bvec_reset h [.ptr b o] = .ok (.ptr b o, h.upd b (o + 2) (.int 0)) := by
  rw [sem_succ (d := Src.mu_bvec_reset) rfl, FunDef.run_regs rfl rfl]
  simp [csrc, Src.mu_bvec_reset, hs, hw]

theorem src_vset (n : Nat) (hs : (h.at b (o + 2)).isSome = true) (hw : b.isLit = false) (d : Nat) :
    sem A X prog (n + 1) .mu_bvec_set_count h [.ptr b o, .int d] =
      .ok (.undef, h.upd b (o + 2) (.int d)) := by
  rw [sem_succ (d := Src.mu_bvec_set_count) rfl, FunDef.run_regs rfl rfl]
  simp [csrc, Src.mu_bvec_set_count, hs, hw]

theorem src_vread (n : Nat) (h1 : h.BVec b o bb ob l c) (hw : b.isLit = false)
    (ha : Apart b o 3 bb ob l.length) (hsz : l.length < A.szMod) (hc : c < A.szMod) {eb : Base} {eo : Int}
    (ew : eb.isLit = false) (es : (h.at eb eo).isSome = true) :
    sem A X prog (n + 3) .mu_bvec_read_byte h [.ptr b o, .ptr eb eo] =
      match l[c]? with
      | some x => .ok (.int 1, (h.upd b (o + 2) (.int (A.sz (c + 1)))).upd eb eo (.int x.toNat))
      | none => .ok (.int 0, h.upd b (o + 2) (.int (A.sz (c + 1)))) := by
  rw [sem_succ (d := Src.mu_bvec_read_byte) rfl, FunDef.run_regs rfl rfl]
  have e2 := h1.cnt
  have hs : (h.at b (o + 2)).isSome = true := by rw [h1.cnt]; rfl
  have c1 := conv_size_lt hc
  have k := h1.setCnt hw ha (A.sz (c + 1))
  have e := src_vref_ro (A := A) (X := X) n k.buf hsz hc
  by_cases hl : c < l.length
  · rw [if_pos hl] at e
    have eb1 := k.buf.bytes.at hl
    rw [List.getElem?_eq_getElem hl]
    have es' : ((h.upd b (o + 2) (.int (A.sz (c + 1)))).at eb eo).isSome = true := by
      rw [Heap.isSome_upd]; exact es
    generalize hh : h.upd b (o + 2) (.int (A.sz (c + 1))) = g at *
    simp [csrc, Src.mu_bvec_read_byte, e2, hs, hw, c1, hh, e, eb1, ew, es', COp.runPtr]
    rfl
  · rw [if_neg hl] at e
    rw [List.getElem?_eq_none (by omega)]
    generalize hh : h.upd b (o + 2) (.int (A.sz (c + 1))) = g at *
    simp [csrc, Src.mu_bvec_read_byte, e2, hs, hw, c1, hh, e, COp.runPtr]
    rfl

theorem src_vwrite (n : Nat) (h1 : h.BVec b o bb ob l c) (hw : b.isLit = false)
    (hw2 : bb.isLit = false) (ha : Apart b o 3 bb ob l.length) (hsz : l.length < A.szMod)
    (hc : c < A.szMod) (x : UInt8) :
    sem A X prog (n + 3) .mu_bvec_write_byte h [.ptr b o, .int x.toNat] =
      if c < l.length then
        .ok (.int 1, (h.upd b (o + 2) (.int (A.sz (c + 1)))).upd bb (ob + c) (.int x.toNat))
      else .ok (.int 0, h.upd b (o + 2) (.int (A.sz (c + 1)))) := by
  rw [sem_succ (d := Src.mu_bvec_write_byte) rfl, FunDef.run_regs rfl rfl]
  have e2 := h1.cnt
  have hs : (h.at b (o + 2)).isSome = true := by rw [h1.cnt]; rfl
  have c1 := conv_size_lt hc
  have k := h1.setCnt hw ha (A.sz (c + 1))
  have e := src_vref_rw (A := A) (X := X) n k.buf hsz hc
  by_cases hl : c < l.length
  · rw [if_pos hl] at e
    have es := k.buf.bytes.isSome hl
    rw [if_pos hl]
    generalize hh : h.upd b (o + 2) (.int (A.sz (c + 1))) = g at *
    simp [csrc, Src.mu_bvec_write_byte, e2, hs, hw, hw2, c1, hh, e, es, COp.runPtr]
    rfl
  · rw [if_neg hl] at e
    rw [if_neg hl]
    generalize hh : h.upd b (o + 2) (.int (A.sz (c + 1))) = g at *
    simp [csrc, Src.mu_bvec_write_byte, e2, hs, hw, c1, hh, e, COp.runPtr]
    rfl

end

end Mu.CS
