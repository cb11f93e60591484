import Verif.Lemmas.SrcBytes
import Verif.Props.SrcBBufView

/-! # The functions of mu_bbuf.c that write, from the parsed source -/

namespace Mu.CS

open BBuf

variable {A : Arch} {X : Ext}

section
variable {h h' : Heap} {b bb : Base} {o ob : Int} {l l' : List UInt8}

/-- A buffer whose bytes have been replaced. -/
theorem Heap.BBuf.write (h1 : h.BBuf b o bb ob l) (ha : Apart b o 2 bb ob l.length)
    (ho : Heap.Only (span bb ob l.length) h h') (hb : h'.Bytes bb ob l') (hl : l'.length = l.length) :
    h'.BBuf b o bb ob l' := by
  refine ⟨?_, ?_, hb⟩
  · rw [ho.cell _ _ ?_]; exact h1.ptr
    rintro ⟨rfl, x, y⟩
    rcases ha with ha | ha | ha
    · exact ha rfl
    · omega
    · omega
  · rw [ho.cell _ _ ?_, hl]; exact h1.cap
    rintro ⟨rfl, x, y⟩
    rcases ha with ha | ha | ha
    · exact ha rfl
    · omega
    · omega

theorem src_put_byte (n : Nat) (h1 : h.BBuf b o bb ob l) (hw : bb.isLit = false)
    (hsz : l.length < A.szMod) {i : Nat} (hi : i < A.szMod) (c : UInt8) :
    sem A X prog (n + 1) .mu_bbuf_put_byte h [.ptr b o, .int i, .int c.toNat] =
      .ok (.ofBool (decide (i < l.length)),
        if i < l.length then h.upd bb (ob + i) (.int c.toNat) else h) := by
  rw [sem_succ (d := Src.mu_bbuf_put_byte) rfl, FunDef.run_regs rfl rfl]
  have e0 := h1.ptr
  have e1 := h1.cap
  have c1 := conv_size_lt hi
  have c2 := conv_size_lt hsz
  by_cases hl : i < l.length
  · have e2 := h1.bytes.padd (i := i) (by omega)
    have e3 := h1.bytes.isSome hl
    have e4 : (l.length ≤ i) = False := by simp; omega
    simp [csrc, Src.mu_bbuf_put_byte, e0, e1, c1, c2, e2, e3, e4, hw, hl]
  · have e4 : (l.length ≤ i) = True := by simp; omega
    simp [csrc, Src.mu_bbuf_put_byte, e0, e1, c1, c2, e4, hl]

theorem Heap.Bytes.memset (hb : h.Bytes b o l) (hw : b.isLit = false) {k n : Nat}
    (hk : k + n ≤ l.length) : ∃ h', Lib.memset h [.ptr b (o + k), .int 0, .int n] =
      .ok (.ptr b (o + k), h') ∧
      h'.Bytes b o (l.take k ++ List.replicate n 0 ++ l.drop (k + n)) ∧
      Heap.Only (span b o l.length) h h' := by
  obtain ⟨h', e, h2, h3⟩ := hb.putN hw (k := k) (l2 := List.replicate n 0) (by simpa using hk)
  refine ⟨h', ?_, by simpa using h2, h3⟩
  have : cellsOf (List.replicate n 0) = List.replicate n (.int 0) := by simp [cellsOf]
  rw [this] at e
  unfold Lib.memset
  simp only [Int.toNat_natCast, e]
  rfl

theorem Heap.Bytes.memmove (hb : h.Bytes b o l) (hw : b.isLit = false) {k k2 n : Nat}
    (hk : k + n ≤ l.length) (hk2 : k2 + n ≤ l.length) :
    ∃ h', Lib.memmove h [.ptr b (o + k), .ptr b (o + k2), .int n] = .ok (.ptr b (o + k), h') ∧
      h'.Bytes b o (l.take k ++ (l.drop k2).take n ++ l.drop (k + n)) ∧
      Heap.Only (span b o l.length) h h' := by
  have hg := hb.getN hk2
  have hlen : ((l.drop k2).take n).length = n := by simp; omega
  obtain ⟨h', e, h2, h3⟩ := hb.putN hw (k := k) (l2 := (l.drop k2).take n) (by omega)
  refine ⟨h', ?_, by rw [hlen] at h2; exact h2, h3⟩
  unfold Lib.memmove
  simp only [Int.toNat_natCast, hg, C.ok_bind, e]

theorem src_clear (n : Nat) (h1 : h.BBuf b o bb ob l) (hw : bb.isLit = false) :
    ∃ h', sem A X prog (n + 2) .mu_bbuf_clear h [.ptr b o] = .ok (.ptr b o, h') ∧
      h'.Bytes bb ob (List.replicate l.length 0) ∧ Heap.Only (span bb ob l.length) h h' := by
  obtain ⟨h', e, h2, h3⟩ := h1.bytes.memset hw (k := 0) (n := l.length) (by omega)
  refine ⟨h', ?_, by simpa using h2, h3⟩
  rw [sem_succ (d := Src.mu_bbuf_clear) rfl, FunDef.run_regs rfl rfl]
  have e0 := h1.ptr
  have e1 := h1.cap
  have e' : sem A X prog (n + 1) .memset h [.ptr bb ob, .int 0, .int l.length] = .ok (.ptr bb ob, h') := by
    rw [sem_memset]; simpa using e
  generalize hK : (⟨sem A X prog (n + 1), X.cb (sem A X prog (n + 1))⟩ : Calls) = KK
  have e2 : KK.fn .memset h [.ptr bb ob, .int 0, .int l.length] = .ok (.ptr bb ob, h') := by
    subst hK; exact e'
  simp [csrc, Src.mu_bbuf_clear, e0, e1, e2]

/-- What `mu_bbuf_rshift` leaves. -/
def shifted (l : List UInt8) (s : Int) : List UInt8 :=
  if 0 ≤ s then List.replicate (min s.toNat l.length) 0 ++ l.take (l.length - s.toNat)
  else l.drop (-s).toNat ++ List.replicate (min (-s).toNat l.length) 0

set_option maxHeartbeats 1000000 in
theorem src_rshift (n : Nat) (h1 : h.BBuf b o bb ob l) (hw : bb.isLit = false)
    (ha : Apart b o 2 bb ob l.length) (hsz : l.length < A.szMod) {s : Int} (i1 : A.intMin < s)
    (i2 : s ≤ A.intMax) :
    ∃ h', sem A X prog (n + 3) .mu_bbuf_rshift h [.ptr b o, .int s] = .ok (.ptr b o, h') ∧
      h'.Bytes bb ob (shifted l s) ∧ Heap.Only (span bb ob l.length) h h' := by
  have hmin := A.intMin_eq
  have hmax := A.intMax_ge
  have hsm := A.intMax_lt_szMod
  rw [sem_succ (d := Src.mu_bbuf_rshift) rfl, FunDef.run_regs rfl rfl]
  have e0 := h1.ptr
  have e1 := h1.cap
  -- the absolute value of the shift
  obtain ⟨k, hk⟩ : ∃ k : Nat, k = s.natAbs := ⟨_, rfl⟩
  have ck : IT.conv ⟨A.ib, true⟩ (k : Int) = k := conv_int ⟨by omega, by omega⟩
  have cs : IT.conv ⟨A.ib, true⟩ s = s := conv_int ⟨by omega, by omega⟩
  have ckz : IT.conv ⟨A.sb, false⟩ (k : Int) = k := conv_size_lt (by omega)
  have clz : IT.conv ⟨A.sb, false⟩ (l.length : Int) = l.length := conv_size_lt hsz
  generalize hK : (⟨sem A X prog (n + 2), X.cb (sem A X prog (n + 2))⟩ : Calls) = KK
  have kset : ∀ h args, KK.fn .memset h args = Lib.memset h args := by
    subst hK; intro h args; show sem A X prog (n + 2) .memset h args = _; rw [sem_memset]
  have kmove : ∀ h args, KK.fn .memmove h args = Lib.memmove h args := by
    subst hK; intro h args; show sem A X prog (n + 2) .memmove h args = _; rw [sem_memmove]
  by_cases hs0 : s = 0
  · subst hs0
    refine ⟨h, ?_, by simpa [shifted] using h1.bytes, .refl _ _⟩
    simp [csrc, Src.mu_bbuf_rshift, e0, e1]
  · have hk0 : (k = 0) = False := by simp; omega
    have hk0' : ((k : Int) = 0) = False := by simp; omega
    have hs0' : (s = 0) = False := by simp [hs0]
    by_cases hkl : l.length ≤ k
    · have hkl' : (l.length ≤ k) = True := by simp [hkl]
      obtain ⟨h', e, h2, h3⟩ := src_clear (A := A) (X := X) n h1 hw
      have e2 : KK.fn .mu_bbuf_clear h [.ptr b o] = .ok (.ptr b o, h') := by subst hK; exact e
      have hsh : shifted l s = List.replicate l.length 0 := by
        unfold shifted
        split
        · rw [show l.length - s.toNat = 0 by omega, Nat.min_eq_right (by omega)]; simp
        · rw [List.drop_eq_nil_of_le (by omega), Nat.min_eq_right (by omega)]; simp
      refine ⟨h', ?_, by rw [hsh]; exact h2, h3⟩
      by_cases hneg : s < 0
      · have hneg' : (s < 0) = True := by simp [hneg]
        have en : IT.arith ⟨A.ib, true⟩ (-s) = .ok (k : Int) := by
          have : A.int (-s) = .ok (-s) := Plat.int_ok (by omega) (by omega)
          show A.int (-s) = _
          rw [this, show -s = (k : Int) by omega]
        simp [csrc, Src.mu_bbuf_rshift, e0, e1, e2, hneg', cs, en, ck, ckz, clz, hk0, hkl']
      · have hneg' : (s < 0) = False := by simp [hneg]
        obtain rfl : s = (k : Int) := by omega
        simp [csrc, Src.mu_bbuf_rshift, e0, e1, e2, hneg', ck, ckz, clz, hk0, hkl']
    · have hkl' : (l.length ≤ k) = False := by simp [hkl]
      have esub : A.szSub l.length k = l.length - k := by
        unfold Plat.szSub
        rw [show (l.length : Int) - k = ((l.length - k : Nat) : Int) by omega]
        exact toSz_nat (by omega)
      have ep := h1.bytes.padd (i := k) (by omega)
      have ep2 := h1.bytes.padd (i := l.length - k) (by omega)
      by_cases hneg : s < 0
      · have hneg' : (s < 0) = True := by simp [hneg]
        have en : IT.arith ⟨A.ib, true⟩ (-s) = .ok (k : Int) := by
          have : A.int (-s) = .ok (-s) := Plat.int_ok (by omega) (by omega)
          show A.int (-s) = _
          rw [this, show -s = (k : Int) by omega]
        obtain ⟨hh, e, h2, h3⟩ := h1.bytes.memmove hw (k := 0) (k2 := k) (n := l.length - k)
          (by omega) (by omega)
        have hl2 : (l.take 0 ++ (l.drop k).take (l.length - k) ++ l.drop (0 + (l.length - k))).length =
            l.length := by simp
        have hb2 := h1.write ha h3 h2 hl2
        obtain ⟨h', e', h2', h3'⟩ := h2.memset hw (k := l.length - k) (n := k) (by omega)
        rw [hl2] at h3'
        have f0 := hb2.ptr
        have f1 := hb2.cap
        rw [hl2] at f1
        have fp := h2.padd (i := l.length - k) (by omega)
        refine ⟨h', ?_, ?_, h3.trans h3'⟩
        · simp only [Int.natCast_zero, Int.add_zero] at e
          clear h2' h3' h2 h3 hb2 hl2
          generalize hm : l.length - k = m at *
          simp [csrc, Src.mu_bbuf_rshift, e0, e1, hneg', cs, en, ck, ckz, clz, hk0, hkl', esub, ep, kset,
            kmove, e, e', f0, f1, fp]
        · have : shifted l s = (l.take 0 ++ (l.drop k).take (l.length - k) ++
              l.drop (0 + (l.length - k))).take (l.length - k) ++ List.replicate k 0 := by
            unfold shifted
            rw [if_neg (by omega), show (-s).toNat = k by omega, Nat.min_eq_left (by omega)]
            congr 1
            rw [List.take_append_of_le_length (by simp)]
            simp [List.take_take]
          rw [this]
          have hd := List.drop_eq_nil_of_le (i := l.length - k + k) (Nat.le_trans (Nat.le_of_eq hl2)
            (by omega))
          rw [hd, List.append_nil] at h2'
          exact h2'
      · have hneg' : (s < 0) = False := by simp [hneg]
        obtain rfl : s = (k : Int) := by omega
        obtain ⟨hh, e, h2, h3⟩ := h1.bytes.memmove hw (k := k) (k2 := 0) (n := l.length - k)
          (by omega) (by omega)
        have hl2 : (l.take k ++ (l.drop 0).take (l.length - k) ++ l.drop (k + (l.length - k))).length =
            l.length := by simp; omega
        have hb2 := h1.write ha h3 h2 hl2
        obtain ⟨h', e', h2', h3'⟩ := h2.memset hw (k := 0) (n := k) (by omega)
        rw [hl2] at h3'
        have f0 := hb2.ptr
        have f1 := hb2.cap
        rw [hl2] at f1
        refine ⟨h', ?_, ?_, h3.trans h3'⟩
        · simp only [Int.natCast_zero, Int.add_zero] at e e'
          clear h2' h3' h2 h3 hb2 hl2
          generalize hm : l.length - k = m at *
          simp [csrc, Src.mu_bbuf_rshift, e0, e1, hneg', ck, ckz, clz, hk0, hkl', esub, ep, kset,
            kmove, e, e', f0, f1]
        · have : shifted l (k : Int) = List.replicate k 0 ++ (l.take k ++ (l.drop 0).take (l.length - k) ++
              l.drop (k + (l.length - k))).drop k := by
            unfold shifted
            rw [if_pos (by omega), Int.toNat_natCast, Nat.min_eq_left (by omega)]
            congr 1
            rw [List.append_assoc, List.drop_left' (by simp; omega)]
            simp
            omega
          rw [this]
          simpa using h2'

theorem src_rshift_min (n : Nat) (h1 : h.BBuf b o bb ob l) :
    sem A X prog (n + 1) .mu_bbuf_rshift h [.ptr b o, .int A.intMin] = .error .overflow := by
  have hmin := A.intMin_eq
  have hmax := A.intMax_ge
  rw [sem_succ (d := Src.mu_bbuf_rshift) rfl, FunDef.run_regs rfl rfl]
  have e0 := h1.ptr
  have e1 := h1.cap
  have cs : IT.conv ⟨A.ib, true⟩ A.intMin = A.intMin := conv_int ⟨by omega, by omega⟩
  have hneg' : (A.intMin < 0) = True := by simp; omega
  have en : IT.arith ⟨A.ib, true⟩ (-A.intMin) = .error .overflow := by
    show A.int (-A.intMin) = _
    unfold Plat.int
    rw [if_neg (by omega)]
  simp [csrc, Src.mu_bbuf_rshift, e0, e1, hneg', cs, en]

end

end Mu.CS
