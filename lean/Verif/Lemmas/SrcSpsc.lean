import Verif.Lemmas.SrcCode
import Verif.Lemmas.Spsc

/-! # The parsed source of mu_spsc.c does what the model of `Verif/Model/Spsc.lean` does -/

namespace Mu.CS

variable {A : Arch} {X : Ext}

/-! ## `uint16_t` arithmetic, computed in `int` or, if that has 16 bits, in `unsigned int` -/

theorem it_u16_int (A : Arch) : A.it (.common .u16 .int) =
    if A.ib = 16 then ⟨16, false⟩ else ⟨A.ib, true⟩ := by
  have := A.hib
  by_cases h : A.ib = 16
  · simp [Arch.it, Arch.promote, h]
  · have h2 : 16 < A.ib := by omega
    simp [Arch.it, Arch.promote, h, h2]

theorem bmod_small {w : Nat} {n : Int} (h0 : 0 ≤ n) (h1 : n < 65536) (hw : 17 ≤ w) :
    n.bmod (2 ^ w) = n := by
  have : (2 : Nat) ^ 17 ≤ 2 ^ w := Nat.pow_le_pow_right (by decide) hw
  apply Int.bmod_eq_of_le <;> omega

theorem conv_u16c {A : Arch} {n : Nat} (h : n < 65536) :
    IT.conv (A.it (.common .u16 .int)) (n : Int) = n := by
  rw [it_u16_int]
  split
  · rw [IT.conv_unsigned]; omega
  · rename_i h16
    rw [IT.conv_signed, bmod_small (by omega) (by omega)]
    have := A.hib; omega

theorem conv_u16 {A : Arch} {n : Nat} (h : n < 65536) :
    IT.conv (A.it .u16) (n : Int) = n := by
  show IT.conv ⟨16, false⟩ (n : Int) = n
  rw [IT.conv_unsigned]; omega

/-- `a + 1` on a `uint16_t`. -/
theorem add_u16 {A : Arch} {n : Nat} (h : n < 32768) :
    AOp.run (A.it (.common .u16 .int)) .add (n : Int) 1 = .ok ((n + 1 : Nat) : Int) := by
  rw [it_u16_int]
  split
  · simp only [AOp.run, IT.arith, Bool.false_eq_true, if_false]
    congr 1; omega
  · rename_i h16
    have hw : 17 ≤ A.ib := by have := A.hib; omega
    have h3 : (2 : Nat) ^ 16 ≤ 2 ^ (A.ib - 1) := Nat.pow_le_pow_right (by decide) (by omega)
    simp only [AOp.run, IT.arith, if_true]
    rw [two_pow_cast, if_pos (by omega)]; rfl

/-- `a - 1` on a positive `uint16_t`. -/
theorem sub_u16 {A : Arch} {n : Nat} (h : n < 65536) (h1 : 1 ≤ n) :
    AOp.run (A.it (.common .u16 .int)) .sub (n : Int) 1 = .ok ((n - 1 : Nat) : Int) := by
  rw [it_u16_int]
  split
  · simp only [AOp.run, IT.arith, Bool.false_eq_true, if_false]
    congr 1; omega
  · rename_i h16
    have hw : 17 ≤ A.ib := by have := A.hib; omega
    have h3 : (2 : Nat) ^ 16 ≤ 2 ^ (A.ib - 1) := Nat.pow_le_pow_right (by decide) (by omega)
    simp only [AOp.run, IT.arith, if_true]
    rw [two_pow_cast, if_pos (by omega)]
    congr 1; omega

theorem band_u16 (t : IT) (a b : Nat) :
    AOp.run t .band (a : Int) (b : Int) = .ok ((a &&& b : Nat) : Int) := by
  simp only [AOp.run]
  rw [if_pos ⟨by omega, by omega⟩]; rfl

/-! ## The functions -/

/-- Memory holds the queue `m`: a `mu_spsc_t` (mask, head, tail, store) at offset `o` of object `b`. -/
structure SRep (h : Heap) (b : Base) (o : Int) (sb : Base) (so : Int) (m : Spsc.Spsc) : Prop where
  wr : b.isLit = false
  swr : sb.isLit = false
  mask : h.at b o = some (.int m.mask)
  head : h.at b (o + 1) = some (.int m.head)
  tail : h.at b (o + 2) = some (.int m.tail)
  store : h.at b (o + 3) = some (.ptr sb so)
  items : ∀ (i : Nat) v, m.store[i]? = some v → h.at sb (so + i) = some (code v)
  sep : ∀ i : Nat, i < m.store.length → ∀ k : Nat, k < 4 → ¬(b = sb ∧ o + k = so + i)
  maskLt : m.mask < 32768
  headLt : m.head < 32768
  tailLt : m.tail < 32768

/-- The cells a queue owns. -/
def SCells (b : Base) (o : Int) (sb : Base) (so : Int) (n : Nat) (b' : Base) (o' : Int) : Prop :=
  (b' = b ∧ o ≤ o' ∧ o' < o + 4) ∨ (b' = sb ∧ so ≤ o' ∧ o' < so + n)

theorem SRep.sepAt {h : Heap} {b o sb so m} (q : SRep h b o sb so m) {i : Nat}
    (hi : i < m.store.length) : ¬(b = sb ∧ o = so + i) ∧ ¬(b = sb ∧ o + 1 = so + i) ∧
      ¬(b = sb ∧ o + 2 = so + i) ∧ ¬(b = sb ∧ o + 3 = so + i) := by
  have h0 := q.sep i hi 0 (by omega)
  have h1 := q.sep i hi 1 (by omega)
  have h2 := q.sep i hi 2 (by omega)
  have h3 := q.sep i hi 3 (by omega)
  refine ⟨fun ⟨e, f⟩ => h0 ⟨e, by omega⟩, fun ⟨e, f⟩ => h1 ⟨e, by omega⟩,
    fun ⟨e, f⟩ => h2 ⟨e, by omega⟩, fun ⟨e, f⟩ => h3 ⟨e, by omega⟩⟩

/-- Writing outside the queue keeps it. -/
theorem SRep.upd_other {h : Heap} {b o sb so m eb eo v} (q : SRep h b o sb so m)
    (he : ¬ SCells b o sb so m.store.length eb eo) : SRep (h.upd eb eo v) b o sb so m := by
  have k : ∀ j : Int, 0 ≤ j → j < 4 → (h.upd eb eo v).at b (o + j) = h.at b (o + j) := by
    intro j h0 h1
    exact Heap.at_upd_sep (fun e => he (Or.inl ⟨e.1, by omega, by omega⟩))
  refine ⟨q.wr, q.swr, ?_, (k 1 (by omega) (by omega)).trans q.head,
    (k 2 (by omega) (by omega)).trans q.tail, (k 3 (by omega) (by omega)).trans q.store, ?_, q.sep,
    q.maskLt, q.headLt, q.tailLt⟩
  · have := k 0 (by omega) (by omega)
    rw [Int.add_zero] at this
    exact this.trans q.mask
  · intro i w hw
    have hl := (List.getElem?_eq_some_iff.mp hw).1
    rw [Heap.at_upd_sep (fun e => he (Or.inr ⟨e.1, by omega, by omega⟩))]
    exact q.items i w hw

/-- The number of an error code in the enumeration of mu_spsc.h:48-53. -/
def spscErr : Spsc.Err → CVal
  | .none => .int 0
  | .empty => .int 1
  | .full => .int 2
  | .size => .int 3

theorem src_spsc_capacity {h : Heap} {b o sb so m} (n : Nat) (q : SRep h b o sb so m) :
    sem A X prog (n + 1) .mu_spsc_capacity h [.ptr b o] = .ok (.int (Spsc.capacity m), h) := by
  rw [sem_succ (d := Src.mu_spsc_capacity) rfl, FunDef.run_regs rfl rfl]
  simp [csrc, Src.mu_spsc_capacity, q.mask, Spsc.capacity]

theorem src_spsc_reset {h : Heap} {b o sb so m} (n : Nat) (q : SRep h b o sb so m) :
    ∃ h', sem A X prog (n + 1) .mu_spsc_reset h [.ptr b o] = .ok (spscErr (Spsc.reset m).1, h') ∧
      SRep h' b o sb so (Spsc.reset m).2 ∧ Heap.Only (SCells b o sb so m.store.length) h h' := by
  refine ⟨(h.upd b (o + 1) (.int 0)).upd b (o + 2) (.int 0), ?_, ?_, ?_⟩
  · rw [sem_succ (d := Src.mu_spsc_reset) rfl, FunDef.run_regs rfl rfl]
    simp [csrc, Src.mu_spsc_reset, q.head, q.tail, q.wr, Spsc.reset, spscErr]
  · refine ⟨q.wr, q.swr, ?_, ?_, ?_, ?_, ?_, q.sep, q.maskLt, by simp [Spsc.reset],
      by simp [Spsc.reset]⟩
    · simp [csrc, q.mask, Spsc.reset]
    · simp [csrc, q.head, q.wr, Spsc.reset]
    · simp [csrc, q.tail, q.wr, Spsc.reset]
    · simp [csrc, q.store]
    · intro i v hv
      have hl := (List.getElem?_eq_some_iff.mp hv).1
      rw [Heap.at_upd_sep (q.sepAt hl).2.2.1, Heap.at_upd_sep (q.sepAt hl).2.1]
      exact q.items i v hv
  · exact ((Heap.Only.refl _ _).upd (Or.inl ⟨rfl, by omega, by omega⟩)).upd
      (Or.inl ⟨rfl, by omega, by omega⟩)

theorem src_spsc_put {h : Heap} {b o sb so m r m'} {x : Nat} (n : Nat)
    (q : SRep h b o sb so m) (hx : code x ≠ .undef) (hm : Spsc.put m x = .ok (r, m')) :
    ∃ h', sem A X prog (n + 1) .mu_spsc_put h [.ptr b o, code x] = .ok (spscErr r, h') ∧
      SRep h' b o sb so m' ∧ Heap.Only (SCells b o sb so m.store.length) h h' := by
  unfold Spsc.put at hm
  have ht1 := add_u16 (A := A) q.tailLt
  have ht2 := conv_u16c (A := A) (n := m.tail + 1) (by have := q.tailLt; omega)
  have hlt' : (m.tail + 1) &&& m.mask < 32768 := Nat.lt_of_le_of_lt Nat.and_le_right q.maskLt
  have hlt : (m.tail + 1) &&& m.mask < 65536 := Nat.lt_trans hlt' (by decide)
  have one : IT.conv (A.it (.common .u16 .int)) 1 = 1 := conv_u16c (A := A) (n := 1) (by decide)
  simp only at hm
  generalize m.tail + 1 = t at *
  by_cases hf : t &&& m.mask = m.head
  · rw [if_pos hf] at hm
    obtain ⟨rfl, rfl⟩ := Prod.mk.inj (Except.ok.inj hm)
    refine ⟨h, ?_, q, Heap.Only.refl _ _⟩
    rw [sem_succ (d := Src.mu_spsc_put) rfl, FunDef.run_regs rfl rfl]
    simp [csrc, Src.mu_spsc_put, q.tail, q.mask, q.head, conv_u16c (Nat.lt_trans q.tailLt (by decide)), conv_u16c (Nat.lt_trans q.maskLt (by decide)),
      conv_u16c (Nat.lt_trans q.headLt (by decide)), one, ht1, ht2, band_u16, conv_u16c hlt, conv_u16 hlt, hf, spscErr,
      conv_u16 (Nat.lt_trans q.headLt (by decide))]
  · rw [if_neg hf] at hm
    obtain ⟨st, hst, hm⟩ := C.bind_eq_ok hm
    have hi : m.tail < m.store.length := by
      unfold stN at hst; split at hst
      · assumption
      · cases hst
    rw [stN_ok hi] at hst
    obtain rfl := Except.ok.inj hst
    obtain ⟨rfl, rfl⟩ := Prod.mk.inj (Except.ok.inj hm)
    have hw := q.items m.tail _ (List.getElem?_eq_getElem hi)
    obtain ⟨s0, s1, s2, s3⟩ := q.sepAt hi
    have u1 : (h.upd sb (so + m.tail) (code x)).at b (o + 1) = _ :=
      (Heap.at_upd_sep (fun e => s1 ⟨e.1.symm, e.2.symm⟩)).trans q.head
    have u2 : (h.upd sb (so + m.tail) (code x)).at b (o + 2) = _ :=
      (Heap.at_upd_sep (fun e => s2 ⟨e.1.symm, e.2.symm⟩)).trans q.tail
    have u3 : (h.upd sb (so + m.tail) (code x)).at b (o + 3) = _ :=
      (Heap.at_upd_sep (fun e => s3 ⟨e.1.symm, e.2.symm⟩)).trans q.store
    have u0 : (h.upd sb (so + m.tail) (code x)).at b o = _ :=
      (Heap.at_upd_sep (fun e => s0 ⟨e.1.symm, e.2.symm⟩)).trans q.mask
    refine ⟨(h.upd sb (so + m.tail) (code x)).upd b (o + 2)
      (.int (t &&& m.mask : Nat)), ?_, ?_, ?_⟩
    · rw [sem_succ (d := Src.mu_spsc_put) rfl, FunDef.run_regs rfl rfl]
      simp [csrc, Src.mu_spsc_put, q.tail, q.mask, q.head, conv_u16c (Nat.lt_trans q.tailLt (by decide)), conv_u16c (Nat.lt_trans q.maskLt (by decide)),
        conv_u16c (Nat.lt_trans q.headLt (by decide)), one, ht1, ht2, band_u16, conv_u16c hlt, conv_u16 hlt, hf, spscErr,
        q.store, hw, q.swr, q.wr, u2, hx]
    · refine ⟨q.wr, q.swr, ?_, ?_, ?_, ?_, ?_, by simpa using q.sep, q.maskLt, q.headLt, hlt'⟩
      · simp [csrc, u0]
      · simp [csrc, u1]
      · simp [csrc, u2, q.wr]
      · simp [csrc, u3]
      · intro i v hv
        simp only at hv
        have hl : i < m.store.length := by
          have := (List.getElem?_eq_some_iff.mp hv).1; simpa using this
        rw [Heap.at_upd_sep (q.sepAt hl).2.2.1]
        by_cases e : i = m.tail
        · subst e
          rw [List.getElem?_set_self hi] at hv
          obtain rfl := Option.some.inj hv
          exact Heap.at_upd_same q.swr (by simp [hw])
        · rw [List.getElem?_set_ne (by omega)] at hv
          rw [Heap.at_upd_ne (Or.inr (by omega))]
          exact q.items i v hv
    · exact ((Heap.Only.refl _ _).upd (Or.inr ⟨rfl, by omega, by omega⟩)).upd
        (Or.inl ⟨rfl, by omega, by omega⟩)

theorem src_spsc_get {h : Heap} {b o sb so m eb eo r v m'} (n : Nat)
    (q : SRep h b o sb so m) (hew : eb.isLit = false) (hes : (h.at eb eo).isSome = true)
    (he : ¬ SCells b o sb so m.store.length eb eo)
    (hm : Spsc.get m = .ok (r, v, m')) (hv : code v ≠ .undef) :
    ∃ h', sem A X prog (n + 1) .mu_spsc_get h [.ptr b o, .ptr eb eo] = .ok (spscErr r, h') ∧
      SRep h' b o sb so m' ∧ h'.at eb eo = some (code v) ∧
      Heap.Only (fun b' o' => SCells b o sb so m.store.length b' o' ∨ (b' = eb ∧ o' = eo)) h h' := by
  unfold Spsc.get at hm
  have ht1 := add_u16 (A := A) q.headLt
  have ht2 := conv_u16c (A := A) (n := m.head + 1) (by have := q.headLt; omega)
  have hlt' : (m.head + 1) &&& m.mask < 32768 := Nat.lt_of_le_of_lt Nat.and_le_right q.maskLt
  have hlt : (m.head + 1) &&& m.mask < 65536 := Nat.lt_trans hlt' (by decide)
  have one : IT.conv (A.it (.common .u16 .int)) 1 = 1 := conv_u16c (A := A) (n := 1) (by decide)
  generalize m.head + 1 = t at *
  by_cases hf : m.head = m.tail
  · rw [if_pos hf] at hm
    injection hm with hm
    injection hm with e1 hm
    injection hm with e2 e3
    subst e1 e2 e3
    refine ⟨h.upd eb eo .null, ?_, q.upd_other he, ?_,
      (Heap.Only.refl _ _).upd (Or.inr ⟨rfl, rfl⟩)⟩
    · rw [sem_succ (d := Src.mu_spsc_get) rfl, FunDef.run_regs rfl rfl]
      simp [csrc, Src.mu_spsc_get, q.tail, q.head, conv_u16c (Nat.lt_trans q.tailLt (by decide)), hf, hew, hes, spscErr]
    · simp [csrc, hew, hes, NULL]
  · rw [if_neg hf] at hm
    obtain ⟨el, hel, hm⟩ := C.bind_eq_ok hm
    injection hm with hm
    injection hm with e1 hm
    injection hm with e2 e3
    subst e1 e2 e3
    have hi : m.store[m.head]? = some el := by
      unfold ldN at hel
      cases e : m.store[m.head]? with
      | none => rw [e] at hel; cases hel
      | some y => rw [e] at hel; injection hel with hel; rw [hel]
    have hw := q.items m.head _ hi
    have q' := q.upd_other (v := code el) he
    have hev : (h.upd eb eo (code el)).at eb eo = some (code el) := Heap.at_upd_same hew hes
    refine ⟨(h.upd eb eo (code el)).upd b (o + 1) (.int (t &&& m.mask : Nat)), ?_, ?_, ?_,
      ?_⟩
    · rw [sem_succ (d := Src.mu_spsc_get) rfl, FunDef.run_regs rfl rfl]
      simp [csrc, Src.mu_spsc_get, q.tail, q.head, q.store, conv_u16c (Nat.lt_trans q.tailLt (by decide)), conv_u16c (Nat.lt_trans q.headLt (by decide)),
        hf, hew, hes, spscErr, hw, hv, q'.head, q'.mask, ht1, ht2, one, band_u16,
        conv_u16c (Nat.lt_trans q.maskLt (by decide)), conv_u16 hlt, q.wr]
    · refine ⟨q.wr, q.swr, ?_, ?_, ?_, ?_, ?_, q.sep, q.maskLt, hlt', q.tailLt⟩
      · simp [csrc, q'.mask]
      · simp [csrc, q'.head, q.wr]
      · simp [csrc, q'.tail]
      · simp [csrc, q'.store]
      · intro i w hw
        have hl : i < m.store.length := (List.getElem?_eq_some_iff.mp hw).1
        rw [Heap.at_upd_sep (q.sepAt hl).2.1]
        exact q'.items i w hw
    · rw [Heap.at_upd_sep (fun e => he (Or.inl ⟨e.1.symm, by omega, by omega⟩))]
      exact hev
    · exact ((Heap.Only.refl _ _).upd (Or.inr ⟨rfl, rfl⟩)).upd
        (Or.inl (Or.inl ⟨rfl, by omega, by omega⟩))

end Mu.CS
