import Verif.Lemmas.SrcRead

/-! # Writing bytes: lists of bytes in the memory of the C semantics -/

namespace Mu.CS

variable {A : Arch} {X : Ext}

section
variable {h : Heap} {b : Base} {o : Int} {l : List UInt8}

/-- The byte at a position. -/
theorem Heap.Bytes.at (hb : h.Bytes b o l) {i : Nat} (hi : i < l.length) :
    h.at b (o + i) = some (.int l[i].toNat) := hb.2.2 i _ (List.getElem?_eq_getElem hi)

theorem Heap.Bytes.isSome (hb : h.Bytes b o l) {i : Nat} (hi : i < l.length) :
    (h.at b (o + i)).isSome = true := by rw [hb.at hi]; rfl

theorem Heap.Bytes.padd (hb : h.Bytes b o l) {i : Nat} (hi : i ≤ l.length) :
    h.padd 1 (.ptr b o) i = .ok (.ptr b (o + i)) := by
  obtain ⟨a, c, -⟩ := hb
  exact Heap.padd_one (by omega) (by omega)

/-- Storing a byte. -/
theorem Heap.Bytes.upd (hb : h.Bytes b o l) (hw : b.isLit = false) {i : Nat} (hi : i < l.length)
    (c : UInt8) : (h.upd b (o + i) (.int c.toNat)).Bytes b o (l.set i c) := by
  refine ⟨hb.1, by rw [Heap.length_upd, List.length_set]; exact hb.2.1, ?_⟩
  intro j d e
  rw [List.getElem?_set] at e
  by_cases hij : i = j
  · subst hij
    rw [if_pos rfl, if_pos hi] at e
    cases e
    exact Heap.at_upd_same hw (hb.isSome hi)
  · rw [if_neg hij] at e
    rw [Heap.at_upd_sep (by omega)]
    exact hb.2.2 j d e

theorem Heap.Bytes.upd_only (hi : i < l.length) (c : CVal) :
    Heap.Only (span b o l.length) h (h.upd b (o + i) c) :=
  (Heap.Only.refl _ _).upd ⟨rfl, by omega, by omega⟩

/-- The bytes as cells. -/
def cellsOf (l : List UInt8) : List CVal := l.map fun c => .int c.toNat

@[simp] theorem cellsOf_length (l : List UInt8) : (cellsOf l).length = l.length := by simp [cellsOf]

theorem Heap.at_eq (h : Heap) (b : Base) {o : Int} (h0 : 0 ≤ o) : h.at b o = (h.cells b)[o.toNat]? := by
  unfold Heap.at; rw [if_pos h0]

/-- `memmove` and `memset` read and write lists of bytes. -/
theorem Heap.Bytes.getN (hb : h.Bytes b o l) {k n : Nat} (hk : k + n ≤ l.length) :
    h.getN (.ptr b (o + k)) n = .ok (cellsOf ((l.drop k).take n)) := by
  obtain ⟨h0, h1, h2⟩ := hb
  unfold Heap.getN
  dsimp only
  rw [if_pos ⟨by omega, by omega⟩]
  congr 1
  apply List.ext_getElem?
  intro i
  by_cases hi : i < n
  · rw [List.getElem?_take, if_pos hi, List.getElem?_drop]
    unfold cellsOf
    rw [List.getElem?_map, List.getElem?_take, if_pos hi, List.getElem?_drop]
    have hlt : k + i < l.length := by omega
    have := h2 (k + i) _ (List.getElem?_eq_getElem hlt)
    rw [Heap.at_eq _ _ (by omega)] at this
    rw [show (o + (k : Int)).toNat + i = (o + ((k + i : Nat) : Int)).toNat by omega, this,
      List.getElem?_eq_getElem hlt]
    rfl
  · rw [List.getElem?_eq_none (by simp; omega), List.getElem?_eq_none (by simp; omega)]

theorem Heap.putN_ok (hw : b.isLit = false) {cs : List CVal} (h0 : 0 ≤ o)
    (h1 : o + cs.length ≤ (h.cells b).length) : ∃ h', h.putN (.ptr b o) cs = .ok h' ∧
      (∀ i : Nat, i < cs.length → h'.at b (o + i) = cs[i]?) ∧
      Heap.Only (span b o cs.length) h h' := by
  have hc := Heap.cells_eq hw h
  rw [hc] at h1
  have hput : h.putN (.ptr b o) cs = .ok (h.put b ((h.mem b).take o.toNat ++ cs ++
      (h.mem b).drop (o.toNat + cs.length))) := by
    cases b with
    | lit s => cases hw
    | _ => simp only [Heap.putN]; rw [if_pos ⟨h0, h1⟩]
  refine ⟨_, hput, ?_, ?_⟩
  · intro i hi
    rw [Heap.at_eq _ _ (by omega), Heap.cells_eq hw]
    simp only [Heap.put, if_true]
    rw [List.append_assoc, List.getElem?_append_right (by simp; omega), List.getElem?_append_left]
    · congr 1; simp; omega
    · simp; omega
  · refine ⟨?_, ?_, rfl⟩
    · intro b' o' hs
      by_cases e : b' = b
      · subst e
        by_cases hneg : 0 ≤ o'
        · rw [Heap.at_eq _ _ hneg, Heap.at_eq _ _ hneg, Heap.cells_eq hw, Heap.cells_eq hw]
          simp only [Heap.put, if_true]
          have : o' < o ∨ o + cs.length ≤ o' := by
            apply Decidable.or_iff_not_imp_left.mpr
            intro x
            apply Decidable.not_not.mp
            intro y
            exact hs ⟨rfl, by omega, by omega⟩
          rcases this with x | x
          · rw [List.append_assoc, List.getElem?_append_left (by simp; omega), List.getElem?_take,
              if_pos (by omega)]
          · rw [List.getElem?_append_right (by simp; omega), List.getElem?_drop]
            congr 1; simp; omega
        · unfold Heap.at; rw [if_neg hneg, if_neg hneg]
      · unfold Heap.at
        have : (h.put b ((h.mem b).take o.toNat ++ cs ++ (h.mem b).drop (o.toNat + cs.length))).cells b' =
            h.cells b' := by
          cases b' with
          | lit s => rfl
          | _ => simp only [Heap.cells, Heap.put]; rw [if_neg e]
        rw [this]
    · intro b'
      by_cases e : b' = b
      · subst e
        rw [Heap.cells_eq hw, Heap.cells_eq hw]
        simp [Heap.put]; omega
      · cases b' with
        | lit s => rfl
        | _ => simp only [Heap.cells, Heap.put]; rw [if_neg e]

theorem Heap.Bytes.putN (hb : h.Bytes b o l) (hw : b.isLit = false) {k : Nat} {l2 : List UInt8}
    (hk : k + l2.length ≤ l.length) : ∃ h', h.putN (.ptr b (o + k)) (cellsOf l2) = .ok h' ∧
      h'.Bytes b o (l.take k ++ l2 ++ l.drop (k + l2.length)) ∧
      Heap.Only (span b o l.length) h h' := by
  obtain ⟨h0, h1, h2⟩ := hb
  obtain ⟨h', e, h3, h4⟩ := Heap.putN_ok (h := h) (o := o + k) hw (cs := cellsOf l2) (by omega)
    (by simp; omega)
  refine ⟨h', e, ⟨h0, ?_, ?_⟩, h4.mono ?_⟩
  · rw [h4.size]; simp; omega
  · intro i c hc
    by_cases hik : k ≤ i ∧ i < k + l2.length
    · have := h3 (i - k) (by simp; omega)
      rw [show o + (k : Int) + ((i - k : Nat) : Int) = o + i by omega] at this
      rw [this]
      rw [List.append_assoc, List.getElem?_append_right (by simp; omega),
        List.getElem?_append_left (by simp; omega)] at hc
      simp only [List.length_take, Nat.min_eq_left (show k ≤ l.length by omega)] at hc
      simp [cellsOf, hc]
    · rw [h4.cell _ _ (by rintro ⟨-, x, y⟩; simp at y; omega)]
      apply h2
      rw [← hc]
      by_cases hlt : i < k
      · rw [List.append_assoc, List.getElem?_append_left (by simp; omega), List.getElem?_take,
          if_pos hlt]
      · rw [List.getElem?_append_right (by simp; omega), List.getElem?_drop]
        congr 1; simp; omega
  · rintro b' o' ⟨rfl, x, y⟩
    simp at y
    exact ⟨rfl, by omega, by omega⟩

end

theorem sem_memset {X : Ext} (n : Nat) : sem A X prog (n + 1) .memset = Lib.memset := rfl
theorem sem_memmove {X : Ext} (n : Nat) : sem A X prog (n + 1) .memmove = Lib.memmove := rfl

end Mu.CS
