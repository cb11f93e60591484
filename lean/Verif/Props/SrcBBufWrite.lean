import Verif.Lemmas.SrcBBufRotate

/-! # Property C122: the parsed source of mu_bbuf.c, the functions that write

`h.BBuf b o bb ob l`: at `(b, o)` memory holds a `mu_bbuf_t` whose bytes are `l`, kept at `(bb, ob)`.
The bytes are not in a string literal (`bb.isLit = false`) and do not overlap the `mu_bbuf_t` itself
(`Apart`).  `Heap.Only (span bb ob l.length) h h'`: no other cell of memory changed. -/

namespace Mu.CS

open BBuf

variable (A : Arch) (X : Ext) (n : Nat) (h : Heap) (b bb : Base) (o ob : Int) (l : List UInt8)

/-- **C122, `mu_bbuf_put_byte`**: an index inside the buffer is stored to; any other index is refused and
nothing changes. -/
theorem C122_put_byte (i : Nat) (c : UInt8) (h1 : h.BBuf b o bb ob l) (hw : bb.isLit = false)
    (ha : Apart b o 2 bb ob l.length) (hsz : l.length < A.szMod) (hi : i < A.szMod) :
    (i < l.length → ∃ h', sem A X prog (n + 1) .mu_bbuf_put_byte h [.ptr b o, .int i, .int c.toNat] =
        .ok (.int 1, h') ∧ h'.BBuf b o bb ob (l.set i c) ∧ Heap.Only (span bb (ob + i) 1) h h') ∧
    (l.length ≤ i → sem A X prog (n + 1) .mu_bbuf_put_byte h [.ptr b o, .int i, .int c.toNat] =
        .ok (.int 0, h)) := by
  have e := src_put_byte (A := A) (X := X) n h1 hw hsz hi c
  refine ⟨fun hl => ?_, fun hl => ?_⟩
  · rw [if_pos hl] at e
    refine ⟨_, ?_, h1.write ha (Heap.Bytes.upd_only hl _) (h1.bytes.upd hw hl c) (by simp),
      (Heap.Only.refl _ _).upd ⟨rfl, by omega, by omega⟩⟩
    rw [e]; simp [hl, CVal.ofBool]
  · rw [if_neg (by omega)] at e
    rw [e]
    have : ¬ i < l.length := by omega
    simp [this, CVal.ofBool]

/-- **C122, `mu_bbuf_clear`**: every byte is zero. -/
theorem C122_clear (h1 : h.BBuf b o bb ob l) (hw : bb.isLit = false) (ha : Apart b o 2 bb ob l.length) :
    ∃ h', sem A X prog (n + 2) .mu_bbuf_clear h [.ptr b o] = .ok (.ptr b o, h') ∧
      h'.BBuf b o bb ob (List.replicate l.length 0) ∧ Heap.Only (span bb ob l.length) h h' := by
  obtain ⟨h', e, h2, h3⟩ := src_clear (A := A) (X := X) n h1 hw
  exact ⟨h', e, h1.write ha h3 h2 (by simp), h3⟩

/-- **C122, `mu_bbuf_rshift`**, any shift but `INT_MIN`: position `j` holds the byte that was at
`j - shift`, or zero if there was none.  With `INT_MIN` the negation overflows. -/
theorem C122_rshift (shift : Int) (h1 : h.BBuf b o bb ob l) (hw : bb.isLit = false)
    (ha : Apart b o 2 bb ob l.length) (hsz : l.length < A.szMod) (hin : A.InInt shift) :
    (shift ≠ A.intMin → ∃ h' bs, sem A X prog (n + 3) .mu_bbuf_rshift h [.ptr b o, .int shift] =
        .ok (.ptr b o, h') ∧ h'.BBuf b o bb ob bs ∧ bs.length = l.length ∧
        (∀ j, j < l.length → bs[j]? = if 0 ≤ (j : Int) - shift ∧ (j : Int) - shift < l.length then
          l[((j : Int) - shift).toNat]? else some 0) ∧ Heap.Only (span bb ob l.length) h h') ∧
    (shift = A.intMin →
      sem A X prog (n + 3) .mu_bbuf_rshift h [.ptr b o, .int shift] = .error .overflow) := by
  refine ⟨fun hne => ?_, fun e => by rw [e]; exact src_rshift_min (n + 2) h1⟩
  have := hin.1
  obtain ⟨h', e, h2, h3⟩ := src_rshift (A := A) (X := X) n h1 hw ha hsz (s := shift) (by omega) hin.2
  have hlen : (shifted l shift).length = l.length := by
    unfold shifted; split <;> simp <;> omega
  refine ⟨h', _, e, h1.write ha h3 h2 hlen, hlen, ?_, h3⟩
  intro j hj
  unfold shifted
  by_cases hs : 0 ≤ shift
  · rw [if_pos hs]
    by_cases hc : 0 ≤ (j : Int) - shift
    · rw [if_pos (by omega), List.getElem?_append_right (by simp; omega),
        List.getElem?_take_of_lt (by simp; omega)]
      congr 1
      simp; omega
    · rw [if_neg (by omega), List.getElem?_append_left (by simp; omega), List.getElem?_replicate,
        if_pos (by omega)]
  · rw [if_neg hs]
    by_cases hc : (j : Int) - shift < l.length
    · rw [if_pos (by omega), List.getElem?_append_left (by simp; omega), List.getElem?_drop]
      congr 1
      omega
    · rw [if_neg (by omega), List.getElem?_append_right (by simp; omega), List.getElem?_replicate,
        if_pos (by simp; omega)]

/-- **C122, `mu_bbuf_reverse`**: the bytes in the opposite order; on an empty buffer the pointer past the
end of the last byte is computed outside its object. -/
theorem C122_reverse (h1 : h.BBuf b o bb ob l) (hw : bb.isLit = false) (ha : Apart b o 2 bb ob l.length)
    (hsz : (h.cells bb).length + 1 < A.szMod) (hn : l.length ≤ n) :
    (l ≠ [] → ∃ h', sem A X prog (n + 1) .mu_bbuf_reverse h [.ptr b o] = .ok (.ptr b o, h') ∧
      h'.BBuf b o bb ob l.reverse ∧ Heap.Only (span bb ob l.length) h h') ∧
    (l = [] → sem A X prog (n + 1) .mu_bbuf_reverse h [.ptr b o] = .error .ptr) := by
  refine ⟨fun h0 => ?_, fun h0 => ?_⟩
  · have := h1.bytes.1
    have := h1.bytes.2.1
    obtain ⟨h', e, h2, h3⟩ := src_reverse (A := A) (X := X) n h1 hw (by omega) h0 hn
    exact ⟨h', e, h1.write ha h3 h2 (by simp), h3⟩
  · subst h0; exact src_reverse_empty n h1 hsz

/-- **C122, `mu_bbuf_rrotate`**, any shift: the byte at `i` moves to `(i + shift) mod capacity`.  On an
empty buffer the call does not return, however much fuel it is given. -/
theorem C122_rrotate (shift : Int) (h1 : h.BBuf b o bb ob l) (hw : bb.isLit = false)
    (ha : Apart b o 2 bb ob l.length) (s1 : Short A l) (hf : h.Fresh) (hin : A.InInt shift)
    (hn : l.length + shift.natAbs + 2 ≤ n) :
    (l ≠ [] → ∃ h' bs, sem A X prog (n + 1) .mu_bbuf_rrotate h [.ptr b o, .int shift] =
        .ok (.ptr b o, h') ∧ h'.BBuf b o bb ob bs ∧ bs.length = l.length ∧
        (∀ i, i < l.length → bs[(((i : Int) + shift) % l.length).toNat]? = l[i]?) ∧
        Heap.Only (span bb ob l.length) h h') ∧
    (l = [] → ∀ fuel, sem A X prog fuel .mu_bbuf_rrotate h [.ptr b o, .int shift] = .error .diverge) := by
  refine ⟨fun h0 => ?_, fun h0 fuel => by subst h0; exact src_rrotate_empty fuel h1 hf hin⟩
  have hpos : 0 < l.length := List.length_pos_iff.mpr h0
  obtain ⟨h', s, e, hs1, hs2, h2, h3⟩ := src_rrotate (A := A) (X := X) n h1 hw ha s1 h0 hf hin hn
  have hlen : (l.drop (l.length - s) ++ l.take (l.length - s)).length = l.length := by simp
  refine ⟨h', _, e, h1.write ha h3 h2 hlen, hlen, ?_, h3⟩
  intro i hi
  have e : ((i : Int) + shift) % l.length = ((i : Int) + s) % l.length := by
    rw [hs2, Int.add_emod_emod]
  rw [e]
  by_cases hlt : i + s < l.length
  · rw [Int.emod_eq_of_lt (by omega) (by omega)]
    rw [List.getElem?_append_right (by simp; omega), List.getElem?_take_of_lt (by simp; omega)]
    congr 1
    simp; omega
  · have e2 : ((i : Int) + s) % l.length = ((i + s - l.length : Nat) : Int) := by
      rw [← Int.sub_emod_right, Int.emod_eq_of_lt] <;> omega
    rw [e2, Int.toNat_natCast, List.getElem?_append_left (by simp; omega), List.getElem?_drop]
    congr 1
    omega

/-- **C122, `mu_bbuf_copy_into`** never copies: it returns 0 when the offset leaves nothing to copy, and
otherwise reads a local that has no value. -/
theorem C122_copy_into (b2 bb2 : Base) (o2 ob2 : Int) (l2 : List UInt8) (off : Int)
    (h1 : h.BBuf b o bb ob l) (h2 : h.BBuf b2 o2 bb2 ob2 l2) (z1 : l.length < A.szMod)
    (z2 : l2.length < A.szMod) (hin : A.InInt off) :
    sem A X prog (n + 2) .mu_bbuf_copy_into h [.ptr b o, .ptr b2 o2, .int off] =
      if off = A.intMin then .error .overflow
      else if (0 < off ∧ (l.length : Int) ≤ off) ∨ (off < 0 ∧ (l2.length : Int) ≤ -off) then
        .ok (.int 0, h)
      else .error .uninit :=
  src_copy_into n h1.cap h2.cap z1 z2 hin

/-! ## The hypotheses hold of concrete memories -/

theorem bvDemo_fresh : bvDemo.Fresh := by
  intro k hk
  have : 7 ≤ k := hk
  unfold bvDemo bbDemo
  dsimp only
  split <;> first | rfl | (rename_i e; injection e; omega) | (split <;> first | rfl | (rename_i e; injection e; omega))

example (X : Ext) : ∃ h', sem .lp64 X prog 11 .mu_bbuf_rrotate bvDemo [.ptr (.obj 2) 0, .int (-2)] =
    .ok (.ptr (.obj 2) 0, h') ∧ h'.at (.obj 0) 0 = some (.int 99) ∧ h'.at (.obj 0) 4 = some (.int 98) := by
  obtain ⟨h', bs, e, h2, h3, h4, -⟩ := (C122_rrotate .lp64 X 10 bvDemo (.obj 2) (.obj 0) 0 0
    [97, 98, 99, 97, 98] (-2) bvDemo_bufs.1 rfl (.inl (by decide)) (by decide) bvDemo_fresh
    ⟨by decide, by decide⟩ (by decide)).1 (by decide)
  exact ⟨h', e, h2.bytes.2.2 0 99 (h4 2 (by decide)), h2.bytes.2.2 4 98 (h4 1 (by decide))⟩

example (X : Ext) : ∃ h', sem .lp64 X prog 3 .mu_bbuf_rshift bvDemo [.ptr (.obj 2) 0, .int (-2)] =
    .ok (.ptr (.obj 2) 0, h') ∧ h'.at (.obj 0) 0 = some (.int 99) ∧ h'.at (.obj 0) 4 = some (.int 0) := by
  obtain ⟨h', bs, e, h2, h3, h4, -⟩ := (C122_rshift .lp64 X 0 bvDemo (.obj 2) (.obj 0) 0 0
    [97, 98, 99, 97, 98] (-2) bvDemo_bufs.1 rfl (.inl (by decide)) (by decide)
    ⟨by decide, by decide⟩).1 (by decide)
  exact ⟨h', e, h2.bytes.2.2 0 99 (h4 0 (by decide)), h2.bytes.2.2 4 0 (h4 4 (by decide))⟩

example (X : Ext) : ∃ h', sem .lp64 X prog 6 .mu_bbuf_reverse bvDemo [.ptr (.obj 2) 0] =
    .ok (.ptr (.obj 2) 0, h') ∧ h'.BBuf (.obj 2) 0 (.obj 0) 0 [98, 97, 99, 98, 97] := by
  obtain ⟨h', e, h2, -⟩ := (C122_reverse .lp64 X 5 bvDemo (.obj 2) (.obj 0) 0 0
    [97, 98, 99, 97, 98] bvDemo_bufs.1 rfl (.inl (by decide)) (by decide) (by decide)).1 (by decide)
  exact ⟨h', e, h2⟩

example (X : Ext) : ∃ h', sem .lp64 X prog 1 .mu_bbuf_put_byte bvDemo [.ptr (.obj 2) 0, .int 3, .int 7] =
    .ok (.int 1, h') ∧ h'.BBuf (.obj 2) 0 (.obj 0) 0 [97, 98, 99, 7, 98] := by
  obtain ⟨h', e, h2, -⟩ := (C122_put_byte .lp64 X 0 bvDemo (.obj 2) (.obj 0) 0 0
    [97, 98, 99, 97, 98] 3 7 bvDemo_bufs.1 rfl (.inl (by decide)) (by decide) (by decide)).1 (by decide)
  exact ⟨h', e, h2⟩

example (X : Ext) : ∃ h', sem .lp64 X prog 2 .mu_bbuf_clear bvDemo [.ptr (.obj 2) 0] =
    .ok (.ptr (.obj 2) 0, h') ∧ h'.BBuf (.obj 2) 0 (.obj 0) 0 [0, 0, 0, 0, 0] := by
  obtain ⟨h', e, h2, -⟩ := C122_clear .lp64 X 0 bvDemo (.obj 2) (.obj 0) 0 0
    [97, 98, 99, 97, 98] bvDemo_bufs.1 rfl (.inl (by decide))
  exact ⟨h', e, h2⟩

example (X : Ext) : sem .lp64 X prog 2 .mu_bbuf_copy_into bvDemo [.ptr (.obj 2) 0, .ptr (.obj 2) 0, .int 2] =
    .error .uninit :=
  C122_copy_into .lp64 X 0 bvDemo (.obj 2) (.obj 0) 0 0 [97, 98, 99, 97, 98] (.obj 2) (.obj 0) 0 0
    [97, 98, 99, 97, 98] 2 bvDemo_bufs.1 bvDemo_bufs.1 (by decide) (by decide) ⟨by decide, by decide⟩

end Mu.CS
