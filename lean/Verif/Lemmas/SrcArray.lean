import Verif.Lemmas.SrcBBufRotate
import Verif.Spec.SrcArray

/-! # mu_array.c from the parsed source: everything but sorting -/

namespace Mu.CS

variable {A : Arch} {X : Ext}

section
variable {h h' : Heap} {b sb : Base} {o so : Int} {cap : Nat} {l l' : List CVal}

theorem Heap.Arr.sepAt (q : h.Arr b o sb so cap l) {i : Nat} (hi : i < cap) :
    ¬(b = sb ∧ o = so + i) ∧ ¬(b = sb ∧ o + 1 = so + i) ∧ ¬(b = sb ∧ o + 2 = so + i) := by
  have h0 := q.sep i hi 0 (by omega)
  have h1 := q.sep i hi 1 (by omega)
  have h2 := q.sep i hi 2 (by omega)
  refine ⟨fun ⟨e, f⟩ => h0 ⟨e, by omega⟩, fun ⟨e, f⟩ => h1 ⟨e, by omega⟩,
    fun ⟨e, f⟩ => h2 ⟨e, by omega⟩⟩

theorem Heap.Arr.sepAt' (q : h.Arr b o sb so cap l) {i : Nat} (hi : i < cap) :
    ¬(sb = b ∧ so + i = o) ∧ ¬(sb = b ∧ so + i = o + 1) ∧ ¬(sb = b ∧ so + i = o + 2) := by
  obtain ⟨a, b, c⟩ := q.sepAt hi
  exact ⟨fun e => a ⟨e.1.symm, e.2.symm⟩, fun e => b ⟨e.1.symm, e.2.symm⟩,
    fun e => c ⟨e.1.symm, e.2.symm⟩⟩

/-- The array does not depend on other memory. -/
theorem Heap.Arr.only {S : Base → Int → Prop} (e : Heap.Only S h h') (q : h.Arr b o sb so cap l)
    (hs : ∀ b' o', arrCells b o sb so cap b' o' → ¬ S b' o') : h'.Arr b o sb so cap l := by
  refine ⟨q.wr, q.swr, e.at_of q.items ?_, e.at_of q.room ?_, e.at_of q.cnt ?_, ?_, ?_, q.sep, q.le, q.defd⟩
  · exact hs _ _ (.inl ⟨rfl, by omega, by omega⟩)
  · exact hs _ _ (.inl ⟨rfl, by omega, by omega⟩)
  · exact hs _ _ (.inl ⟨rfl, by omega, by omega⟩)
  · intro i v hv
    refine e.at_of (q.cell i v hv) (hs _ _ (.inr ⟨rfl, by omega, ?_⟩))
    have := (List.getElem?_eq_some_iff.mp hv).1
    have := q.le
    omega
  · intro i hi
    exact (e.isSome _ _).mpr (q.slot i hi)

/-- Another content, the same struct except for the count. -/
theorem Heap.Arr.change {S : Base → Int → Prop} (e : Heap.Only S h h') (q : h.Arr b o sb so cap l)
    (h0 : ¬ S b o) (h1 : ¬ S b (o + 1)) (h2 : h'.at b (o + 2) = some (.int l'.length))
    (hc : ∀ (i : Nat) v, l'[i]? = some v → h'.at sb (so + i) = some v) (hle : l'.length ≤ cap)
    (hd : ∀ v ∈ l', v ≠ .undef) : h'.Arr b o sb so cap l' :=
  ⟨q.wr, q.swr, e.at_of q.items h0, e.at_of q.room h1, h2, hc,
    fun i hi => (e.isSome _ _).mpr (q.slot i hi), q.sep, hle, hd⟩

theorem Heap.Arr.ld (q : h.Arr b o sb so cap l) {i : Nat} (hi : i < l.length) :
    h.at sb (so + i) = some l[i] ∧ l[i] ≠ .undef :=
  ⟨q.cell i _ (List.getElem?_eq_getElem hi), q.defd _ (List.getElem_mem hi)⟩

theorem Heap.Arr.cntSome (q : h.Arr b o sb so cap l) : (h.at b (o + 2)).isSome = true := by
  rw [q.cnt]; rfl

theorem src_arr_reset (n : Nat) (q : h.Arr b o sb so cap l) :
    sem A X prog (n + 1) .mu_array_reset h [.ptr b o] = .ok (.ptr b o, h.upd b (o + 2) (.int 0)) ∧
      (h.upd b (o + 2) (.int 0)).Arr b o sb so cap [] := by
  constructor
  · rw [sem_succ (d := Src.mu_array_reset) rfl, FunDef.run_regs rfl rfl]
    simp [csrc, Src.mu_array_reset, q.cntSome, q.wr]
  · have o1 : Heap.Only (fun b' o' => b' = b ∧ o' = o + 2) h (h.upd b (o + 2) (.int 0)) :=
      (Heap.Only.refl _ _).upd ⟨rfl, rfl⟩
    refine q.change o1 (by omega) (by omega) (Heap.at_upd_same q.wr q.cntSome) (by simp) (by simp) (by simp)

theorem src_arr_capacity (n : Nat) (q : h.Arr b o sb so cap l) :
    sem A X prog (n + 1) .mu_array_capacity h [.ptr b o] = .ok (.int cap, h) := by
  rw [sem_succ (d := Src.mu_array_capacity) rfl, FunDef.run_regs rfl rfl]
  simp [csrc, Src.mu_array_capacity, q.room]

theorem src_arr_count (n : Nat) (q : h.Arr b o sb so cap l) :
    sem A X prog (n + 1) .mu_array_count h [.ptr b o] = .ok (.int l.length, h) := by
  rw [sem_succ (d := Src.mu_array_count) rfl, FunDef.run_regs rfl rfl]
  simp [csrc, Src.mu_array_count, q.cnt]

theorem Heap.Arr.lt (q : h.Arr b o sb so cap l) (hc : (cap : Int) ≤ A.intMax) :
    l.length < A.szMod ∧ cap < A.szMod := by
  have := A.intMax_lt_szMod
  have := q.le
  omega

theorem src_arr_is_empty (n : Nat) (q : h.Arr b o sb so cap l) (hc : (cap : Int) ≤ A.intMax) :
    sem A X prog (n + 1) .mu_array_is_empty h [.ptr b o] = .ok (.ofBool (decide (l.length = 0)), h) := by
  have c1 := conv_size_lt (q.lt hc).1
  have e := q.cnt
  rw [sem_succ (d := Src.mu_array_is_empty) rfl, FunDef.run_regs rfl rfl]
  simp [csrc, Src.mu_array_is_empty, e, c1]

theorem src_arr_is_full (n : Nat) (q : h.Arr b o sb so cap l) (hc : (cap : Int) ≤ A.intMax) :
    sem A X prog (n + 1) .mu_array_is_full h [.ptr b o] = .ok (.ofBool (decide (l.length = cap)), h) := by
  have c1 := conv_size_lt (q.lt hc).1
  have c2 := conv_size_lt (q.lt hc).2
  have e := q.cnt
  have e2 := q.room
  rw [sem_succ (d := Src.mu_array_is_full) rfl, FunDef.run_regs rfl rfl]
  simp [csrc, Src.mu_array_is_full, e, e2, c1, c2]

/-- The memory after an item was added behind the others. -/
def Heap.pushed (h : Heap) (b : Base) (o : Int) (sb : Base) (so : Int) (k : Nat) (v : CVal) : Heap :=
  (h.upd b (o + 2) (.int (k + 1 : Nat))).upd sb (so + k) v

theorem Heap.Arr.pushed_only (q : h.Arr b o sb so cap l) (hf : l.length < cap) (v : CVal) :
    Heap.Only (arrCells b o sb so cap) h (h.pushed b o sb so l.length v) :=
  ((Heap.Only.refl _ _).upd (.inl ⟨rfl, by omega, by omega⟩)).upd (.inr ⟨rfl, by omega, by omega⟩)

theorem Heap.Arr.push (q : h.Arr b o sb so cap l) (hf : l.length < cap) {v : CVal} (hv : v ≠ .undef) :
    (h.pushed b o sb so l.length v).Arr b o sb so cap (l ++ [v]) := by
  have o1 : Heap.Only (fun b' o' => (b' = b ∧ o' = o + 2) ∨ (b' = sb ∧ o' = so + l.length)) h
      (h.pushed b o sb so l.length v) :=
    ((Heap.Only.refl _ _).upd (.inl ⟨rfl, rfl⟩)).upd (.inr ⟨rfl, rfl⟩)
  obtain ⟨s0, s1, s2⟩ := q.sepAt hf
  obtain ⟨t0, t1, t2⟩ := q.sepAt' hf
  refine q.change o1 (fun x => x.elim (fun y => by omega) s0) (fun x => x.elim (fun y => by omega) s1) ?_ ?_
    (by simp; omega) ?_
  · unfold Heap.pushed
    rw [Heap.at_upd_sep t2, Heap.at_upd_same q.wr q.cntSome]
    simp
  · intro i w hw
    unfold Heap.pushed
    by_cases hi : i < l.length
    · obtain ⟨u0, u1, u2⟩ := q.sepAt (i := i) (by omega)
      rw [Heap.at_upd_sep (by omega), Heap.at_upd_sep u2]
      rw [List.getElem?_append_left hi] at hw
      exact q.cell i w hw
    · have hlt := (List.getElem?_eq_some_iff.mp hw).1
      simp at hlt
      obtain rfl : i = l.length := by omega
      simp at hw
      subst hw
      exact Heap.at_upd_same q.swr (by rw [Heap.isSome_upd]; exact q.slot _ hf)
  · intro w hw
    rcases List.mem_append.mp hw with hw | hw
    · exact q.defd w hw
    · simp at hw; subst hw; exact hv

theorem src_arr_push (n : Nat) (q : h.Arr b o sb so cap l) (hc : (cap : Int) ≤ A.intMax) {v : CVal}
    (hv : v ≠ .undef) :
    sem A X prog (n + 2) .mu_array_push h [.ptr b o, v] =
      if l.length < cap then .ok (.int 1, h.pushed b o sb so l.length v) else .ok (.int 0, h) := by
  rw [sem_succ (d := Src.mu_array_push) rfl, FunDef.run_regs rfl rfl]
  have e := src_arr_is_full (A := A) (X := X) n q hc
  have c1 := conv_size_lt (q.lt hc).1
  have hle := q.le
  by_cases hf : l.length < cap
  · have hf' : (l.length = cap) = False := eq_false (by omega)
    have e0 := q.items
    have e2 := q.cnt
    have es := q.cntSome
    have ew := q.wr
    have ews := q.swr
    have hsz : A.sz (l.length + 1) = l.length + 1 := Nat.mod_eq_of_lt (by have := (q.lt hc).2; omega)
    have c3 : IT.conv ⟨A.sb, false⟩ ((l.length : Int) + 1) = l.length + 1 :=
      conv_size_lt (A := A) (n := l.length + 1) (by have := (q.lt hc).2; omega)
    have sl := q.slot _ hf
    simp only [hf'] at e
    rw [if_pos hf]
    unfold Heap.pushed
    simp [csrc, Src.mu_array_push, e, e0, e2, es, ew, ews, c1, c3, hsz, hv, sl]
    rfl
  · have hf' : (l.length = cap) = True := eq_true (by omega)
    simp only [hf'] at e
    rw [if_neg hf]
    simp [csrc, Src.mu_array_push, e]
    rfl

/-- The caller's variable. -/
structure OutVar (h : Heap) (b : Base) (o : Int) (sb : Base) (so : Int) (cap : Nat) (eb : Base) (eo : Int) :
    Prop where
  wr : eb.isLit = false
  here : (h.at eb eo).isSome = true
  away : ¬ arrCells b o sb so cap eb eo

variable {eb : Base} {eo : Int}

theorem OutVar.only {S : Base → Int → Prop} (e : Heap.Only S h h') (v : OutVar h b o sb so cap eb eo) :
    OutVar h' b o sb so cap eb eo := ⟨v.wr, (e.isSome _ _).mpr v.here, v.away⟩

/-- Delivering an item. -/
theorem Heap.Arr.deliver (q : h.Arr b o sb so cap l) (w : OutVar h b o sb so cap eb eo) (v : CVal) :
    (h.upd eb eo v).Arr b o sb so cap l ∧ (h.upd eb eo v).at eb eo = some v := by
  have o1 : Heap.Only (fun b' o' => b' = eb ∧ o' = eo) h (h.upd eb eo v) :=
    (Heap.Only.refl _ _).upd ⟨rfl, rfl⟩
  exact ⟨q.only o1 (by rintro b' o' hx ⟨rfl, rfl⟩; exact w.away hx), Heap.at_upd_same w.wr w.here⟩

/-- Removing the last item. -/
theorem Heap.Arr.shrink (q : h.Arr b o sb so cap l) :
    (h.upd b (o + 2) (.int (l.length - 1 : Nat))).Arr b o sb so cap l.dropLast := by
  have o1 : Heap.Only (fun b' o' => b' = b ∧ o' = o + 2) h (h.upd b (o + 2) (.int (l.length - 1 : Nat))) :=
    (Heap.Only.refl _ _).upd ⟨rfl, rfl⟩
  have hle := q.le
  refine q.change o1 (by omega) (by omega) ?_ ?_ (by simp; omega) ?_
  · rw [Heap.at_upd_same q.wr q.cntSome]; simp
  · intro i v hv
    have hlt := (List.getElem?_eq_some_iff.mp hv).1
    simp at hlt
    obtain ⟨u0, u1, u2⟩ := q.sepAt (i := i) (by omega)
    rw [Heap.at_upd_sep u2]
    apply q.cell
    rw [List.getElem?_dropLast, if_pos hlt] at hv
    exact hv
  · intro v hv; exact q.defd v (List.mem_of_mem_dropLast hv)

theorem src_arr_pop (n : Nat) (q : h.Arr b o sb so cap l) (hc : (cap : Int) ≤ A.intMax)
    (w : OutVar h b o sb so cap eb eo) :
    sem A X prog (n + 2) .mu_array_pop h [.ptr b o, .ptr eb eo] =
      if hl : 0 < l.length then
        .ok (.int 1, (h.upd b (o + 2) (.int (l.length - 1 : Nat))).upd eb eo l[l.length - 1])
      else .ok (.int 0, h) := by
  rw [sem_succ (d := Src.mu_array_pop) rfl, FunDef.run_regs rfl rfl]
  have e := src_arr_is_empty (A := A) (X := X) n q hc
  have c1 := conv_size_lt (q.lt hc).1
  have hle := q.le
  by_cases hl : 0 < l.length
  · have hl' : (l.length = 0) = False := eq_false (by omega)
    rw [dif_pos hl]
    have e0 := q.items
    have e2 := q.cnt
    have es := q.cntSome
    have ew := q.wr
    have ee := w.wr
    have eh := w.here
    have q' := q.shrink
    obtain ⟨r1, r2⟩ := q.ld (i := l.length - 1) (by omega)
    have hsub : A.szSub l.length 1 = l.length - 1 := Plat.szSub_of_le (by omega) (q.lt hc).1
    have c3 := conv_size_lt (A := A) (n := l.length - 1) (by have := (q.lt hc).1; omega)
    obtain ⟨u0, u1, u2⟩ := q.sepAt' (i := l.length - 1) (by omega)
    have r1' : (h.upd b (o + 2) (.int (l.length - 1 : Nat))).at sb (so + (l.length - 1 : Nat)) =
        some l[l.length - 1] := by rw [Heap.at_upd_sep (fun e => u2 ⟨e.1.symm, e.2.symm⟩)]; exact r1
    have e0' := q'.items
    simp only [hl'] at e
    generalize l[l.length - 1] = x at *
    generalize l.length - 1 = m at *
    simp [csrc, Src.mu_array_pop, e, e0, e2, es, ew, ee, eh, c1, c3, hsub, r1', r2]
    rfl
  · have hl' : (l.length = 0) = True := eq_true (by omega)
    simp only [hl'] at e
    rw [dif_neg hl]
    simp [csrc, Src.mu_array_pop, e]
    rfl

theorem src_arr_peek (n : Nat) (q : h.Arr b o sb so cap l) (hc : (cap : Int) ≤ A.intMax)
    (w : OutVar h b o sb so cap eb eo) :
    sem A X prog (n + 2) .mu_array_peek h [.ptr b o, .ptr eb eo] =
      if hl : 0 < l.length then .ok (.int 1, h.upd eb eo l[l.length - 1]) else .ok (.int 0, h) := by
  rw [sem_succ (d := Src.mu_array_peek) rfl, FunDef.run_regs rfl rfl]
  have e := src_arr_is_empty (A := A) (X := X) n q hc
  have c1 := conv_size_lt (q.lt hc).1
  have hle := q.le
  by_cases hl : 0 < l.length
  · have hl' : (l.length = 0) = False := eq_false (by omega)
    rw [dif_pos hl]
    have e0 := q.items
    have e2 := q.cnt
    have ee := w.wr
    have eh := w.here
    obtain ⟨r1, r2⟩ := q.ld (i := l.length - 1) (by omega)
    have hsub : A.szSub l.length 1 = l.length - 1 := Plat.szSub_of_le (by omega) (q.lt hc).1
    simp only [hl'] at e
    generalize l[l.length - 1] = x at *
    generalize l.length - 1 = m at *
    simp [csrc, Src.mu_array_peek, e, e0, e2, ee, eh, c1, hsub, r1, r2]
    rfl
  · have hl' : (l.length = 0) = True := eq_true (by omega)
    simp only [hl'] at e
    rw [dif_neg hl]
    simp [csrc, Src.mu_array_peek, e]
    rfl

theorem src_arr_ref (n : Nat) (q : h.Arr b o sb so cap l) (hc : (cap : Int) ≤ A.intMax)
    (w : OutVar h b o sb so cap eb eo) {i : Nat} (hi : i < A.szMod) :
    sem A X prog (n + 1) .mu_array_ref h [.ptr b o, .ptr eb eo, .int i] =
      if hl : i < l.length then .ok (.int 1, h.upd eb eo l[i]) else .ok (.int 0, h) := by
  rw [sem_succ (d := Src.mu_array_ref) rfl, FunDef.run_regs rfl rfl]
  have c1 := conv_size_lt (q.lt hc).1
  have c2 := conv_size_lt hi
  have e0 := q.items
  have e2 := q.cnt
  have hle := q.le
  by_cases hl : i < l.length
  · have hl' : (i < l.length) = True := eq_true (by omega)
    rw [dif_pos hl]
    have ee := w.wr
    have eh := w.here
    obtain ⟨r1, r2⟩ := q.ld (i := i) (by omega)
    generalize l[i] = x at *
    simp [csrc, Src.mu_array_ref, e0, e2, ee, eh, c1, c2, hl', r1, r2]
    rfl
  · have hl' : (i < l.length) = False := eq_false (by omega)
    rw [dif_neg hl]
    simp [csrc, Src.mu_array_ref, e2, c1, c2, hl']
    rfl


theorem Heap.getN_ok {cs : List CVal} (h0 : 0 ≤ so) (h1 : so + cs.length ≤ (h.cells sb).length)
    (hc : ∀ i : Nat, i < cs.length → h.at sb (so + i) = cs[i]?) :
    h.getN (.ptr sb so) cs.length = .ok cs := by
  unfold Heap.getN
  dsimp only
  rw [if_pos ⟨h0, h1⟩]
  congr 1
  apply List.ext_getElem?
  intro i
  by_cases hi : i < cs.length
  · rw [List.getElem?_take, if_pos hi, List.getElem?_drop, ← hc i hi, Heap.at_eq _ _ (by omega)]
    congr 1; omega
  · rw [List.getElem?_eq_none (by simp; omega), List.getElem?_eq_none (by omega)]

/-- `memmove` inside an object. -/
theorem Heap.memmove_ok (hw : sb.isLit = false) {cs : List CVal} {i j : Nat} (h0 : 0 ≤ so)
    (hi : so + i + cs.length ≤ (h.cells sb).length) (hj : so + j + cs.length ≤ (h.cells sb).length)
    (hc : ∀ k : Nat, k < cs.length → h.at sb (so + i + k) = cs[k]?) :
    ∃ h', Lib.memmove h [.ptr sb (so + j), .ptr sb (so + i), .int cs.length] = .ok (.ptr sb (so + j), h') ∧
      (∀ k : Nat, k < cs.length → h'.at sb (so + j + k) = cs[k]?) ∧
      Heap.Only (span sb (so + j) cs.length) h h' := by
  obtain ⟨h', e1, e2, e3⟩ := Heap.putN_ok (h := h) (o := so + j) hw (cs := cs) (by omega) (by omega)
  refine ⟨h', ?_, e2, e3⟩
  have := Heap.getN_ok (h := h) (sb := sb) (so := so + i) (cs := cs) (by omega) (by omega) hc
  simp only [Lib.memmove, Int.toNat_natCast, this, C.ok_bind, e1]

/-- Inserting before the item at a position. -/
theorem Heap.Arr.insert (q : h.Arr b o sb so cap l) (hf : l.length < cap) {i : Nat} (hi : i < l.length)
    {v : CVal} (hv : v ≠ .undef) :
    ∃ g, Lib.memmove h [.ptr sb (so + (i + 1 : Nat)), .ptr sb (so + i), .int (l.length - i : Nat)] =
        .ok (.ptr sb (so + (i + 1 : Nat)), g) ∧
      Heap.Only (span sb so cap) h g ∧ g.at b o = some (.ptr sb so) ∧
      g.at b (o + 2) = some (.int l.length) ∧ (g.at sb (so + i)).isSome = true ∧
      ((g.upd sb (so + i) v).upd b (o + 2) (.int (l.length + 1 : Nat))).Arr b o sb so cap
        (l.take i ++ v :: l.drop i) := by
  have hs := (Heap.isSome_at _ _ _).mp (q.slot (cap - 1) (by omega))
  have hs0 := (Heap.isSome_at _ _ _).mp (q.slot 0 (by omega))
  have hlen : (l.drop i).length = l.length - i := by simp
  obtain ⟨g, e1, e2, e3⟩ := Heap.memmove_ok (h := h) (sb := sb) (so := so) q.swr (cs := l.drop i) (i := i)
    (j := i + 1) (by omega) (by omega) (by omega) (by
      intro k hk
      rw [List.getElem?_drop, List.getElem?_eq_getElem (by omega)]
      have := (q.ld (i := i + k) (by omega)).1
      rw [← this]; congr 1; omega)
  rw [hlen] at e1 e3
  obtain ⟨g0, g1, g2⟩ := q.sepAt (i := i) (by omega)
  have o3 : Heap.Only (span sb so cap) h g :=
    e3.mono (by rintro b' o' ⟨rfl, x, y⟩; exact ⟨rfl, by omega, by omega⟩)
  have hn : ∀ k : Nat, k < 3 → ¬ span sb so cap b (o + k) := by
    rintro k hk ⟨rfl, x, y⟩
    exact q.sep (o + k - so).toNat (by omega) k hk ⟨rfl, by omega⟩
  have n0 := hn 0 (by omega)
  have n1 := hn 1 (by omega)
  have n2 := hn 2 (by omega)
  rw [show o + ((0 : Nat) : Int) = o by omega] at n0
  have z2 : g.at b (o + 2) = some (.int l.length) := o3.at_of q.cnt n2
  have zi : (g.at sb (so + i)).isSome = true := (o3.isSome _ _).mpr (q.slot i (by omega))
  refine ⟨g, e1, o3, o3.at_of q.items n0, z2, zi, ?_⟩
  have o4 : Heap.Only (fun b' o' => span sb so cap b' o' ∨ (b' = b ∧ o' = o + 2)) h
      ((g.upd sb (so + i) v).upd b (o + 2) (.int (l.length + 1 : Nat))) :=
    ((o3.mono fun _ _ => .inl).upd (.inl ⟨rfl, by omega, by omega⟩)).upd (.inr ⟨rfl, rfl⟩)
  refine q.change o4 (fun x => x.elim n0 (fun y => by omega)) (fun x => x.elim n1 (fun y => by omega)) ?_ ?_
    (by simp; omega) ?_
  · rw [Heap.at_upd_same q.wr (by rw [Heap.isSome_upd, z2]; rfl)]
    simp; omega
  · intro k w hw
    have hk := (List.getElem?_eq_some_iff.mp hw).1
    simp at hk
    obtain ⟨u0, u1, u2⟩ := q.sepAt (i := k) (by omega)
    rw [Heap.at_upd_sep u2]
    by_cases hki : k = i
    · subst hki
      rw [Heap.at_upd_same q.swr zi]
      rw [List.getElem?_append_right (by simp), List.length_take, Nat.min_eq_left (by omega), Nat.sub_self] at hw
      exact hw
    · rw [Heap.at_upd_sep (by omega)]
      by_cases hlt : k < i
      · rw [e3.cell _ _ (by rintro ⟨-, x, y⟩; omega)]
        rw [List.getElem?_append_left (by simp; omega), List.getElem?_take, if_pos hlt] at hw
        exact q.cell k w hw
      · have := e2 (k - (i + 1)) (by omega)
        rw [show so + ((i + 1 : Nat) : Int) + ((k - (i + 1) : Nat) : Int) = so + k by omega] at this
        rw [this, ← hw, List.getElem?_append_right (by simp; omega), List.length_take,
          Nat.min_eq_left (by omega), show k - i = (k - (i + 1)) + 1 by omega, List.getElem?_cons_succ]
  · intro w hw
    rcases List.mem_append.mp hw with hw | hw
    · exact q.defd w (List.mem_of_mem_take hw)
    · rcases List.mem_cons.mp hw with rfl | hw
      · exact hv
      · exact q.defd w (List.mem_of_mem_drop hw)


theorem mul_size_one (A : Arch) {a : Nat} (ha : a < A.szMod) :
    AOp.run ⟨A.sb, false⟩ .mul (a : Int) 1 = .ok (a : Int) := by
  simp only [AOp.run, IT.arith, Bool.false_eq_true, if_false, Int.mul_one]
  have := conv_size_lt ha
  rw [IT.conv_unsigned] at this
  rw [this]

set_option maxHeartbeats 1000000 in
theorem src_arr_insert (n : Nat) (q : h.Arr b o sb so cap l) (hc : (cap : Int) ≤ A.intMax) {v : CVal}
    (hv : v ≠ .undef) {i : Nat} (hi : i < A.szMod) :
    ∃ h', sem A X prog (n + 2) .mu_array_insert h [.ptr b o, v, .int i] =
        .ok (.int (if l.length < cap ∧ i ≤ l.length then 1 else 0), h') ∧
      h'.Arr b o sb so cap (if l.length < cap ∧ i ≤ l.length then l.take i ++ v :: l.drop i else l) ∧
      Heap.Only (arrCells b o sb so cap) h h' := by
  have e := src_arr_is_full (A := A) (X := X) n q hc
  have c1 := conv_size_lt (q.lt hc).1
  have c2 := conv_size_lt hi
  have hle := q.le
  have e0 := q.items
  have e2 := q.cnt
  have es := q.cntSome
  have ew := q.wr
  have ews := q.swr
  by_cases hf : l.length < cap
  · have hf' : (l.length = cap) = False := eq_false (by omega)
    simp only [hf'] at e
    by_cases hil : i ≤ l.length
    · have hil' : (l.length < i) = False := eq_false (by omega)
      rw [if_pos ⟨hf, hil⟩, if_pos ⟨hf, hil⟩]
      have hsz : A.sz (l.length + 1) = l.length + 1 := Nat.mod_eq_of_lt (by have := (q.lt hc).2; omega)
      have c3 : IT.conv ⟨A.sb, false⟩ ((l.length : Int) + 1) = l.length + 1 :=
        conv_size_lt (A := A) (n := l.length + 1) (by have := (q.lt hc).2; omega)
      by_cases hie : i = l.length
      · subst hie
        refine ⟨_, ?_, by simpa using q.push hf hv, q.pushed_only hf v⟩
        rw [sem_succ (d := Src.mu_array_insert) rfl, FunDef.run_regs rfl rfl]
        have sl := q.slot _ hf
        unfold Heap.pushed
        simp [csrc, Src.mu_array_insert, e, e0, e2, es, ew, ews, c1, c3, hsz, hv, sl]
        rfl
      · have hie' : (i = l.length) = False := eq_false hie
        have hlt : i < l.length := by omega
        obtain ⟨g, g1, g2, g3, g4, g5, g6⟩ := q.insert hf hlt hv
        refine ⟨_, ?_, g6, ((g2.mono fun _ _ => .inr).upd (.inr ⟨rfl, by omega, by omega⟩)).upd
          (.inl ⟨rfl, by omega, by omega⟩)⟩
        rw [sem_succ (d := Src.mu_array_insert) rfl, FunDef.run_regs rfl rfl]
        have hsub : A.szSub l.length i = l.length - i := Plat.szSub_of_le (by omega) (q.lt hc).1
        have hti : A.toInt (l.length - i) = (l.length - i : Nat) := A.toInt_of_le (by omega)
        have c4 : IT.conv ⟨A.sb, false⟩ ((l.length - i : Nat) : Int) = (l.length - i : Nat) :=
          conv_size_lt (by have := (q.lt hc).1; omega)
        have c5 := mul_size_one A (a := l.length - i) (by have := (q.lt hc).1; omega)
        have hszi : A.sz (i + 1) = i + 1 := Nat.mod_eq_of_lt (by have := (q.lt hc).2; omega)
        have sl := q.slot i (by omega)
        have sl1 := q.slot (i + 1) (by omega)
        have g4s : (g.at b (o + 2)).isSome = true := by rw [g4]; rfl
        have t2 := (q.sepAt (i := i) (by omega)).2.2
        have g4' : (g.upd sb (so + i) v).at b (o + 2) = some (.int l.length) := by
          rw [Heap.at_upd_sep (fun e => t2 ⟨e.1.symm, e.2.symm⟩)]; exact g4
        have mm := sem_memmove (A := A) (X := X) n
        have p1 := Heap.padd_in (h := h) (b := sb) (o := so) (i := (i : Int)) (n := 1) (by simpa using sl)
        have p2 := Heap.padd_in (h := h) (b := sb) (o := so) (i := ((i + 1 : Nat) : Int)) (n := 1)
          (by simpa using sl1)
        have p3 := Heap.padd_in (h := g) (b := sb) (o := so) (i := (i : Int)) (n := 1) (by simpa using g5)
        rw [Int.natCast_one, Int.one_mul] at p1 p2 p3
        clear q sl sl1
        rw [← hszi] at p2 g1
        rw [← hsz]
        clear hszi hsz
        generalize hi1 : A.sz (i + 1) = i1 at *
        generalize l.length - i = d at *
        simp [csrc, Src.mu_array_insert, e, e0, e2, es, ew, ews, c1, c2, c4, c5, hie', hil', hsub, conv_int_nat,
          hti, hi1, p1, p2, p3, mm, g1, g3, g4, g4', g5, hv]
        rfl
    · have hil' : (l.length < i) = True := eq_true (by omega)
      have hno : ¬(l.length < cap ∧ i ≤ l.length) := by omega
      rw [if_neg hno, if_neg hno]
      refine ⟨h, ?_, q, .refl _ _⟩
      rw [sem_succ (d := Src.mu_array_insert) rfl, FunDef.run_regs rfl rfl]
      simp [csrc, Src.mu_array_insert, e, e2, c1, c2, hil']
      rfl
  · have hf' : (l.length = cap) = True := eq_true (by omega)
    simp only [hf'] at e
    have hno : ¬(l.length < cap ∧ i ≤ l.length) := by omega
    rw [if_neg hno, if_neg hno]
    refine ⟨h, ?_, q, .refl _ _⟩
    rw [sem_succ (d := Src.mu_array_insert) rfl, FunDef.run_regs rfl rfl]
    simp [csrc, Src.mu_array_insert, e]
    rfl


theorem src_arr_delete_none (n : Nat) (q : h.Arr b o sb so cap l) (hc : (cap : Int) ≤ A.intMax)
    {p : CVal} {i : Nat} (hi : i < A.szMod) (hil : l.length ≤ i) :
    sem A X prog (n + 2) .mu_array_delete h [.ptr b o, p, .int i] = .ok (.int 0, h) := by
  have e := src_arr_is_empty (A := A) (X := X) n q hc
  have c1 := conv_size_lt (q.lt hc).1
  have c2 := conv_size_lt hi
  have e2 := q.cnt
  rw [sem_succ (d := Src.mu_array_delete) rfl, FunDef.run_regs rfl rfl]
  by_cases h0 : l.length = 0
  · have h0' : (l.length = 0) = True := eq_true (by omega)
    simp only [h0'] at e
    simp [csrc, Src.mu_array_delete, e]
    rfl
  · have h0' : (l.length = 0) = False := eq_false (by omega)
    simp only [h0'] at e
    have hil' : (l.length ≤ i) = True := eq_true hil
    simp [csrc, Src.mu_array_delete, e, e2, c1, c2, hil']
    rfl

theorem src_arr_delete_last (n : Nat) (q : h.Arr b o sb so cap l) (hc : (cap : Int) ≤ A.intMax)
    (w : OutVar h b o sb so cap eb eo) (hl : 0 < l.length) :
    sem A X prog (n + 2) .mu_array_delete h [.ptr b o, .ptr eb eo, .int (l.length - 1 : Nat)] =
      .ok (.int 1, (h.upd b (o + 2) (.int (l.length - 1 : Nat))).upd eb eo l[l.length - 1]) := by
  rw [sem_succ (d := Src.mu_array_delete) rfl, FunDef.run_regs rfl rfl]
  have e := src_arr_is_empty (A := A) (X := X) n q hc
  have c1 := conv_size_lt (q.lt hc).1
  have hle := q.le
  have hl' : (l.length = 0) = False := eq_false (by omega)
  have hl2 : (l.length ≤ l.length - 1) = False := eq_false (by omega)
  have e0 := q.items
  have e2 := q.cnt
  have es := q.cntSome
  have ew := q.wr
  have ee := w.wr
  have eh := w.here
  have q' := q.shrink
  obtain ⟨r1, r2⟩ := q.ld (i := l.length - 1) (by omega)
  have hsub : A.szSub l.length 1 = l.length - 1 := Plat.szSub_of_le (by omega) (q.lt hc).1
  have c3 := conv_size_lt (A := A) (n := l.length - 1) (by have := (q.lt hc).1; omega)
  obtain ⟨u0, u1, u2⟩ := q.sepAt' (i := l.length - 1) (by omega)
  have r1' : (h.upd b (o + 2) (.int (l.length - 1 : Nat))).at sb (so + (l.length - 1 : Nat)) =
      some l[l.length - 1] := by rw [Heap.at_upd_sep (fun e => u2 ⟨e.1.symm, e.2.symm⟩)]; exact r1
  have e0' := q'.items
  simp only [hl'] at e
  generalize l[l.length - 1] = x at *
  generalize l.length - 1 = m at *
  simp [csrc, Src.mu_array_delete, e, e0, e2, es, ew, ee, eh, c1, c3, hsub, r1', r2, hl2]
  rfl

/-- The execution of `mu_array_delete` up to `memmove`, for an item that is not the last. -/
theorem src_arr_delete_inner (n : Nat) (q : h.Arr b o sb so cap l) (hc : (cap : Int) ≤ A.intMax)
    (w : OutVar h b o sb so cap eb eo) {i : Nat} (hi : i + 1 < l.length) :
    sem A X prog (n + 2) .mu_array_delete h [.ptr b o, .ptr eb eo, .int i] =
      (do
        let (_, h) ← Lib.memmove (h.upd eb eo l[i])
          [.ptr sb (so + i), .ptr sb (so + (i + 1 : Nat)), .int (l.length - i : Nat)]
        .ok (.int 1, h)) := by
  rw [sem_succ (d := Src.mu_array_delete) rfl, FunDef.run_regs rfl rfl]
  have e := src_arr_is_empty (A := A) (X := X) n q hc
  have c1 := conv_size_lt (q.lt hc).1
  have c2 := conv_size_lt (A := A) (n := i) (by have := (q.lt hc).1; omega)
  have hle := q.le
  have hl' : (l.length = 0) = False := eq_false (by omega)
  have hl2 : (l.length ≤ i) = False := eq_false (by omega)
  have hl3 : (i = l.length - 1) = False := eq_false (by omega)
  have e0 := q.items
  have e2 := q.cnt
  have ee := w.wr
  have eh := w.here
  obtain ⟨r1, r2⟩ := q.ld (i := i) (by omega)
  have hsub : A.szSub l.length 1 = l.length - 1 := Plat.szSub_of_le (by omega) (q.lt hc).1
  have hsub2 : A.szSub l.length i = l.length - i := Plat.szSub_of_le (by omega) (q.lt hc).1
  have hti : A.toInt (l.length - i) = (l.length - i : Nat) := A.toInt_of_le (by omega)
  have c3 : IT.conv ⟨A.sb, false⟩ ((l.length - 1 : Nat) : Int) = (l.length - 1 : Nat) :=
    conv_size_lt (by have := (q.lt hc).1; omega)
  have c4 : IT.conv ⟨A.sb, false⟩ ((l.length - i : Nat) : Int) = (l.length - i : Nat) :=
    conv_size_lt (by have := (q.lt hc).1; omega)
  have c5 := mul_size_one A (a := l.length - i) (by have := (q.lt hc).1; omega)
  have hszi : A.sz (i + 1) = i + 1 := Nat.mod_eq_of_lt (by have := (q.lt hc).1; omega)
  have q' := (q.deliver w l[i]).1
  have e0' := q'.items
  have e2' := q'.cnt
  have sl := q'.slot i (by omega)
  have sl1 := q'.slot (i + 1) (by omega)
  have sl2 := q.slot i (by omega)
  have p1 := Heap.padd_in (h := h.upd eb eo l[i]) (b := sb) (o := so) (i := (i : Int)) (n := 1) (by simpa using sl)
  have p2 := Heap.padd_in (h := h.upd eb eo l[i]) (b := sb) (o := so) (i := ((i + 1 : Nat) : Int)) (n := 1)
    (by simpa using sl1)
  have p3 := Heap.padd_in (h := h) (b := sb) (o := so) (i := (i : Int)) (n := 1) (by simpa using sl2)
  rw [Int.natCast_one, Int.one_mul] at p1 p2 p3
  have mm := sem_memmove (A := A) (X := X) n
  simp only [hl'] at e
  have ev : h.store (.ptr eb eo) l[i] = .ok (h.upd eb eo l[i]) := Heap.store_in ee eh
  clear q q' sl sl1 sl2 w
  generalize l[i] = x at *
  rw [← hszi] at p2 ⊢
  clear hszi
  generalize hi1 : A.sz (i + 1) = i1 at *
  generalize l.length - 1 = m at *
  generalize l.length - i = d at *
  generalize h.upd eb eo x = g at *
  simp [csrc, Src.mu_array_delete, e, e0, e2, e0', e2', ev, c1, c2, c3, c4, c5, hsub, hsub2, r1, r2, hl2, hl3, conv_int_nat,
    hti, hi1, p1, p2, p3, mm]
  rfl

/-- The stale slot behind the items becomes the last item. -/
theorem Heap.Arr.deleted (q : h.Arr b o sb so cap l) {i : Nat} (hi : i + 1 < l.length) {stale : CVal}
    (hs : h.at sb (so + l.length) = some stale) :
    ∃ h', Lib.memmove h [.ptr sb (so + i), .ptr sb (so + (i + 1 : Nat)), .int (l.length - i : Nat)] =
        .ok (.ptr sb (so + i), h') ∧ Heap.Only (span sb so cap) h h' ∧
      (stale ≠ .undef → h'.Arr b o sb so cap (l.eraseIdx i ++ [stale])) := by
  have hle := q.le
  have hb := Heap.at_some_bounds hs
  have hs0 := (Heap.isSome_at _ _ _).mp (q.slot 0 (by omega))
  have hlen : (l.drop (i + 1) ++ [stale]).length = l.length - i := by simp; omega
  have hcs : ∀ k : Nat, k < l.length - i → (l.drop (i + 1) ++ [stale])[k]? = h.at sb (so + (i + 1 + k : Nat)) := by
    intro k hk
    by_cases hlt : i + 1 + k < l.length
    · rw [List.getElem?_append_left (by simp; omega), List.getElem?_drop, List.getElem?_eq_getElem hlt]
      exact (q.ld hlt).1.symm
    · obtain rfl : k = l.length - (i + 1) := by omega
      rw [List.getElem?_append_right (by simp), List.length_drop, Nat.sub_self,
        show i + 1 + (l.length - (i + 1)) = l.length by omega, hs]
      rfl
  obtain ⟨g, e1, e2, e3⟩ := Heap.memmove_ok (h := h) (sb := sb) (so := so) q.swr
    (cs := l.drop (i + 1) ++ [stale]) (i := i + 1) (j := i) (by omega) (by omega) (by omega) (by
      intro k hk
      rw [hcs k (by omega)]
      congr 1; omega)
  rw [hlen] at e1 e3 e2
  have o3 : Heap.Only (span sb so cap) h g :=
    e3.mono (by rintro b' o' ⟨rfl, x, y⟩; exact ⟨rfl, by omega, by omega⟩)
  refine ⟨g, e1, o3, fun hst => ?_⟩
  have hn : ∀ k : Nat, k < 3 → ¬ span sb so cap b (o + k) := by
    rintro k hk ⟨rfl, x, y⟩
    exact q.sep (o + k - so).toNat (by omega) k hk ⟨rfl, by omega⟩
  have n0 := hn 0 (by omega)
  rw [show o + ((0 : Nat) : Int) = o by omega] at n0
  refine q.change o3 n0 (hn 1 (by omega)) ?_ ?_ ?_ ?_
  · rw [o3.at_of q.cnt (hn 2 (by omega)), List.length_append, List.length_eraseIdx, if_pos (by omega),
      show l.length - 1 + [stale].length = l.length by simp; omega]
  · intro k v hv
    have hk := (List.getElem?_eq_some_iff.mp hv).1
    rw [List.length_append, List.length_eraseIdx, if_pos (by omega), List.length_singleton] at hk
    by_cases hki : k < i
    · rw [e3.cell _ _ (by rintro ⟨-, x, y⟩; omega)]
      rw [List.getElem?_append_left (by rw [List.length_eraseIdx, if_pos (by omega)]; omega),
        List.getElem?_eraseIdx, if_pos hki] at hv
      exact q.cell k v hv
    · have := e2 (k - i) (by omega)
      rw [show so + (i : Int) + ((k - i : Nat) : Int) = so + k by omega] at this
      rw [this, ← hv]
      by_cases hkl : k + 1 < l.length
      · rw [List.getElem?_append_left (by simp; omega),
          List.getElem?_append_left (by rw [List.length_eraseIdx, if_pos (by omega)]; omega),
          List.getElem?_drop, List.getElem?_eraseIdx, if_neg hki]
        congr 1; omega
      · rw [List.getElem?_append_right (by simp; omega),
          List.getElem?_append_right (by rw [List.length_eraseIdx, if_pos (by omega)]; omega),
          List.length_eraseIdx, if_pos (by omega), List.length_drop]
        congr 1; omega
  · rw [List.length_append, List.length_eraseIdx, if_pos (by omega), List.length_singleton]; omega
  · intro v hv
    rcases List.mem_append.mp hv with hv | hv
    · exact q.defd v (List.mem_of_mem_eraseIdx hv)
    · simp at hv; subst hv; exact hst


theorem runPtr_eq {x y : CVal} (hx : x ≠ .undef) (hy : y ≠ .undef) :
    COp.eq.runPtr x y = .ok (decide (x = y)) := by
  cases x <;> cases y <;> simp_all [COp.runPtr, COp.run]
  rename_i b o c p
  by_cases e : b = c <;> simp [e]

theorem firstAt_drop {v : CVal} {i : Nat} (hi : i < l.length) :
    firstAt v (l.drop i) = if l[i] = v then some 0 else (firstAt v (l.drop (i + 1))).map (· + 1) := by
  rw [List.drop_eq_getElem_cons hi]; rfl

theorem index_rounds {K : Calls} {N : Nat} (q : h.Arr b o sb so cap l) (hc : (cap : Int) ≤ A.intMax)
    {v : CVal} (hv : v ≠ .undef) : ∀ (m fuel i : Nat), i + m = l.length → m < fuel →
    Src.mu_array_index_loop1.rounds A K N fuel ⟨[.ptr b o, v, .int i], h⟩ =
      match firstAt v (l.drop i) with
      | some j => .ok (.ret (.int (i + j : Nat)), ⟨[.ptr b o, v, .int (i + j : Nat)], h⟩)
      | none => .ok (.next, ⟨[.ptr b o, v, .int l.length], h⟩) := by
  intro m
  have e0 := q.items
  have e2 := q.cnt
  have c1 := conv_size_lt (q.lt hc).1
  induction m with
  | zero =>
    intro fuel i hi hf
    obtain ⟨fuel, rfl⟩ : ∃ k, fuel = k + 1 := ⟨fuel - 1, by omega⟩
    obtain rfl : i = l.length := by omega
    rw [List.drop_eq_nil_of_le (by omega)]
    apply Stmt.rounds_exit
    simp [csrc, Src.mu_array_index_loop1, Stmt.cond, e2]
  | succ m ih =>
    intro fuel i hi hf
    obtain ⟨fuel, rfl⟩ : ∃ k, fuel = k + 1 := ⟨fuel - 1, by omega⟩
    have hlt : i < l.length := by omega
    have hlt' : (i < l.length) = True := eq_true hlt
    have c2 := conv_size_lt (A := A) (n := i) (by have := (q.lt hc).1; omega)
    obtain ⟨r1, r2⟩ := q.ld hlt
    have hp := runPtr_eq r2 hv
    have hcond : evalCond A K Src.mu_array_index_loop1.cond ⟨[.ptr b o, v, .int i], h⟩ =
        .ok (true, ⟨[.ptr b o, v, .int i], h⟩) := by
      simp [csrc, Src.mu_array_index_loop1, Stmt.cond, e2, c1, c2, hlt']
    rw [firstAt_drop hlt]
    by_cases heq : l[i] = v
    · rw [if_pos heq]
      rw [heq] at r1 hp
      refine Stmt.rounds_ret hcond ?_
      simp [csrc, Src.mu_array_index_loop1, Stmt.body, e0, r1, hp, hv]
    · rw [if_neg heq]
      rw [show decide (l[i] = v) = false from decide_eq_false heq] at hp
      generalize l[i] = x at *
      have hsz : A.sz (i + 1) = i + 1 := Nat.mod_eq_of_lt (by have := (q.lt hc).1; omega)
      have c3 : IT.conv ⟨A.sb, false⟩ ((i : Int) + 1) = i + 1 :=
        conv_size_lt (A := A) (n := i + 1) (by have := (q.lt hc).1; omega)
      have hn : Src.mu_array_index_loop1.rounds A K N (fuel + 1) ⟨[.ptr b o, v, .int i], h⟩ =
          Src.mu_array_index_loop1.rounds A K N fuel ⟨[.ptr b o, v, .int (i + 1 : Nat)], h⟩ := by
        refine Stmt.rounds_next hcond (s'' := ⟨[.ptr b o, v, .int i], h⟩) ?_ ?_
        · simp [csrc, Src.mu_array_index_loop1, Stmt.body, e0, r1, r2, hp, hv]
        · simp [csrc, Src.mu_array_index_loop1, Stmt.step, c2, hsz, c3]
      rw [hn, ih fuel (i + 1) (by omega) (by omega)]
      cases firstAt v (l.drop (i + 1)) with
      | none => rfl
      | some j => simp only [Option.map_some]; rw [show i + 1 + j = i + (j + 1) by omega]

theorem src_arr_index {n : Nat} (q : h.Arr b o sb so cap l) (hc : (cap : Int) ≤ A.intMax)
    (hn : l.length < n) {v : CVal} (hv : v ≠ .undef) :
    sem A X prog (n + 1) .mu_array_index h [.ptr b o, v] =
      .ok (.int ((firstAt v l).getD (A.szMod - 1) : Nat), h) := by
  rw [sem_succ (d := Src.mu_array_index) rfl, FunDef.run_regs rfl rfl]
  generalize hK : (⟨sem A X prog n, X.cb (sem A X prog n)⟩ : Calls) = KK
  have e := index_rounds (K := KK) (N := n) q hc hv l.length n 0 (by omega) hn
  rw [List.drop_zero] at e
  have hM := A.szMod_pos
  cases hf : firstAt v l with
  | none =>
    rw [hf] at e
    have e' : exec A KK n Src.mu_array_index_loop1 ⟨[.ptr b o, v, .int 0], h⟩ = _ := e
    simp [csrc, Src.mu_array_index, e']
    omega
  | some j =>
    rw [hf] at e
    have e' : exec A KK n Src.mu_array_index_loop1 ⟨[.ptr b o, v, .int 0], h⟩ = _ := e
    simp [csrc, Src.mu_array_index, e']

theorem lastAt_append {v x : CVal} : ∀ l : List CVal,
    lastAt v (l ++ [x]) = if x = v then some l.length else lastAt v l
  | [] => rfl
  | y :: l => by
    rw [List.cons_append, lastAt, lastAt_append l]
    by_cases e : x = v
    · simp [e]
    · simp [e, lastAt]

theorem rindex_rounds {K : Calls} {N : Nat} (q : h.Arr b o sb so cap l) (hc : (cap : Int) ≤ A.intMax)
    {v : CVal} (hv : v ≠ .undef) : ∀ (i fuel : Nat), i ≤ l.length → i < fuel →
    ∃ s, Src.mu_array_rindex_loop1.rounds A K N fuel ⟨[.ptr b o, v, .int (A.szSub i 1)], h⟩ =
      match lastAt v (l.take i) with
      | some j => .ok (.ret (.int j), ⟨s, h⟩)
      | none => .ok (.next, ⟨s, h⟩) := by
  intro i
  have e0 := q.items
  have e2 := q.cnt
  have hM := A.szMod_pos
  have c1 := conv_size_lt (q.lt hc).1
  have h1 : ((A.szMod - 1 : Nat) : Int) = (A.szMod : Int) - 1 := by omega
  have cm := conv_size_lt (A := A) (n := A.szMod - 1) (by omega)
  rw [h1] at cm
  induction i with
  | zero =>
    intro fuel hi hf
    obtain ⟨fuel, rfl⟩ : ∃ k, fuel = k + 1 := ⟨fuel - 1, by omega⟩
    have hs : ((A.szSub 0 1 : Nat) : Int) = (A.szMod : Int) - 1 := by
      unfold Plat.szSub Plat.toSz
      rw [show ((0 : Nat) : Int) - ((1 : Nat) : Int) = -1 by omega, ← Int.add_emod_right,
        Int.emod_eq_of_lt (by omega) (by omega)]
      omega
    rw [hs]
    refine ⟨[.ptr b o, v, .int ((A.szMod : Int) - 1)], Stmt.rounds_exit ?_⟩
    simp [csrc, Src.mu_array_rindex_loop1, Stmt.cond, cm]
  | succ i ih =>
    intro fuel hi hf
    obtain ⟨fuel, rfl⟩ : ∃ k, fuel = k + 1 := ⟨fuel - 1, by omega⟩
    have hs : A.szSub (i + 1) 1 = i := Plat.szSub_of_le (by omega) (by have := (q.lt hc).1; omega)
    rw [hs]
    have hlt : i < l.length := by omega
    have c2 := conv_size_lt (A := A) (n := i) (by have := (q.lt hc).1; omega)
    have hne : ((i : Int) = (A.szMod : Int) - 1) = False :=
      eq_false (by have := (q.lt hc).1; have := q.le; have := A.intMax_lt_szMod; omega)
    obtain ⟨r1, r2⟩ := q.ld hlt
    have hp := runPtr_eq r2 hv
    have hcond : evalCond A K Src.mu_array_rindex_loop1.cond ⟨[.ptr b o, v, .int i], h⟩ =
        .ok (true, ⟨[.ptr b o, v, .int i], h⟩) := by
      simp [csrc, Src.mu_array_rindex_loop1, Stmt.cond, cm, c2, hne]
    rw [List.take_succ_eq_append_getElem hlt, lastAt_append]
    by_cases heq : l[i] = v
    · rw [if_pos heq]
      rw [heq] at r1 hp
      refine ⟨_, Stmt.rounds_ret (s'' := ⟨[.ptr b o, v, .int i], h⟩) hcond ?_⟩
      rw [List.length_take, Nat.min_eq_left (by omega)]
      simp [csrc, Src.mu_array_rindex_loop1, Stmt.body, e0, r1, hp, hv]
    · rw [if_neg heq]
      rw [show decide (l[i] = v) = false from decide_eq_false heq] at hp
      generalize l[i] = x at *
      have hn : Src.mu_array_rindex_loop1.rounds A K N (fuel + 1) ⟨[.ptr b o, v, .int i], h⟩ =
          Src.mu_array_rindex_loop1.rounds A K N fuel ⟨[.ptr b o, v, .int (A.szSub i 1)], h⟩ := by
        refine Stmt.rounds_next hcond (s'' := ⟨[.ptr b o, v, .int i], h⟩) ?_ ?_
        · simp [csrc, Src.mu_array_rindex_loop1, Stmt.body, e0, r1, r2, hp, hv]
        · simp [csrc, Src.mu_array_rindex_loop1, Stmt.step, c2]
      rw [hn]
      exact ih fuel (by omega) (by omega)

theorem src_arr_rindex {n : Nat} (q : h.Arr b o sb so cap l) (hc : (cap : Int) ≤ A.intMax)
    (hn : l.length < n) {v : CVal} (hv : v ≠ .undef) :
    sem A X prog (n + 1) .mu_array_rindex h [.ptr b o, v] =
      .ok (.int ((lastAt v l).getD (A.szMod - 1) : Nat), h) := by
  rw [sem_succ (d := Src.mu_array_rindex) rfl, FunDef.run_regs rfl rfl]
  generalize hK : (⟨sem A X prog n, X.cb (sem A X prog n)⟩ : Calls) = KK
  obtain ⟨s, e⟩ := rindex_rounds (K := KK) (N := n) q hc hv l.length n (by omega) hn
  rw [List.take_length] at e
  have hM := A.szMod_pos
  have e2 := q.cnt
  have c1 := conv_size_lt (q.lt hc).1
  cases hf : lastAt v l with
  | none =>
    rw [hf] at e
    have e' : exec A KK n Src.mu_array_rindex_loop1 ⟨[.ptr b o, v, .int (A.szSub l.length 1)], h⟩ = _ := e
    simp [csrc, Src.mu_array_rindex, e2, c1, e']
    omega
  | some j =>
    rw [hf] at e
    have e' : exec A KK n Src.mu_array_rindex_loop1 ⟨[.ptr b o, v, .int (A.szSub l.length 1)], h⟩ = _ := e
    simp [csrc, Src.mu_array_rindex, e2, c1, e']

theorem src_arr_init (n cap : Nat) (hb : b.isLit = false) (hsb : sb.isLit = false)
    (hstruct : ∀ k : Nat, k < 3 → (h.at b (o + k)).isSome = true)
    (hstore : ∀ i : Nat, i < cap → (h.at sb (so + i)).isSome = true)
    (hsep : ∀ i : Nat, i < cap → ∀ k : Nat, k < 3 → ¬(b = sb ∧ o + k = so + i)) :
    ∃ h', sem A X prog (n + 2) .mu_array_init h [.ptr b o, .ptr sb so, .int cap] = .ok (.ptr b o, h') ∧
      h'.Arr b o sb so cap [] ∧ Heap.Only (span b o 3) h h' := by
  have s0 := hstruct 0 (by omega)
  have s1 := hstruct 1 (by omega)
  have s2 := hstruct 2 (by omega)
  rw [show o + ((0 : Nat) : Int) = o by omega] at s0
  rw [show o + ((1 : Nat) : Int) = o + 1 by omega] at s1
  rw [show o + ((2 : Nat) : Int) = o + 2 by omega] at s2
  have er : sem A X prog (n + 1) .mu_array_reset ((h.upd b o (.ptr sb so)).upd b (o + 1) (.int cap)) [.ptr b o] =
      .ok (.ptr b o, ((h.upd b o (.ptr sb so)).upd b (o + 1) (.int cap)).upd b (o + 2) (.int 0)) := by
    rw [sem_succ (d := Src.mu_array_reset) rfl, FunDef.run_regs rfl rfl]
    simp [csrc, Src.mu_array_reset, s2, hb]
  have o1 : Heap.Only (span b o 3) h
      (((h.upd b o (.ptr sb so)).upd b (o + 1) (.int cap)).upd b (o + 2) (.int 0)) :=
    (((Heap.Only.refl _ _).upd ⟨rfl, by omega, by omega⟩).upd ⟨rfl, by omega, by omega⟩).upd
      ⟨rfl, by omega, by omega⟩
  refine ⟨_, ?_, ⟨hb, hsb, ?_, ?_, ?_, by simp, fun i hi => (o1.isSome _ _).mpr (hstore i hi), hsep, by simp,
    by simp⟩, o1⟩
  · rw [sem_succ (d := Src.mu_array_init) rfl, FunDef.run_regs rfl rfl]
    simp [csrc, Src.mu_array_init, s0, s1, hb, er]
  · simp [csrc, s0, hb]
  · simp [csrc, s1, hb]
  · simp [csrc, s2, hb]

end
end Mu.CS
