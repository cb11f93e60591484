import Verif.Lemmas.SrcBBufFind
import Verif.Lemmas.BBufScan

/-! # The functions of mu_bbuf.c that make views of a buffer: the parsed source -/

namespace Mu.CS

open BBuf

variable {A : Arch} {X : Ext}

theorem exec_seq_next {K : Calls} {n : Nat} {a c : Stmt} {s s' : St}
    (e : exec A K n a s = .ok (.next, s')) : exec A K n (.seq a c) s = exec A K n c s' := by
  rw [exec, e]; rfl

/-- Memory with the `mu_bbuf_t` at `(b, o)` set. -/
def Heap.setBBuf (h : Heap) (b : Base) (o : Int) (p : CVal) (cap : Int) : Heap :=
  (h.upd b o p).upd b (o + 1) (.int cap)

/-- There is room for a `mu_bbuf_t` at `(b, o)`. -/
structure Room2 (h : Heap) (b : Base) (o : Int) : Prop where
  w : b.isLit = false
  c0 : (h.at b o).isSome = true
  c1 : (h.at b (o + 1)).isSome = true

section
variable (n : Nat) {h : Heap} {b : Base} {o : Int}

theorem src_init_ro (r : Room2 h b o) {p : CVal} (hp : p ≠ .undef) (c : Int) :
    sem A X prog (n + 1) .mu_bbuf_init_ro h [.ptr b o, p, .int c] =
      .ok (.ptr b o, h.setBBuf b o p c) := by
  rw [sem_succ (d := Src.mu_bbuf_init_ro) rfl, FunDef.run_regs rfl rfl]
  simp [csrc, Src.mu_bbuf_init_ro, r.w, r.c0, r.c1, hp, Heap.setBBuf]

theorem src_init_rw (r : Room2 h b o) {p : CVal} (hp : p ≠ .undef) (c : Int) :
    sem A X prog (n + 1) .mu_bbuf_init_rw h [.ptr b o, p, .int c] =
      .ok (.ptr b o, h.setBBuf b o p c) := by
  rw [sem_succ (d := Src.mu_bbuf_init_rw) rfl, FunDef.run_regs rfl rfl]
  simp [csrc, Src.mu_bbuf_init_rw, r.w, r.c0, r.c1, hp, Heap.setBBuf]

theorem src_init_cstr (r : Room2 h b o) {p : CVal} (hp : p ≠ .undef) {c : Int}
    (hc : Lib.strlen (h.upd b o p) [p] = .ok (.int c, h.upd b o p)) :
    sem A X prog (n + 2) .mu_bbuf_init_cstr h [.ptr b o, p] =
      .ok (.ptr b o, h.setBBuf b o p c) := by
  rw [sem_succ (d := Src.mu_bbuf_init_cstr) rfl, FunDef.run_regs rfl rfl]
  simp [csrc, Src.mu_bbuf_init_cstr, r.w, r.c0, r.c1, hp, Heap.setBBuf, sem_strlen (A := A) (X := X) n, hc]

variable {b2 bb : Base} {o2 ob : Int} {cap : Nat}

theorem src_copy (r : Room2 h b2 o2) (h0 : h.at b o = some (.ptr bb ob))
    (h1 : h.at b (o + 1) = some (.int cap)) (hne : ¬(b2 = b ∧ o2 = o + 1)) :
    sem A X prog (n + 1) .mu_bbuf_copy h [.ptr b2 o2, .ptr b o] =
      .ok (.ptr b2 o2, h.setBBuf b2 o2 (.ptr bb ob) cap) := by
  have e : (h.upd b2 o2 (.ptr bb ob)).at b (o + 1) = some (.int cap) := by
    rw [Heap.at_upd_sep hne, h1]
  rw [sem_succ (d := Src.mu_bbuf_copy) rfl, FunDef.run_regs rfl rfl]
  simp [csrc, Src.mu_bbuf_copy, r.w, r.c0, r.c1, h0, e, Heap.setBBuf]

theorem src_slice_args (KK : Calls) (h1 : h.at b (o + 1) = some (.int cap)) (hlt : cap < A.szMod)
    {start stop st en : Int}
    (hs : A.InInt start) (he : A.InInt stop) (est : sliceStart A.toPlat cap start = st)
    (een : (if sliceEnd A.toPlat cap stop < st then st else sliceEnd A.toPlat cap stop) = en) :
    A.InInt st ∧ A.InInt en ∧ exec A KK (n + 1) Src.mu_bbuf_slice.body
      ⟨[.ptr b2 o2, .ptr b o, .int start, .int stop], h⟩ =
    exec A KK (n + 1) (.ret (.call .mu_bbuf_init_ro [.var 0, .bin (.padd 1) (.load (.fld (.var 1) 0)) (.var 2),
      .cast .size (.bin (.arith .sub .int) (.var 3) (.var 2))]))
      ⟨[.ptr b2 o2, .ptr b o, .int st, .int en], h⟩ := by
  have ist : A.InInt st := by
    rw [← est]; unfold sliceStart; split
    · exact inInt_toInt _
    · split
      · exact inInt_toInt _
      · exact hs
  have iend : A.InInt (sliceEnd A.toPlat cap stop) := by
    unfold sliceEnd; split
    · exact inInt_toInt _
    · split
      · exact inInt_toInt _
      · exact he
  have ien : A.InInt en := by
    rw [← een]; split
    · exact ist
    · exact iend
  have s1 : ∀ v3, exec A KK (n + 1)
      (.ite (.bin (.cmp .lt .int) (.var 2) (.num 0))
      (.expr (.setv 2 (.cast .int (.bin (.arith .add .size) (.load (.fld (.var 1) 1)) (.var 2)))))
      (.ite (.lor (.bin (.cmp .gt .size) (.var 2) (.load (.fld (.var 1) 1))) (.bin (.cmp .eq .int) (.var 2) .intMax))
       (.expr (.setv 2 (.cast .int (.load (.fld (.var 1) 1)))))
       .skip)) ⟨[.ptr b2 o2, .ptr b o, .int start, v3], h⟩ =
      .ok (.next, ⟨[.ptr b2 o2, .ptr b o, .int st, v3], h⟩) := by
    intro v3
    rw [← est]; unfold sliceStart END
    by_cases c1 : start < 0
    · simp [csrc, c1, conv_int hs, h1, conv_size_lt hlt, conv_size_int start, add_size,
        conv_int_nat]
    · by_cases c2 : cap < A.toSz start
      · simp [csrc, c1, c2, conv_int hs, h1, conv_size_lt hlt, conv_size_int start, conv_int_nat]
      · by_cases c3 : start = A.intMax
        · have c3' := c3
          have hm : A.InInt A.intMax := by rw [← c3]; exact hs
          subst c3
          simp [csrc, c1, c2, h1, conv_size_lt hlt, conv_size_int A.intMax, conv_int_nat, conv_int hm]
        · have hm : A.InInt A.intMax := ⟨by have := A.intMin_eq; have := A.intMax_ge; omega, Int.le_refl _⟩
          simp [csrc, c1, c2, c3, h1, conv_size_lt hlt, conv_size_int start, conv_int_nat, conv_int hs,
            conv_int hm]
  have s2 : exec A KK (n + 1)
      (.ite (.bin (.cmp .lt .int) (.var 3) (.num 0))
       (.expr (.setv 3 (.cast .int (.bin (.arith .add .size) (.load (.fld (.var 1) 1)) (.var 3)))))
       (.ite (.lor (.bin (.cmp .ge .size) (.var 3) (.load (.fld (.var 1) 1))) (.bin (.cmp .eq .int) (.var 3) .intMax))
        (.expr (.setv 3 (.cast .int (.load (.fld (.var 1) 1)))))
        .skip)) ⟨[.ptr b2 o2, .ptr b o, .int st, .int stop], h⟩ =
      .ok (.next, ⟨[.ptr b2 o2, .ptr b o, .int st, .int (sliceEnd A.toPlat cap stop)], h⟩) := by
    unfold sliceEnd END
    by_cases c1 : stop < 0
    · simp [csrc, c1, conv_int he, h1, conv_size_lt hlt, conv_size_int stop, add_size,
        conv_int_nat]
    · by_cases c2 : cap ≤ A.toSz stop
      · simp [csrc, c1, c2, conv_int he, h1, conv_size_lt hlt, conv_size_int stop, conv_int_nat]
      · by_cases c3 : stop = A.intMax
        · have hm : A.InInt A.intMax := by rw [← c3]; exact he
          subst c3
          simp [csrc, c1, c2, h1, conv_size_lt hlt, conv_size_int A.intMax, conv_int_nat, conv_int hm]
        · have hm : A.InInt A.intMax := ⟨by have := A.intMin_eq; have := A.intMax_ge; omega, Int.le_refl _⟩
          simp [csrc, c1, c2, c3, h1, conv_size_lt hlt, conv_size_int stop, conv_int_nat, conv_int he,
            conv_int hm]
  have s3 : exec A KK (n + 1)
      (.ite (.bin (.cmp .lt .int) (.var 3) (.var 2))
        (.expr (.setv 3 (.var 2)))
        .skip) ⟨[.ptr b2 o2, .ptr b o, .int st, .int (sliceEnd A.toPlat cap stop)], h⟩ =
      .ok (.next, ⟨[.ptr b2 o2, .ptr b o, .int st, .int en], h⟩) := by
    rw [← een]
    by_cases c : sliceEnd A.toPlat cap stop < st <;> simp [csrc, c, conv_int iend, conv_int ist]
  exact ⟨ist, ien, (exec_seq_next (s1 _)).trans ((exec_seq_next s2).trans (exec_seq_next s3))⟩

theorem src_slice (r : Room2 h b2 o2) (h0 : h.at b o = some (.ptr bb ob))
    (h1 : h.at b (o + 1) = some (.int cap)) (hlt : cap < A.szMod) {start stop st en : Int}
    (hs : A.InInt start) (he : A.InInt stop) (est : sliceStart A.toPlat cap start = st)
    (een : (if sliceEnd A.toPlat cap stop < st then st else sliceEnd A.toPlat cap stop) = en)
    (hp : h.padd 1 (.ptr bb ob) st = .ok (.ptr bb (ob + st)))
    (hi : A.int (en - st) = .ok (en - st)) :
    sem A X prog (n + 2) .mu_bbuf_slice h [.ptr b2 o2, .ptr b o, .int start, .int stop] =
      .ok (.ptr b2 o2, h.setBBuf b2 o2 (.ptr bb (ob + st)) (A.toSz (en - st) : Nat)) := by
  have t := fun v => src_init_ro (A := A) (X := X) n r (p := .ptr bb (ob + st)) (by simp) v
  rw [sem_succ (d := Src.mu_bbuf_slice) rfl, FunDef.run_regs rfl rfl]
  generalize hK : (⟨sem A X prog (n + 1), X.cb (sem A X prog (n + 1))⟩ : Calls) = KK
  have t' : ∀ v, KK.fn .mu_bbuf_init_ro h [.ptr b2 o2, .ptr bb (ob + st), .int v] =
      .ok (.ptr b2 o2, h.setBBuf b2 o2 (.ptr bb (ob + st)) v) := by
    rw [← hK]; exact t
  obtain ⟨ist, ien, ex⟩ := src_slice_args (A := A) (b2 := b2) (o2 := o2) n KK h1 hlt hs he est een
  have e0 : ([CVal.ptr b2 o2, CVal.ptr b o, CVal.int start, CVal.int stop] ++
      List.replicate Src.mu_bbuf_slice.locals CVal.undef) =
      [.ptr b2 o2, .ptr b o, .int start, .int stop] := rfl
  rw [e0, ex]
  simp [csrc, conv_int ien, conv_int ist, hi, h0, hp, t', conv_size_int (en - st)]

/-- The address of the slice is computed, and not inside the object. -/
theorem src_slice_fault (h0 : h.at b o = some (.ptr bb ob))
    (h1 : h.at b (o + 1) = some (.int cap)) (hlt : cap < A.szMod) {start stop st : Int}
    (hs : A.InInt start) (he : A.InInt stop) (est : sliceStart A.toPlat cap start = st)
    (hp : h.padd 1 (.ptr bb ob) st = .error .ptr) :
    sem A X prog (n + 2) .mu_bbuf_slice h [.ptr b2 o2, .ptr b o, .int start, .int stop] =
      .error .ptr := by
  rw [sem_succ (d := Src.mu_bbuf_slice) rfl, FunDef.run_regs rfl rfl]
  generalize hK : (⟨sem A X prog (n + 1), X.cb (sem A X prog (n + 1))⟩ : Calls) = KK
  obtain ⟨ist, ien, ex⟩ := src_slice_args (A := A) (b2 := b2) (o2 := o2) n KK h1 hlt hs he est rfl
  have e0 : ([CVal.ptr b2 o2, CVal.ptr b o, CVal.int start, CVal.int stop] ++
      List.replicate Src.mu_bbuf_slice.locals CVal.undef) =
      [.ptr b2 o2, .ptr b o, .int start, .int stop] := rfl
  rw [e0, ex]
  simp [csrc, conv_int ist, h0, hp]

/-- The `index` computation of `mu_bbuf_bisect`, mu_bbuf.c:147-154. -/
def bisectIndex (P : Plat) (cap : Nat) (index : Int) : C Int :=
  if index < 0 then P.int (P.toInt cap + index)
  else if index > P.toInt cap ∨ index = END P then .ok (P.toInt cap)
  else .ok index

/-- Two `mu_bbuf_t` are the same object or do not overlap. -/
def Aside (b : Base) (o : Int) (b' : Base) (o' : Int) : Prop :=
  (b = b' ∧ o = o') ∨ b ≠ b' ∨ o + 2 ≤ o' ∨ o' + 2 ≤ o

/-- An argument that is NULL or points to room for a `mu_bbuf_t` that is the one at `(b, o)` or does not
overlap it. -/
def OutArg (h : Heap) (b : Base) (o : Int) (v : CVal) : Prop :=
  v = .null ∨ ∃ b2 o2, v = .ptr b2 o2 ∧ Room2 h b2 o2 ∧ Aside b2 o2 b o

/-- The effect of an optional result. -/
def Heap.setOut (h : Heap) (v : CVal) (p : CVal) (cap : Int) : Heap :=
  match v with
  | .ptr b o => h.setBBuf b o p cap
  | _ => h

theorem Room2.set {h : Heap} {b b' : Base} {o o' : Int} {p : CVal} {c : Int} (r : Room2 h b o) :
    Room2 (h.setBBuf b' o' p c) b o :=
  ⟨r.w, by simp [Heap.setBBuf, Heap.isSome_upd, r.c0], by simp [Heap.setBBuf, Heap.isSome_upd, r.c1]⟩

theorem Room2.out {h : Heap} {b : Base} {o : Int} {v p : CVal} {c : Int} (r : Room2 h b o) :
    Room2 (h.setOut v p c) b o := by
  unfold Heap.setOut; split
  · exact r.set
  · exact r

theorem OutArg.out {h : Heap} {b : Base} {o : Int} {v w p : CVal} {c : Int} (r : OutArg h b o v) :
    OutArg (h.setOut w p c) b o v := by
  rcases r with r | ⟨b2, o2, e, r, s⟩
  · exact .inl r
  · exact .inr ⟨b2, o2, e, r.out, s⟩

theorem Heap.setBBuf_padd {h : Heap} {b : Base} {o : Int} {p q : CVal} {c i : Int} {k : Nat} :
    (h.setBBuf b o p c).padd k q i = h.padd k q i := by
  cases q <;> simp [Heap.padd, Heap.setBBuf]

theorem Heap.setOut_padd {h : Heap} {v p q : CVal} {c i : Int} {k : Nat} :
    (h.setOut v p c).padd k q i = h.padd k q i := by
  unfold Heap.setOut; split
  · exact Heap.setBBuf_padd
  · rfl

/-- Setting a result to point to the same bytes keeps the pointer of the source. -/
theorem OutArg.ptr {h : Heap} {b : Base} {o : Int} {v p : CVal} {c : Int} (r : OutArg h b o v)
    (h0 : h.at b o = some p) : (h.setOut v p c).at b o = some p := by
  rcases r with rfl | ⟨b2, o2, rfl, r, s⟩
  · exact h0
  · simp only [Heap.setOut, Heap.setBBuf]
    rw [Heap.at_upd_sep]
    · by_cases e : b2 = b ∧ o2 = o
      · obtain ⟨rfl, rfl⟩ := e
        rw [Heap.at_upd_same r.w r.c0]
      · rw [Heap.at_upd_sep e, h0]
    · rintro ⟨rfl, rfl⟩
      rcases s with ⟨-, s⟩ | s | s | s
      · omega
      · exact s rfl
      · omega
      · omega

theorem bisectIndex_inInt {index i : Int} (hs : A.InInt index) (e : bisectIndex A.toPlat cap index = .ok i) :
    A.InInt i := by
  unfold bisectIndex at e
  split at e
  · exact inInt_of_int e
  · split at e
    · cases e; exact inInt_toInt _
    · cases e; exact hs

theorem src_bisect {left right : CVal} (rl : OutArg h b o left) (rr : OutArg h b o right)
    (h0 : h.at b o = some (.ptr bb ob)) (h1 : h.at b (o + 1) = some (.int cap))
    {index i : Int} (hs : A.InInt index) (ei : bisectIndex A.toPlat cap index = .ok i)
    (hp : h.padd 1 (.ptr bb ob) i = .ok (.ptr bb (ob + i)))
    (hi : A.int (A.toInt cap - i) = .ok (A.toInt cap - i)) :
    sem A X prog (n + 2) .mu_bbuf_bisect h [left, right, .ptr b o, .int index] =
      .ok (.ptr b o, (h.setOut left (.ptr bb ob) (A.toSz i : Nat)).setOut right (.ptr bb (ob + i))
        (A.toSz (A.toInt cap - i) : Nat)) := by
  have ii := bisectIndex_inInt hs ei
  have hm : A.InInt A.intMax := ⟨by have := A.intMin_eq; have := A.intMax_ge; omega, Int.le_refl _⟩
  have t1 : ∀ h : Heap, h.at b o = some (.ptr bb ob) →
      sem A X prog (n + 1) .mu_bbuf_bytes_ro h [.ptr b o] = .ok (.ptr bb ob, h) := by
    intro h e
    rw [sem_succ (d := Src.mu_bbuf_bytes_ro) rfl, FunDef.run_regs rfl rfl]
    simp [csrc, Src.mu_bbuf_bytes_ro, e]
  have t2 : sem A X prog (n + 1) .mu_bbuf_capacity h [.ptr b o] = .ok (.int cap, h) := by
    rw [sem_succ (d := Src.mu_bbuf_capacity) rfl, FunDef.run_regs rfl rfl]
    simp [csrc, Src.mu_bbuf_capacity, h1]
  have t3 : ∀ (h : Heap) b2 o2 p c, Room2 h b2 o2 → p ≠ .undef →
      sem A X prog (n + 1) .mu_bbuf_init_ro h [.ptr b2 o2, p, .int c] =
        .ok (.ptr b2 o2, h.setBBuf b2 o2 p c) := fun h b2 o2 p c r hp => src_init_ro n r hp c
  rw [sem_succ (d := Src.mu_bbuf_bisect) rfl, FunDef.run_regs rfl rfl]
  generalize hK : (⟨sem A X prog (n + 1), X.cb (sem A X prog (n + 1))⟩ : Calls) = KK
  have t1' : ∀ h : Heap, h.at b o = some (.ptr bb ob) →
      KK.fn .mu_bbuf_bytes_ro h [.ptr b o] = .ok (.ptr bb ob, h) := by rw [← hK]; exact t1
  have t2' : KK.fn .mu_bbuf_capacity h [.ptr b o] = .ok (.int cap, h) := by rw [← hK]; exact t2
  have t3' : ∀ (h : Heap) b2 o2 p c, Room2 h b2 o2 → p ≠ .undef →
      KK.fn .mu_bbuf_init_ro h [.ptr b2 o2, p, .int c] = .ok (.ptr b2 o2, h.setBBuf b2 o2 p c) := by
    rw [← hK]; exact t3
  have s1 : exec A KK (n + 1) (.expr (.setv 4 (.cast .int (.call .mu_bbuf_capacity [.var 2]))))
      ⟨[left, right, .ptr b o, .int index, .undef], h⟩ =
      .ok (.next, ⟨[left, right, .ptr b o, .int index, .int (A.toInt cap)], h⟩) := by
    simp [csrc, t2', conv_int_nat]
  have s2 : exec A KK (n + 1) (.ite (.bin (.cmp .lt .int) (.var 3) (.num 0))
       (.expr (.setv 3 (.bin (.arith .add .int) (.var 4) (.var 3))))
       (.ite (.lor (.bin (.cmp .gt .int) (.var 3) (.var 4)) (.bin (.cmp .eq .int) (.var 3) .intMax))
        (.expr (.setv 3 (.var 4)))
        .skip)) ⟨[left, right, .ptr b o, .int index, .int (A.toInt cap)], h⟩ =
      .ok (.next, ⟨[left, right, .ptr b o, .int i, .int (A.toInt cap)], h⟩) := by
    unfold bisectIndex END at ei
    by_cases c1 : index < 0
    · rw [if_pos c1] at ei
      simp [csrc, c1, conv_int hs, ei]
    · rw [if_neg c1] at ei
      by_cases c2 : A.toInt cap < index
      · rw [if_pos (.inl c2)] at ei
        cases ei
        simp [csrc, c1, c2, conv_int hs]
      · by_cases c3 : index = A.intMax
        · rw [if_pos (.inr c3)] at ei
          cases ei
          subst c3
          simp [csrc, c1, c2, conv_int hm]
        · rw [if_neg (by intro x; rcases x with x | x; exact c2 x; exact c3 x)] at ei
          cases ei
          simp [csrc, c1, c2, c3, conv_int hs, conv_int hm]
  have s3 : exec A KK (n + 1) (.ite (.bin (.pcmp .ne) (.var 0) .null)
        (.expr (.call .mu_bbuf_init_ro [.var 0, .call .mu_bbuf_bytes_ro [.var 2], .cast .size (.var 3)]))
        .skip) ⟨[left, right, .ptr b o, .int i, .int (A.toInt cap)], h⟩ =
      .ok (.next, ⟨[left, right, .ptr b o, .int i, .int (A.toInt cap)],
        h.setOut left (.ptr bb ob) (A.toSz i : Nat)⟩) := by
    rcases rl with rfl | ⟨b2, o2, rfl, r, -⟩
    · simp [csrc, COp.runPtr, Heap.setOut]
    · simp [csrc, COp.runPtr, Heap.setOut, t1' h h0, conv_size_int i, t3' h b2 o2 (.ptr bb ob) _ r (by simp)]
  have h0' := rl.ptr (c := (A.toSz i : Nat)) h0
  have s4 : exec A KK (n + 1) (.ite (.bin (.pcmp .ne) (.var 1) .null)
         (.expr (.call .mu_bbuf_init_ro [.var 1, .bin (.padd 1) (.call .mu_bbuf_bytes_ro [.var 2]) (.var 3), .cast .size (.bin (.arith .sub .int) (.var 4) (.var 3))]))
         .skip) ⟨[left, right, .ptr b o, .int i, .int (A.toInt cap)],
        h.setOut left (.ptr bb ob) (A.toSz i : Nat)⟩ =
      .ok (.next, ⟨[left, right, .ptr b o, .int i, .int (A.toInt cap)],
        (h.setOut left (.ptr bb ob) (A.toSz i : Nat)).setOut right (.ptr bb (ob + i))
        (A.toSz (A.toInt cap - i) : Nat)⟩) := by
    have rr' : OutArg (h.setOut left (.ptr bb ob) (A.toSz i : Nat)) b o right := rr.out
    have hp' : (h.setOut left (.ptr bb ob) (A.toSz i : Nat)).padd 1 (.ptr bb ob) i = .ok (.ptr bb (ob + i)) := by
      rw [Heap.setOut_padd]; exact hp
    generalize h.setOut left (.ptr bb ob) (A.toSz i : Nat) = g at *
    rcases rr' with rfl | ⟨b2, o2, rfl, r, -⟩
    · simp [csrc, COp.runPtr, Heap.setOut]
    · simp [csrc, COp.runPtr, Heap.setOut, t1' g h0', conv_size_int, hp', conv_int ii, hi,
        t3' g b2 o2 (.ptr bb (ob + i)) _ r (by simp)]
  have e0 : ([left, right, CVal.ptr b o, CVal.int index] ++
      List.replicate Src.mu_bbuf_bisect.locals CVal.undef) =
      [left, right, .ptr b o, .int index, .undef] := rfl
  have ex : exec A KK (n + 1) Src.mu_bbuf_bisect.body
      ⟨[left, right, .ptr b o, .int index, .undef], h⟩ = _ :=
    (exec_seq_next s1).trans ((exec_seq_next s2).trans ((exec_seq_next s3).trans (exec_seq_next s4)))
  rw [e0, ex]
  simp [csrc]

end

end Mu.CS
