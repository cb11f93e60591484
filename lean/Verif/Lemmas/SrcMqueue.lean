import Verif.Lemmas.SrcTask
import Verif.Lemmas.SrcBBufRotate
import Verif.Spec.SrcMqueue

/-! # mu_mqueue.c from the parsed source -/

namespace Mu.CS

theorem mod_two {x c : Nat} (h : x < 2 * c) : x % c = if x < c then x else x - c := by
  split
  · rename_i e; exact Nat.mod_eq_of_lt e
  · rename_i e
    rw [Nat.mod_eq_sub_mod (by omega), Nat.mod_eq_of_lt (by omega)]

variable {A : Arch} {X : Ext}

section
variable {h h' : Heap} {b sb : Base} {o so : Int} {cap ix : Nat} {pt gt : CVal} {l : List CVal}

theorem Heap.MQ.sepAt (q : h.MQ b o sb so cap pt gt ix l) {i : Nat} (hi : i < cap) (k : Int) (h0 : 0 ≤ k) (h5 : k < 6) :
    ¬(b = sb ∧ o + k = so + i) := by
  have := q.sep i hi k.toNat (by omega)
  rwa [Int.toNat_of_nonneg h0] at this

theorem Heap.MQ.only (q : h.MQ b o sb so cap pt gt ix l) {W : Base → Int → Prop} (e : Heap.Only W h h')
    (hw : ∀ b' o', W b' o' → ¬ mqueueCells b o sb so cap b' o') : h'.MQ b o sb so cap pt gt ix l := by
  have k : ∀ j : Int, 0 ≤ j → j < 6 → h'.at b (o + j) = h.at b (o + j) := fun j h0 h1 =>
    e.cell _ _ (fun hx => hw _ _ hx (Or.inl ⟨rfl, by omega, by omega⟩))
  have s : ∀ i : Nat, i < cap → h'.at sb (so + i) = h.at sb (so + i) := fun i hi =>
    e.cell _ _ (fun hx => hw _ _ hx (Or.inr ⟨rfl, by omega, by omega⟩))
  have k0 := k 0 (by omega) (by omega)
  rw [Int.add_zero] at k0
  refine ⟨q.wr, q.swr, k0.trans q.storage, (k 1 (by omega) (by omega)).trans q.capa,
    (k 2 (by omega) (by omega)).trans q.cnt, (k 3 (by omega) (by omega)).trans q.idx,
    (k 4 (by omega) (by omega)).trans q.onPut, (k 5 (by omega) (by omega)).trans q.onGet, q.le, q.inside, ?_, ?_,
    q.sep, q.defd⟩
  · intro i v hv
    have hi : i < l.length := (List.getElem?_eq_some_iff.mp hv).1
    have := q.le
    rw [s _ (Nat.mod_lt _ (by omega))]
    exact q.items i v hv
  · intro i hi
    rw [s i hi]
    exact q.slot i hi

theorem src_mq_is_full (n : Nat) (q : h.MQ b o sb so cap pt gt ix l) (hs : 2 * cap ≤ A.szMod) :
    sem A X prog (n + 1) .mu_mqueue_is_full h [.ptr b o] = .ok (.ofBool (decide (l.length = cap)), h) := by
  have h16 := szMod_ge A.toPlat
  have := q.le
  rw [sem_succ (d := Src.mu_mqueue_is_full) rfl, FunDef.run_regs rfl rfl]
  have c1 := conv_size_lt (A := A) (n := cap) (by omega)
  have c2 := conv_size_lt (A := A) (n := l.length) (by omega)
  simp [csrc, Src.mu_mqueue_is_full, q.capa, q.cnt, c1, c2]

theorem src_mq_is_empty (n : Nat) (q : h.MQ b o sb so cap pt gt ix l) (hs : 2 * cap ≤ A.szMod) :
    sem A X prog (n + 1) .mu_mqueue_is_empty h [.ptr b o] = .ok (.ofBool (decide (l.length = 0)), h) := by
  have h16 := szMod_ge A.toPlat
  have := q.le
  rw [sem_succ (d := Src.mu_mqueue_is_empty) rfl, FunDef.run_regs rfl rfl]
  have c2 := conv_size_lt (A := A) (n := l.length) (by omega)
  simp [csrc, Src.mu_mqueue_is_empty, q.cnt, c2]

theorem src_mq_reset (n : Nat) (q : h.MQ b o sb so cap pt gt ix l) :
    ∃ h', sem A X prog (n + 1) .mu_mqueue_reset h [.ptr b o] = .ok (.ptr b o, h') ∧
      h'.MQ b o sb so cap pt gt 0 [] ∧ Heap.Only (mqueueCells b o sb so cap) h h' := by
  refine ⟨(h.upd b (o + 2) (.int 0)).upd b (o + 3) (.int 0), ?_, ?_, ?_⟩
  · rw [sem_succ (d := Src.mu_mqueue_reset) rfl, FunDef.run_regs rfl rfl]
    simp [csrc, Src.mu_mqueue_reset, q.cnt, q.idx, q.wr]
  · refine ⟨q.wr, q.swr, ?_, ?_, ?_, ?_, ?_, ?_, by simp, Or.inr rfl, by simp, ?_, q.sep, by simp⟩
    · simp [csrc, q.storage]
    · simp [csrc, q.capa]
    · simp [csrc, q.cnt, q.wr]
    · simp [csrc, q.cnt, q.idx, q.wr]
    · simp [csrc, q.onPut]
    · simp [csrc, q.onGet]
    · intro i hi
      rw [Heap.at_upd_sep (q.sepAt hi 3 (by omega) (by omega)), Heap.at_upd_sep (q.sepAt hi 2 (by omega) (by omega))]
      exact q.slot i hi
  · exact ((Heap.Only.refl _ _).upd (Or.inl ⟨rfl, by omega, by omega⟩)).upd
      (Or.inl ⟨rfl, by omega, by omega⟩)

theorem src_mq_put_full (n : Nat) (q : h.MQ b o sb so cap pt gt ix l) (hs : 2 * cap ≤ A.szMod) {v : CVal}
    (hf : ¬ l.length < cap) :
    sem A X prog (n + 2) .mu_mqueue_put h [.ptr b o, v] = .ok (.int 0, h) := by
  have := q.le
  rw [sem_succ (d := Src.mu_mqueue_put) rfl, FunDef.run_regs rfl rfl]
  have e := src_mq_is_full (X := X) n q hs
  rw [decide_eq_true (by omega)] at e
  simp [csrc, Src.mu_mqueue_put, e, CVal.ofBool]

theorem Heap.MQ.put (q : h.MQ b o sb so cap pt gt ix l) {v : CVal} (hv : v ≠ .undef) (hf : l.length < cap) :
    (((h.upd sb (so + ix) v).upd b (o + 3) (.int ((ix + 1) % cap : Nat))).upd b (o + 2) (.int (l.length + 1 : Nat))).MQ
      b o sb so cap pt gt ((ix + 1) % cap) (l ++ [v]) := by
  have hix : ix < cap := by have := q.inside; omega
  have u : ∀ k : Int, 0 ≤ k → k < 6 → (h.upd sb (so + ix) v).at b (o + k) = h.at b (o + k) := fun k h0 h1 =>
    Heap.at_upd_sep (fun e => q.sepAt hix k h0 h1 ⟨e.1.symm, e.2.symm⟩)
  have u0 : (h.upd sb (so + ix) v).at b o = _ := ((by simpa using u 0 (by omega) (by omega)) : _ = h.at b o).trans q.storage
  have u1 := (u 1 (by omega) (by omega)).trans q.capa
  have u2 := (u 2 (by omega) (by omega)).trans q.cnt
  have u3 := (u 3 (by omega) (by omega)).trans q.idx
  have u4 := (u 4 (by omega) (by omega)).trans q.onPut
  have u5 := (u 5 (by omega) (by omega)).trans q.onGet
  refine ⟨q.wr, q.swr, ?_, ?_, ?_, ?_, ?_, ?_, by simp; omega, Or.inl (Nat.mod_lt _ (by omega)), ?_, ?_, q.sep, ?_⟩
  · simp [csrc, u0]
  · simp [csrc, u1]
  · simp [csrc, u2, q.wr]
  · simp [csrc, u3, q.wr]
  · simp [csrc, u4]
  · simp [csrc, u5]
  · intro i w hw
    have hi : i < (l ++ [v]).length := (List.getElem?_eq_some_iff.mp hw).1
    rw [List.length_append, List.length_singleton] at hi ⊢
    have hp : ((ix + 1) % cap + cap - (l.length + 1) + i) % cap = (ix + cap - l.length + i) % cap := by
      rw [mod_two (x := ix + 1) (by omega)]
      split
      · congr 1; omega
      · have : ix + cap - l.length + i = (0 + cap - (l.length + 1) + i) + cap := by omega
        rw [show ix + 1 - cap = 0 by omega, this, Nat.add_mod_right]
    have hlt : (ix + cap - l.length + i) % cap < cap := Nat.mod_lt _ (by omega)
    rw [hp, Heap.at_upd_sep (q.sepAt hlt 2 (by omega) (by omega)), Heap.at_upd_sep (q.sepAt hlt 3 (by omega) (by omega))]
    by_cases e : i = l.length
    · subst e
      have : (ix + cap - l.length + l.length) % cap = ix := by
        rw [show ix + cap - l.length + l.length = ix + cap by omega, Nat.add_mod_right, Nat.mod_eq_of_lt hix]
      rw [this, Heap.at_upd_same q.swr (q.slot ix hix)]
      simpa using hw
    · have hne : (ix + cap - l.length + i) % cap ≠ ix := by
        rw [mod_two (by omega)]; split <;> omega
      rw [Heap.at_upd_ne (Or.inr (by omega))]
      rw [List.getElem?_append_left (by omega)] at hw
      exact q.items i w hw
  · intro i hi
    rw [Heap.at_upd_sep (q.sepAt hi 2 (by omega) (by omega)), Heap.at_upd_sep (q.sepAt hi 3 (by omega) (by omega))]
    by_cases e : i = ix
    · subst e
      rw [Heap.at_upd_same q.swr (q.slot i hi)]; rfl
    · rw [Heap.at_upd_ne (Or.inr (by omega))]
      exact q.slot i hi
  · intro w hw
    rcases List.mem_append.mp hw with hw | hw
    · exact q.defd w hw
    · obtain rfl := List.mem_singleton.mp hw
      exact hv

set_option maxHeartbeats 1000000 in
theorem src_mq_put (n : Nat) (q : h.MQ b o sb so cap pt gt ix l) (hs : 2 * cap ≤ A.szMod) {v : CVal}
    (hv : v ≠ .undef) (hf : l.length < cap) (hp : TaskPtr pt) :
    ∃ h1 ix', h1.MQ b o sb so cap pt gt ix' (l ++ [v]) ∧ Heap.Only (mqueueCells b o sb so cap) h h1 ∧
      sem A X prog (n + 2) .mu_mqueue_put h [.ptr b o, v] = (do
        let h2 ← wake (sem A X prog (n + 1)) pt h1
        .ok (.int 1, h2)) := by
  have hix : ix < cap := by have := q.inside; omega
  have h16 := szMod_ge A.toPlat
  refine ⟨_, _, q.put hv hf, (((Heap.Only.refl _ _).upd (Or.inr ⟨rfl, by omega, by omega⟩)).upd
        (Or.inl ⟨rfl, by omega, by omega⟩)).upd (Or.inl ⟨rfl, by omega, by omega⟩), ?_⟩
  have u : ∀ k : Int, 0 ≤ k → k < 6 → (h.upd sb (so + ix) v).at b (o + k) = h.at b (o + k) := fun k h0 h1 =>
    Heap.at_upd_sep (fun e => q.sepAt hix k h0 h1 ⟨e.1.symm, e.2.symm⟩)
  have u1 := (u 1 (by omega) (by omega)).trans q.capa
  have u2 := (u 2 (by omega) (by omega)).trans q.cnt
  have u3 := (u 3 (by omega) (by omega)).trans q.idx
  have u4 := (u 4 (by omega) (by omega)).trans q.onPut
  have hw := q.slot ix hix
  have c1 := conv_size_lt (A := A) (n := cap) (by omega)
  have c2 := conv_size_lt (A := A) (n := l.length) (by omega)
  have c3 := conv_size_lt (A := A) (n := ix) (by omega)
  have s1 : A.sz (ix + 1) = ix + 1 := Plat.sz_of_lt (by omega)
  have s2 : A.sz (l.length + 1) = l.length + 1 := Plat.sz_of_lt (by omega)
  have e := src_mq_is_full (X := X) n q hs
  rw [decide_eq_false (by omega)] at e
  have hm : A.toPlat.szMod ≠ 0 := by omega
  rw [sem_succ (d := Src.mu_mqueue_put) rfl, FunDef.run_regs rfl rfl]
  generalize sem A X prog (n + 1) = S at e ⊢
  have hmod := mod_size A (a := ix + 1) (b := cap) (by omega) (by omega)
  have c4 := conv_size_lt (A := A) (n := ix + 1) (by omega)
  have c5 := conv_size_lt (A := A) (n := l.length + 1) (by omega)
  simp only [Int.natCast_add, Int.natCast_emod, Int.cast_ofNat_Int] at hmod c4 c5
  have q0 := q.storage
  have q3 := q.idx
  have w1 := q.swr
  have w2 := q.wr
  cases pt with
  | null =>
    simp [csrc, Src.mu_mqueue_put, e, q0, q3, hw, w1, w2, u1, u2, u3, u4, c1, c2, c3, hv, hmod, c4, c5, s1, s2, CVal.ofBool, wake]
  | ptr tb ot =>
    generalize hh1 : ((h.upd sb (so + ↑ix) v).upd b (o + 3) (CVal.int ↑((ix + 1) % cap))).upd b (o + 2)
      (CVal.int ↑(l.length + 1)) = h1
    have hh1' : ((h.upd sb (so + ↑ix) v).upd b (o + 3) (CVal.int ((↑ix + 1) % ↑cap))).upd b (o + 2)
      (CVal.int (↑l.length + 1)) = h1 := by rw [← hh1]; simp
    have u4' : h1.at b (o + 4) = some (.ptr tb ot) := by rw [← hh1]; simp [csrc, u4]
    cases hx : S .mu_task_call h1 [.ptr tb ot] <;>
    simp [csrc, Src.mu_mqueue_put, e, q0, q3, hw, w1, w2, u1, u2, u3, u4, u4', c1, c2, c3, hv, hmod, c4, c5, s1, s2, CVal.ofBool, wake, hh1', hx]
  | _ => exact hp.elim

theorem src_mq_access_nil (n : Nat) (q : h.MQ b o sb so cap pt gt ix []) (hs : 2 * cap ≤ A.szMod) (fetch : Bool)
    {eb : Base} {eo : Int} (hew : eb.isLit = false) (hes : (h.at eb eo).isSome = true) :
    sem A X prog (n + 2) .access_queue__mqueue h [.ptr b o, .ptr eb eo, .ofBool fetch] =
      .ok (.int 0, h.upd eb eo .null) := by
  have e := src_mq_is_empty (X := X) n q hs
  rw [sem_succ (d := Src.access_queue__mqueue) rfl, FunDef.run_regs rfl rfl]
  simp [csrc, Src.access_queue__mqueue, e, hew, hes, CVal.ofBool]

set_option maxHeartbeats 1000000 in
theorem src_mq_access_cons (n : Nat) {x : CVal} {t : List CVal} (q : h.MQ b o sb so cap pt gt ix (x :: t))
    (hs : 2 * cap ≤ A.szMod) (fetch : Bool) (hg : TaskPtr gt)
    {eb : Base} {eo : Int} (hew : eb.isLit = false) (hes : (h.at eb eo).isSome = true)
    (he : ¬ mqueueCells b o sb so cap eb eo) :
    sem A X prog (n + 2) .access_queue__mqueue h [.ptr b o, .ptr eb eo, .ofBool fetch] =
      if fetch = true then (do
        let h2 ← wake (sem A X prog (n + 1)) gt ((h.upd eb eo x).upd b (o + 2) (.int (t.length : Nat)))
        .ok (.int 1, h2)) else .ok (.int 1, h.upd eb eo x) := by
  have h16 := szMod_ge A.toPlat
  have hle := q.le
  rw [List.length_cons] at hle
  have hix : ix < cap := by have := q.inside; omega
  have e := src_mq_is_empty (X := X) n q hs
  rw [decide_eq_false (by simp)] at e
  have hx : x ≠ .undef := q.defd x (by simp)
  have u : ∀ k : Int, 0 ≤ k → k < 6 → (h.upd eb eo x).at b (o + k) = h.at b (o + k) := fun k h0 h1 =>
    Heap.at_upd_sep (fun e => he (Or.inl ⟨e.1, by omega, by omega⟩))
  have u2 := (u 2 (by omega) (by omega)).trans q.cnt
  have u5 := (u 5 (by omega) (by omega)).trans q.onGet
  have hit := q.items 0 x rfl
  rw [Nat.add_zero, List.length_cons] at hit
  rw [sem_succ (d := Src.access_queue__mqueue) rfl, FunDef.run_regs rfl rfl]
  generalize sem A X prog (n + 1) = S at e ⊢
  have q0 := q.storage
  have q1 := q.capa
  have q2 := q.cnt
  have q3 := q.idx
  have w1 := q.swr
  have w2 := q.wr
  rw [List.length_cons] at q2 u2
  generalize hc : t.length + 1 = c at q2 u2 hit hle
  have c1 := conv_size_lt (A := A) (n := cap) (by omega)
  have c2 := conv_size_lt (A := A) (n := c) (by omega)
  have c3 := conv_size_lt (A := A) (n := ix) (by omega)
  have s1 : A.sz (cap + ix) = cap + ix := Plat.sz_of_lt (by omega)
  have s2 : A.szSub (cap + ix) c = cap + ix - c := Plat.szSub_of_le (by omega) (by omega)
  have s3 : A.szSub c 1 = c - 1 := Plat.szSub_of_le (by omega) (by omega)
  generalize hd : t.length = d at hc ⊢
  rw [show c - 1 = d by omega] at s3
  have cd := conv_size_lt (A := A) (n := d) (by omega)
  rw [mod_two (by omega), show ix + cap - c = cap + ix - c by omega] at hit
  generalize hj : cap + ix - c = j at s2 hit
  obtain ⟨sm, hsm⟩ : ∃ sm, cap + ix = sm := ⟨_, rfl⟩
  rw [hsm] at s2
  replace s1 : A.sz (cap + ix) = sm := s1.trans hsm
  have cs := conv_size_lt (A := A) (n := sm) (by omega)
  have cj := conv_size_lt (A := A) (n := j) (by omega)
  cases fetch with
  | false =>
    by_cases hg' : cap ≤ j
    · have s4 : A.szSub j cap = j - cap := Plat.szSub_of_le (by omega) (by omega)
      rw [if_neg (by omega)] at hit
      generalize hk : j - cap = k at s4 hit
      have ck := conv_size_lt (A := A) (n := k) (by omega)
      simp [csrc, Src.access_queue__mqueue, e, q0, q1, q2, q3, c1, c2, c3, s1, s2, cs, cd, s4, cj, ck, hg', hit, hx, hew, hes, CVal.ofBool]
    · rw [if_pos (by omega)] at hit
      simp [csrc, Src.access_queue__mqueue, e, q0, q1, q2, q3, c1, c2, c3, s1, s2, cs, cd, cj, hg', hit, hx, hew, hes, CVal.ofBool]
  | true =>
    generalize hh1 : (h.upd eb eo x).upd b (o + 2) (CVal.int ↑d) = h1
    have u5' : h1.at b (o + 5) = some gt := by rw [← hh1]; simp [csrc, u5]
    by_cases hg' : cap ≤ j
    · have s4 : A.szSub j cap = j - cap := Plat.szSub_of_le (by omega) (by omega)
      rw [if_neg (by omega)] at hit
      generalize hk : j - cap = k at s4 hit
      have ck := conv_size_lt (A := A) (n := k) (by omega)
      cases gt with
      | null =>
        simp [csrc, Src.access_queue__mqueue, e, q0, q1, q2, q3, c1, c2, c3, s1, s2, cs, cd, s3, s4, cj, ck, hg', hit, hx, hew, hes,
          w2, u2, u5, hh1, wake, u5', CVal.ofBool]
      | ptr tb ot =>
        cases hr : S .mu_task_call h1 [.ptr tb ot] <;>
        simp [csrc, Src.access_queue__mqueue, e, q0, q1, q2, q3, c1, c2, c3, s1, s2, cs, cd, s3, s4, cj, ck, hg', hit, hx, hew, hes,
          w2, u2, u5, hh1, hr, wake, u5', CVal.ofBool]
      | _ => exact hg.elim
    · rw [if_pos (by omega)] at hit
      cases gt with
      | null =>
        simp [csrc, Src.access_queue__mqueue, e, q0, q1, q2, q3, c1, c2, c3, s1, s2, cs, cd, s3, cj, hg', hit, hx, hew, hes,
          w2, u2, u5, hh1, wake, u5', CVal.ofBool]
      | ptr tb ot =>
        cases hr : S .mu_task_call h1 [.ptr tb ot] <;>
        simp [csrc, Src.access_queue__mqueue, e, q0, q1, q2, q3, c1, c2, c3, s1, s2, cs, cd, s3, cj, hg', hit, hx, hew, hes,
          w2, u2, u5, hh1, hr, wake, u5', CVal.ofBool]
      | _ => exact hg.elim

/-- The queue after a get. -/
theorem Heap.MQ.pop {x : CVal} {t : List CVal} (q : h.MQ b o sb so cap pt gt ix (x :: t)) :
    (h.upd b (o + 2) (.int (t.length : Nat))).MQ b o sb so cap pt gt ix t := by
  have hle := q.le
  rw [List.length_cons] at hle
  refine ⟨q.wr, q.swr, ?_, ?_, ?_, ?_, ?_, ?_, by omega, q.inside, ?_, ?_, q.sep,
    fun v hv => q.defd v (List.mem_cons_of_mem _ hv)⟩
  · simp [csrc, q.storage]
  · simp [csrc, q.capa]
  · simp [csrc, q.cnt, q.wr]
  · simp [csrc, q.idx]
  · simp [csrc, q.onPut]
  · simp [csrc, q.onGet]
  · intro i v hv
    have hlt : (ix + cap - t.length + i) % cap < cap := Nat.mod_lt _ (by omega)
    rw [Heap.at_upd_sep (q.sepAt hlt 2 (by omega) (by omega))]
    have := q.items (i + 1) v (by simpa using hv)
    rw [List.length_cons] at this
    rwa [show ix + cap - (t.length + 1) + (i + 1) = ix + cap - t.length + i by omega] at this
  · intro i hi
    rw [Heap.at_upd_sep (q.sepAt hi 2 (by omega) (by omega))]
    exact q.slot i hi

/-- `mu_mqueue_init` makes an empty queue of whatever is in the struct. -/
theorem src_mq_init (n : Nat) (hb : b.isLit = false)
    (hsb : sb.isLit = false) (hq : ∀ k : Nat, k < 6 → (h.at b (o + k)).isSome = true)
    (hst : ∀ i : Nat, i < cap → (h.at sb (so + i)).isSome = true)
    (hsep : ∀ i : Nat, i < cap → ∀ k : Nat, k < 6 → ¬(b = sb ∧ o + k = so + i)) (hp : TaskPtr pt) (hg : TaskPtr gt) :
    ∃ h', sem A X prog (n + 2) .mu_mqueue_init h [.ptr b o, .ptr sb so, .int cap, pt, gt] =
        .ok (.ptr b o, h') ∧ h'.MQ b o sb so cap pt gt 0 [] ∧ Heap.Only (span b o 6) h h' := by
  have h0 : (h.at b o).isSome = true := by simpa using hq 0 (by omega)
  have h1 : (h.at b (o + 1)).isSome = true := hq 1 (by omega)
  have h2 : (h.at b (o + 2)).isSome = true := hq 2 (by omega)
  have h3 : (h.at b (o + 3)).isSome = true := hq 3 (by omega)
  have h4 : (h.at b (o + 4)).isSome = true := hq 4 (by omega)
  have h5 : (h.at b (o + 5)).isSome = true := hq 5 (by omega)
  have up : pt ≠ .undef := by rintro rfl; exact hp
  have ug : gt ≠ .undef := by rintro rfl; exact hg
  refine ⟨(((((h.upd b o (.ptr sb so)).upd b (o + 1) (.int cap)).upd b (o + 4) pt).upd b (o + 5) gt).upd b (o + 2)
    (.int 0)).upd b (o + 3) (.int 0), ?_, ?_, ?_⟩
  · have e : sem A X prog (n + 1) .mu_mqueue_reset ((((h.upd b o (.ptr sb so)).upd b (o + 1) (.int cap)).upd b (o + 4)
        pt).upd b (o + 5) gt) [.ptr b o] = .ok (.ptr b o, (((((h.upd b o (.ptr sb so)).upd b (o + 1) (.int cap)).upd b
        (o + 4) pt).upd b (o + 5) gt).upd b (o + 2) (.int 0)).upd b (o + 3) (.int 0)) := by
      rw [sem_succ (d := Src.mu_mqueue_reset) rfl, FunDef.run_regs rfl rfl]
      simp [csrc, Src.mu_mqueue_reset, h2, h3, hb]
    rw [sem_succ (d := Src.mu_mqueue_init) rfl, FunDef.run_regs rfl rfl]
    simp [csrc, Src.mu_mqueue_init, h0, h1, h4, h5, hb, e, up, ug]
  · refine ⟨hb, hsb, ?_, ?_, ?_, ?_, ?_, ?_, by simp, Or.inr rfl, by simp, ?_, hsep, by simp⟩
    · simp [csrc, h0, hb]
    · simp [csrc, h1, hb]
    · simp [csrc, h2, hb]
    · simp [csrc, h3, hb]
    · simp [csrc, h4, hb]
    · simp [csrc, h5, hb]
    · intro i hi
      have s0 : ¬(b = sb ∧ o = so + i) := by simpa using hsep i hi 0 (by omega)
      have s1 : ¬(b = sb ∧ o + 1 = so + i) := hsep i hi 1 (by omega)
      have s2 : ¬(b = sb ∧ o + 2 = so + i) := hsep i hi 2 (by omega)
      have s3 : ¬(b = sb ∧ o + 3 = so + i) := hsep i hi 3 (by omega)
      have s4 : ¬(b = sb ∧ o + 4 = so + i) := hsep i hi 4 (by omega)
      have s5 : ¬(b = sb ∧ o + 5 = so + i) := hsep i hi 5 (by omega)
      rw [Heap.at_upd_sep s3, Heap.at_upd_sep s2, Heap.at_upd_sep s5, Heap.at_upd_sep s4, Heap.at_upd_sep s1,
        Heap.at_upd_sep s0]
      exact hst i hi
  · exact ((((((Heap.Only.refl _ _).upd ⟨rfl, by omega, by omega⟩).upd ⟨rfl, by omega, by omega⟩).upd
      ⟨rfl, by omega, by omega⟩).upd ⟨rfl, by omega, by omega⟩).upd ⟨rfl, by omega, by omega⟩).upd ⟨rfl, by omega, by omega⟩

/-- One call: what it does before it calls a task, which task, and that it does nothing afterwards. -/
theorem src_mq_call (n : Nat) (q : h.MQ b o sb so cap pt gt ix l) (hs : 2 * cap ≤ A.szMod) (hp : TaskPtr pt)
    (hg : TaskPtr gt) (c : QCall) (hl : c.Legal (mqueueCells b o sb so cap) h) :
    ∃ h1 ix' m, (m = n + 1 ∨ m = n + 2) ∧ h1.MQ b o sb so cap pt gt ix' (QCall.spec b o cap l c).2 ∧
      Heap.Only (fun b' o' => mqueueCells b o sb so cap b' o' ∨ c.writes b' o') h h1 ∧
      (∀ eb eo, c.writes eb eo → h1.at eb eo = (QCall.spec b o cap l c).1.elem) ∧
      QCall.mrun (sem A X prog (n + 3)) b o h c = (do
        let h2 ← wake (sem A X prog m) (QCall.wakes cap l pt gt c) h1
        .ok (⟨(QCall.spec b o cap l c).1.ret, match c with
          | .get eb eo => h2.at eb eo
          | .peek eb eo => h2.at eb eo
          | _ => none⟩, h2)) := by
  have h16 := szMod_ge A.toPlat
  cases c with
  | put v =>
    by_cases hf : l.length < cap
    · obtain ⟨h1, ix', e1, e2, e3⟩ := src_mq_put (X := X) (n + 1) q hs (v := v) hl hf hp
      refine ⟨h1, ix', n + 2, Or.inr rfl, ?_, e2.mono (fun _ _ hc => Or.inl hc), fun _ _ hc => hc.elim, ?_⟩
      · simpa [QCall.spec, hf] using e1
      · simp only [QCall.mrun, e3, QCall.spec, hf, if_true, QCall.wakes]
        cases wake (sem A X prog (n + 2)) pt h1 <;> rfl
    · refine ⟨h, ix, n + 1, Or.inl rfl, ?_, Heap.Only.refl _ _, fun _ _ hc => hc.elim, ?_⟩
      · simpa [QCall.spec, hf] using q
      · simp [QCall.mrun, src_mq_put_full (X := X) (n + 1) q hs (v := v) hf, QCall.spec, hf, QCall.wakes, wake]
  | get eb eo =>
    obtain ⟨l1, l2, l3⟩ := hl
    have hk : ∀ b' o', (b' = eb ∧ o' = eo) → ¬ mqueueCells b o sb so cap b' o' := by
      rintro _ _ ⟨rfl, rfl⟩; exact l3
    cases l with
    | nil =>
      refine ⟨h.upd eb eo .null, ix, n + 1, Or.inl rfl, ?_, (Heap.Only.refl _ _).upd (Or.inr ⟨rfl, rfl⟩), ?_, ?_⟩
      · exact q.only ((Heap.Only.refl (fun b' o' => b' = eb ∧ o' = eo) _).upd ⟨rfl, rfl⟩) hk
      · rintro _ _ ⟨rfl, rfl⟩; exact Heap.at_upd_same l1 l2
      · have e := src_mq_access_nil (X := X) n q hs true l1 l2
        have e' : sem A X prog (n + 3) .mu_mqueue_get h [.ptr b o, .ptr eb eo] = .ok (.int 0, h.upd eb eo .null) := by
          rw [sem_succ (d := Src.mu_mqueue_get) rfl, FunDef.run_regs rfl rfl]
          simp [csrc, Src.mu_mqueue_get, e]
        simp [QCall.mrun, e', QCall.spec, QCall.wakes, wake]
    | cons x t =>
      have q1 : (h.upd eb eo x).MQ b o sb so cap pt gt ix (x :: t) :=
        q.only ((Heap.Only.refl (fun b' o' => b' = eb ∧ o' = eo) _).upd ⟨rfl, rfl⟩) hk
      refine ⟨_, ix, n + 1, Or.inl rfl, q1.pop, ((Heap.Only.refl _ _).upd (Or.inr ⟨rfl, rfl⟩)).upd
        (Or.inl (Or.inl ⟨rfl, by omega, by omega⟩)), ?_, ?_⟩
      · rintro _ _ ⟨rfl, rfl⟩
        rw [Heap.at_upd_sep (fun e => l3 (Or.inl ⟨e.1.symm, by omega, by omega⟩)), Heap.at_upd_same l1 l2]
        rfl
      · have e := src_mq_access_cons (X := X) n q hs true hg l1 l2 l3
        rw [if_pos rfl] at e
        have e' : sem A X prog (n + 3) .mu_mqueue_get h [.ptr b o, .ptr eb eo] =
            sem A X prog (n + 2) .access_queue__mqueue h [.ptr b o, .ptr eb eo, .ofBool true] := by
          rw [sem_succ (d := Src.mu_mqueue_get) rfl, FunDef.run_regs rfl rfl]
          cases hx : sem A X prog (n + 2) .access_queue__mqueue h [.ptr b o, .ptr eb eo, .ofBool true] <;>
            simp [csrc, Src.mu_mqueue_get, hx]
        simp only [QCall.mrun, e', e, QCall.spec, QCall.wakes, if_neg (List.cons_ne_nil x t)]
        cases wake (sem A X prog (n + 1)) gt ((h.upd eb eo x).upd b (o + 2) (.int (t.length : Nat))) <;> rfl
  | peek eb eo =>
    obtain ⟨l1, l2, l3⟩ := hl
    have hk : ∀ b' o', (b' = eb ∧ o' = eo) → ¬ mqueueCells b o sb so cap b' o' := by
      rintro _ _ ⟨rfl, rfl⟩; exact l3
    cases l with
    | nil =>
      refine ⟨h.upd eb eo .null, ix, n + 1, Or.inl rfl, ?_, (Heap.Only.refl _ _).upd (Or.inr ⟨rfl, rfl⟩), ?_, ?_⟩
      · exact q.only ((Heap.Only.refl (fun b' o' => b' = eb ∧ o' = eo) _).upd ⟨rfl, rfl⟩) hk
      · rintro _ _ ⟨rfl, rfl⟩; exact Heap.at_upd_same l1 l2
      · have e := src_mq_access_nil (X := X) n q hs false l1 l2
        have e' : sem A X prog (n + 3) .mu_mqueue_peek h [.ptr b o, .ptr eb eo] = .ok (.int 0, h.upd eb eo .null) := by
          rw [sem_succ (d := Src.mu_mqueue_peek) rfl, FunDef.run_regs rfl rfl]
          simp [csrc, Src.mu_mqueue_peek, e]
        simp [QCall.mrun, e', QCall.spec, QCall.wakes, wake]
    | cons x t =>
      refine ⟨h.upd eb eo x, ix, n + 1, Or.inl rfl, ?_, (Heap.Only.refl _ _).upd (Or.inr ⟨rfl, rfl⟩), ?_, ?_⟩
      · exact q.only ((Heap.Only.refl (fun b' o' => b' = eb ∧ o' = eo) _).upd ⟨rfl, rfl⟩) hk
      · rintro _ _ ⟨rfl, rfl⟩; exact Heap.at_upd_same l1 l2
      · have e := src_mq_access_cons (X := X) n q hs false hg l1 l2 l3
        rw [if_neg (by simp)] at e
        have e' : sem A X prog (n + 3) .mu_mqueue_peek h [.ptr b o, .ptr eb eo] = .ok (.int 1, h.upd eb eo x) := by
          rw [sem_succ (d := Src.mu_mqueue_peek) rfl, FunDef.run_regs rfl rfl]
          simp [csrc, Src.mu_mqueue_peek, e]
        simp [QCall.mrun, e', QCall.spec, QCall.wakes, wake]
  | reset =>
    obtain ⟨h', e1, e2, e3⟩ := src_mq_reset (A := A) (X := X) (n + 2) q
    refine ⟨h', 0, n + 1, Or.inl rfl, e2, e3.mono (fun _ _ hc => Or.inl hc), fun _ _ hc => hc.elim, ?_⟩
    simp [QCall.mrun, e1, QCall.spec, QCall.wakes, wake]
  | count =>
    refine ⟨h, ix, n + 1, Or.inl rfl, q, Heap.Only.refl _ _, fun _ _ hc => hc.elim, ?_⟩
    have e : sem A X prog (n + 3) .mu_mqueue_count h [.ptr b o] = .ok (.int l.length, h) := by
      rw [sem_succ (d := Src.mu_mqueue_count) rfl, FunDef.run_regs rfl rfl]
      simp [csrc, Src.mu_mqueue_count, q.cnt]
    simp [QCall.mrun, e, QCall.spec, QCall.wakes, wake]
  | capacity =>
    refine ⟨h, ix, n + 1, Or.inl rfl, q, Heap.Only.refl _ _, fun _ _ hc => hc.elim, ?_⟩
    have e : sem A X prog (n + 3) .mu_mqueue_capacity h [.ptr b o] = .ok (.int cap, h) := by
      rw [sem_succ (d := Src.mu_mqueue_capacity) rfl, FunDef.run_regs rfl rfl]
      simp [csrc, Src.mu_mqueue_capacity, q.capa]
    simp [QCall.mrun, e, QCall.spec, QCall.wakes, wake]
  | isEmpty =>
    refine ⟨h, ix, n + 1, Or.inl rfl, q, Heap.Only.refl _ _, fun _ _ hc => hc.elim, ?_⟩
    have e := src_mq_is_empty (X := X) (n + 2) q hs
    simp [QCall.mrun, e, QCall.spec, QCall.wakes, wake, CVal.ofBool]
  | isFull =>
    refine ⟨h, ix, n + 1, Or.inl rfl, q, Heap.Only.refl _ _, fun _ _ hc => hc.elim, ?_⟩
    have e := src_mq_is_full (X := X) (n + 2) q hs
    simp [QCall.mrun, e, QCall.spec, QCall.wakes, wake, CVal.ofBool]

end
end Mu.CS
