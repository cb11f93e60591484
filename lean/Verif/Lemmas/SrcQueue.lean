import Verif.Lemmas.SrcCode
import Verif.Lemmas.Queue

/-! # The parsed source of mu_queue.c does what the model of `Verif/Model/Queue.lean` does -/

namespace Mu.CS

variable {A : Arch} {X : Ext}

/-- Memory holds the queue `m`: a `mu_queue_t` at offset `o` of object `b`, whose storage is at
offset `so` of object `sb`. -/
structure QRep (A : Arch) (h : Heap) (b : Base) (o : Int) (sb : Base) (so : Int) (m : Queue.Queue) :
    Prop where
  wr : b.isLit = false
  swr : sb.isLit = false
  storage : h.at b o = some (.ptr sb so)
  cap : h.at b (o + 1) = some (.int m.capacity)
  cnt : h.at b (o + 2) = some (.int m.count)
  idx : h.at b (o + 3) = some (.int m.index)
  items : ∀ (i : Nat) v, m.storage[i]? = some v → h.at sb (so + i) = some (code v)
  sep : ∀ i : Nat, i < m.storage.length → ∀ k : Nat, k < 4 → ¬(b = sb ∧ o + k = so + i)
  capLt : m.capacity < A.szMod
  cntLt : m.count < A.szMod
  idxLt : m.index < A.szMod

/-- The cells a queue owns. -/
def QCells (b : Base) (o : Int) (sb : Base) (so : Int) (n : Nat) (b' : Base) (o' : Int) : Prop :=
  (b' = b ∧ o ≤ o' ∧ o' < o + 4) ∨ (b' = sb ∧ so ≤ o' ∧ o' < so + n)

theorem QRep.sepAt {h : Heap} {b o sb so m} (q : QRep A h b o sb so m) {i : Nat}
    (hi : i < m.storage.length) : ¬(b = sb ∧ o = so + i) ∧ ¬(b = sb ∧ o + 1 = so + i) ∧
      ¬(b = sb ∧ o + 2 = so + i) ∧ ¬(b = sb ∧ o + 3 = so + i) := by
  have h0 := q.sep i hi 0 (by omega)
  have h1 := q.sep i hi 1 (by omega)
  have h2 := q.sep i hi 2 (by omega)
  have h3 := q.sep i hi 3 (by omega)
  refine ⟨fun ⟨e, f⟩ => h0 ⟨e, by omega⟩, fun ⟨e, f⟩ => h1 ⟨e, by omega⟩,
    fun ⟨e, f⟩ => h2 ⟨e, by omega⟩, fun ⟨e, f⟩ => h3 ⟨e, by omega⟩⟩

theorem src_queue_is_full {h : Heap} {b o sb so m} (n : Nat) (q : QRep A h b o sb so m) :
    sem A X prog (n + 1) .mu_queue_is_full h [.ptr b o] = .ok (.ofBool (Queue.isFull m), h) := by
  rw [sem_succ (d := Src.mu_queue_is_full) rfl, FunDef.run_regs rfl rfl]
  simp [csrc, Src.mu_queue_is_full, q.cap, q.cnt, conv_size_lt q.capLt, conv_size_lt q.cntLt,
    Queue.isFull, Bool.beq_eq_decide_eq]

theorem src_queue_is_empty {h : Heap} {b o sb so m} (n : Nat) (q : QRep A h b o sb so m) :
    sem A X prog (n + 1) .mu_queue_is_empty h [.ptr b o] = .ok (.ofBool (Queue.isEmpty m), h) := by
  rw [sem_succ (d := Src.mu_queue_is_empty) rfl, FunDef.run_regs rfl rfl]
  simp [csrc, Src.mu_queue_is_empty, q.cnt, conv_size_lt q.cntLt, Queue.isEmpty,
    Bool.beq_eq_decide_eq]

theorem src_queue_count {h : Heap} {b o sb so m} (n : Nat) (q : QRep A h b o sb so m) :
    sem A X prog (n + 1) .mu_queue_count h [.ptr b o] = .ok (.int (Queue.count m), h) := by
  rw [sem_succ (d := Src.mu_queue_count) rfl, FunDef.run_regs rfl rfl]
  simp [csrc, Src.mu_queue_count, q.cnt, Queue.count]

theorem src_queue_capacity {h : Heap} {b o sb so m} (n : Nat) (q : QRep A h b o sb so m) :
    sem A X prog (n + 1) .mu_queue_capacity h [.ptr b o] = .ok (.int (Queue.capacity m), h) := by
  rw [sem_succ (d := Src.mu_queue_capacity) rfl, FunDef.run_regs rfl rfl]
  simp [csrc, Src.mu_queue_capacity, q.cap, Queue.capacity]

theorem src_queue_reset {h : Heap} {b o sb so m} (n : Nat) (q : QRep A h b o sb so m) :
    ∃ h', sem A X prog (n + 1) .mu_queue_reset h [.ptr b o] = .ok (.ptr b o, h') ∧
      QRep A h' b o sb so (Queue.reset m) ∧ Heap.Only (QCells b o sb so m.storage.length) h h' := by
  refine ⟨(h.upd b (o + 2) (.int 0)).upd b (o + 3) (.int 0), ?_, ?_, ?_⟩
  · rw [sem_succ (d := Src.mu_queue_reset) rfl, FunDef.run_regs rfl rfl]
    simp [csrc, Src.mu_queue_reset, q.cnt, q.idx, q.wr]
  · have hz := A.szMod_pos
    refine ⟨q.wr, q.swr, ?_, ?_, ?_, ?_, ?_, q.sep, q.capLt, hz, hz⟩
    · simp [csrc, q.storage]
    · simp [csrc, q.cap, Queue.reset]
    · simp [csrc, q.cnt, Queue.reset, q.wr]
    · simp [csrc, q.cnt, q.idx, Queue.reset, q.wr]
    · intro i v hi
      have hl : i < m.storage.length := (List.getElem?_eq_some_iff.mp hi).1
      obtain ⟨-, -, s2, s3⟩ := q.sepAt hl
      rw [Heap.at_upd_sep s3, Heap.at_upd_sep s2]
      exact q.items i v hi
  · exact ((Heap.Only.refl _ _).upd (Or.inl ⟨rfl, by omega, by omega⟩)).upd
      (Or.inl ⟨rfl, by omega, by omega⟩)

theorem src_queue_put {h : Heap} {b o sb so m r m'} {x : Nat} (n : Nat) (q : QRep A h b o sb so m)
    (hx : code x ≠ .undef) (hm : Queue.put A.toPlat m x = .ok (r, m')) :
    ∃ h', sem A X prog (n + 2) .mu_queue_put h [.ptr b o, code x] = .ok (.ofBool r, h') ∧
      QRep A h' b o sb so m' ∧ Heap.Only (QCells b o sb so m.storage.length) h h' := by
  unfold Queue.put at hm
  by_cases hf : Queue.isFull m = true
  · rw [if_neg (by simp [hf])] at hm
    obtain ⟨rfl, rfl⟩ := Prod.mk.inj (Except.ok.inj hm)
    refine ⟨h, ?_, q, Heap.Only.refl _ _⟩
    rw [sem_succ (d := Src.mu_queue_put) rfl, FunDef.run_regs rfl rfl]
    simp [csrc, Src.mu_queue_put, src_queue_is_full n q, hf]
  · rw [if_pos (by simpa using hf)] at hm
    obtain ⟨st, hst, hm⟩ := C.bind_eq_ok hm
    have hi : m.index < m.storage.length := by
      unfold stN at hst; split at hst
      · assumption
      · cases hst
    rw [stN_ok hi] at hst
    obtain rfl := Except.ok.inj hst
    have hc : m.capacity ≠ 0 := by
      intro h0; rw [if_pos h0] at hm; cases hm
    rw [if_neg hc] at hm
    obtain ⟨rfl, rfl⟩ := Prod.mk.inj (Except.ok.inj hm)
    have hw := q.items m.index _ (List.getElem?_eq_getElem hi)
    obtain ⟨s0, s1, s2, s3⟩ := q.sepAt hi
    have u1 : (h.upd sb (so + m.index) (code x)).at b (o + 1) = _ :=
      (Heap.at_upd_sep (fun e => s1 ⟨e.1.symm, e.2.symm⟩)).trans q.cap
    have u2 : (h.upd sb (so + m.index) (code x)).at b (o + 2) = _ :=
      (Heap.at_upd_sep (fun e => s2 ⟨e.1.symm, e.2.symm⟩)).trans q.cnt
    have u3 : (h.upd sb (so + m.index) (code x)).at b (o + 3) = _ :=
      (Heap.at_upd_sep (fun e => s3 ⟨e.1.symm, e.2.symm⟩)).trans q.idx
    have u0 : (h.upd sb (so + m.index) (code x)).at b o = _ :=
      (Heap.at_upd_sep (fun e => s0 ⟨e.1.symm, e.2.symm⟩)).trans q.storage
    refine ⟨((h.upd sb (so + m.index) (code x)).upd b (o + 3)
      (.int (A.sz (m.index + 1) % m.capacity : Nat))).upd b (o + 2) (.int (A.sz (m.count + 1))),
      ?_, ?_, ?_⟩
    · rw [sem_succ (d := Src.mu_queue_put) rfl, FunDef.run_regs rfl rfl]
      simp [csrc, Src.mu_queue_put, src_queue_is_full n q, hf, q.storage, q.idx, hw, q.swr, q.wr,
        u1, u2, u3, conv_size_lt q.capLt, conv_size_lt q.cntLt, conv_size_lt q.idxLt, hx,
        mod_size A (A.sz_lt _) hc]
    · refine ⟨q.wr, q.swr, ?_, ?_, ?_, ?_, ?_, by simpa using q.sep, q.capLt, A.sz_lt _, ?_⟩
      · simp [csrc, u0]
      · simp [csrc, u1]
      · simp [csrc, u2, q.wr]
      · simp [csrc, u3, q.wr]
      · intro i v hv
        simp only at hv
        have hl : i < m.storage.length := by
          have := (List.getElem?_eq_some_iff.mp hv).1; simpa using this
        obtain ⟨-, -, t2, t3⟩ := q.sepAt hl
        rw [Heap.at_upd_sep t2, Heap.at_upd_sep t3]
        by_cases e : i = m.index
        · subst e
          rw [List.getElem?_set_self hi] at hv
          obtain rfl := Option.some.inj hv
          exact Heap.at_upd_same q.swr (by simp [hw])
        · rw [List.getElem?_set_ne (by omega)] at hv
          rw [Heap.at_upd_ne (Or.inr (by omega))]
          exact q.items i v hv
      · exact Nat.lt_of_le_of_lt (Nat.mod_le _ _) (A.sz_lt _)
    · refine (((Heap.Only.refl _ _).upd (Or.inr ⟨rfl, by omega, by omega⟩)).upd
        (Or.inl ⟨rfl, by omega, by omega⟩)).upd (Or.inl ⟨rfl, by omega, by omega⟩)

/-- Writing outside the queue keeps it. -/
theorem QRep.upd_other {h : Heap} {b o sb so m eb eo v} (q : QRep A h b o sb so m)
    (he : ¬ QCells b o sb so m.storage.length eb eo) : QRep A (h.upd eb eo v) b o sb so m := by
  have k : ∀ j : Int, 0 ≤ j → j < 4 → (h.upd eb eo v).at b (o + j) = h.at b (o + j) := by
    intro j h0 h1
    exact Heap.at_upd_sep (fun e => he (Or.inl ⟨e.1, by omega, by omega⟩))
  refine ⟨q.wr, q.swr, ?_, (k 1 (by omega) (by omega)).trans q.cap,
    (k 2 (by omega) (by omega)).trans q.cnt, (k 3 (by omega) (by omega)).trans q.idx, ?_, q.sep,
    q.capLt, q.cntLt, q.idxLt⟩
  · have := k 0 (by omega) (by omega)
    rw [Int.add_zero] at this
    exact this.trans q.storage
  · intro i w hw
    have hl := (List.getElem?_eq_some_iff.mp hw).1
    rw [Heap.at_upd_sep (fun e => he (Or.inr ⟨e.1, by omega, by omega⟩))]
    exact q.items i w hw

set_option maxHeartbeats 1000000 in
theorem src_queue_access {h : Heap} {b o sb so m eb eo r v m'} {fetch : Bool} (n : Nat)
    (q : QRep A h b o sb so m) (hew : eb.isLit = false) (hes : (h.at eb eo).isSome = true)
    (he : ¬ QCells b o sb so m.storage.length eb eo)
    (hm : Queue.accessQueue A.toPlat m fetch = .ok (r, v, m')) (hv : code v ≠ .undef) :
    ∃ h', sem A X prog (n + 2) .access_queue__queue h [.ptr b o, .ptr eb eo, .ofBool fetch] =
        .ok (.ofBool r, h') ∧
      QRep A h' b o sb so m' ∧ h'.at eb eo = some (code v) ∧
      Heap.Only (fun b' o' => QCells b o sb so m.storage.length b' o' ∨ (b' = eb ∧ o' = eo)) h h' := by
  unfold Queue.accessQueue at hm
  by_cases hf : Queue.isEmpty m = true
  · rw [if_neg (by simp [hf])] at hm
    injection hm with hm
    injection hm with e1 hm
    injection hm with e2 e3
    subst e1 e2 e3
    refine ⟨h.upd eb eo .null, ?_, q.upd_other he, ?_,
      (Heap.Only.refl _ _).upd (Or.inr ⟨rfl, rfl⟩)⟩
    · rw [sem_succ (d := Src.access_queue__queue) rfl, FunDef.run_regs rfl rfl]
      simp [csrc, Src.access_queue__queue, src_queue_is_empty n q, hf, hew, hes]
    · simp [csrc, hew, hes, NULL]
  · rw [if_pos (by simpa using hf)] at hm
    obtain ⟨el, hel, hm⟩ := C.bind_eq_ok hm
    injection hm with hm
    injection hm with e1 hm
    injection hm with e2 e3
    subst e1 e2 e3
    generalize hidx : (if A.szSub (A.sz (m.capacity + m.index)) m.count ≥ m.capacity
      then A.szSub (A.szSub (A.sz (m.capacity + m.index)) m.count) m.capacity
      else A.szSub (A.sz (m.capacity + m.index)) m.count) = idx at hel
    have hi : m.storage[idx]? = some el := by
      unfold ldN at hel
      cases e : m.storage[idx]? with
      | none => rw [e] at hel; cases hel
      | some y => rw [e] at hel; injection hel with hel; rw [hel]
    have hw := q.items idx _ hi
    have q' := q.upd_other (v := code el) he
    have hld : h.load (.ptr sb (so + idx)) = .ok (code el) := Heap.load_some hv hw
    have hev : (h.upd eb eo (code el)).at eb eo = some (code el) := Heap.at_upd_same hew hes
    have hidx' : idx < A.szMod := by
      rw [← hidx]; split <;> exact szSub_lt _ _ _
    have step : ∃ h', sem A X prog (n + 2) .access_queue__queue h
        [.ptr b o, .ptr eb eo, .ofBool fetch] = .ok (.ofBool true, h') ∧
        h' = if fetch = true then (h.upd eb eo (code el)).upd b (o + 2) (.int (A.szSub m.count 1))
          else h.upd eb eo (code el) := by
      refine ⟨_, ?_, rfl⟩
      rw [sem_succ (d := Src.access_queue__queue) rfl, FunDef.run_regs rfl rfl]
      by_cases hg : m.capacity ≤ A.szSub (A.sz (m.capacity + m.index)) m.count
      · rw [if_pos hg] at hidx
        cases fetch <;>
        simp [csrc, Src.access_queue__queue, src_queue_is_empty n q, hf, q.cap, q.idx,
          q.cnt, conv_size_lt q.capLt, conv_size_lt q.cntLt, conv_size_lt q.idxLt, hg, q.storage,
          hidx, hw, hv, hew, hes, q'.cnt, q.wr, conv_size_lt hidx']
      · rw [if_neg hg] at hidx
        rw [hidx] at hg
        cases fetch <;>
        simp [csrc, Src.access_queue__queue, src_queue_is_empty n q, hf, q.cap, q.idx,
          q.cnt, conv_size_lt q.capLt, conv_size_lt q.cntLt, conv_size_lt q.idxLt, hg, q.storage,
          hidx, hw, hv, hew, hes, q'.cnt, q.wr, conv_size_lt hidx']
    obtain ⟨h', hrun, rfl⟩ := step
    refine ⟨_, hrun, ?_, ?_, ?_⟩
    · cases fetch with
      | false => exact q'
      | true =>
        simp only [if_true]
        refine ⟨q.wr, q.swr, ?_, ?_, ?_, ?_, ?_, q.sep, q.capLt, szSub_lt _ _ _, q.idxLt⟩
        · simp [csrc, q'.storage]
        · simp [csrc, q'.cap]
        · simp [csrc, q'.cnt, q.wr]
        · simp [csrc, q'.idx]
        · intro i w hw
          have hl : i < m.storage.length := (List.getElem?_eq_some_iff.mp hw).1
          rw [Heap.at_upd_sep (q.sepAt hl).2.2.1]
          exact q'.items i w hw
    · cases fetch with
      | false => exact hev
      | true =>
        simp only [if_true]
        rw [Heap.at_upd_sep (fun e => he (Or.inl ⟨e.1.symm, by omega, by omega⟩))]
        exact hev
    · cases fetch with
      | false => exact (Heap.Only.refl _ _).upd (Or.inr ⟨rfl, rfl⟩)
      | true =>
        exact ((Heap.Only.refl _ _).upd (Or.inr ⟨rfl, rfl⟩)).upd
          (Or.inl (Or.inl ⟨rfl, by omega, by omega⟩))

theorem src_queue_get {h : Heap} {b o sb so m eb eo r v m'} (n : Nat)
    (q : QRep A h b o sb so m) (hew : eb.isLit = false) (hes : (h.at eb eo).isSome = true)
    (he : ¬ QCells b o sb so m.storage.length eb eo)
    (hm : Queue.get A.toPlat m = .ok (r, v, m')) (hv : code v ≠ .undef) :
    ∃ h', sem A X prog (n + 3) .mu_queue_get h [.ptr b o, .ptr eb eo] = .ok (.ofBool r, h') ∧
      QRep A h' b o sb so m' ∧ h'.at eb eo = some (code v) ∧
      Heap.Only (fun b' o' => QCells b o sb so m.storage.length b' o' ∨ (b' = eb ∧ o' = eo)) h h' := by
  obtain ⟨h', h1, h2⟩ := src_queue_access (X := X) (fetch := true) n q hew hes he hm hv
  refine ⟨h', ?_, h2⟩
  rw [sem_succ (d := Src.mu_queue_get) rfl, FunDef.run_regs rfl rfl]
  simp [csrc, Src.mu_queue_get, h1]

theorem src_queue_peek {h : Heap} {b o sb so m eb eo r v m'} (n : Nat)
    (q : QRep A h b o sb so m) (hew : eb.isLit = false) (hes : (h.at eb eo).isSome = true)
    (he : ¬ QCells b o sb so m.storage.length eb eo)
    (hm : Queue.peek A.toPlat m = .ok (r, v, m')) (hv : code v ≠ .undef) :
    ∃ h', sem A X prog (n + 3) .mu_queue_peek h [.ptr b o, .ptr eb eo] = .ok (.ofBool r, h') ∧
      QRep A h' b o sb so m' ∧ h'.at eb eo = some (code v) ∧
      Heap.Only (fun b' o' => QCells b o sb so m.storage.length b' o' ∨ (b' = eb ∧ o' = eo)) h h' := by
  obtain ⟨h', h1, h2⟩ := src_queue_access (X := X) (fetch := false) n q hew hes he hm hv
  refine ⟨h', ?_, h2⟩
  rw [sem_succ (d := Src.mu_queue_peek) rfl, FunDef.run_regs rfl rfl]
  simp [csrc, Src.mu_queue_peek, h1]

end Mu.CS
