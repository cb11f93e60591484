import Verif.Lemmas.SrcMem
import Verif.Model.BisyncMem

/-! # The parsed source of mu_bisync.c does what the model of `Verif/Model/BisyncMem.lean` does -/

namespace Mu.CS

open Bisync

variable {A : Arch} {X : Ext}

/-- Object `b` holds the `buffer_t` `w` (wbuf, capacity, index). -/
structure WRep (A : Arch) (β : Place) (h : Heap) (b : Base) (w : WriterM) : Prop where
  wr : b.isLit = false
  buf : h.at b 0 = some (pv β w.wbuf)
  cap : h.at b 1 = some (.int w.capacity)
  idx : h.at b 2 = some (.int w.index)
  capI : A.InInt w.capacity
  idxI : A.InInt w.index

/-- The cells of byte object `k`. -/
def blockCells (β : Place) (m : Mem) (k : Nat) : Base → Int → Prop :=
  span (β k).1 (β k).2 (m k).length

theorem blockCells_congr {β : Place} {m m' : Mem} {k : Nat}
    (hl : ∀ k, (m' k).length = (m k).length) : blockCells β m' k = blockCells β m k := by
  unfold blockCells; rw [hl]

/-- What stays the same in all of this. -/
structure Inv (A : Arch) (β : Place) (h : Heap) (b : Base) (m : Mem) (w : WriterM) : Prop where
  mem : MRep β h m
  wrt : WRep A β h b w
  out : ∀ o, Outside β m b o
  lit : (β w.wbuf.blk).1.isLit = false

theorem Inv.other {β : Place} {h : Heap} {b : Base} {m : Mem} {w : WriterM} (i : Inv A β h b m w)
    {p : Ptr} {j : Int} {c : UInt8} (e : m.ld p j = .ok c) : (β p.blk).1 ≠ b := by
  obtain ⟨h0, e⟩ := Mem.ld_ok e
  intro hb
  exact i.out _ p.blk _ (List.getElem?_eq_some_iff.mp e).1 ⟨hb, rfl⟩

theorem src_buffer_put (n : Nat) {β : Place} {h : Heap} {b : Base} {m m' : Mem} {w w' : WriterM}
    {byte : UInt8} {ok : Bool} (i : Inv A β h b m w)
    (e : bufferPutM A.toPlat m w byte = .ok (ok, m', w')) :
    ∃ h', sem A X prog (n + 1) .buffer_put__bisync h [.ptr b 0, .int byte.toNat] =
        .ok (.ofBool ok, h') ∧ Inv A β h' b m' w' ∧ (∀ k, (m' k).length = (m k).length) ∧
      w'.wbuf = w.wbuf ∧
      Heap.Only (fun b' o' => b' = b ∨ blockCells β m w.wbuf.blk b' o') h h' := by
  have hw := i.wrt
  have c1 := conv_int hw.capI
  have c2 := conv_int hw.idxI
  have hb := hw.buf
  unfold pv at hb
  unfold bufferPutM at e
  split at e
  · rename_i hge
    cases e
    refine ⟨h, ?_, i, fun _ => rfl, rfl, Heap.Only.refl _ _⟩
    rw [sem_succ (d := Src.buffer_put__bisync) rfl, FunDef.run_regs rfl rfl]
    have hge' : w.capacity ≤ w.index := hge
    simp [csrc, Src.buffer_put__bisync, hw.cap, hw.idx, c1, c2, hge', CVal.ofBool]
  · rename_i hlt
    obtain ⟨m1, e1, e⟩ := C.bind_eq_ok e
    obtain ⟨j, e2, e⟩ := C.bind_eq_ok e
    cases e
    have hlt' : ¬ w.capacity ≤ w.index := hlt
    obtain ⟨rfl, hj⟩ := int_eq_ok e2
    have r1 := i.mem.upd_outside (v := .int (w.index + 1)) (i.out 2)
    obtain ⟨r2, hin, hlen⟩ := r1.st i.lit e1
    obtain ⟨h0, h1, -⟩ := Mem.st_ok e1
    have hp := r1.padd (p := w.wbuf) (i := w.index) h0 (by omega)
    have hne : ∀ o, ¬((β w.wbuf.blk).1 = b ∧ (β w.wbuf.blk).2 + w.wbuf.off + w.index = o) := by
      intro o x
      exact i.out o w.wbuf.blk _ h1 ⟨x.1, by have := x.2; omega⟩
    have hs2 : (h.at b 2).isSome = true := by rw [hw.idx]; rfl
    have hs : (h.at (β w.wbuf.blk).1 ((β w.wbuf.blk).2 + w.wbuf.off + w.index)).isSome = true := by
      rw [Heap.isSome_upd] at hin; exact hin
    refine ⟨_, ?_, ⟨r2, ⟨hw.wr, ?_, ?_, ?_, hw.capI, hj⟩, ?_, i.lit⟩, hlen, rfl, ?_⟩
    · rw [sem_succ (d := Src.buffer_put__bisync) rfl, FunDef.run_regs rfl rfl]
      simp [csrc, Src.buffer_put__bisync, hw.cap, hw.idx, c1, c2, hlt', CVal.ofBool, hb, e2, hw.wr,
        hs2, conv_int hj, hp, i.lit, hs]
    · rw [Heap.at_upd_sep (hne 0), Heap.at_upd_ne (Or.inr (by decide))]; exact hw.buf
    · rw [Heap.at_upd_sep (hne 1), Heap.at_upd_ne (Or.inr (by decide))]; exact hw.cap
    · rw [Heap.at_upd_sep (hne 2), Heap.at_upd_same hw.wr hs2]
    · exact fun o => (i.out o).congr hlen
    · refine Heap.Only.upd (Heap.Only.upd (Heap.Only.refl _ _) (Or.inl rfl)) (Or.inr ⟨rfl, ?_, ?_⟩)
      · omega
      · omega


/-- The locals of `mu_bisync_encode` in its loop. -/
abbrev encLoc (β : Place) (b : Base) (src : Ptr) (len : Nat) (i : Int) (v0 v1 v6 : CVal) :
    List CVal :=
  [v0, v1, pv β src, .int len, .ptr b 0, .int i, v6]

theorem src_encode_loop (K N : Nat) {β : Place} {b : Base} {src : Ptr} {len : Nat}
    (hlen : len < A.szMod) (v0 v1 : CVal) :
    ∀ (fuel : Nat) (i : Int) (h : Heap) (m m' : Mem) (w w' : WriterM) (ok : Bool) (v6 : CVal)
      (n : Nat), fuel ≤ n → A.InInt i → Inv A β h b m w →
    encodeLoopM A.toPlat src len fuel i m w = .ok (ok, m', w') →
    ∃ h' i' v6', Stmt.rounds A ⟨sem A X prog (K + 1), X.cb (sem A X prog (K + 1))⟩ N
        Src.mu_bisync_encode_loop1 n ⟨encLoc β b src len i v0 v1 v6, h⟩ =
          .ok (if ok then .next else .ret (.int (-1)), ⟨encLoc β b src len i' v0 v1 v6', h'⟩) ∧
      Inv A β h' b m' w' ∧ (∀ k, (m' k).length = (m k).length) ∧ w'.wbuf = w.wbuf ∧
      Heap.Only (fun b' o' => b' = b ∨ blockCells β m w.wbuf.blk b' o') h h' := by
  intro fuel
  induction fuel with
  | zero => intro i h m m' w w' ok v6 n _ _ _ e; cases e
  | succ fuel ih =>
    intro i h m m' w w' ok v6 n hn hi hinv e
    obtain ⟨n, rfl⟩ : ∃ n', n = n' + 1 := ⟨n - 1, by omega⟩
    generalize hK : (⟨sem A X prog (K + 1), X.cb (sem A X prog (K + 1))⟩ : Calls) = KK at *
    have hcond : ∀ v6, evalCond A KK Src.mu_bisync_encode_loop1.cond
        ⟨encLoc β b src len i v0 v1 v6, h⟩ =
        .ok (decide (A.toSz i < len), ⟨encLoc β b src len i v0 v1 v6, h⟩) := by
      intro v6
      simp [csrc, Src.mu_bisync_encode_loop1, Stmt.cond, conv_size_int i, conv_size_lt hlen]
    unfold encodeLoopM at e
    split at e
    · rename_i hin
      obtain ⟨c, hc, e⟩ := C.bind_eq_ok e
      have hpt := hinv.mem.padd_ld hc
      have hat := hinv.mem.at hc
      -- the second call of `buffer_put`, and the rest of the loop
      have tail : ∀ (h1 : Heap) (m1 : Mem) (w1 : WriterM), Inv A β h1 b m1 w1 →
          (do
            let __discr ← bufferPutM A.toPlat m1 w1 c
            match __discr with
            | (ok, m, w) =>
              if ok = false then (.ok (false, m, w) : C (Bool × Mem × WriterM))
              else do
                let i ← A.int (i + 1)
                encodeLoopM A.toPlat src len fuel i m w) = .ok (ok, m', w') →
          ∃ h2 ok2 m2 w2, KK.fn .buffer_put__bisync h1 [.ptr b 0, .int c.toNat] = .ok (.ofBool ok2, h2) ∧
            Heap.Only (fun b' o' => b' = b ∨ blockCells β m1 w1.wbuf.blk b' o') h1 h2 ∧
            (∀ k, (m2 k).length = (m1 k).length) ∧ w2.wbuf = w1.wbuf ∧
            (ok2 = false → Inv A β h2 b m' w' ∧ ok = false ∧ m' = m2 ∧ w' = w2) ∧
            (ok2 = true → ∃ h' i' v6', A.int (i + 1) = .ok (i + 1) ∧
               Stmt.rounds A KK N Src.mu_bisync_encode_loop1 n
                 ⟨encLoc β b src len (i + 1) v0 v1 (.int c.toNat), h2⟩ =
          .ok (if ok then .next else .ret (.int (-1)), ⟨encLoc β b src len i' v0 v1 v6', h'⟩) ∧
      Inv A β h' b m' w' ∧ (∀ k, (m' k).length = (m2 k).length) ∧ w'.wbuf = w2.wbuf ∧
      Heap.Only (fun b' o' => b' = b ∨ blockCells β m2 w2.wbuf.blk b' o') h2 h') := by
        intro h1 m1 w1 i1 e
        obtain ⟨⟨ok2, m2, w2⟩, e2, e⟩ := C.bind_eq_ok e
        obtain ⟨h2, s2, i2, l2, b2, o2⟩ := src_buffer_put (A := A) (X := X) K i1 e2
        refine ⟨h2, ok2, m2, w2, by rw [← hK]; exact s2, o2, l2, b2, ?_, ?_⟩
        · rintro rfl
          simp only [if_true] at e
          cases e
          exact ⟨i2, rfl, rfl, rfl⟩
        · rintro rfl
          simp only [Bool.true_eq_false, if_false] at e
          obtain ⟨j, ej, e⟩ := C.bind_eq_ok e
          have hj := inInt_of_int ej
          obtain ⟨rfl, -⟩ := int_eq_ok ej
          obtain ⟨h', i', v6', r⟩ := ih (i + 1) h2 m2 m' w2 w' ok (.int c.toNat) n (by omega) hj i2 e
          exact ⟨h', i', v6', ej, r⟩
      have hstep : ∀ h2 : Heap, A.int (i + 1) = .ok (i + 1) →
          evalStep A KK Src.mu_bisync_encode_loop1.step
            ⟨encLoc β b src len i v0 v1 (.int c.toNat), h2⟩ =
            .ok ⟨encLoc β b src len (i + 1) v0 v1 (.int c.toNat), h2⟩ := by
        intro h2 ej
        simp [csrc, Src.mu_bisync_encode_loop1, Stmt.step, conv_int hi, ej,
          conv_int (inInt_of_int ej)]
      have hcond' := hcond v6
      rw [decide_eq_true hin] at hcond'
      by_cases hctl : c = EOT ∨ c = SOH ∨ c = DLE
      · rw [if_pos hctl] at e
        obtain ⟨⟨ok1, m1, w1⟩, e1, e⟩ := C.bind_eq_ok e
        obtain ⟨h1, s1, i1, l1, b1, o1⟩ := src_buffer_put (A := A) (X := X) K hinv e1
        have s1' : KK.fn .buffer_put__bisync h [.ptr b 0, .int 16] = .ok (.ofBool ok1, h1) := by
          rw [← hK]; exact s1
        have hc1 : (c = 4 ∨ c = 1) ∨ c = 16 :=
          hctl.elim (fun h => Or.inl (Or.inl h)) (fun h => h.elim (fun h => Or.inl (Or.inr h)) Or.inr)
        have key : ((c = 4) = True) ∨ ((c = 4) = False ∧ (c = 1) = True) ∨
            ((c = 4) = False ∧ (c = 1) = False ∧ (c = 16) = True) := by
          by_cases k4 : c = 4
          · exact Or.inl (eq_true k4)
          · by_cases k1 : c = 1
            · exact Or.inr (Or.inl ⟨eq_false k4, eq_true k1⟩)
            · refine Or.inr (Or.inr ⟨eq_false k4, eq_false k1, eq_true ?_⟩)
              simpa [k4, k1] using hc1
        cases ok1 with
        | false =>
          simp only [if_true] at e
          cases e
          have hbody : exec A KK N Src.mu_bisync_encode_loop1.body
              ⟨encLoc β b src len i v0 v1 v6, h⟩ =
              .ok (.ret (.int (-1)), ⟨encLoc β b src len i v0 v1 (.int c.toNat), h1⟩) := by
            rcases key with k4 | ⟨k4, k1⟩ | ⟨k4, k1, k16⟩
            · simp [csrc, Src.mu_bisync_encode_loop1, Stmt.body, pv, hpt, hat, s1', k4]
            · simp [csrc, Src.mu_bisync_encode_loop1, Stmt.body, pv, hpt, hat, s1', k4, k1]
            · simp [csrc, Src.mu_bisync_encode_loop1, Stmt.body, pv, hpt, hat, s1', k4, k1, k16]
          refine ⟨h1, i, _, Stmt.rounds_ret hcond' hbody, i1, l1, b1, o1⟩
        | true =>
          simp only [Bool.true_eq_false, if_false] at e
          obtain ⟨h2, ok2, m2, w2, s2, o2, l2, b2, hf, ht⟩ := tail h1 m1 w1 i1 e
          have o12 : Heap.Only (fun b' o' => b' = b ∨ blockCells β m w.wbuf.blk b' o') h h2 := by
            rw [b1, blockCells_congr l1] at o2
            exact o1.trans o2
          have hbody : exec A KK N Src.mu_bisync_encode_loop1.body
              ⟨encLoc β b src len i v0 v1 v6, h⟩ =
              .ok (if ok2 then .next else .ret (.int (-1)),
                ⟨encLoc β b src len i v0 v1 (.int c.toNat), h2⟩) := by
            rcases key with k4 | ⟨k4, k1⟩ | ⟨k4, k1, k16⟩
            · cases ok2 <;>
              simp [csrc, Src.mu_bisync_encode_loop1, Stmt.body, pv, hpt, hat, s1', s2, k4]
            · cases ok2 <;>
              simp [csrc, Src.mu_bisync_encode_loop1, Stmt.body, pv, hpt, hat, s1', s2, k4, k1]
            · cases ok2 <;>
              simp [csrc, Src.mu_bisync_encode_loop1, Stmt.body, pv, hpt, hat, s1', s2, k4, k1, k16]
          cases ok2 with
          | false =>
            obtain ⟨i2, rfl, rfl, rfl⟩ := hf rfl
            exact ⟨h2, i, _, Stmt.rounds_ret hcond' hbody, i2, fun k => (l2 k).trans (l1 k),
              b2.trans b1, o12⟩
          | true =>
            obtain ⟨h', i', v6', ej, r1, r2, r3, r4, r5⟩ := ht rfl
            refine ⟨h', i', v6', ?_, r2, fun k => (r3 k).trans ((l2 k).trans (l1 k)),
              r4.trans (b2.trans b1), ?_⟩
            · rw [Stmt.rounds_next hcond' hbody (hstep _ ej)]; exact r1
            · rw [b2, b1, blockCells_congr (fun k => (l2 k).trans (l1 k))] at r5
              exact o12.trans r5
      · rw [if_neg hctl] at e
        rw [C.ok_bind] at e
        dsimp only at e
        rw [if_neg (by simp)] at e
        obtain ⟨h2, ok2, m2, w2, s2, o2, l2, b2, hf, ht⟩ := tail h m w hinv e
        have hc1 : ¬ ((c = 4 ∨ c = 1) ∨ c = 16) := fun h => h.elim
          (fun h => h.elim (fun h => hctl (Or.inl h)) (fun h => hctl (Or.inr (Or.inl h))))
          (fun h => hctl (Or.inr (Or.inr h)))
        have hbody : exec A KK N Src.mu_bisync_encode_loop1.body
            ⟨encLoc β b src len i v0 v1 v6, h⟩ =
            .ok (if ok2 then .next else .ret (.int (-1)),
              ⟨encLoc β b src len i v0 v1 (.int c.toNat), h2⟩) := by
          simp only [not_or] at hc1
          cases ok2 <;>
          simp [csrc, Src.mu_bisync_encode_loop1, Stmt.body, pv, hpt, hat, hc1.1.1, hc1.1.2, hc1.2, s2]
        cases ok2 with
        | false =>
          obtain ⟨i2, rfl, rfl, rfl⟩ := hf rfl
          exact ⟨h2, i, _, Stmt.rounds_ret hcond' hbody, i2, l2, b2, o2⟩
        | true =>
          obtain ⟨h', i', v6', ej, r1, r2, r3, r4, r5⟩ := ht rfl
          refine ⟨h', i', v6', ?_, r2, fun k => (r3 k).trans (l2 k), r4.trans b2, ?_⟩
          · rw [Stmt.rounds_next hcond' hbody (hstep _ ej)]; exact r1
          · rw [b2, blockCells_congr l2] at r5
            exact o2.trans r5
    · rename_i hout
      cases e
      exact ⟨h, i, v6, Stmt.rounds_exit (by rw [hcond, decide_eq_false hout]), hinv, fun _ => rfl, rfl,
        Heap.Only.refl _ _⟩

/-- The new `buffer_t`. -/
theorem inv_start {β : Place} {h : Heap} {m : Mem} {dst : Ptr} {cap : Nat} (r : MRep β h m)
    (hf : h.Fresh) (hw : (β dst.blk).1.isLit = false) :
    Inv A β ((((h.alloc 3).upd (.obj h.next) 0 (pv β dst)).upd (.obj h.next) 1
      (.int (A.toInt cap))).upd (.obj h.next) 2 (.int 0)) (.obj h.next) m ⟨dst, A.toInt cap, 0⟩ := by
  have out := r.outside_next hf
  have hs : ∀ o : Int, 0 ≤ o → o < 3 → ((h.alloc 3).at (.obj h.next) o).isSome = true :=
    fun o h0 h1 => Heap.at_alloc_new.mpr ⟨h0, h1⟩
  have hmax := A.intMax_ge
  have hmin := A.intMin_eq
  refine ⟨(((r.alloc hf 3).upd_outside (out 0)).upd_outside (out 1)).upd_outside (out 2),
    ⟨rfl, ?_, ?_, ?_, inInt_toInt cap, ⟨?_, ?_⟩⟩, out, hw⟩
  · rw [Heap.at_upd_ne (Or.inr (by decide)), Heap.at_upd_ne (Or.inr (by decide)),
      Heap.at_upd_same rfl (hs 0 (by decide) (by decide))]
  · rw [Heap.at_upd_ne (Or.inr (by decide)), Heap.at_upd_same rfl (by
      rw [Heap.isSome_upd]; exact hs 1 (by decide) (by decide))]
  · rw [Heap.at_upd_same rfl (by
      rw [Heap.isSome_upd, Heap.isSome_upd]; exact hs 2 (by decide) (by decide))]
  · show A.intMin ≤ 0; omega
  · show (0 : Int) ≤ A.intMax; omega

theorem only_start {h : Heap} {S : Base → Int → Prop} (v0 v1 v2 : CVal) :
    Heap.Only (fun b' o' => S b' o' ∨ b' = .obj h.next) (h.alloc 3)
      ((((h.alloc 3).upd (.obj h.next) 0 v0).upd (.obj h.next) 1 v1).upd (.obj h.next) 2 v2) :=
  Heap.Only.upd (Heap.Only.upd (Heap.Only.upd (Heap.Only.refl _ _) (Or.inr rfl)) (Or.inr rfl))
    (Or.inr rfl)

theorem only_swap {b : Base} {S : Base → Int → Prop} {h h' : Heap}
    (e : Heap.Only (fun b' o' => b' = b ∨ S b' o') h h') :
    Heap.Only (fun b' o' => S b' o' ∨ b' = b) h h' := e.mono (fun _ _ x => x.symm)

/-- `mu_bisync_encode`, mu_bisync.c:70-94. -/
theorem src_encode (n : Nat) {β : Place} {h : Heap} {m m' : Mem} {dst src : Ptr} {cap len : Nat}
    {v : Int} (r : MRep β h m) (hf : h.Fresh) (hw : (β dst.blk).1.isLit = false)
    (hlen : len < A.szMod) (hn : len + 1 ≤ n)
    (e : encodeM A.toPlat m dst cap src len = .ok (v, m')) :
    ∃ h', sem A X prog (n + 1) .mu_bisync_encode h [pv β dst, .int cap, pv β src, .int len] =
        .ok (.int v, h') ∧ MRep β h' m' ∧ (∀ k, (m' k).length = (m k).length) ∧
      Heap.Only (blockCells β m dst.blk) h h' := by
  obtain ⟨K, rfl⟩ : ∃ K, n = K + 1 := ⟨n - 1, by omega⟩
  have i0 := inv_start (A := A) (cap := cap) r hf hw
  have o0 := only_start (h := h) (S := blockCells β m dst.blk) (pv β dst) (.int (A.toInt cap)) (.int 0)
  have hs : ∀ o : Int, 0 ≤ o → o < 3 → ((h.alloc 3).at (.obj h.next) o).isSome = true :=
    fun o h0 h1 => Heap.at_alloc_new.mpr ⟨h0, h1⟩
  have hs0 := hs 0 (by decide) (by decide)
  have hs1 := hs 1 (by decide) (by decide)
  have hs2 := hs 2 (by decide) (by decide)
  generalize hh0 : (((h.alloc 3).upd (.obj h.next) 0 (pv β dst)).upd (.obj h.next) 1
      (.int (A.toInt cap))).upd (.obj h.next) 2 (.int 0) = h0 at *
  -- what is left once the body has been executed
  have fin : ∀ (h' : Heap) (w' : WriterM) (v : Int), Inv A β h' (.obj h.next) m' w' →
      (∀ k, (m' k).length = (m k).length) →
      Heap.Only (fun b' o' => blockCells β m dst.blk b' o' ∨ b' = .obj h.next) (h.alloc 3) h' →
      (sem A X prog (K + 1 + 1) .mu_bisync_encode h [pv β dst, .int cap, pv β src, .int len] =
        .ok (.int v, h'.release h.next)) →
      ∃ h', sem A X prog (K + 1 + 1) .mu_bisync_encode h [pv β dst, .int cap, pv β src, .int len] =
        .ok (.int v, h') ∧ MRep β h' m' ∧ (∀ k, (m' k).length = (m k).length) ∧
      Heap.Only (blockCells β m dst.blk) h h' := by
    intro h' w' v i' l' o' s'
    refine ⟨_, s', r.release hf l' ?_ i'.mem, l', Heap.Only.release hf o'⟩
    intro b hb
    rw [o'.size, Heap.cells_alloc_ne hb]
  unfold encodeM at e
  obtain ⟨⟨ok1, m1, w1⟩, e1, e⟩ := C.bind_eq_ok e
  obtain ⟨h1, s1, i1, l1, b1, o1⟩ := src_buffer_put (A := A) (X := X) K i0 e1
  have s1' : sem A X prog (K + 1) .buffer_put__bisync h0 [.ptr (.obj h.next) 0, .int 1] =
      .ok (.ofBool ok1, h1) := s1
  have o01 := o0.trans (only_swap o1)
  cases ok1 with
  | false =>
    simp only [if_true] at e
    cases e
    refine fin h1 w1 _ i1 l1 o01 ?_
    rw [sem_succ (d := Src.mu_bisync_encode) rfl, FunDef.run_mem1 rfl rfl]
    simp [csrc, Src.mu_bisync_encode, conv_int_nat cap, hs0, hs1, hs2, hh0, s1', errOflow]
  | true =>
    simp only [Bool.true_eq_false, if_false] at e
    obtain ⟨⟨ok2, m2, w2⟩, e2, e⟩ := C.bind_eq_ok e
    obtain ⟨h2, i', v6', s2, i2, l2, b2, o2⟩ := src_encode_loop (A := A) (X := X) K (K + 1) hlen
      (pv β dst) (.int cap) (len + 1) 0 h1 m1 m2 w1 w2 ok2 .undef (K + 1) hn
      (by have := A.intMax_ge; have := A.intMin_eq; exact ⟨by omega, by omega⟩) i1 e2
    rw [b1, blockCells_congr l1] at o2
    have o02 := o01.trans (only_swap o2)
    have l02 : ∀ k, (m2 k).length = (m k).length := fun k => (l2 k).trans (l1 k)
    have s2' : ∀ f s, _ = Except.ok (f, s) → exec A ⟨sem A X prog (K + 1), X.cb (sem A X prog (K + 1))⟩ (K + 1)
        Src.mu_bisync_encode_loop1
        ⟨[pv β dst, .int cap, pv β src, .int len, .ptr (.obj h.next) 0, .int 0, .undef], h1⟩ =
        .ok (f, s) := fun f s e => e
    replace s2' := s2' _ _ s2
    cases ok2 with
    | false =>
      simp only [if_true] at e
      cases e
      refine fin h2 w2 _ i2 l02 o02 ?_
      rw [sem_succ (d := Src.mu_bisync_encode) rfl, FunDef.run_mem1 rfl rfl]
      simp [csrc, Src.mu_bisync_encode, conv_int_nat cap, hs0, hs1, hs2, hh0, s1', s2', errOflow]
    | true =>
      simp only [Bool.true_eq_false, if_false] at e
      obtain ⟨⟨ok3, m3, w3⟩, e3, e⟩ := C.bind_eq_ok e
      obtain ⟨h3, s3, i3, l3, b3, o3⟩ := src_buffer_put (A := A) (X := X) K i2 e3
      have s3' : sem A X prog (K + 1) .buffer_put__bisync h2 [.ptr (.obj h.next) 0, .int 4] =
          .ok (.ofBool ok3, h3) := s3
      rw [b2, b1, blockCells_congr l02] at o3
      have o03 := o02.trans (only_swap o3)
      have l03 : ∀ k, (m3 k).length = (m k).length := fun k => (l3 k).trans (l02 k)
      cases ok3 with
      | false =>
        simp only [if_true] at e
        cases e
        refine fin h3 w3 _ i3 l03 o03 ?_
        rw [sem_succ (d := Src.mu_bisync_encode) rfl, FunDef.run_mem1 rfl rfl]
        simp [csrc, Src.mu_bisync_encode, conv_int_nat cap, hs0, hs1, hs2, hh0, s1', s2', s3', errOflow]
      | true =>
        simp only [Bool.true_eq_false, if_false] at e
        cases e
        refine fin h3 w3 _ i3 l03 o03 ?_
        rw [sem_succ (d := Src.mu_bisync_encode) rfl, FunDef.run_mem1 rfl rfl]
        simp [csrc, Src.mu_bisync_encode, conv_int_nat cap, hs0, hs1, hs2, hh0, s1', s2', s3', i3.wrt.idx]

/-- The local `b` of `mu_bisync_decode`. -/
def optByte : Option UInt8 → CVal
  | none => .undef
  | some c => .int c.toNat

/-- The locals of `mu_bisync_decode` in its loop. -/
abbrev decLoc (β : Place) (b : Base) (src : Ptr) (len : Nat) (i : Int) (esc : Bool)
    (ob : Option UInt8) (v0 v1 : CVal) : List CVal :=
  [v0, v1, pv β src, .int len, .ptr b 0, optByte ob, .ofBool esc, .int i]

theorem src_decode_loop (K N : Nat) {β : Place} {b : Base} {src : Ptr} {len : Nat}
    (hlen : len < A.szMod) (v0 v1 : CVal) :
    ∀ (fuel : Nat) (i : Int) (h : Heap) (m m' : Mem) (w w' : WriterM) (ok : Bool)
      (ob ob' : Option UInt8) (esc : Bool)
      (n : Nat), fuel ≤ n → A.InInt i → Inv A β h b m w →
    decodeLoopM A.toPlat src len fuel i ob esc m w = .ok (ok, ob', m', w') →
    ∃ h' i' esc', Stmt.rounds A ⟨sem A X prog (K + 1), X.cb (sem A X prog (K + 1))⟩ N
        Src.mu_bisync_decode_loop1 n ⟨decLoc β b src len i esc ob v0 v1, h⟩ =
          .ok (if ok then .next else .ret (.int (-1)), ⟨decLoc β b src len i' esc' ob' v0 v1, h'⟩) ∧
      Inv A β h' b m' w' ∧ (∀ k, (m' k).length = (m k).length) ∧ w'.wbuf = w.wbuf ∧
      Heap.Only (fun b' o' => b' = b ∨ blockCells β m w.wbuf.blk b' o') h h' := by
  intro fuel
  induction fuel with
  | zero => intro i h m m' w w' ok ob ob' esc n _ _ _ e; cases e
  | succ fuel ih =>
    intro i h m m' w w' ok ob ob' esc n hn hi hinv e
    obtain ⟨n, rfl⟩ : ∃ n', n = n' + 1 := ⟨n - 1, by omega⟩
    generalize hK : (⟨sem A X prog (K + 1), X.cb (sem A X prog (K + 1))⟩ : Calls) = KK at *
    have hcond : evalCond A KK Src.mu_bisync_decode_loop1.cond
        ⟨decLoc β b src len i esc ob v0 v1, h⟩ =
        .ok (decide (A.toSz i < len), ⟨decLoc β b src len i esc ob v0 v1, h⟩) := by
      simp [csrc, Src.mu_bisync_decode_loop1, Stmt.cond, conv_size_int i, conv_size_lt hlen]
    have hstep : ∀ (h2 : Heap) (c : UInt8) (esc : Bool), A.int (i + 1) = .ok (i + 1) →
        evalStep A KK Src.mu_bisync_decode_loop1.step
          ⟨decLoc β b src len i esc (some c) v0 v1, h2⟩ =
          .ok ⟨decLoc β b src len (i + 1) esc (some c) v0 v1, h2⟩ := by
      intro h2 c esc ej
      simp [csrc, Src.mu_bisync_decode_loop1, Stmt.step, conv_int hi, ej,
        conv_int (inInt_of_int ej)]
    unfold decodeLoopM at e
    split at e
    · rename_i hin
      obtain ⟨c, hc, e⟩ := C.bind_eq_ok e
      have hpt : h.padd 1 (pv β src) i = _ := hinv.mem.padd_ld hc
      have hat := hinv.mem.at hc
      rw [decide_eq_true hin] at hcond
      -- a call of `buffer_put` and the rest of the loop
      have tail : (do
            let __discr ← bufferPutM A.toPlat m w c
            match __discr with
            | (ok, m, w) =>
              if ok = false then (.ok (false, some c, m, w) : C (Bool × Option UInt8 × Mem × WriterM))
              else do
                let i ← A.int (i + 1)
                decodeLoopM A.toPlat src len fuel i (some c) false m w) = .ok (ok, ob', m', w') →
          (∀ ok2 h2, KK.fn .buffer_put__bisync h [.ptr b 0, .int c.toNat] = .ok (.ofBool ok2, h2) →
            ∃ esc', exec A KK N Src.mu_bisync_decode_loop1.body
              ⟨decLoc β b src len i esc ob v0 v1, h⟩ =
              .ok (if ok2 then .next else .ret (.int (-1)),
                ⟨decLoc β b src len i (if ok2 then false else esc') (some c) v0 v1, h2⟩)) →
          ∃ h' i' esc', Stmt.rounds A KK N
        Src.mu_bisync_decode_loop1 (n + 1) ⟨decLoc β b src len i esc ob v0 v1, h⟩ =
          .ok (if ok then .next else .ret (.int (-1)), ⟨decLoc β b src len i' esc' ob' v0 v1, h'⟩) ∧
      Inv A β h' b m' w' ∧ (∀ k, (m' k).length = (m k).length) ∧ w'.wbuf = w.wbuf ∧
      Heap.Only (fun b' o' => b' = b ∨ blockCells β m w.wbuf.blk b' o') h h' := by
        intro e hb
        obtain ⟨⟨ok2, m2, w2⟩, e2, e⟩ := C.bind_eq_ok e
        obtain ⟨h2, s2, i2, l2, b2, o2⟩ := src_buffer_put (A := A) (X := X) K hinv e2
        obtain ⟨esc', hb⟩ := hb ok2 h2 (by rw [← hK]; exact s2)
        cases ok2 with
        | false =>
          simp only [if_true] at e
          cases e
          exact ⟨h2, i, _, Stmt.rounds_ret hcond hb, i2, l2, b2, o2⟩
        | true =>
          simp only [Bool.true_eq_false, if_false] at e
          obtain ⟨j, ej, e⟩ := C.bind_eq_ok e
          have hj := inInt_of_int ej
          obtain ⟨rfl, -⟩ := int_eq_ok ej
          obtain ⟨h', i', esc', r1, r2, r3, r4, r5⟩ :=
            ih (i + 1) h2 m2 m' w2 w' ok (some c) ob' false n (by omega) hj i2 e
          refine ⟨h', i', esc', ?_, r2, fun k => (r3 k).trans (l2 k), r4.trans b2, ?_⟩
          · rw [Stmt.rounds_next hcond hb (hstep _ _ _ ej)]; exact r1
          · rw [b2, blockCells_congr l2] at r5
            exact o2.trans r5
      cases esc with
      | true =>
        simp only [if_true] at e
        refine tail e (fun ok2 h2 s2 => ⟨true, ?_⟩)
        cases ok2 <;>
        simp [csrc, Src.mu_bisync_decode_loop1, Stmt.body, hpt, hat, s2, optByte]
      | false =>
        simp only [Bool.false_eq_true, if_false] at e
        split at e
        · rename_i hdle
          obtain ⟨j, ej, e⟩ := C.bind_eq_ok e
          have hj := inInt_of_int ej
          obtain ⟨rfl, -⟩ := int_eq_ok ej
          have k16 : (c = 16) = True := eq_true hdle
          have hb : exec A KK N Src.mu_bisync_decode_loop1.body
              ⟨decLoc β b src len i false ob v0 v1, h⟩ =
              .ok (.next, ⟨decLoc β b src len i true (some c) v0 v1, h⟩) := by
            simp [csrc, Src.mu_bisync_decode_loop1, Stmt.body, hpt, hat, optByte, k16]
          obtain ⟨h', i', esc', r⟩ := ih (i + 1) h m m' w w' ok (some c) ob' true n (by omega) hj hinv e
          refine ⟨h', i', esc', ?_⟩
          rw [Stmt.rounds_next hcond hb (hstep _ _ _ ej)]; exact r
        · rename_i hdle
          have k16 : (c = 16) = False := eq_false hdle
          split at e
          · rename_i heot
            cases e
            have k4 : (c = 4) = True := eq_true heot
            have hb : exec A KK N Src.mu_bisync_decode_loop1.body
                ⟨decLoc β b src len i false ob v0 v1, h⟩ =
                .ok (.brk, ⟨decLoc β b src len i false (some c) v0 v1, h⟩) := by
              simp [csrc, Src.mu_bisync_decode_loop1, Stmt.body, hpt, hat, optByte, k16, k4]
            exact ⟨h, i, false, Stmt.rounds_brk hcond hb, hinv, fun _ => rfl, rfl, Heap.Only.refl _ _⟩
          · rename_i heot
            have k4 : (c = 4) = False := eq_false heot
            refine tail e (fun ok2 h2 s2 => ⟨false, ?_⟩)
            cases ok2 <;>
            simp [csrc, Src.mu_bisync_decode_loop1, Stmt.body, hpt, hat, s2, optByte, k16, k4]
    · rename_i hout
      cases e
      exact ⟨h, i, esc, Stmt.rounds_exit (by rw [hcond, decide_eq_false hout]), hinv, fun _ => rfl, rfl,
        Heap.Only.refl _ _⟩

/-- `mu_bisync_decode`, mu_bisync.c:96-129. -/
theorem src_decode (n : Nat) {β : Place} {h : Heap} {m m' : Mem} {dst src : Ptr} {cap len : Nat}
    {v : Int} (r : MRep β h m) (hf : h.Fresh) (hw : (β dst.blk).1.isLit = false)
    (hlen : len < A.szMod) (hn : len + 1 ≤ n)
    (e : decodeM A.toPlat m dst cap src len = .ok (v, m')) :
    ∃ h', sem A X prog (n + 1) .mu_bisync_decode h [pv β dst, .int cap, pv β src, .int len] =
        .ok (.int v, h') ∧ MRep β h' m' ∧ (∀ k, (m' k).length = (m k).length) ∧
      Heap.Only (blockCells β m dst.blk) h h' := by
  obtain ⟨K, rfl⟩ : ∃ K, n = K + 1 := ⟨n - 1, by omega⟩
  have i0 := inv_start (A := A) (cap := cap) r hf hw
  have o0 := only_start (h := h) (S := blockCells β m dst.blk) (pv β dst) (.int (A.toInt cap)) (.int 0)
  have hs : ∀ o : Int, 0 ≤ o → o < 3 → ((h.alloc 3).at (.obj h.next) o).isSome = true :=
    fun o h0 h1 => Heap.at_alloc_new.mpr ⟨h0, h1⟩
  have hs0 := hs 0 (by decide) (by decide)
  have hs1 := hs 1 (by decide) (by decide)
  have hs2 := hs 2 (by decide) (by decide)
  generalize hh0 : (((h.alloc 3).upd (.obj h.next) 0 (pv β dst)).upd (.obj h.next) 1
      (.int (A.toInt cap))).upd (.obj h.next) 2 (.int 0) = h0 at *
  have fin : ∀ (h' : Heap) (w' : WriterM) (v : Int), Inv A β h' (.obj h.next) m' w' →
      (∀ k, (m' k).length = (m k).length) →
      Heap.Only (fun b' o' => blockCells β m dst.blk b' o' ∨ b' = .obj h.next) (h.alloc 3) h' →
      (sem A X prog (K + 1 + 1) .mu_bisync_decode h [pv β dst, .int cap, pv β src, .int len] =
        .ok (.int v, h'.release h.next)) →
      ∃ h', sem A X prog (K + 1 + 1) .mu_bisync_decode h [pv β dst, .int cap, pv β src, .int len] =
        .ok (.int v, h') ∧ MRep β h' m' ∧ (∀ k, (m' k).length = (m k).length) ∧
      Heap.Only (blockCells β m dst.blk) h h' := by
    intro h' w' v i' l' o' s'
    refine ⟨_, s', r.release hf l' ?_ i'.mem, l', Heap.Only.release hf o'⟩
    intro b hb
    rw [o'.size, Heap.cells_alloc_ne hb]
  unfold decodeM at e
  by_cases hl : len < 1
  · obtain rfl : len = 0 := by omega
    simp only [Nat.zero_lt_one, if_true, C.ok_bind] at e
    cases e
    refine fin h0 _ _ i0 (fun _ => rfl) o0 ?_
    rw [sem_succ (d := Src.mu_bisync_decode) rfl, FunDef.run_mem1 rfl rfl]
    simp [csrc, Src.mu_bisync_decode, conv_int_nat cap, hs0, hs1, hs2, hh0, errFormat]
  · rw [if_neg hl] at e
    have hl' : ((len : Int) < 1) = False := eq_false (by omega)
    obtain ⟨c0, ec, e⟩ := C.bind_eq_ok e
    rw [C.ok_bind] at e
    dsimp only at e
    have hpt := i0.mem.padd_ld ec
    have hat := i0.mem.at ec
    rw [Int.add_zero] at hpt hat
    replace hpt : h0.padd 1 (pv β src) 0 = _ := hpt
    by_cases hc0 : c0 = SOH
    · have k1 : (c0 = 1) = True := eq_true hc0
      simp only [hc0, ne_eq, not_true, decide_false, Bool.false_eq_true, if_false] at e
      obtain ⟨⟨ok2, ob, m2, w2⟩, e2, e⟩ := C.bind_eq_ok e
      obtain ⟨h2, i', esc', s2, i2, l2, b2, o2⟩ := src_decode_loop (A := A) (X := X) K (K + 1) hlen
        (pv β dst) (.int cap) (len + 1) 0 h0 m m2 _ w2 ok2 none ob false (K + 1) hn
        (by have := A.intMax_ge; have := A.intMin_eq; exact ⟨by omega, by omega⟩) i0 e2
      have o02 := o0.trans (only_swap o2)
      have s2' : ∀ f s, _ = Except.ok (f, s) →
          exec A ⟨sem A X prog (K + 1), X.cb (sem A X prog (K + 1))⟩ (K + 1)
          Src.mu_bisync_decode_loop1
          ⟨[pv β dst, .int cap, pv β src, .int len, .ptr (.obj h.next) 0, .undef, .ofBool false,
            .int 0], h0⟩ =
          .ok (f, s) := fun f s e => e
      replace s2' := s2' _ _ s2
      cases ok2 with
      | false =>
        simp only [if_true] at e
        cases e
        refine fin h2 w2 _ i2 l2 o02 ?_
        rw [sem_succ (d := Src.mu_bisync_decode) rfl, FunDef.run_mem1 rfl rfl]
        simp [csrc, Src.mu_bisync_decode, conv_int_nat cap, conv_size_lt hlen, hl', hs0, hs1, hs2, hh0, hpt, hat, k1, s2', errOflow]
      | true =>
        simp only [Bool.true_eq_false, if_false] at e
        cases ob with
        | none => cases e
        | some c =>
          simp only at e
          split at e
          · rename_i hne
            cases e
            have k4 : (c = 4) = False := eq_false hne
            refine fin h2 w2 _ i2 l2 o02 ?_
            rw [sem_succ (d := Src.mu_bisync_decode) rfl, FunDef.run_mem1 rfl rfl]
            simp [csrc, Src.mu_bisync_decode, conv_int_nat cap, conv_size_lt hlen, hl', hs0, hs1, hs2, hh0, hpt, hat, k1, s2', k4, optByte, errFormat]
          · rename_i hne
            cases e
            have k4 : (c = 4) = True := eq_true (Decidable.not_not.mp hne)
            refine fin h2 w2 _ i2 l2 o02 ?_
            rw [sem_succ (d := Src.mu_bisync_decode) rfl, FunDef.run_mem1 rfl rfl]
            simp [csrc, Src.mu_bisync_decode, conv_int_nat cap, conv_size_lt hlen, hl', hs0, hs1, hs2, hh0, hpt, hat, k1, s2', k4, optByte, i2.wrt.idx]
    · have k1 : (c0 = 1) = False := eq_false hc0
      simp only [hc0, ne_eq, not_false_eq_true, decide_true, if_true] at e
      cases e
      refine fin h0 _ _ i0 (fun _ => rfl) o0 ?_
      rw [sem_succ (d := Src.mu_bisync_decode) rfl, FunDef.run_mem1 rfl rfl]
      simp [csrc, Src.mu_bisync_decode, conv_int_nat cap, conv_size_lt hlen, hl', hs0, hs1, hs2, hh0, hpt, hat, k1, errFormat]

end Mu.CS
