import Verif.Props.BBufExact

/-! # Property C108: `mu_bbuf_copy_into`, given what the two unset variables happen to hold -/

namespace Mu.BBuf

/-- `l` with the bytes from position `k` on replaced by `bs`. -/
def splice (l : List UInt8) (k : Nat) (bs : List UInt8) : List UInt8 :=
  l.take k ++ bs ++ l.drop (k + bs.length)

theorem splice_set (l : List UInt8) (k : Nat) (x : UInt8) (bs : List UInt8) (hk : k < l.length) :
    splice (l.set k x) (k + 1) bs = splice l k (x :: bs) := by
  unfold splice
  rw [List.take_succ_eq_append_getElem (by simpa using hk), List.take_set_of_le (by omega),
    List.getElem_set_self, List.drop_set_of_lt (by omega), List.length_cons]
  simp only [List.append_assoc, List.singleton_append, List.cons_append, List.nil_append]
  congr 4
  omega

theorem copyLoop_ok (dst src : BBuf) (di si : Nat) (hd0 : 0 ≤ dst.p.off) (hs0 : 0 ≤ src.p.off) :
    ∀ (n i : Nat) (m : Mem),
    dst.p.off.toNat + di + i + n ≤ (m dst.p.blk).length →
    src.p.off.toNat + si + i + n ≤ (m src.p.blk).length →
    (dst.p.blk ≠ src.p.blk ∨ dst.p.off.toNat + di ≤ src.p.off.toNat + si ∨
      src.p.off.toNat + si + i + n ≤ dst.p.off.toNat + di + i) →
    copyLoop m dst src di si n i = .ok (m.set dst.p.blk (splice (m dst.p.blk)
      (dst.p.off.toNat + di + i) (((m src.p.blk).drop (src.p.off.toNat + si + i)).take n))) := by
  intro n
  induction n with
  | zero =>
    intro i m _ _ _
    simp only [copyLoop, List.take_zero, splice, List.length_nil, Nat.add_zero, List.append_nil,
      List.take_append_drop]
    congr 1
    funext k
    unfold Mem.set
    split
    · subst_vars; rfl
    · rfl
  | succ n ih =>
    intro i m h1 h2 h3
    have hx : src.p.off.toNat + si + i < (m src.p.blk).length := by omega
    have hy : dst.p.off.toNat + di + i < (m dst.p.blk).length := by omega
    have hld : m.ld src.p ((si + i : Nat) : Int) =
        .ok (m src.p.blk)[src.p.off.toNat + si + i] := by
      unfold Mem.ld
      have : src.p.off + ((si + i : Nat) : Int) = ((src.p.off.toNat + si + i : Nat) : Int) := by omega
      rw [this, ld_nat, ldN, List.getElem?_eq_getElem hx]
    have hst : ∀ x, m.st dst.p ((di + i : Nat) : Int) x =
        .ok (m.set dst.p.blk ((m dst.p.blk).set (dst.p.off.toNat + di + i) x)) := by
      intro x
      unfold Mem.st
      have : dst.p.off + ((di + i : Nat) : Int) = ((dst.p.off.toNat + di + i : Nat) : Int) := by omega
      rw [this, st_nat, stN, if_pos hy]
      rfl
    rw [copyLoop, hld, C.ok_bind, hst, C.ok_bind]
    generalize hxe : (m src.p.blk)[src.p.off.toNat + si + i] = x
    have hblk : (m.set dst.p.blk ((m dst.p.blk).set (dst.p.off.toNat + di + i) x)) dst.p.blk =
        (m dst.p.blk).set (dst.p.off.toNat + di + i) x := by simp [Mem.set]
    have hsl : ((m.set dst.p.blk ((m dst.p.blk).set (dst.p.off.toNat + di + i) x)) src.p.blk).length =
        (m src.p.blk).length := by
      unfold Mem.set; split
      · rename_i h; rw [h]; simp
      · rfl
    rw [ih (i + 1) _ (by rw [hblk, List.length_set]; omega) (by rw [hsl]; omega) (by omega), hblk]
    have hsrc : ((m.set dst.p.blk ((m dst.p.blk).set (dst.p.off.toNat + di + i) x) src.p.blk).drop
        (src.p.off.toNat + si + (i + 1))).take n =
        ((m src.p.blk).drop (src.p.off.toNat + si + (i + 1))).take n := by
      unfold Mem.set; split
      · rename_i h
        rw [h]
        rcases h3 with h3 | h3 | h3
        · exact absurd h.symm h3
        · rw [List.drop_set_of_lt (by omega)]
        · rw [List.drop_set, if_neg (by omega), List.take_set_of_le (by omega)]
      · rfl
    rw [hsrc]
    have e1 : dst.p.off.toNat + di + (i + 1) = dst.p.off.toNat + di + i + 1 := by omega
    have e2 : ((m src.p.blk).drop (src.p.off.toNat + si + i)).take (n + 1) =
        x :: ((m src.p.blk).drop (src.p.off.toNat + si + (i + 1))).take n := by
      rw [List.drop_eq_getElem_cons hx, List.take_succ_cons, hxe]
      congr 2
    rw [e1, splice_set _ _ _ _ hy, e2]
    congr 1
    funext k
    unfold Mem.set
    split <;> rfl

theorem copyLoop_oob (dst src : BBuf) (di si : Nat) (hd0 : 0 ≤ dst.p.off) (hs0 : 0 ≤ src.p.off) :
    ∀ (n i : Nat) (m : Mem),
    ((m dst.p.blk).length < dst.p.off.toNat + di + i + n ∨
      (m src.p.blk).length < src.p.off.toNat + si + i + n) → 0 < n →
    copyLoop m dst src di si n i = .error .oob := by
  intro n
  induction n with
  | zero => intro i m _ h; omega
  | succ n ih =>
    intro i m h _
    have es : src.p.off + ((si + i : Nat) : Int) = ((src.p.off.toNat + si + i : Nat) : Int) := by omega
    have ed : dst.p.off + ((di + i : Nat) : Int) = ((dst.p.off.toNat + di + i : Nat) : Int) := by omega
    rw [copyLoop]
    by_cases hx : src.p.off.toNat + si + i < (m src.p.blk).length
    · have hld : m.ld src.p ((si + i : Nat) : Int) =
          .ok (m src.p.blk)[src.p.off.toNat + si + i] := by
        unfold Mem.ld
        rw [es, ld_nat, ldN, List.getElem?_eq_getElem hx]
      rw [hld, C.ok_bind]
      generalize (m src.p.blk)[src.p.off.toNat + si + i] = x
      by_cases hy : dst.p.off.toNat + di + i < (m dst.p.blk).length
      · have hst : m.st dst.p ((di + i : Nat) : Int) x =
            .ok (m.set dst.p.blk ((m dst.p.blk).set (dst.p.off.toNat + di + i) x)) := by
          unfold Mem.st
          rw [ed, st_nat, stN, if_pos hy]
          rfl
        rw [hst, C.ok_bind]
        have hl : ∀ k, ((m.set dst.p.blk ((m dst.p.blk).set (dst.p.off.toNat + di + i) x)) k).length =
            (m k).length := by
          intro k; unfold Mem.set; split
          · rename_i h; rw [h]; simp
          · rfl
        apply ih
        · rw [hl, hl]; omega
        · omega
      · have hst : m.st dst.p ((di + i : Nat) : Int) x = .error .oob := by
          unfold Mem.st
          rw [ed, st_nat, stN, if_neg hy]
          rfl
        rw [hst]; rfl
    · have hld : m.ld src.p ((si + i : Nat) : Int) = .error .oob := by
        unfold Mem.ld
        rw [es, ld_nat, ldN, List.getElem?_eq_none (by omega)]
      rw [hld]; rfl

/-- The number of bytes `mu_bbuf_copy_into` tries to copy if the unset variables hold `s` (available
in the source) and `d` (available in the destination). -/
def attempted (dst src : Nat) (offset : Int) (s d : Nat) : Nat :=
  min (if offset < 0 then src - (-offset).toNat else s) (if 0 < offset then dst - offset.toNat else d)

/-- An overlap of the bytes read with the bytes written that a loop running upwards does not mind. -/
def Forward (dst src : BBuf) (offset : Int) (n : Nat) : Prop :=
  dst.p.blk ≠ src.p.blk ∨ dst.p.off + offset.toNat ≤ src.p.off + (-offset).toNat ∨
    src.p.off + (-offset).toNat + n ≤ dst.p.off + offset.toNat

theorem copyIntoFrom_eq {P : Plat} {m : Mem} {dst src : BBuf} {offset : Int} (s d : Nat)
    (h1 : P.intMin < offset) (h2 : offset ≤ P.intMax)
    (hin : offset.toNat < dst.cap ∨ ¬ 0 < offset) (hin' : (-offset).toNat < src.cap ∨ ¬ offset < 0)
    (hn : ((attempted dst.cap src.cap offset s d : Nat) : Int) ≤ P.intMax) :
    copyIntoFrom P m dst src offset (some s) (some d) = (do
      let m ← copyLoop m dst src offset.toNat (-offset).toNat (attempted dst.cap src.cap offset s d) 0
      .ok (((attempted dst.cap src.cap offset s d : Nat) : Int), m)) := by
  have hmin := P.intMin_eq
  have hfin : ∀ (a b : Nat) (n si di : Nat), n = min a b → (n : Int) ≤ P.intMax →
      (do
        let sa ← rdVar (some a)
        if sa ≠ 0 then do
          let da ← rdVar (some b)
          if da ≠ 0 then do
            let count := P.toInt (if sa < da then sa else da)
            let m ← copyLoop m dst src di si count.toNat 0
            .ok (count, m)
          else .ok (0, m)
        else .ok (0, m) : C (Int × Mem)) =
      (do
        let m ← copyLoop m dst src di si n 0
        .ok ((n : Int), m)) := by
    intro a b n si di hn hle
    simp only [rdVar, C.ok_bind]
    by_cases ha : a = 0
    · subst ha
      obtain rfl : n = 0 := by omega
      simp [copyLoop]
    · by_cases hb : b = 0
      · subst hb
        obtain rfl : n = 0 := by omega
        simp [ha, copyLoop]
      · rw [if_pos ha, if_pos hb]
        have : (if a < b then a else b) = n := by split <;> omega
        rw [this, Plat.toInt_of_le hle, Int.toNat_natCast]
  unfold copyIntoFrom
  simp only
  unfold attempted at hn ⊢
  by_cases hp : offset > 0
  · have e : (-offset).toNat = 0 := by omega
    rw [if_pos hp, Plat.toSz_int (by omega) h2, if_neg (by omega)]
    rw [if_neg (by omega), if_pos hp] at hn ⊢
    rw [e]
    exact hfin _ _ _ _ _ rfl hn
  · rw [if_neg hp]
    by_cases hneg : offset < 0
    · have e : offset.toNat = 0 := by omega
      rw [if_pos hneg, Plat.int_ok (by omega) (by omega), C.ok_bind,
        Plat.toSz_int (by omega) (by omega), if_neg (by omega)]
      rw [if_pos hneg, if_neg hp] at hn ⊢
      rw [e]
      exact hfin _ _ _ _ _ rfl hn
    · have e : offset = 0 := by omega
      subst e
      rw [if_neg hneg]
      rw [if_neg (by omega), if_neg (by omega)] at hn ⊢
      exact hfin _ _ _ _ _ rfl hn

/-- **C108a.**  If the unset variables hold `s` and `d`, and the number of bytes attempted does not
exceed what both buffers have, `mu_bbuf_copy_into` copies that many bytes to the right place and changes
nothing else. -/
theorem C108_copies {P : Plat} {m : Mem} {dst src : BBuf} {offset : Int} (s d : Nat)
    (vd : Valid m dst) (vs : Valid m src) (fd : Fits P dst) (fs : Fits P src)
    (h1 : P.intMin < offset) (h2 : offset ≤ P.intMax)
    (hpos : 0 < overlap dst.cap src.cap offset)
    (hn : attempted dst.cap src.cap offset s d ≤ overlap dst.cap src.cap offset)
    (hf : Forward dst src offset (attempted dst.cap src.cap offset s d)) :
    copyIntoFrom P m dst src offset (some s) (some d) =
      .ok ((attempted dst.cap src.cap offset s d : Nat), replaced m dst
        ((view m dst).take offset.toNat ++
          ((view m src).drop (-offset).toNat).take (attempted dst.cap src.cap offset s d) ++
          (view m dst).drop (offset.toNat + attempted dst.cap src.cap offset s d))) := by
  have hmin := P.intMin_eq
  have ho : overlap dst.cap src.cap offset ≤ dst.cap - offset.toNat ∧
      overlap dst.cap src.cap offset ≤ src.cap - (-offset).toNat := by
    unfold overlap; omega
  unfold Fits at fd fs
  rw [copyIntoFrom_eq s d h1 h2 (by omega) (by omega) (by omega)]
  generalize hN : attempted dst.cap src.cap offset s d = n at hn hf
  obtain ⟨vd1, vd2⟩ := vd
  obtain ⟨vs1, vs2⟩ := vs
  rw [copyLoop_ok dst src _ _ vd1 vs1 n 0 m (by omega) (by omega) (by
    rcases hf with h | h | h
    · exact .inl h
    · exact .inr (.inl (by omega))
    · exact .inr (.inr (by omega)))]
  rw [C.ok_bind]
  congr 2
  funext k
  unfold Mem.set replaced splice
  by_cases hk : k = dst.p.blk
  · subst hk
    rw [if_pos rfl, if_pos rfl]
    have hlen : (((m src.p.blk).drop (src.p.off.toNat + (-offset).toNat + 0)).take n).length = n := by
      rw [List.length_take, List.length_drop]; omega
    rw [hlen]
    have hv1 : (m dst.p.blk).take (dst.p.off.toNat + offset.toNat + 0) =
        (m dst.p.blk).take dst.p.off.toNat ++ (view m dst).take offset.toNat := by
      rw [view, List.take_take, Nat.min_eq_left (by omega), Nat.add_zero, List.take_add]
    have hv2 : ((m src.p.blk).drop (src.p.off.toNat + (-offset).toNat + 0)).take n =
        ((view m src).drop (-offset).toNat).take n := by
      rw [view, List.drop_take, List.take_take, List.drop_drop, Nat.min_eq_left (by omega), Nat.add_zero]
    have hv3 : (m dst.p.blk).drop (dst.p.off.toNat + offset.toNat + 0 + n) =
        (view m dst).drop (offset.toNat + n) ++ (m dst.p.blk).drop (dst.p.off.toNat + dst.cap) := by
      rw [view, List.drop_take, List.drop_drop]
      have : (m dst.p.blk).drop (dst.p.off.toNat + dst.cap) =
          ((m dst.p.blk).drop (dst.p.off.toNat + (offset.toNat + n))).drop
            (dst.cap - (offset.toNat + n)) := by
        rw [List.drop_drop]; congr 1; omega
      rw [this, List.take_append_drop]
      congr 1; omega
    rw [hv1, hv2, hv3]
    simp only [List.append_assoc]
  · rw [if_neg hk, if_neg hk]

/-- **C108b.**  In particular, if each unset variable holds the length of its buffer, the function does
what its documentation says, for every pair of buffers and every offset but `INT_MIN`. -/
theorem C108_intended {P : Plat} {m : Mem} {dst src : BBuf} {offset : Int}
    (vd : Valid m dst) (vs : Valid m src) (fd : Fits P dst) (fs : Fits P src)
    (h1 : P.intMin < offset) (h2 : offset ≤ P.intMax)
    (hf : Forward dst src offset (overlap dst.cap src.cap offset)) :
    ∃ m', copyIntoFrom P m dst src offset (some src.cap) (some dst.cap) =
        .ok ((overlap dst.cap src.cap offset : Nat), m') ∧
      m' = replaced m dst ((view m dst).take offset.toNat ++
        ((view m src).drop (-offset).toNat).take (overlap dst.cap src.cap offset) ++
        (view m dst).drop (offset.toNat + overlap dst.cap src.cap offset)) := by
  have hmin := P.intMin_eq
  have ha : attempted dst.cap src.cap offset src.cap dst.cap = overlap dst.cap src.cap offset := by
    unfold attempted overlap
    split <;> split <;> omega
  by_cases hpos : 0 < overlap dst.cap src.cap offset
  · have h := C108_copies (P := P) (m := m) (offset := offset) src.cap dst.cap vd vs fd fs h1 h2 hpos
      (by omega) (by rw [ha]; exact hf)
    rw [ha] at h
    exact ⟨_, h, rfl⟩
  · have h0 : overlap dst.cap src.cap offset = 0 := by omega
    rw [h0]
    refine ⟨m, ?_, ?_⟩
    · unfold copyIntoFrom
      unfold overlap at h0
      simp only
      by_cases hp : offset > 0
      · rw [if_pos hp, Plat.toSz_int (by omega) h2]
        by_cases hc : offset.toNat ≥ dst.cap
        · rw [if_pos hc]; rfl
        · rw [if_neg hc]
          have : src.cap = 0 := by omega
          simp [rdVar, this]
      · rw [if_neg hp]
        by_cases hneg : offset < 0
        · rw [if_pos hneg, Plat.int_ok (by omega) (by omega), C.ok_bind,
            Plat.toSz_int (by omega) (by omega)]
          by_cases hc : (-offset).toNat ≥ src.cap
          · rw [if_pos hc]; rfl
          · rw [if_neg hc]
            have : dst.cap = 0 := by omega
            simp [rdVar, this]
        · rw [if_neg hneg]
          by_cases hs : src.cap = 0
          · simp [rdVar, hs]
          · have : dst.cap = 0 := by omega
            simp [rdVar, hs, this]
    · simp only [List.take_zero, List.append_nil, Nat.add_zero, List.take_append_drop]
      exact (replaced_view vd).symm

/-- **C108c.**  If the unset variables make it attempt more bytes than one of the buffers has left, and
that buffer ends where its object ends, it reads or writes outside the object. -/
theorem C108_overruns {P : Plat} {m : Mem} {dst src : BBuf} {offset : Int} (s d : Nat)
    (vd : Valid m dst) (vs : Valid m src) (h1 : P.intMin < offset) (h2 : offset ≤ P.intMax)
    (hpos : 0 < overlap dst.cap src.cap offset)
    (hd : dst.p.off + dst.cap = (m dst.p.blk).length) (hs : src.p.off + src.cap = (m src.p.blk).length)
    (hn : overlap dst.cap src.cap offset < attempted dst.cap src.cap offset s d)
    (hI : ((attempted dst.cap src.cap offset s d : Nat) : Int) ≤ P.intMax) :
    copyIntoFrom P m dst src offset (some s) (some d) = .error .oob := by
  have ho : overlap dst.cap src.cap offset = dst.cap - offset.toNat ∧ 0 < dst.cap - offset.toNat ∧
      0 < src.cap - (-offset).toNat ∨
      overlap dst.cap src.cap offset = src.cap - (-offset).toNat ∧ 0 < dst.cap - offset.toNat ∧
      0 < src.cap - (-offset).toNat := by
    unfold overlap at *; omega
  rw [copyIntoFrom_eq s d h1 h2 (by omega) (by omega) hI]
  obtain ⟨vd1, vd2⟩ := vd
  obtain ⟨vs1, vs2⟩ := vs
  rw [copyLoop_oob dst src _ _ vd1 vs1 _ 0 m (by omega) (by omega)]
  rfl

/-- Concrete cases: two bytes of garbage-free copy at offset 1; with 1000 in `src_avail` the source is
overrun; with 0 nothing is copied. -/
example : overlap 5 2 1 = 2 ∧ Forward ⟨⟨1, 0⟩, 5⟩ ⟨⟨2, 0⟩, 2⟩ 1 2 ∧
    (match copyIntoFrom Plat.lp64 (fun k => if k = 1 then [1, 2, 3, 4, 5] else [8, 9])
        ⟨⟨1, 0⟩, 5⟩ ⟨⟨2, 0⟩, 2⟩ 1 (some 2) (some 5) with
      | .ok (n, m') => n = 2 ∧ m' 1 = [1, 8, 9, 4, 5]
      | .error _ => False) ∧
    (copyIntoFrom Plat.lp64 (fun k => if k = 1 then [1, 2, 3, 4, 5] else [8, 9])
        ⟨⟨1, 0⟩, 5⟩ ⟨⟨2, 0⟩, 2⟩ 1 (some 1000) (some 5) matches .error .oob) ∧
    (copyIntoFrom Plat.lp64 (fun k => if k = 1 then [1, 2, 3, 4, 5] else [8, 9])
        ⟨⟨1, 0⟩, 5⟩ ⟨⟨2, 0⟩, 2⟩ 1 (some 0) (some 5) matches .ok (0, _)) := by
  refine ⟨by decide, .inl (by decide), ?_, by decide, by decide⟩
  show _ ∧ _
  decide

end Mu.BBuf
