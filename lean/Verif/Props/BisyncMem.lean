import Verif.Model.BisyncMem
import Verif.Props.BisyncExact

/-! # Property C111: encoding and decoding with overlapping buffers -/

namespace Mu.Bisync
open Spec

/-- The memory in which what lies from `dst` on in its object is `l`. -/
def emb (m0 : Mem) (bd d : Nat) (l : List UInt8) : Mem := m0.set bd ((m0 bd).take d ++ l)

/-- `l` is as long as what lies from `dst` on, and equal to it from position `j` on. -/
def Agree (m0 : Mem) (bd d : Nat) (l : List UInt8) (j : Int) : Prop :=
  l.length = ((m0 bd).drop d).length ∧ ∀ k : Nat, j ≤ k → l[k]? = ((m0 bd).drop d)[k]?

theorem emb_self (m0 : Mem) (bd d : Nat) : emb m0 bd d ((m0 bd).drop d) = m0 := by
  funext j
  unfold emb Mem.set
  split
  · rename_i h; rw [List.take_append_drop, h]
  · rfl

theorem ld_emb {m0 : Mem} {bd d bs e : Nat} {l : List UInt8} {j : Int} {i : Nat} (hd : d ≤ (m0 bd).length)
    (ha : Agree m0 bd d l j) (h : bd ≠ bs ∨ d + j ≤ e + i ∨ e + i < d) :
    (emb m0 bd d l).ld ⟨bs, (e : Nat)⟩ i = ld ((m0 bs).drop e) i := by
  unfold Mem.ld ld
  have e1 : ((e : Nat) : Int) + (i : Int) = ((e + i : Nat) : Int) := by omega
  simp only [e1, Int.natCast_nonneg, if_true, Int.toNat_natCast, List.getElem?_drop]
  have : ((emb m0 bd d l) bs)[e + i]? = (m0 bs)[e + i]? := by
    unfold emb Mem.set
    split
    · rename_i hb
      subst hb
      rcases h with h | h | h
      · exact absurd rfl h
      · obtain ⟨ha1, ha2⟩ := ha
        by_cases hlt : e + i < d
        · rw [List.getElem?_append_left (by rw [List.length_take]; omega), List.getElem?_take,
            if_pos hlt]
        · rw [List.getElem?_append_right (by rw [List.length_take]; omega), List.length_take,
            Nat.min_eq_left hd, ha2 _ (by omega), List.getElem?_drop]
          congr 1; omega
      · rw [List.getElem?_append_left (by rw [List.length_take]; omega), List.getElem?_take, if_pos h]
    · rfl
  rw [this]

/-- The result of a writing step in the list model, as a result in the memory model. -/
def lift (m0 : Mem) (bd d : Nat) : Bool × Writer → Bool × Mem × WriterM
  | (ok, w) => (ok, emb m0 bd d w.wbuf, ⟨⟨bd, (d : Nat)⟩, w.capacity, w.index⟩)

theorem bufferPutM_eq {P : Plat} {m0 : Mem} {bd d : Nat} {w : Writer} {b : UInt8}
    (hd : d ≤ (m0 bd).length) (hi : 0 ≤ w.index) :
    bufferPutM P (emb m0 bd d w.wbuf) ⟨⟨bd, (d : Nat)⟩, w.capacity, w.index⟩ b =
      (bufferPut P w b).map (lift m0 bd d) := by
  unfold bufferPutM bufferPut
  dsimp only
  by_cases hc : w.index ≥ w.capacity
  · rw [if_pos hc, if_pos hc]; rfl
  · rw [if_neg hc, if_neg hc]
    unfold Mem.st
    have hs : Mu.st ((emb m0 bd d w.wbuf) bd) ((d : Nat) + w.index) b =
        (Mu.st w.wbuf w.index b).map (fun l => (m0 bd).take d ++ l) := by
      obtain ⟨k, hk⟩ : ∃ k : Nat, w.index = k := ⟨w.index.toNat, by omega⟩
      rw [hk]
      unfold Mu.st emb Mem.set
      have e1 : ((d : Nat) : Int) + (k : Int) = ((d + k : Nat) : Int) := by omega
      simp only [e1, Int.natCast_nonneg, true_and, Int.toNat_natCast, if_true, List.length_append,
        List.length_take, Nat.min_eq_left hd]
      by_cases h2 : k < w.wbuf.length
      · rw [if_pos (by omega), if_pos h2, List.set_append_right _ _ (by rw [List.length_take]; omega),
          List.length_take, Nat.min_eq_left hd, Nat.add_sub_cancel_left]
        rfl
      · rw [if_neg (by omega), if_neg h2]; rfl
    dsimp only
    rw [hs]
    cases hst : Mu.st w.wbuf w.index b with
    | error e => rfl
    | ok l =>
      simp only [Except.map, C.ok_bind]
      cases P.int (w.index + 1) with
      | error e => rfl
      | ok i =>
        simp only [C.ok_bind, lift]
        have : (emb m0 bd d w.wbuf).set bd ((m0 bd).take d ++ l) = emb m0 bd d l := by
          funext j; unfold emb Mem.set; split <;> rfl
        rw [this]

/-- A put advances the index by at most one and changes at most the byte at the index. -/
theorem bufferPut_agree {P : Plat} {m0 : Mem} {bd d : Nat} {w w' : Writer} {b : UInt8} {ok : Bool}
    (ha : Agree m0 bd d w.wbuf w.index) (hi : 0 ≤ w.index) (h : bufferPut P w b = .ok (ok, w')) :
    Agree m0 bd d w'.wbuf w'.index ∧ 0 ≤ w'.index ∧ w'.index ≤ w.index + 1 := by
  unfold bufferPut at h
  split at h
  · obtain ⟨-, h2⟩ := Prod.mk.inj (Except.ok.inj h)
    subst h2
    exact ⟨ha, hi, by omega⟩
  · obtain ⟨l, h1, h⟩ := C.bind_eq_ok h
    obtain ⟨j, h2, h⟩ := C.bind_eq_ok h
    obtain ⟨-, h⟩ := Prod.mk.inj (Except.ok.inj h)
    subst h
    have hj : j = w.index + 1 := by
      unfold Plat.int at h2
      split at h2
      · exact (Except.ok.inj h2).symm
      · cases h2
    subst hj
    unfold Mu.st at h1
    split at h1
    · cases h1
      refine ⟨⟨by rw [List.length_set]; exact ha.1, ?_⟩, by dsimp only; omega, by dsimp only; omega⟩
      intro k hk
      dsimp only at hk ⊢
      rw [List.getElem?_set_ne (by omega)]
      exact ha.2 k (by omega)
    · cases h1

theorem int_some {P : Plat} {x j : Int} (h : P.int x = .ok j) : j = x ∧ x ≤ P.intMax := by
  unfold Plat.int at h
  split at h
  · rename_i hx
    exact ⟨(Except.ok.inj h).symm, hx.2⟩
  · cases h

/-- Result of the decoding loop. -/
def liftD (m0 : Mem) (bd d : Nat) : Bool × Option UInt8 × Writer → Bool × Option UInt8 × Mem × WriterM
  | (ok, b, w) => (ok, b, emb m0 bd d w.wbuf, ⟨⟨bd, (d : Nat)⟩, w.capacity, w.index⟩)

theorem decodeLoopM_eq {P : Plat} {m0 : Mem} {bd d bs e n : Nat} (hd : d ≤ (m0 bd).length)
    (h : bd ≠ bs ∨ d ≤ e ∨ e + n ≤ d) : ∀ (fuel : Nat) (i : Nat) (b : Option UInt8) (esc : Bool)
    (w : Writer), (i : Int) ≤ P.intMax → Agree m0 bd d w.wbuf w.index → 0 ≤ w.index → w.index ≤ i →
    decodeLoopM P ⟨bs, (e : Nat)⟩ n fuel i b esc (emb m0 bd d w.wbuf)
        ⟨⟨bd, (d : Nat)⟩, w.capacity, w.index⟩ =
      (decodeLoop P ((m0 bs).drop e) n fuel i b esc w).map (liftD m0 bd d) := by
  intro fuel
  induction fuel with
  | zero => intros; rfl
  | succ fuel ih =>
    intro i b esc w hi ha h0 hle
    rw [decodeLoopM, decodeLoop]
    by_cases hin : P.toSz (i : Int) < n
    · rw [if_pos hin, if_pos hin]
      rw [Plat.toSz_int (by omega) hi, Int.toNat_natCast] at hin
      rw [ld_emb hd ha (by omega)]
      cases ld ((m0 bs).drop e) (i : Int) with
      | error e => rfl
      | ok x =>
        simp only [C.ok_bind]
        have step : ∀ esc', (do
            let __discr ← bufferPutM P (emb m0 bd d w.wbuf) ⟨⟨bd, (d : Nat)⟩, w.capacity, w.index⟩ x
            match __discr with
            | (ok, m, w) =>
              if ok = false then (.ok (false, some x, m, w) : C _)
              else do
                let i ← P.int ((i : Int) + 1)
                decodeLoopM P ⟨bs, (e : Nat)⟩ n fuel i (some x) esc' m w) =
            (do
            let __discr ← bufferPut P w x
            match __discr with
            | (ok, w) =>
              if ok = false then (.ok (false, some x, w) : C _)
              else do
                let i ← P.int ((i : Int) + 1)
                decodeLoop P ((m0 bs).drop e) n fuel i (some x) esc' w).map (liftD m0 bd d) := by
          intro esc'
          rw [bufferPutM_eq hd h0]
          cases hb : bufferPut P w x with
          | error e => rfl
          | ok r =>
            obtain ⟨ok, w'⟩ := r
            obtain ⟨a1, a2, a3⟩ := bufferPut_agree ha h0 hb
            cases ok with
            | false => rfl
            | true =>
              simp only [Except.map, lift, C.ok_bind, Bool.true_eq_false, if_false]
              cases hj : P.int ((i : Int) + 1) with
              | error e => rfl
              | ok j =>
                obtain ⟨rfl, hj2⟩ := int_some hj
                have := ih (i + 1) (some x) esc' w' (by omega) a1 a2 (by omega)
                rw [show (((i + 1 : Nat) : Int)) = (i : Int) + 1 by omega] at this
                simp only [C.ok_bind]
                exact this
        cases esc with
        | true => exact step false
        | false =>
          simp only [Bool.false_eq_true, if_false]
          by_cases h1 : x = DLE
          · rw [if_pos h1, if_pos h1]
            cases hj : P.int ((i : Int) + 1) with
            | error e => rfl
            | ok j =>
              obtain ⟨rfl, hj2⟩ := int_some hj
              have := ih (i + 1) (some x) true w (by omega) ha h0 (by omega)
              rw [show (((i + 1 : Nat) : Int)) = (i : Int) + 1 by omega] at this
              simp only [C.ok_bind]
              exact this
          · rw [if_neg h1, if_neg h1]
            by_cases h2 : x = EOT
            · rw [if_pos h2, if_pos h2]; rfl
            · rw [if_neg h2, if_neg h2]
              exact step false
    · rw [if_neg hin, if_neg hin]; rfl

/-- The result of a function of the list model, as a result in the memory model: what lies from the
destination pointer on is replaced. -/
def placed (m0 : Mem) (bd d : Nat) : Int × List UInt8 → Int × Mem
  | (r, l) => (r, emb m0 bd d l)

/-- **C111a.**  `mu_bisync_decode` in place: if the destination begins at or before the input (in
particular if they are the same), or the two do not overlap, the outcome is that of decoding into a
separate buffer (C04, C05, C63, C64), byte for byte: nothing of the input is overwritten before it is
read. -/
theorem C111_decode_in_place (P : Plat) (m : Mem) (dst enc : Ptr) (cap n : Nat)
    (hd : 0 ≤ dst.off ∧ dst.off ≤ (m dst.blk).length) (he : 0 ≤ enc.off)
    (h : dst.blk ≠ enc.blk ∨ dst.off ≤ enc.off ∨ enc.off + n ≤ dst.off) :
    decodeM P m dst cap enc n =
      (decode P ((m dst.blk).drop dst.off.toNat) cap ((m enc.blk).drop enc.off.toNat) n).map
        (placed m dst.blk dst.off.toNat) := by
  obtain ⟨bd, d'⟩ := dst
  obtain ⟨bs, e'⟩ := enc
  obtain ⟨d, rfl⟩ : ∃ d : Nat, d' = d := ⟨d'.toNat, by simp only at hd; omega⟩
  obtain ⟨e, rfl⟩ : ∃ e : Nat, e' = e := ⟨e'.toNat, by simp only at he; omega⟩
  simp only [Int.toNat_natCast] at *
  have hd' : d ≤ (m bd).length := by omega
  have hmax := P.intMax_ge
  have ha : Agree m bd d ((m bd).drop d) 0 := ⟨rfl, fun _ _ => rfl⟩
  have hld : ∀ i : Nat, m.ld ⟨bs, (e : Nat)⟩ i = ld ((m bs).drop e) i := by
    intro i
    have := ld_emb (bs := bs) (e := e) (i := i) hd' ⟨rfl, fun _ _ => rfl⟩
      (j := ((e : Int) + i) - d) (l := (m bd).drop d) (by omega)
    rwa [emb_self] at this
  rw [decodeM, decode, show m.ld ⟨bs, (e : Nat)⟩ 0 = ld ((m bs).drop e) 0 from hld 0]
  dsimp only
  by_cases hn : n < 1
  · rw [if_pos hn, if_pos hn]
    simp only [C.ok_bind, if_true, Except.map, placed, emb_self]
  rw [if_neg hn, if_neg hn]
  cases ld ((m bs).drop e) 0 with
  | error e => rfl
  | ok b0 =>
    simp only [C.ok_bind]
    by_cases hb0 : b0 ≠ SOH
    · simp only [hb0, decide_true, if_true, Except.map, placed, emb_self, ne_eq, not_false_eq_true]
    · simp only [hb0, decide_false, Bool.false_eq_true, if_false]
      have hl := decodeLoopM_eq (P := P) (m0 := m) (bs := bs) (e := e) (n := n) hd' (by omega) (n + 1) 0 none false
        ⟨(m bd).drop d, P.toInt cap, 0⟩ (by simp only [Int.natCast_zero]; omega) ha (by simp) (by simp)
      rw [emb_self] at hl
      dsimp only [Int.natCast_zero] at hl
      rw [hl]
      cases decodeLoop P ((m bs).drop e) n (n + 1) 0 none false ⟨(m bd).drop d, P.toInt cap, 0⟩ with
      | error e => rfl
      | ok r =>
        obtain ⟨ok, b, w⟩ := r
        simp only [Except.map, liftD, C.ok_bind]
        cases ok with
        | false => rfl
        | true =>
          simp only [Bool.true_eq_false, if_false]
          cases b with
          | none => rfl
          | some b =>
            dsimp only
            by_cases hb : b ≠ EOT
            · rw [if_pos hb, if_pos hb]; rfl
            · rw [if_neg hb, if_neg hb]; rfl

/-- The number of bytes of a payload that are stuffed. -/
def controls (p : List UInt8) : Nat := p.countP isControl

theorem controls_take_le (p : List UInt8) (i : Nat) : controls (p.take i) ≤ controls p :=
  (List.take_sublist i p).countP_le

theorem controls_take_succ {p : List UInt8} {i : Nat} {b : UInt8} (h : p[i]? = some b) :
    controls (p.take (i + 1)) = controls (p.take i) + if isControl b then 1 else 0 := by
  unfold controls
  rw [List.take_add_one, h, Option.toList, List.countP_append, List.countP_singleton]

theorem encodeLoopM_eq {P : Plat} {m0 : Mem} {bd d bs e n : Nat} (hd : d ≤ (m0 bd).length)
    (h : bd ≠ bs ∨ d + 1 + controls (((m0 bs).drop e).take n) ≤ e ∨ e + n ≤ d) :
    ∀ (fuel : Nat) (i : Nat) (w : Writer), (i : Int) ≤ P.intMax → Agree m0 bd d w.wbuf w.index →
    0 ≤ w.index → w.index ≤ 1 + i + controls (((m0 bs).drop e).take i) →
    encodeLoopM P ⟨bs, (e : Nat)⟩ n fuel i (emb m0 bd d w.wbuf)
        ⟨⟨bd, (d : Nat)⟩, w.capacity, w.index⟩ =
      (encodeLoop P ((m0 bs).drop e) n fuel i w).map (lift m0 bd d) := by
  intro fuel
  induction fuel with
  | zero => intros; rfl
  | succ fuel ih =>
    intro i w hi ha h0 hle
    rw [encodeLoopM, encodeLoop]
    by_cases hin : P.toSz (i : Int) < n
    · rw [if_pos hin, if_pos hin]
      rw [Plat.toSz_int (by omega) hi, Int.toNat_natCast] at hin
      have hmono : controls (((m0 bs).drop e).take i) ≤ controls (((m0 bs).drop e).take n) := by
        have := controls_take_le (((m0 bs).drop e).take n) i
        rwa [List.take_take, Nat.min_eq_left (by omega)] at this
      rw [ld_emb hd ha (by omega)]
      cases hx : ld ((m0 bs).drop e) (i : Int) with
      | error e => rfl
      | ok x =>
        simp only [C.ok_bind]
        have hx' : ((m0 bs).drop e)[i]? = some x := by
          unfold ld at hx
          rw [if_pos (by omega), Int.toNat_natCast] at hx
          cases hg : ((m0 bs).drop e)[i]? with
          | none => rw [hg] at hx; cases hx
          | some y => rw [hg] at hx; cases hx; rfl
        have hsucc := controls_take_succ hx'
        have step : ∀ w : Writer, Agree m0 bd d w.wbuf w.index → 0 ≤ w.index →
            w.index ≤ 1 + i + controls (((m0 bs).drop e).take i) + (if isControl x then 1 else 0 : Nat) →
            (do
            let __discr ← bufferPutM P (emb m0 bd d w.wbuf) ⟨⟨bd, (d : Nat)⟩, w.capacity, w.index⟩ x
            match __discr with
            | (ok, m, w) =>
              if ok = false then (.ok (false, m, w) : C _)
              else do
                let i ← P.int ((i : Int) + 1)
                encodeLoopM P ⟨bs, (e : Nat)⟩ n fuel i m w) =
            (do
            let __discr ← bufferPut P w x
            match __discr with
            | (ok, w) =>
              if ok = false then (.ok (false, w) : C _)
              else do
                let i ← P.int ((i : Int) + 1)
                encodeLoop P ((m0 bs).drop e) n fuel i w).map (lift m0 bd d) := by
          intro w ha h0 hle
          rw [bufferPutM_eq hd h0]
          cases hb : bufferPut P w x with
          | error e => rfl
          | ok r =>
            obtain ⟨ok, w'⟩ := r
            obtain ⟨a1, a2, a3⟩ := bufferPut_agree ha h0 hb
            cases ok with
            | false => rfl
            | true =>
              simp only [Except.map, lift, C.ok_bind, Bool.true_eq_false, if_false]
              cases hj : P.int ((i : Int) + 1) with
              | error e => rfl
              | ok j =>
                obtain ⟨rfl, hj2⟩ := int_some hj
                have := ih (i + 1) w' (by omega) a1 a2 (by rw [hsucc]; omega)
                rw [show (((i + 1 : Nat) : Int)) = (i : Int) + 1 by omega] at this
                simp only [C.ok_bind]
                exact this
        by_cases hc : x = EOT ∨ x = SOH ∨ x = DLE
        · have hc' : isControl x = true := (isControl_iff x).1 hc
          rw [if_pos hc, if_pos hc, bufferPutM_eq hd h0]
          cases hb : bufferPut P w DLE with
          | error e => rfl
          | ok r =>
            obtain ⟨ok, w'⟩ := r
            obtain ⟨a1, a2, a3⟩ := bufferPut_agree ha h0 hb
            cases ok with
            | false => rfl
            | true =>
              simp only [Except.map, lift, C.ok_bind, Bool.true_eq_false, if_false]
              exact step w' a1 a2 (by rw [hc']; simp only [if_true]; omega)
        · rw [if_neg hc, if_neg hc]
          simp only [C.ok_bind, Bool.true_eq_false, if_false]
          exact step w ha h0 (by omega)
    · rw [if_neg hin, if_neg hin]; rfl

theorem bufferPut_index {P : Plat} {w w' : Writer} {b : UInt8} {ok : Bool}
    (h : bufferPut P w b = .ok (ok, w')) (hi : 0 ≤ w.index) : 0 ≤ w'.index := by
  have ha : Agree (fun _ => w.wbuf) 0 0 w.wbuf w.index := ⟨by simp, fun _ _ => by simp⟩
  exact (bufferPut_agree ha hi h).2.1

theorem encodeLoop_index {P : Plat} {src : List UInt8} {n : Nat} : ∀ {fuel : Nat} {i : Int}
    {w w' : Writer} {ok : Bool}, encodeLoop P src n fuel i w = .ok (ok, w') → 0 ≤ w.index →
    0 ≤ w'.index
  | 0, _, _, _, _, h, _ => by cases h
  | fuel + 1, i, w, w', ok, h, hi => by
    rw [encodeLoop] at h
    split at h
    · obtain ⟨x, -, h⟩ := C.bind_eq_ok h
      have fin : ∀ {w : Writer}, 0 ≤ w.index → (do
            let __discr ← bufferPut P w x
            match __discr with
            | (ok, w) =>
              if ok = false then (.ok (false, w) : C _)
              else do
                let i ← P.int (i + 1)
                encodeLoop P src n fuel i w) = .ok (ok, w') → 0 ≤ w'.index := by
        intro w hi h
        obtain ⟨⟨o, w1⟩, h1, h⟩ := C.bind_eq_ok h
        have h1 := bufferPut_index h1 hi
        dsimp only at h
        split at h
        · cases h; exact h1
        · obtain ⟨j, -, h⟩ := C.bind_eq_ok h
          exact encodeLoop_index h h1
      split at h
      · obtain ⟨⟨o, w1⟩, h1, h⟩ := C.bind_eq_ok h
        have h1 := bufferPut_index h1 hi
        dsimp only at h
        split at h
        · cases h; exact h1
        · exact fin h1 h
      · rw [C.ok_bind] at h
        dsimp only at h
        rw [if_neg (by simp)] at h
        exact fin hi h
    · cases h; exact hi

/-- **C111b.**  `mu_bisync_encode` within one object: if the payload lies behind the beginning of the
destination by at least one byte more than it has control bytes (so `n + 1` bytes always suffice), or the
two do not overlap, the outcome is that of encoding into a separate buffer (C01, C05). -/
theorem C111_encode_in_place (P : Plat) (m : Mem) (dst src : Ptr) (cap n : Nat)
    (hd : 0 ≤ dst.off ∧ dst.off ≤ (m dst.blk).length) (he : 0 ≤ src.off)
    (h : dst.blk ≠ src.blk ∨
      dst.off + 1 + controls (((m src.blk).drop src.off.toNat).take n) ≤ src.off ∨
      src.off + n ≤ dst.off) :
    encodeM P m dst cap src n =
      (encode P ((m dst.blk).drop dst.off.toNat) cap ((m src.blk).drop src.off.toNat) n).map
        (placed m dst.blk dst.off.toNat) := by
  obtain ⟨bd, d'⟩ := dst
  obtain ⟨bs, e'⟩ := src
  obtain ⟨d, rfl⟩ : ∃ d : Nat, d' = d := ⟨d'.toNat, by simp only at hd; omega⟩
  obtain ⟨e, rfl⟩ : ∃ e : Nat, e' = e := ⟨e'.toNat, by simp only at he; omega⟩
  simp only [Int.toNat_natCast] at *
  have hd' : d ≤ (m bd).length := by omega
  have hmax := P.intMax_ge
  have ha : Agree m bd d ((m bd).drop d) 0 := ⟨rfl, fun _ _ => rfl⟩
  rw [encodeM, encode]
  dsimp only
  have hp := bufferPutM_eq (P := P) (m0 := m) (w := ⟨(m bd).drop d, P.toInt cap, 0⟩) (b := SOH) hd'
    (by simp)
  rw [emb_self] at hp
  dsimp only at hp
  rw [hp]
  cases hb : bufferPut P ⟨(m bd).drop d, P.toInt cap, 0⟩ SOH with
  | error e => rfl
  | ok r =>
    obtain ⟨ok, w⟩ := r
    obtain ⟨a1, a2, a3⟩ := bufferPut_agree ha (by simp) hb
    dsimp only at a3
    cases ok with
    | false => rfl
    | true =>
      simp only [Except.map, lift, C.ok_bind, Bool.true_eq_false, if_false]
      have hl := encodeLoopM_eq (P := P) (m0 := m) (bs := bs) (e := e) (n := n) hd' (by omega) (n + 1) 0
        w (by simp only [Int.natCast_zero]; omega) a1 a2 (by simp; omega)
      rw [show (((0 : Nat)) : Int) = 0 from rfl] at hl
      rw [hl]
      cases hL : encodeLoop P ((m bs).drop e) n (n + 1) 0 w with
      | error e => rfl
      | ok r =>
        obtain ⟨ok, w'⟩ := r
        cases ok with
        | false => rfl
        | true =>
          simp only [Except.map, lift, C.ok_bind, Bool.true_eq_false, if_false]
          have h0' : 0 ≤ w'.index := encodeLoop_index hL a2
          rw [bufferPutM_eq hd' h0']
          cases bufferPut P w' EOT with
          | error e => rfl
          | ok r =>
            obtain ⟨ok, w''⟩ := r
            cases ok <;> rfl

/-- **C111c.**  A received frame (with anything behind it) is decoded where it lies: afterwards the buffer
begins with SOH and the payload (the SOH being kept is C63), the bytes behind are as they were, and so
is everything else in memory. -/
theorem C111_frame_in_place (P : Plat) (m : Mem) (buf : Nat) (pre p rest : List UInt8) (cap : Nat)
    (hm : m buf = pre ++ (frame p ++ rest)) (hcap : cap ≤ (frame p ++ rest).length)
    (hlen : ((frame p ++ rest).length : Int) ≤ P.intMax) (hroom : p.length + 1 ≤ cap) :
    ∃ m', decodeM P m ⟨buf, pre.length⟩ cap ⟨buf, pre.length⟩ (frame p ++ rest).length =
        .ok (((p.length + 1 : Nat) : Int), m') ∧
      m' buf = pre ++ (1 :: p) ++ (frame p ++ rest).drop (p.length + 1) ∧
      ∀ b, b ≠ buf → m' b = m b := by
  rw [C111_decode_in_place P m ⟨buf, pre.length⟩ ⟨buf, pre.length⟩ cap _
    ⟨by simp, by simp [hm]; omega⟩ (by simp) (Or.inr (Or.inl (Int.le_refl _)))]
  simp only [hm, Int.toNat_natCast, List.drop_left]
  rw [C63_decode_frame P _ cap p rest hcap (by omega) hlen, if_pos hroom]
  refine ⟨_, rfl, ?_, ?_⟩
  · simp [emb, Mem.set, hm]
  · intro b hb
    simp [emb, Mem.set, hb]

/-- **C111d.**  A payload at the end of a buffer is framed to the front of the same buffer: if the frame
fits and the payload begins at least as many bytes (and one more) into the buffer as it has control
bytes, the buffer then begins with the frame, followed by what was there. -/
theorem C111_encode_to_front (P : Plat) (m : Mem) (buf : Nat) (pre p : List UInt8)
    (hm : m buf = pre ++ p) (hlen : ((pre ++ p).length : Int) ≤ P.intMax)
    (hgap : controls p + 1 ≤ pre.length) (hroom : (frame p).length ≤ (pre ++ p).length) :
    ∃ m', encodeM P m ⟨buf, 0⟩ (pre ++ p).length ⟨buf, pre.length⟩ p.length =
        .ok (((frame p).length : Int), m') ∧
      m' buf = frame p ++ (pre ++ p).drop (frame p).length ∧ ∀ b, b ≠ buf → m' b = m b := by
  rw [C111_encode_in_place P m ⟨buf, 0⟩ ⟨buf, pre.length⟩ _ _ ⟨by simp, by simp⟩ (by simp)
    (Or.inr (Or.inl (by simp [hm]; omega)))]
  simp only [hm, Int.toNat_natCast, List.drop_left, Int.toNat_zero, List.drop_zero]
  have h := (C01_encode_exact P (pre ++ p) (pre ++ p).length p p.length (Nat.le_refl _) (Nat.le_refl _)
    hlen).1 (by rw [List.take_length]; exact hroom)
  rw [List.take_length] at h
  rw [h]
  refine ⟨_, rfl, ?_, ?_⟩
  · simp [emb, Mem.set]
  · intro b hb
    simp [emb, Mem.set, hb]

/-- **C111e.**  Without these conditions the results are wrong: decoding to one byte behind the input
yields a format error on a frame that is decoded correctly elsewhere, and encoding a payload where it lies
yields another payload's frame. -/
theorem C111_overlap_matters :
    (decodeM Plat.lp64 (fun _ => [1, 65, 66, 4, 0, 0, 0, 0]) ⟨0, 1⟩ 7 ⟨0, 0⟩ 4).map (·.1) = .ok (-2) ∧
    (decodeM Plat.lp64 (fun _ => [1, 65, 66, 4, 0, 0, 0, 0]) ⟨0, 4⟩ 4 ⟨0, 0⟩ 4).map (·.1) = .ok 3 ∧
    (encodeM Plat.lp64 (fun _ => [65, 66, 0, 0, 0, 0, 0, 0]) ⟨0, 0⟩ 8 ⟨0, 0⟩ 2).map (fun r => (r.1, r.2 0)) =
      .ok (6, [1, 16, 1, 16, 16, 4, 0, 0]) ∧
    (encodeM Plat.lp64 (fun _ => [65, 66, 0, 0, 0, 0, 0, 0]) ⟨0, 2⟩ 6 ⟨0, 0⟩ 2).map (fun r => (r.1, r.2 0)) =
      .ok (4, [65, 66, 1, 65, 66, 4, 0, 0]) := by
  decide

/-- Non-vacuity of C111c and C111d: a frame with a stuffed byte decoded where it lies; its payload framed
again from the end of the buffer to its front. -/
example : (decodeM Plat.lp64 (fun _ => [9, 1, 65, 16, 4, 66, 4, 8]) ⟨0, 1⟩ 5 ⟨0, 1⟩ 7).map
      (fun r => (r.1, r.2 0)) = .ok (4, [9, 1, 65, 4, 66, 66, 4, 8]) ∧
    (encodeM Plat.lp64 (fun _ => [0, 0, 0, 65, 4, 66]) ⟨0, 0⟩ 6 ⟨0, 3⟩ 3).map (fun r => (r.1, r.2 0)) =
      .ok (6, [1, 65, 16, 4, 66, 4]) ∧ controls [65, 4, 66] + 1 ≤ 3 := by
  decide

end Mu.Bisync
