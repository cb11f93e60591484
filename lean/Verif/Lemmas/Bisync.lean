import Verif.Model.Bisync
import Verif.Spec.Bisync

namespace Mu.Bisync
open Spec

/-- The writer after `pre` has been written to a destination initially holding `dst`. -/
def mkW (dst : List UInt8) (c : Int) (pre : List UInt8) : Writer :=
  { wbuf := pre ++ dst.drop pre.length, capacity := c, index := pre.length }

theorem bufferPut_mkW {P : Plat} {dst : List UInt8} {c : Int} {pre : List UInt8} {b : UInt8}
    (h1 : c ≤ P.intMax) (h2 : c ≤ dst.length) :
    bufferPut P (mkW dst c pre) b =
      if (pre.length : Int) < c then .ok (true, mkW dst c (pre ++ [b]))
      else .ok (false, mkW dst c pre) := by
  unfold bufferPut mkW
  by_cases h : (pre.length : Int) < c
  · have h3 : ¬ (c ≤ (pre.length : Int)) := by omega
    have hlt : pre.length < dst.length := by omega
    simp only [ge_iff_le, h3, if_false, h, if_true]
    rw [st_nat, stN_ok (by simp; omega)]
    simp only [C.ok_bind]
    rw [Plat.int_ok_nonneg (by omega) (by omega)]
    simp only [C.ok_bind]
    congr 2
    rw [List.set_append_right _ _ (by omega)]
    have := List.drop_eq_getElem_cons hlt
    have h9 : (dst.drop pre.length).set 0 b = b :: dst.drop (pre.length + 1) := by
      rw [this, List.set_cons_zero]
    simp [h9]
  · have h3 : c ≤ (pre.length : Int) := by omega
    simp [h, h3]

theorem stuff_nil : stuff [] = [] := rfl
theorem stuff_cons (b : UInt8) (p : List UInt8) :
    stuff (b :: p) = (if isControl b then [16, b] else [b]) ++ stuff p := by
  simp [stuff]

theorem isControl_iff (b : UInt8) : (b = EOT ∨ b = SOH ∨ b = DLE) ↔ isControl b = true := by
  simp [isControl, EOT, SOH, DLE]; grind

/-- What the writer holds after trying to write `out` after `pre`, stopping at the capacity. -/
def attempt (dst : List UInt8) (c : Int) (pre out : List UInt8) : Bool × Writer :=
  if ((pre ++ out).length : Int) ≤ c then (true, mkW dst c (pre ++ out))
  else (false, mkW dst c ((pre ++ out).take c.toNat))

theorem attempt_full {dst : List UInt8} {c : Int} {pre out : List UInt8}
    (h : ¬ (pre.length : Int) < c) (hc : (pre.length : Int) ≤ max c 0) (ho : out ≠ []) :
    attempt dst c pre out = (false, mkW dst c pre) := by
  have : 0 < out.length := List.length_pos_iff.2 ho
  have h2 : ¬ (((pre ++ out).length : Int) ≤ c) := by simp; omega
  unfold attempt
  rw [if_neg h2, List.take_append_of_le_length (by omega), List.take_of_length_le (by omega)]

theorem encodeLoop_eq {P : Plat} {dst src : List UInt8} {n : Nat} {c : Int}
    (hn : n ≤ src.length) (hc1 : c ≤ P.intMax) (hc2 : c ≤ dst.length) :
    ∀ (fuel i : Nat) (pre : List UInt8), i ≤ n → n < i + fuel → i < pre.length →
      (pre.length : Int) ≤ c →
      encodeLoop P src n fuel i (mkW dst c pre)
        = .ok (attempt dst c pre (stuff ((src.take n).drop i))) := by
  intro fuel
  induction fuel with
  | zero => intro i pre h1 h2; omega
  | succ fuel ih =>
    intro i pre h1 h2 h3 h4
    unfold encodeLoop
    rw [Plat.toSz_int (by omega) (by omega)]
    by_cases hi : i < n
    · simp only [Int.toNat_natCast, hi, if_true]
      rw [ld_nat, ldN_ok (by omega)]
      simp only [C.ok_bind]
      have hd : (src.take n).drop i = src[i] :: (src.take n).drop (i + 1) := by
        rw [List.drop_eq_getElem_cons (by simp; omega)]; simp
      rw [hd, stuff_cons]
      generalize hR : stuff ((src.take n).drop (i + 1)) = R at *
      generalize src[i] = b at *
      by_cases hb : isControl b = true
      · have hb' := (isControl_iff b).2 hb
        simp only [hb', hb, if_true]
        rw [bufferPut_mkW hc1 hc2]
        by_cases h5 : (pre.length : Int) < c
        · simp only [h5, if_true, C.ok_bind]
          simp only [reduceCtorEq, if_false]
          rw [bufferPut_mkW hc1 hc2]
          by_cases h6 : ((pre ++ [DLE]).length : Int) < c
          · simp only [h6, if_true, C.ok_bind, reduceCtorEq, if_false]
            simp only [List.length_append, List.length_cons, List.length_nil] at h6
            rw [Plat.int_ok_nonneg (by omega) (by omega)]
            simp only [C.ok_bind]
            have := ih (i + 1) (pre ++ [DLE] ++ [b]) (by omega) (by omega) (by simp; omega)
              (by simp; omega)
            push_cast at this
            rw [this, hR]
            simp [attempt, DLE]
          · simp only [h6, if_false, C.ok_bind, if_true]
            have := attempt_full (dst := dst) (pre := pre ++ [DLE]) (out := b :: R) h6
              (by simp; omega) (by simp)
            rw [← this]; simp [attempt, DLE]
        · simp only [h5, if_false, C.ok_bind, if_true]
          rw [attempt_full h5 (by omega) (by simp)]
      · have hb' : ¬ (b = EOT ∨ b = SOH ∨ b = DLE) := fun h => hb ((isControl_iff b).1 h)
        simp only [hb', hb, if_false, C.ok_bind, reduceCtorEq]
        rw [bufferPut_mkW hc1 hc2]
        by_cases h5 : (pre.length : Int) < c
        · simp only [h5, if_true, C.ok_bind, reduceCtorEq, if_false]
          rw [Plat.int_ok_nonneg (by omega) (by omega)]
          simp only [C.ok_bind]
          have := ih (i + 1) (pre ++ [b]) (by omega) (by omega) (by simp; omega) (by simp; omega)
          push_cast at this
          rw [this, hR]
          simp [attempt]
        · simp only [h5, if_false, C.ok_bind, if_true]
          rw [attempt_full h5 (by omega) (by simp)]
    · simp only [Int.toNat_natCast, hi, if_false]
      have : (src.take n).drop i = [] := List.drop_eq_nil_of_le (by simp; omega)
      simp [this, stuff_nil, attempt, h4]

/-- Complete behaviour of `mu_bisync_encode`: it writes the longest prefix of the frame that fits
in the (int-converted) capacity. -/
theorem encode_eq (P : Plat) (dst : List UInt8) (cap : Nat) (src : List UInt8) (n : Nat)
    (hcap : cap ≤ dst.length) (hn : n ≤ src.length) :
    encode P dst cap src n =
      .ok (if ((frame (src.take n)).length : Int) ≤ P.toInt cap then
             ((frame (src.take n)).length : Int) else errOflow,
           (frame (src.take n)).take (P.toInt cap).toNat ++
             dst.drop (min (frame (src.take n)).length (P.toInt cap).toNat)) := by
  have hc1 := P.toInt_le_max cap
  have hc2 : P.toInt cap ≤ dst.length := by have := P.toInt_le cap; omega
  unfold encode
  generalize P.toInt cap = c at *
  have h0 : ({ wbuf := dst, capacity := c, index := 0 } : Writer) = mkW dst c [] := by
    simp [mkW]
  simp only [h0]
  rw [bufferPut_mkW hc1 hc2]
  have hlen : (frame (src.take n)).length = (stuff (src.take n)).length + 2 := by
    simp [frame]
  by_cases h1 : (([] : List UInt8).length : Int) < c
  · simp only [h1, if_true, C.ok_bind, List.nil_append, reduceCtorEq, if_false]
    have := encodeLoop_eq (P := P) (dst := dst) (c := c) hn hc1 hc2 (n + 1) 0 [SOH]
      (by omega) (by omega) (by simp) (by simp at h1 ⊢; omega)
    simp only [Int.natCast_zero, List.drop_zero] at this
    rw [this]
    simp only [C.ok_bind]
    unfold attempt
    by_cases h2 : ((([SOH] ++ stuff (src.take n)).length : Nat) : Int) ≤ c
    · simp only [h2, if_true, reduceCtorEq, if_false]
      rw [bufferPut_mkW hc1 hc2]
      by_cases h3 : ((([SOH] ++ stuff (src.take n)).length : Nat) : Int) < c
      · simp only [h3, if_true, C.ok_bind, reduceCtorEq, if_false]
        have h4 : ((frame (src.take n)).length : Int) ≤ c := by
          simp at h3; omega
        rw [if_pos h4]
        have h5 : (frame (src.take n)).length ≤ c.toNat := by omega
        rw [List.take_of_length_le h5, Nat.min_eq_left h5]
        simp [mkW, frame, SOH, EOT]
      · simp only [h3, if_false, C.ok_bind, if_true]
        have h4 : ¬ ((frame (src.take n)).length : Int) ≤ c := by
          simp at h3; omega
        rw [if_neg h4]
        have h5 : c.toNat ≤ (frame (src.take n)).length := by omega
        rw [Nat.min_eq_right h5]
        have h6 : c.toNat = (([SOH] ++ stuff (src.take n)).length) := by omega
        rw [h6]
        simp [mkW, frame, SOH]
    · simp only [h2, if_false, if_true]
      have h4 : ¬ ((frame (src.take n)).length : Int) ≤ c := by
        simp at h2; omega
      rw [if_neg h4]
      have h5 : c.toNat ≤ (frame (src.take n)).length := by omega
      rw [Nat.min_eq_right h5]
      have h6 : c.toNat ≤ (([SOH] ++ stuff (src.take n)).length) := by omega
      have h7 : frame (src.take n) = ([SOH] ++ stuff (src.take n)) ++ [4] := by simp [frame, SOH]
      rw [h7, List.take_append_of_le_length h6]
      simp only [mkW, List.length_take, Nat.min_eq_left h6]
  · simp only [h1, if_false, C.ok_bind, if_true]
    have h4 : ¬ ((frame (src.take n)).length : Int) ≤ c := by
      simp at h1; omega
    rw [if_neg h4]
    have : c.toNat = 0 := by simp at h1; omega
    simp [this, mkW]

/-! ## decode -/

/-- Pure form of the decode loop: bytes written and the final value of `b`. -/
def dscan : Bool → UInt8 → List UInt8 → List UInt8 × UInt8
  | _, last, [] => ([], last)
  | true, _, b :: t => (b :: (dscan false b t).1, (dscan false b t).2)
  | false, _, b :: t =>
    if b = DLE then dscan true b t
    else if b = EOT then ([], b)
    else (b :: (dscan false b t).1, (dscan false b t).2)

theorem decodeLoop_eq {P : Plat} {dst enc : List UInt8} {n : Nat} {c : Int}
    (hn : n ≤ enc.length) (hnI : (n : Int) ≤ P.intMax) (hc1 : c ≤ P.intMax)
    (hc2 : c ≤ dst.length) :
    ∀ (fuel i : Nat) (last : Option UInt8) (l0 : UInt8) (esc : Bool) (pre : List UInt8),
      i ≤ n → n < i + fuel → (pre.length : Int) ≤ max c 0 → (i < n ∨ last = some l0) →
      ∃ b', decodeLoop P enc n fuel i last esc (mkW dst c pre)
        = .ok ((attempt dst (max c 0) pre (dscan esc l0 ((enc.take n).drop i)).1).1, b',
              { (attempt dst (max c 0) pre (dscan esc l0 ((enc.take n).drop i)).1).2 with
                capacity := c }) ∧
        ((attempt dst (max c 0) pre (dscan esc l0 ((enc.take n).drop i)).1).1 = true →
          b' = some (dscan esc l0 ((enc.take n).drop i)).2) := by
  intro fuel
  induction fuel with
  | zero => intro i _ _ _ _ h1 h2; omega
  | succ fuel ih =>
    intro i last l0 esc pre h1 h2 h4 h5
    unfold decodeLoop
    rw [Plat.toSz_int (by omega) (by omega)]
    by_cases hi : i < n
    · simp only [Int.toNat_natCast, hi, if_true]
      rw [ld_nat, ldN_ok (by omega)]
      simp only [C.ok_bind]
      have hd : (enc.take n).drop i = enc[i] :: (enc.take n).drop (i + 1) := by
        rw [List.drop_eq_getElem_cons (by simp; omega)]; simp
      rw [hd]
      generalize enc[i] = b at *
      have key : ∀ (hput : True), ∃ b',
          (do
            let x ← bufferPut P (mkW dst c pre) b
            if x.1 = false then (.ok (false, some b, x.2) : C (Bool × Option UInt8 × Writer))
            else do
            let i ← P.int ((i : Int) + 1)
            decodeLoop P enc n fuel i (some b) false x.2) =
          .ok ((attempt dst (max c 0) pre
                (b :: (dscan false b ((enc.take n).drop (i + 1))).1)).1, b',
              { (attempt dst (max c 0) pre
                (b :: (dscan false b ((enc.take n).drop (i + 1))).1)).2 with capacity := c }) ∧
          ((attempt dst (max c 0) pre
                (b :: (dscan false b ((enc.take n).drop (i + 1))).1)).1 = true →
            b' = some (dscan false b ((enc.take n).drop (i + 1))).2) := by
        intro _
        rw [bufferPut_mkW hc1 hc2]
        by_cases h6 : (pre.length : Int) < c
        · simp only [h6, if_true, C.ok_bind, reduceCtorEq, if_false]
          rw [Plat.int_ok_nonneg (by omega) (by omega)]
          simp only [C.ok_bind]
          obtain ⟨b', hb1, hb2⟩ := ih (i + 1) (some b) b false (pre ++ [b]) (by omega) (by omega)
            (by simp; omega) (Or.inr rfl)
          push_cast at hb1
          refine ⟨b', ?_, ?_⟩
          · rw [hb1]; simp [attempt]
          · intro h; apply hb2; rw [← h]; simp [attempt]
        · simp only [h6, if_false, C.ok_bind, if_true]
          rw [attempt_full (by omega) (by omega) (by simp)]
          refine ⟨_, rfl, ?_⟩
          simp
      cases esc with
      | true =>
        simp only [if_true, dscan]
        exact key trivial
      | false =>
        simp only [Bool.false_eq_true, if_false, dscan]
        by_cases hD : b = DLE
        · simp only [hD, if_true]
          rw [Plat.int_ok_nonneg (by omega) (by omega)]
          simp only [C.ok_bind]
          obtain ⟨b', hb1, hb2⟩ := ih (i + 1) (some DLE) DLE true pre (by omega) (by omega)
            h4 (Or.inr rfl)
          push_cast at hb1
          exact ⟨b', hb1, hb2⟩
        · by_cases hE : b = EOT
          · have hDE : ¬ EOT = DLE := by decide
            simp only [hE, hDE, if_false, if_true]
            refine ⟨_, ?_, fun _ => rfl⟩
            have : (((pre ++ []).length : Nat) : Int) ≤ max c 0 := by simpa using h4
            simp only [attempt, this, if_true]
            simp [mkW]
          · simp only [hD, hE, if_false]
            exact key trivial
    · simp only [Int.toNat_natCast, hi, if_false]
      have : (enc.take n).drop i = [] := List.drop_eq_nil_of_le (by simp; omega)
      rw [this]
      have hl : last = some l0 := h5.resolve_left hi
      refine ⟨last, ?_, fun _ => by simp [dscan, hl]⟩
      have : (((pre ++ []).length : Nat) : Int) ≤ max c 0 := by simpa using h4
      simp only [dscan, attempt, this, if_true]
      simp [mkW]

/-- Complete behaviour of `mu_bisync_decode` for inputs of at most INT_MAX bytes. -/
theorem decode_eq (P : Plat) (dst : List UInt8) (cap : Nat) (enc : List UInt8) (n : Nat)
    (hcap : cap ≤ dst.length) (hn : n ≤ enc.length) (hnI : (n : Int) ≤ P.intMax) :
    decode P dst cap enc n =
      .ok (if (enc.take n).head? ≠ some SOH then (errFormat, dst)
           else
            let r := dscan false 0 (enc.take n)
            (if (r.1.length : Int) ≤ max (P.toInt cap) 0 then
               (if r.2 = EOT then (r.1.length : Int) else errFormat)
             else errOflow,
             r.1.take (P.toInt cap).toNat ++ dst.drop (min r.1.length (P.toInt cap).toNat))) := by
  have hc1 := P.toInt_le_max cap
  have hc2 : P.toInt cap ≤ dst.length := by have := P.toInt_le cap; omega
  unfold decode
  generalize P.toInt cap = c at *
  by_cases hn0 : n < 1
  · have : n = 0 := by omega
    subst this
    simp
  · have hpos : 0 < enc.length := by omega
    have hld : ld enc 0 = .ok enc[0] := by
      have : ld enc ((0 : Nat) : Int) = .ok enc[0] := by rw [ld_nat, ldN_ok hpos]
      exact this
    simp only [hn0, if_false, hld, C.ok_bind]
    have hhd : (enc.take n).head? = some enc[0] := by
      rw [List.head?_take, if_neg (by omega)]
      rw [List.head?_eq_getElem?, List.getElem?_eq_getElem hpos]
    rw [hhd]
    by_cases h0 : enc[0] = SOH
    · simp only [h0, ne_eq, not_true, decide_false, Bool.false_eq_true, if_false]
      obtain ⟨b', hb1, hb2⟩ := decodeLoop_eq (dst := dst) (c := c) hn hnI hc1 hc2
        (n + 1) 0 none 0 false []
        (by omega) (by omega) (by simp; omega) (Or.inl (by omega))
      have h00 : ({ wbuf := dst, capacity := c, index := 0 } : Writer) = mkW dst c [] := by
        simp [mkW]
      rw [h00]
      have hz : ((0 : Nat) : Int) = (0 : Int) := rfl
      rw [hz] at hb1
      rw [hb1]
      simp only [List.drop_zero] at hb2 ⊢
      simp only [C.ok_bind]
      generalize dscan false 0 (enc.take n) = r at *
      unfold attempt at *
      by_cases h2 : (r.1.length : Int) ≤ max c 0
      · have h2' : ((([] ++ r.1).length : Nat) : Int) ≤ max c 0 := by simpa using h2
        simp only [h2', if_true, forall_const] at hb2 ⊢
        subst hb2
        have h5 : r.1.length ≤ c.toNat := by omega
        rw [List.take_of_length_le h5, Nat.min_eq_left h5]
        by_cases h6 : r.2 = EOT
        · simp [h6, mkW, h2]
        · simp [h6, mkW, h2]
      · have h2' : ¬ ((([] ++ r.1).length : Nat) : Int) ≤ max c 0 := by simpa using h2
        simp only [h2', h2, if_false, if_true]
        have h5 : c.toNat ≤ r.1.length := by omega
        have h7 : (max c 0).toNat = c.toNat := by omega
        rw [Nat.min_eq_right h5]
        simp [mkW, h7, Nat.min_eq_left h5]
    · simp [h0]

/-! ## Facts about framing -/

theorem dscan_stuff (p : List UInt8) (l : UInt8) (rest : List UInt8) :
    dscan false l (stuff p ++ 4 :: rest) = (p, EOT) := by
  induction p generalizing l with
  | nil => simp [stuff_nil, dscan, DLE, EOT]
  | cons b p ih =>
    rw [stuff_cons]
    by_cases hb : isControl b = true
    · simp [hb, dscan, DLE, ih]
    · have hb' : ¬ (b = EOT ∨ b = SOH ∨ b = DLE) := fun h => hb ((isControl_iff b).1 h)
      have h1 : ¬ b = DLE := fun h => hb' (by simp [h])
      have h2 : ¬ b = EOT := fun h => hb' (by simp [h])
      simp [hb, dscan, h1, h2, ih]

theorem dscan_frame (p : List UInt8) (l : UInt8) (rest : List UInt8) :
    dscan false l (frame p ++ rest) = (SOH :: p, EOT) := by
  have h1 : ¬ (1 : UInt8) = DLE := by decide
  have h2 : ¬ (1 : UInt8) = EOT := by decide
  have := dscan_stuff p 1 rest
  simp only [frame, List.cons_append, List.append_assoc, List.nil_append] at this ⊢
  simp [dscan, h1, h2, this, SOH]

theorem dscan_length (e : Bool) (l : UInt8) (x : List UInt8) : (dscan e l x).1.length ≤ x.length := by
  induction x generalizing e l with
  | nil => cases e <;> simp [dscan]
  | cons b t ih =>
    cases e with
    | true => simp [dscan]; exact ih _ _
    | false =>
      simp only [dscan]
      split
      · have := ih true b; simp; omega
      · split
        · simp
        · have := ih false b; simp; omega

theorem dscan_body {e p : List UInt8} (h : Body e p) (l : UInt8) (rest : List UInt8) :
    ∃ l', dscan false l (e ++ rest) = (p ++ (dscan false l' rest).1, (dscan false l' rest).2) := by
  induction h generalizing l with
  | nil => exact ⟨l, by simp⟩
  | @plain b e p h1 h2 _ ih =>
    obtain ⟨l', hl⟩ := ih b
    refine ⟨l', ?_⟩
    have h1' : ¬ b = DLE := h1
    have h2' : ¬ b = EOT := h2
    simp [dscan, h1', h2', hl]
  | @esc b e p _ ih =>
    obtain ⟨l', hl⟩ := ih b
    refine ⟨l', ?_⟩
    simp [dscan, DLE, hl]

theorem body_append {e p e' p' : List UInt8} (h : Body e p) (h' : Body e' p') :
    Body (e ++ e') (p ++ p') := by
  induction h with
  | nil => simpa using h'
  | plain h1 h2 _ ih => exact Body.plain h1 h2 ih
  | esc _ ih => exact Body.esc ih

theorem body_stuff (p : List UInt8) : Body (stuff p) p := by
  induction p with
  | nil => exact Body.nil
  | cons b p ih =>
    rw [stuff_cons]
    by_cases hb : isControl b = true
    · simp only [hb, if_true]; exact Body.esc ih
    · simp only [hb]
      have hb' : ¬ (b = EOT ∨ b = SOH ∨ b = DLE) := fun h => hb ((isControl_iff b).1 h)
      exact Body.plain (fun h => hb' (by simp [h, DLE])) (fun h => hb' (by simp [h, EOT])) ih

/-- Every input splits into complete tokens followed by: nothing, a lone DLE, or an EOT. -/
theorem body_split (x : List UInt8) : ∃ e p r, Body e p ∧ x = e ++ r ∧
    (r = [] ∨ r = [16] ∨ ∃ r', r = 4 :: r') := by
  suffices h : ∀ n (x : List UInt8), x.length ≤ n → ∃ e p r, Body e p ∧ x = e ++ r ∧
      (r = [] ∨ r = [16] ∨ ∃ r', r = 4 :: r') from h _ x (Nat.le_refl _)
  intro n
  induction n with
  | zero =>
    intro x hx
    have : x = [] := List.length_eq_zero_iff.1 (by omega)
    exact ⟨[], [], [], Body.nil, by simp [this], Or.inl rfl⟩
  | succ n ih =>
    intro x hx
    match x with
    | [] => exact ⟨[], [], [], Body.nil, by simp, Or.inl rfl⟩
    | b :: t =>
      by_cases hD : b = 16
      · subst hD
        match t with
        | [] => exact ⟨[], [], [16], Body.nil, by simp, Or.inr (Or.inl rfl)⟩
        | b' :: t' =>
          obtain ⟨e, p, r, h1, h2, h3⟩ := ih t' (by simp at hx; omega)
          exact ⟨16 :: b' :: e, b' :: p, r, Body.esc h1, by simp [h2], h3⟩
      · by_cases hE : b = 4
        · subst hE
          exact ⟨[], [], 4 :: t, Body.nil, by simp, Or.inr (Or.inr ⟨t, rfl⟩)⟩
        · obtain ⟨e, p, r, h1, h2, h3⟩ := ih t (by simp at hx; omega)
          exact ⟨b :: e, b :: p, r, Body.plain hD hE h1, by simp [h2], h3⟩

theorem last_eot_iff {e p : List UInt8} (hb : Body e p) : ∀ l : UInt8, l ≠ EOT →
    ((dscan false l e).2 = EOT ↔ EndsEscapedEot e) := by
  have back : ∀ l : UInt8, EndsEscapedEot e → (dscan false l e).2 = EOT := by
    rintro l ⟨e', p', hb', rfl⟩
    obtain ⟨l', h⟩ := dscan_body hb' l [16, 4]
    rw [h]
    simp [dscan, DLE, EOT]
  intro l hl
  refine ⟨?_, back l⟩
  clear back
  induction hb generalizing l with
  | nil => intro h; exact absurd h hl
  | @plain b e p h1 h2 hb ih =>
    intro h
    have h1' : ¬ b = DLE := h1
    have h2' : ¬ b = EOT := h2
    simp only [dscan, h1', h2', if_false] at h
    obtain ⟨e', p', hb', rfl⟩ := ih b h2' h
    exact ⟨b :: e', b :: p', Body.plain h1 h2 hb', rfl⟩
  | @esc b e p hb ih =>
    intro h
    have h16 : (16 : UInt8) = DLE := rfl
    simp only [dscan, h16, if_true] at h
    by_cases h4 : b = EOT
    · cases hb with
      | nil => exact ⟨[], [], Body.nil, by simp [h4, EOT]⟩
      | plain h1 h2 hb' =>
        rename_i b2 e2 p2
        have h1' : ¬ b2 = DLE := h1
        have h2' : ¬ b2 = EOT := h2
        have : (dscan false 0 (b2 :: e2)).2 = EOT := by simpa [dscan, h1', h2'] using h
        obtain ⟨e', p', hb', he⟩ := ih 0 (by decide) this
        exact ⟨16 :: b :: e', b :: p', Body.esc hb', by simp [he]⟩
      | esc hb' =>
        rename_i b2 e2 p2
        have : (dscan false 0 (16 :: b2 :: e2)).2 = EOT := by simpa [dscan, h16] using h
        obtain ⟨e', p', hb', he⟩ := ih 0 (by decide) this
        exact ⟨16 :: b :: e', b :: p', Body.esc hb', by simp [he]⟩
    · obtain ⟨e', p', hb', rfl⟩ := ih b h4 h
      exact ⟨16 :: b :: e', b :: p', Body.esc hb', rfl⟩

end Mu.Bisync
