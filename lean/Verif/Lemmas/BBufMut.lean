import Verif.Lemmas.BBufScan

namespace Mu

theorem Mem.set_self (m : Mem) (k : Nat) : m.set k (m k) = m := by
  funext j; simp only [Mem.set]; split
  · subst_vars; rfl
  · rfl

theorem Mem.set_set (m : Mem) (k : Nat) (a b : List UInt8) : (m.set k a).set k b = m.set k b := by
  funext j; simp only [Mem.set]; split <;> rfl

theorem Mem.set_get (m : Mem) (k : Nat) (a : List UInt8) : (m.set k a) k = a := by
  simp [Mem.set]

end Mu

namespace Mu.BBuf

/-- The object of a buffer, split at the buffer. -/
theorem Valid.split {m : Mem} {b : BBuf} (h : Valid m b) : ∃ pre post,
    m b.p.blk = pre ++ view m b ++ post ∧ b.p.off = pre.length ∧
    ∀ bs, replaced m b bs = m.set b.p.blk (pre ++ bs ++ post) := by
  obtain ⟨h1, h2⟩ := h
  refine ⟨(m b.p.blk).take b.p.off.toNat, (m b.p.blk).drop (b.p.off.toNat + b.cap), ?_, ?_, ?_⟩
  · unfold view
    rw [List.append_assoc, ← List.drop_drop, List.take_append_drop, List.take_append_drop]
  · simp; omega
  · intro bs
    funext k
    simp only [replaced, Mem.set]
    split
    · subst_vars; rfl
    · rfl

theorem replaced_view {m : Mem} {b : BBuf} (h : Valid m b) : replaced m b (view m b) = m := by
  obtain ⟨pre, post, h1, _, h3⟩ := h.split
  rw [h3, ← h1, Mem.set_self]

theorem replaced_valid {m : Mem} {b : BBuf} (h : Valid m b) {bs : List UInt8}
    (hl : bs.length = b.cap) : Valid (replaced m b bs) b ∧ view (replaced m b bs) b = bs := by
  obtain ⟨pre, post, h1, h2, h3⟩ := h.split
  have hv := view_length h
  rw [h3]
  constructor
  · refine ⟨h.1, ?_⟩
    rw [Mem.set_get]
    simp; omega
  · unfold view
    rw [Mem.set_get, h2, Int.toNat_natCast, List.append_assoc, List.drop_left, ← hl, List.take_left]

theorem replaced_replaced {m : Mem} {b : BBuf} (h : Valid m b) {bs cs : List UInt8}
    (hl : bs.length = b.cap) : replaced (replaced m b bs) b cs = replaced m b cs := by
  obtain ⟨pre, post, h1, h2, h3⟩ := h.split
  have hv := view_length h
  rw [h3, h3]
  funext k
  simp only [replaced, Mem.set]
  split
  · rw [h2, Int.toNat_natCast, List.append_assoc pre bs, List.take_left]
    congr 1
    rw [← List.append_assoc]
    apply List.drop_left'
    simp; omega
  · rfl

/-- Replacing a part of a buffer. -/
theorem replaced_part {m : Mem} {b : BBuf} (h : Valid m b) {s k : Nat} (hs : s + k ≤ b.cap)
    (bs : List UInt8) :
    replaced m ⟨⟨b.p.blk, b.p.off + s⟩, k⟩ bs =
      replaced m b ((view m b).take s ++ bs ++ (view m b).drop (s + k)) := by
  obtain ⟨pre, post, h1, h2, h3⟩ := h.split
  have hv := view_length h
  rw [h3]
  funext j
  simp only [replaced, Mem.set]
  split
  · rename_i hj
    rw [hj, h2]
    have e : ((pre.length : Int) + (s : Int)).toNat = pre.length + s := by omega
    rw [e, h1]
    have e1 : (pre ++ view m b ++ post).take (pre.length + s) = pre ++ (view m b).take s := by
      rw [List.append_assoc, List.take_length_add_append, List.take_append_of_le_length (by omega)]
    have e2 : (pre ++ view m b ++ post).drop (pre.length + s + k) =
        (view m b).drop (s + k) ++ post := by
      rw [Nat.add_assoc, List.append_assoc, List.drop_length_add_append,
        List.drop_append_of_le_length (by omega)]
    rw [e1, e2]
    simp
  · rfl

theorem writeN_ok {m : Mem} {b : BBuf} (h : Valid m b) {bs : List UInt8}
    (hl : bs.length = b.cap) : m.writeN b.p bs = .ok (replaced m b bs) := by
  obtain ⟨h1, h2⟩ := h
  unfold Mem.writeN
  rw [if_pos (by omega)]
  congr 1
  funext k
  simp only [replaced, Mem.set, hl]
  split
  · subst_vars; rfl
  · rfl

theorem readN_ok {m : Mem} {b : BBuf} (h : Valid m b) : m.readN b.p b.cap = .ok (view m b) := by
  obtain ⟨h1, h2⟩ := h
  unfold Mem.readN
  rw [if_pos (by omega)]
  rfl

theorem part_valid {m : Mem} {b : BBuf} (h : Valid m b) {s k : Nat} (hs : s + k ≤ b.cap) :
    Valid m ⟨⟨b.p.blk, b.p.off + s⟩, k⟩ := (view_part h hs).1

theorem st_ok {m : Mem} {b : BBuf} (h : Valid m b) {i : Nat} (hi : i < b.cap) (v : UInt8) :
    m.st b.p i v = .ok (replaced m b ((view m b).set i v)) := by
  have hv := view_length h
  have hp := replaced_part h (s := i) (k := 1) (by omega) [v]
  have hset : (view m b).take i ++ [v] ++ (view m b).drop (i + 1) = (view m b).set i v := by
    rw [List.set_eq_take_append_cons_drop, if_pos (by omega)]; simp
  rw [hset] at hp
  rw [← hp]
  obtain ⟨h1, h2⟩ := h
  unfold Mem.st st
  rw [if_pos (by omega)]
  simp only [C.ok_bind]
  congr 1
  funext k
  simp only [replaced, Mem.set]
  split
  · rename_i hk
    subst hk
    rw [List.set_eq_take_append_cons_drop, if_pos (by omega)]; simp
  · rfl

theorem clear_ok {m : Mem} {b : BBuf} (h : Valid m b) :
    clear m b = .ok (replaced m b (List.replicate b.cap 0)) := by
  unfold clear Mem.memset
  exact writeN_ok h (by simp)

/-! ## Reversal -/

theorem reverseLoop_ok : ∀ (fuel : Nat) (m : Mem) (blk : Nat) (A mid Z : List UInt8),
    m blk = A ++ mid ++ Z → mid.length < 2 * fuel → 
    reverseLoop m blk fuel A.length ((A.length : Int) + mid.length - 1) =
      .ok (m.set blk (A ++ mid.reverse ++ Z)) := by
  intro fuel
  induction fuel with
  | zero => intro m blk A mid Z _ h; omega
  | succ fuel ih =>
    intro m blk A mid Z hm hf
    match mid, hm, hf with
    | [], hm, _ =>
      simp only [reverseLoop, List.length_nil]
      rw [if_neg (by omega)]
      simp only [List.reverse_nil, ← hm, Mem.set_self]
    | [x], hm, _ =>
      simp only [reverseLoop, List.length_singleton]
      rw [if_neg (by omega)]
      simp only [List.reverse_singleton, ← hm, Mem.set_self]
    | x :: y :: t, hm, hf =>
      obtain ⟨mid, z, hmz⟩ : ∃ mid z, y :: t = mid ++ [z] :=
        ⟨(y :: t).dropLast, (y :: t).getLast (by simp), (List.dropLast_concat_getLast _).symm⟩
      rw [hmz] at hm hf ⊢
      simp only [List.length_cons, List.length_append, List.length_nil] at hf
      have hlen : (m blk).length = A.length + (mid.length + 2) + Z.length := by
        rw [hm]; simp; omega
      simp only [reverseLoop]
      rw [if_pos (by simp; omega)]
      have l1 : m.ld ⟨blk, 0⟩ (A.length : Int) = .ok x := by
        unfold Mem.ld
        simp only [Int.zero_add]
        rw [ld_nat]
        apply ldN_some
        rw [hm]; simp
      have eb : (A.length : Int) + ((x :: (mid ++ [z])).length : Int) - 1 =
          ((A.length + (mid.length + 1) : Nat) : Int) := by simp; omega
      rw [eb]
      have l2 : m.ld ⟨blk, 0⟩ ((A.length + (mid.length + 1) : Nat) : Int) = .ok z := by
        unfold Mem.ld
        simp only [Int.zero_add]
        rw [ld_nat]
        apply ldN_some
        rw [hm]; simp
      rw [l1, C.ok_bind, l2, C.ok_bind]
      have s1 : m.st ⟨blk, 0⟩ (A.length : Int) z =
          .ok (m.set blk (A ++ z :: (mid ++ [z]) ++ Z)) := by
        unfold Mem.st
        simp only [Int.zero_add]
        rw [st_nat, stN_ok (by omega), hm]
        simp
      rw [s1, C.ok_bind]
      have a1 : (m.set blk (A ++ z :: (mid ++ [z]) ++ Z)).add ⟨blk, 0⟩ ((A.length : Int) + 1) =
          .ok ⟨blk, (A.length : Int) + 1⟩ := by
        unfold Mem.add
        simp only [Int.zero_add, Mem.set_get]
        rw [if_pos (by simp; omega)]
      rw [a1, C.ok_bind]
      have s2 : (m.set blk (A ++ z :: (mid ++ [z]) ++ Z)).st ⟨blk, 0⟩
          ((A.length + (mid.length + 1) : Nat) : Int) x =
          .ok (m.set blk ((A ++ [z]) ++ mid ++ (x :: Z))) := by
        unfold Mem.st
        simp only [Int.zero_add, Mem.set_get]
        rw [st_nat, stN_ok (by simp)]
        simp only [C.ok_bind, Mem.set_set]
        congr 2
        simp [List.set_append]
      rw [s2, C.ok_bind]
      have a2 : (m.set blk ((A ++ [z]) ++ mid ++ (x :: Z))).add ⟨blk, 0⟩
          (((A.length + (mid.length + 1) : Nat) : Int) - 1) =
          .ok ⟨blk, ((A ++ [z]).length : Int) + mid.length - 1⟩ := by
        unfold Mem.add
        simp only [Int.zero_add, Mem.set_get]
        rw [if_pos (by simp; omega)]
        congr 2
        simp only [List.length_append, List.length_singleton]
        omega
      rw [a2, C.ok_bind]
      have e : ((A.length : Int) + 1) = ((A ++ [z]).length : Int) := by simp
      simp only [e]
      rw [ih _ blk (A ++ [z]) mid (x :: Z) (Mem.set_get _ _ _) (by omega), Mem.set_set]
      simp

theorem reverse_ok {P : Plat} {m : Mem} {b : BBuf} (h : Valid m b) (h0 : 0 < b.cap)
    (hs : b.cap < P.szMod) : reverse P m b = .ok (replaced m b (view m b).reverse) := by
  have hv := view_length h
  have hA := h.at
  obtain ⟨pre, post, h1, h2, h3⟩ := h.split
  unfold reverse
  have e0 : (0 : Int) = ((0 : Nat) : Int) := rfl
  rw [e0, hA.add (i := 0) (by omega), C.ok_bind, Plat.szSub_of_le (by omega) hs,
    hA.add (by omega), C.ok_bind]
  have := reverseLoop_ok (b.cap + 1) m b.p.blk pre (view m b) post h1 (by omega)
  rw [h3, ← this]
  simp only
  congr 1 <;> omega

/-! ## Rotation -/

theorem reduceDown_ok {P : Plat} {cap : Int} (hc : 1 ≤ cap) : ∀ (n : Nat) (shift : Int) (fuel : Nat),
    shift.toNat ≤ n → n < fuel → shift ≤ P.intMax →
    ∃ q : Int, reduceDown P cap fuel shift = .ok (shift - cap * q) ∧ shift - cap * q < cap ∧
      (0 ≤ shift → 0 ≤ shift - cap * q) ∧ (shift < 0 → q = 0) := by
  have hmin := P.intMin_eq
  have hmax := P.intMax_ge
  intro n
  induction n with
  | zero =>
    intro shift fuel hn hf _
    obtain ⟨f, rfl⟩ : ∃ f, fuel = f + 1 := ⟨fuel - 1, by omega⟩
    refine ⟨0, ?_, by omega, by omega, fun _ => rfl⟩
    simp only [reduceDown]
    rw [if_neg (by omega)]
    simp
  | succ n ih =>
    intro shift fuel hn hf hs
    obtain ⟨f, rfl⟩ : ∃ f, fuel = f + 1 := ⟨fuel - 1, by omega⟩
    simp only [reduceDown]
    by_cases h : shift ≥ cap
    · rw [if_pos h, Plat.int_ok (by omega) (by omega), C.ok_bind]
      obtain ⟨q, g1, g2, g3, g4⟩ := ih (shift - cap) f (by omega) (by omega) (by omega)
      have e : shift - cap * (q + 1) = shift - cap - cap * q := by
        rw [Int.mul_add, Int.mul_one]; omega
      exact ⟨q + 1, by rw [g1, e], by omega, fun _ => by have := g3 (by omega); omega,
        fun _ => by omega⟩
    · rw [if_neg h]
      exact ⟨0, by simp, by omega, by omega, fun _ => rfl⟩

theorem reduceUp_ok {P : Plat} {cap : Int} (hc : 1 ≤ cap) (hcm : cap ≤ P.intMax) :
    ∀ (n : Nat) (shift : Int) (fuel : Nat),
    (-shift).toNat ≤ n → n < fuel → P.intMin ≤ shift → shift < cap →
    ∃ q : Int, reduceUp P cap fuel shift = .ok (shift + cap * q) ∧ 0 ≤ shift + cap * q ∧
      shift + cap * q < cap := by
  have hmin := P.intMin_eq
  have hmax := P.intMax_ge
  intro n
  induction n with
  | zero =>
    intro shift fuel hn hf _ _
    obtain ⟨f, rfl⟩ : ∃ f, fuel = f + 1 := ⟨fuel - 1, by omega⟩
    refine ⟨0, ?_, by omega, by omega⟩
    simp only [reduceUp]
    rw [if_neg (by omega)]
    simp
  | succ n ih =>
    intro shift fuel hn hf hs hlt
    obtain ⟨f, rfl⟩ : ∃ f, fuel = f + 1 := ⟨fuel - 1, by omega⟩
    simp only [reduceUp]
    by_cases h : shift < 0
    · rw [if_pos h, Plat.int_ok (by omega) (by omega), C.ok_bind]
      obtain ⟨q, g1, g2, g3⟩ := ih (shift + cap) f (by omega) (by omega) (by omega) (by omega)
      have e : shift + cap * (q + 1) = shift + cap + cap * q := by
        rw [Int.mul_add, Int.mul_one]; omega
      exact ⟨q + 1, by rw [g1, e], by omega, by omega⟩
    · rw [if_neg h]
      exact ⟨0, by simp, by omega, by omega⟩

theorem rrotate_ok {P : Plat} {m : Mem} {b : BBuf} (h : Valid m b) (h0 : 0 < b.cap)
    (hf : Fits P b) {shift : Int} (h1 : P.intMin ≤ shift) (h2 : shift ≤ P.intMax) {fuel : Nat}
    (hfu : shift.natAbs < fuel) :
    rrotate P fuel m b shift = .ok (replaced m b
      ((view m b).drop (b.cap - (shift % b.cap).toNat) ++
        (view m b).take (b.cap - (shift % b.cap).toNat))) := by
  have hv := view_length h
  have hmin := P.intMin_eq
  have hmax := P.intMax_ge
  have hsz := P.intMax_lt_szMod
  have hf' := hf
  unfold Fits at hf'
  unfold rrotate
  rw [Plat.toInt_of_le hf']
  simp only
  have hcap : (1 : Int) ≤ b.cap := by omega
  obtain ⟨q, g1, g2, g3, g4⟩ := reduceDown_ok (P := P) hcap shift.toNat shift fuel (Nat.le_refl _)
    (by omega) h2
  rw [g1, C.ok_bind]
  have hlow : P.intMin ≤ shift - b.cap * q := by
    by_cases hs : 0 ≤ shift
    · have := g3 hs; omega
    · have := g4 (by omega); subst this; simp; omega
  have hn : (-(shift - (b.cap : Int) * q)).toNat < fuel := by
    by_cases hs : 0 ≤ shift
    · have := g3 hs; omega
    · have := g4 (by omega); subst this; simp; omega
  obtain ⟨r, k1, k2, k3⟩ := reduceUp_ok (P := P) hcap hf' _ (shift - b.cap * q) fuel (Nat.le_refl _)
    hn hlow g2
  rw [k1, C.ok_bind]
  have hmod : shift - (b.cap : Int) * q + b.cap * r = shift % b.cap := by
    have e : shift - (b.cap : Int) * q + b.cap * r = shift + b.cap * (r - q) := by
      rw [Int.mul_sub]; omega
    rw [e] at k2 k3 ⊢
    rw [← Int.add_mul_emod_self_left shift b.cap (r - q), Int.emod_eq_of_lt k2 k3]
  rw [hmod] at k2 k3 ⊢
  obtain ⟨s, hs⟩ := Int.eq_ofNat_of_zero_le k2
  rw [hs] at k3 ⊢
  simp only [Int.toNat_natCast]
  by_cases hs0 : s = 0
  · subst hs0
    rw [if_neg (by omega)]
    have e1 : (view m b).drop (b.cap - 0) = [] := by
      apply List.drop_eq_nil_of_le; omega
    have e2 : (view m b).take (b.cap - 0) = view m b := by
      apply List.take_of_length_le; omega
    rw [e1, e2, List.nil_append, replaced_view h]
  · rw [if_pos (by omega), reverse_ok h h0 (by omega), C.ok_bind]
    have hrl : (view m b).reverse.length = b.cap := by simpa using hv
    obtain ⟨v1, v2⟩ := replaced_valid h hrl
    have hO : (set (fun _ => b) 1 b) 1 = b := by simp [set]
    have hb := bisect_ok (P := P) (m := replaced m b (view m b).reverse)
      (O := set (fun _ => b) 1 b) (left := 2) (right := 3) (src := 1) (index := (s : Int))
      (by rw [hO]; exact v1) (by rw [hO]; exact hf) (by omega) (by omega)
    rw [hb]
    have hpos : position b.cap (s : Int) = s := by unfold position; rw [if_neg (by omega)]; omega
    simp only [C.ok_bind, hO, hpos]
    have o2 : ∀ x y : BBuf, (if (3 : Val) ≠ NULL then set (if (2 : Val) ≠ NULL then
        set (set (fun _ => b) 1 b) 2 x else set (fun _ => b) 1 b) 3 y else
        (if (2 : Val) ≠ NULL then set (set (fun _ => b) 1 b) 2 x else set (fun _ => b) 1 b)) 2 = x := by
      intro x y; simp [NULL, set]
    have o3 : ∀ x y : BBuf, (if (3 : Val) ≠ NULL then set (if (2 : Val) ≠ NULL then
        set (set (fun _ => b) 1 b) 2 x else set (fun _ => b) 1 b) 3 y else
        (if (2 : Val) ≠ NULL then set (set (fun _ => b) 1 b) 2 x else set (fun _ => b) 1 b)) 3 = y := by
      intro x y; simp [NULL, set]
    rw [o2, o3]
    -- left half
    have el : (⟨b.p, s⟩ : BBuf) = ⟨⟨b.p.blk, b.p.off + ((0 : Nat) : Int)⟩, s⟩ := by simp
    obtain ⟨p1, p2⟩ := view_part v1 (s := 0) (k := s) (by omega)
    rw [el, reverse_ok p1 (by simp only; omega) (by simp only; omega), C.ok_bind,
      replaced_part v1 (by omega), p2, v2]
    simp only [List.drop_zero, List.take_zero, List.nil_append, Nat.zero_add]
    rw [replaced_replaced h hrl]
    have hrl2 : (((view m b).reverse.take s).reverse ++ (view m b).reverse.drop s).length =
        b.cap := by simp; omega
    obtain ⟨w1, w2⟩ := replaced_valid h hrl2
    obtain ⟨p3, p4⟩ := view_part w1 (s := s) (k := b.cap - s) (by omega)
    rw [reverse_ok p3 (by simp only; omega) (by simp only; omega), replaced_part w1 (by omega), p4, w2,
      replaced_replaced h hrl2]
    congr 2
    have el1 : ((view m b).reverse.take s).reverse.length = s := by simp; omega
    rw [List.take_left' el1, List.drop_left' el1]
    have ed : (((view m b).reverse.take s).reverse ++ (view m b).reverse.drop s).drop
        (s + (b.cap - s)) = [] := by
      apply List.drop_eq_nil_of_le; omega
    rw [ed, List.append_nil]
    have et : ((view m b).reverse.drop s).take (b.cap - s) = (view m b).reverse.drop s := by
      apply List.take_of_length_le; simp; omega
    rw [et]
    congr 1
    · rw [List.take_reverse, List.reverse_reverse, hv]
    · rw [List.drop_reverse, List.reverse_reverse, hv]

theorem rrotate_zero {P : Plat} {m : Mem} {b : BBuf} (h0 : b.cap = 0) (shift : Int) (fuel : Nat) :
    ∀ m', rrotate P fuel m b shift ≠ .ok m' := by
  have hc : P.toInt b.cap = 0 := by rw [h0]; simp [Plat.toInt]
  have hd : ∀ (fuel : Nat) (s : Int), 0 ≤ s → ∀ v, reduceDown P 0 fuel s ≠ .ok v := by
    intro fuel
    induction fuel with
    | zero => intro s _ v h; cases h
    | succ f ih =>
      intro s hs v h
      simp only [reduceDown] at h
      rw [if_pos hs, Int.sub_zero] at h
      obtain ⟨a, e1, e2⟩ := C.bind_eq_ok h
      unfold Plat.int at e1
      split at e1
      · cases e1; exact ih _ hs _ e2
      · cases e1
  have hu : ∀ (fuel : Nat) (s : Int), s < 0 → ∀ v, reduceUp P 0 fuel s ≠ .ok v := by
    intro fuel
    induction fuel with
    | zero => intro s _ v h; cases h
    | succ f ih =>
      intro s hs v h
      simp only [reduceUp] at h
      rw [if_pos hs, Int.add_zero] at h
      obtain ⟨a, e1, e2⟩ := C.bind_eq_ok h
      unfold Plat.int at e1
      split at e1
      · cases e1; exact ih _ hs _ e2
      · cases e1
  intro m' h
  unfold rrotate at h
  rw [hc] at h
  simp only at h
  obtain ⟨a, e1, e2⟩ := C.bind_eq_ok h
  by_cases hs : 0 ≤ shift
  · exact hd _ _ hs _ e1
  · cases fuel with
    | zero => cases e1
    | succ f =>
      simp only [reduceDown] at e1
      rw [if_neg hs] at e1
      cases e1
      obtain ⟨a, e1, e2⟩ := C.bind_eq_ok e2
      exact hu _ _ (by omega) _ e1

/-! ## Shifting -/

theorem rshift_ok {P : Plat} {m : Mem} {b : BBuf} (h : Valid m b) (hsz : b.cap < P.szMod)
    {shift : Int} (h1 : P.intMin < shift) (h2 : shift ≤ P.intMax) :
    rshift P m b shift = .ok (replaced m b (
      if 0 ≤ shift then List.replicate (min shift.toNat b.cap) 0 ++
          (view m b).take (b.cap - shift.toNat)
        else (view m b).drop (-shift).toNat ++ List.replicate (min (-shift).toNat b.cap) 0)) := by
  have hv := view_length h
  have hmin := P.intMin_eq
  have hmax := P.intMax_ge
  have hk : ∀ k : Nat, (k : Int) ≤ P.intMax → P.toSz (k : Int) = k := by
    intro k hk; rw [Plat.toSz_int (by omega) hk]; simp
  unfold rshift
  simp only
  by_cases hs : shift < 0
  · obtain ⟨k, hk2⟩ : ∃ k : Nat, shift = -(k : Int) := ⟨(-shift).toNat, by omega⟩
    subst hk2
    simp only [hs, decide_true, if_true, Int.neg_neg, Int.toNat_natCast]
    rw [Plat.int_ok (by omega) (by omega), C.ok_bind, if_neg (show ¬ (k : Int) = 0 by omega),
      if_neg (show ¬ (0 : Int) ≤ -(k : Int) by omega), hk k (by omega)]
    by_cases hc : k ≥ b.cap
    · rw [if_pos hc, clear_ok h, Nat.min_eq_right hc, List.drop_eq_nil_of_le (by omega),
        List.nil_append]
    · rw [if_neg hc, Plat.szSub_of_le (by omega) hsz, h.at.add (by omega), C.ok_bind]
      obtain ⟨p1, p2⟩ := view_part h (s := k) (k := b.cap - k) (by omega)
      have hr := readN_ok p1
      unfold Mem.memmove
      rw [hr, C.ok_bind, p2]
      have hlen : (((view m b).drop k).take (b.cap - k)).length = b.cap - k := by simp; omega
      have pv := part_valid h (s := 0) (k := b.cap - k) (by omega)
      have hw := writeN_ok pv hlen
      rw [replaced_part h (by omega)] at hw
      simp only [Int.natCast_zero, Int.add_zero, List.take_zero, List.nil_append,
        Nat.zero_add] at hw
      rw [hw, C.ok_bind]
      have et : ((view m b).drop k).take (b.cap - k) = (view m b).drop k := by
        apply List.take_of_length_le; simp; omega
      rw [et]
      have hl2 : ((view m b).drop k ++ (view m b).drop (b.cap - k)).length = b.cap := by
        simp; omega
      obtain ⟨w1, w2⟩ := replaced_valid h hl2
      rw [w1.at.add (by rw [w2]; omega), C.ok_bind]
      unfold Mem.memset
      have pv2 := part_valid w1 (s := b.cap - k) (k := k) (by omega)
      have hw2 := writeN_ok pv2 (bs := List.replicate k 0) (by simp)
      rw [replaced_part w1 (by omega), w2, replaced_replaced h hl2] at hw2
      rw [hw2, Nat.min_eq_left (by omega)]
      congr 2
      rw [List.drop_eq_nil_of_le (as := (view m b).drop k ++ (view m b).drop (b.cap - k))
        (by omega), List.append_nil, List.take_left' (by simp; omega)]
  · obtain ⟨k, hk2⟩ := Int.eq_ofNat_of_zero_le (show 0 ≤ shift by omega)
    subst hk2
    simp only [hs, decide_false, Bool.false_eq_true, if_false, Int.toNat_natCast]
    rw [if_pos (show (0 : Int) ≤ (k : Int) by omega), C.ok_bind]
    by_cases hk0 : k = 0
    · subst hk0
      rw [if_pos (show ((0 : Nat) : Int) = 0 from rfl), Nat.sub_zero, List.take_of_length_le (by omega)]
      simp [replaced_view h]
    rw [if_neg (by omega), hk k (by omega)]
    by_cases hc : k ≥ b.cap
    · rw [if_pos hc, clear_ok h, Nat.min_eq_right hc, show b.cap - k = 0 by omega]
      simp
    · rw [if_neg hc, Plat.szSub_of_le (by omega) hsz, h.at.add (by omega), C.ok_bind]
      obtain ⟨p1, p2⟩ := view_part h (s := 0) (k := b.cap - k) (by omega)
      have hr := readN_ok p1
      simp only [Int.natCast_zero, Int.add_zero] at hr p2
      unfold Mem.memmove
      rw [hr, C.ok_bind, p2]
      have hlen : (((view m b).drop 0).take (b.cap - k)).length = b.cap - k := by simp; omega
      have pv := part_valid h (s := k) (k := b.cap - k) (by omega)
      have hw := writeN_ok pv hlen
      rw [replaced_part h (by omega)] at hw
      rw [hw, C.ok_bind]
      have hl2 : ((view m b).take k ++ ((view m b).drop 0).take (b.cap - k) ++
          (view m b).drop (k + (b.cap - k))).length = b.cap := by
        simp; omega
      obtain ⟨w1, w2⟩ := replaced_valid h hl2
      unfold Mem.memset
      have pv2 := part_valid w1 (s := 0) (k := k) (by omega)
      have hw2 := writeN_ok pv2 (bs := List.replicate k 0) (by simp)
      rw [replaced_part w1 (by omega), w2, replaced_replaced h hl2] at hw2
      simp only [Int.natCast_zero, Int.add_zero, List.take_zero, List.nil_append,
        Nat.zero_add] at hw2
      rw [hw2, Nat.min_eq_left (by omega)]
      rw [List.append_assoc, List.drop_left' (by simp; omega),
        List.drop_eq_nil_of_le (as := view m b) (i := k + (b.cap - k)) (by omega)]
      simp

end Mu.BBuf
