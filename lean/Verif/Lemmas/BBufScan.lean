import Verif.Lemmas.BBuf

namespace Mu

theorem Plat.szMod_dvd (P : Plat) : ((2 ^ P.ib : Nat) : Int) ∣ (P.szMod : Int) := by
  unfold Plat.szMod
  exact Int.natCast_dvd_natCast.mpr (Nat.pow_dvd_pow 2 P.hsb)

theorem Plat.toInt_toSz {P : Plat} {x : Int} (h1 : P.intMin ≤ x) (h2 : x ≤ P.intMax) :
    P.toInt (P.toSz x) = x := by
  have hM : (0 : Int) < P.szMod := by have := P.szMod_pos; omega
  have hnn := Int.emod_nonneg x (Int.ne_of_gt hM)
  unfold Plat.toInt Plat.toSz
  rw [Int.toNat_of_nonneg hnn]
  have e : Int.bmod (x % (P.szMod : Int)) (2 ^ P.ib) = Int.bmod x (2 ^ P.ib) := by
    rw [← Int.emod_bmod (x := x % (P.szMod : Int)), Int.emod_emod_of_dvd _ P.szMod_dvd,
      Int.emod_bmod]
  rw [e]
  have hp := P.pow_split
  unfold Plat.intMin at h1
  unfold Plat.intMax at h2
  rw [Int.bmod_eq_of_le_mul_two] <;> push_cast <;> omega

/-- `size_t` addition of a converted `int`. -/
theorem Plat.sz_add_toSz (P : Plat) (n : Nat) (i : Int) : P.sz (n + P.toSz i) = P.toSz (n + i) := by
  have hM : (0 : Int) < P.szMod := by have := P.szMod_pos; omega
  have hnn := Int.emod_nonneg i (Int.ne_of_gt hM)
  unfold Plat.sz Plat.toSz
  apply Int.ofNat_inj.mp
  have hnn2 := Int.emod_nonneg ((n : Int) + i) (Int.ne_of_gt hM)
  rw [Int.natCast_emod, Int.natCast_add, Int.toNat_of_nonneg hnn, Int.toNat_of_nonneg hnn2]
  simp

end Mu

namespace Mu.BBuf

/-- A loop that counts up through `0, …, n-1` looking for the first index with `Q`. -/
theorem scanUp {P : Plat} {cond : Int → Bool} {body : Int → C (Option Int)} {n : Nat}
    (hn : (n : Int) ≤ P.intMax) (hc : ∀ i : Nat, i < n → cond i = true) (hc' : cond n = false)
    (Q : Nat → Prop) [DecidablePred Q] (v : Nat → Int)
    (hb : ∀ i : Nat, i < n → body i = .ok (if Q i then some (v i) else none)) :
    ∃ r k, forLoop P cond 1 body (n + 1) 0 = .ok (r, k) ∧
      ((∃ i, i < n ∧ Q i ∧ (∀ j, j < i → ¬ Q j) ∧ r = some (v i)) ∨
        ((∀ i, i < n → ¬ Q i) ∧ r = none)) := by
  have hmin := P.intMin_eq
  have hmax := P.intMax_ge
  have e : ∀ i : Nat, (0 : Int) + 1 * i = i := by intro i; omega
  rcases first_or_none (fun i => if Q i then some (v i) else none) n with h | ⟨j, x, h1, h2, h3⟩
  · refine ⟨none, _, forLoop_none n _ 0 (by omega) (fun i hi => by rw [e]; exact hc i hi)
      (by rw [e]; exact hc') (fun i hi => by rw [e, hb i hi, h i hi]) (fun i hi => by omega), ?_⟩
    right
    refine ⟨fun i hi hq => ?_, rfl⟩
    have := h i hi
    rw [if_pos hq] at this; cases this
  · refine ⟨some x, _, forLoop_some j _ 0 (by omega) (fun i hi => by rw [e]; exact hc i (by omega))
      (fun i hi => by rw [e, hb i (by omega), h3 i hi]) (by rw [e, hb j h1, h2])
      (fun i hi => by omega), ?_⟩
    left
    by_cases hq : Q j
    · rw [if_pos hq] at h2
      cases h2
      refine ⟨j, h1, hq, fun i hi hqi => ?_, rfl⟩
      have := h3 i hi
      rw [if_pos hqi] at this; cases this
    · rw [if_neg hq] at h2; cases h2

/-- A loop that counts down, examining index `n-1-j` in round `j`. -/
theorem scanDown {P : Plat} {cond : Int → Bool} {body : Int → C (Option Int)} {n : Nat} {a : Int}
    (hn : (n : Int) ≤ P.intMax) (ha : a = n ∨ a = (n : Int) - 1)
    (hc : ∀ j : Nat, j < n → cond (a - j) = true) (hc' : cond (a - n) = false)
    (Q : Nat → Prop) [DecidablePred Q] (v : Nat → Int)
    (hb : ∀ j : Nat, j < n → body (a - j) =
      .ok (if Q (n - 1 - j) then some (v (n - 1 - j)) else none)) :
    ∃ r k, forLoop P cond (-1) body (n + 1) a = .ok (r, k) ∧
      ((∃ i, i < n ∧ Q i ∧ (∀ j, j < n → i < j → ¬ Q j) ∧ r = some (v i)) ∨
        ((∀ i, i < n → ¬ Q i) ∧ r = none)) := by
  have hmin := P.intMin_eq
  have hmax := P.intMax_ge
  have e : ∀ i : Nat, a + -1 * i = a - i := by intro i; omega
  rcases first_or_none (fun i => if Q (n - 1 - i) then some (v (n - 1 - i)) else none) n
    with h | ⟨j, x, h1, h2, h3⟩
  · refine ⟨none, _, forLoop_none n _ a (by omega) (fun i hi => by rw [e]; exact hc i hi)
      (by rw [e]; exact hc') (fun i hi => by rw [e, hb i hi, h i hi]) (fun i hi => by omega), ?_⟩
    right
    refine ⟨fun i hi hq => ?_, rfl⟩
    have := h (n - 1 - i) (by omega)
    rw [show n - 1 - (n - 1 - i) = i by omega, if_pos hq] at this; cases this
  · refine ⟨some x, _, forLoop_some j _ a (by omega) (fun i hi => by rw [e]; exact hc i (by omega))
      (fun i hi => by rw [e, hb i (by omega), h3 i hi]) (by rw [e, hb j h1, h2])
      (fun i hi => by omega), ?_⟩
    left
    by_cases hq : Q (n - 1 - j)
    · rw [if_pos hq] at h2
      cases h2
      refine ⟨n - 1 - j, by omega, hq, fun i hin hi hqi => ?_, rfl⟩
      have := h3 (n - 1 - i) (by omega)
      rw [show n - 1 - (n - 1 - i) = i by omega, if_pos hqi] at this; cases this
    · rw [if_neg hq] at h2; cases h2

/-- The byte at index `i` satisfies `q`. -/
def ByteAt (l : List UInt8) (q : UInt8 → Prop) (i : Nat) : Prop := ∃ x, l[i]? = some x ∧ q x

theorem byteAt_lt {l : List UInt8} {q : UInt8 → Prop} {i : Nat} (h : i < l.length) :
    ByteAt l q i ↔ q l[i] := by
  constructor
  · rintro ⟨x, h1, h2⟩
    simp only [List.getElem?_eq_getElem h, Option.some.injEq] at h1
    rw [h1]; exact h2
  · intro h1; exact ⟨_, List.getElem?_eq_getElem h, h1⟩

theorem ByteAt.lt {l : List UInt8} {q : UInt8 → Prop} {i : Nat} (h : ByteAt l q i) :
    i < l.length := by
  obtain ⟨x, h1, -⟩ := h
  exact (List.getElem?_eq_some_iff.mp h1).1

theorem found_up {P : Plat} {l : List UInt8} {q : UInt8 → Prop} {r : Option Int}
    (h : (∃ i, i < l.length ∧ ByteAt l q i ∧ (∀ j, j < i → ¬ ByteAt l q j) ∧ r = some (i : Int)) ∨
        ((∀ i, i < l.length → ¬ ByteAt l q i) ∧ r = none)) (c : Option Int → C Int)
    (hs : ∀ i, c (some i) = .ok i) (hn : c none = .ok (NOT_FOUND P)) :
    Found P (ByteAt l q) (· < ·) (fun i => i) (c r) := by
  rcases h with ⟨i, h1, h2, h3, rfl⟩ | ⟨h1, rfl⟩
  · exact .inl ⟨i, h2, fun j hj hlt => h3 j hlt hj, hs _⟩
  · exact .inr ⟨fun i hi => h1 i hi.lt hi, hn⟩

theorem found_down {P : Plat} {l : List UInt8} {q : UInt8 → Prop} {r : Option Int}
    (h : (∃ i, i < l.length ∧ ByteAt l q i ∧ (∀ j, j < l.length → i < j → ¬ ByteAt l q j) ∧
          r = some (i : Int)) ∨
        ((∀ i, i < l.length → ¬ ByteAt l q i) ∧ r = none)) (c : Option Int → C Int)
    (hs : ∀ i, c (some i) = .ok i) (hn : c none = .ok (NOT_FOUND P)) :
    Found P (ByteAt l q) (· > ·) (fun i => i) (c r) := by
  rcases h with ⟨i, h1, h2, h3, rfl⟩ | ⟨h1, rfl⟩
  · exact .inl ⟨i, h2, fun j hj hlt => h3 j hj.lt hlt hj, hs _⟩
  · exact .inr ⟨fun i hi => h1 i hi.lt hi, hn⟩

section
variable {P : Plat} {m : Mem} {b : BBuf} {l : List UInt8} (h1 : At m b.p l) (hc : b.cap = l.length)
  (f1 : (l.length : Int) ≤ P.intMax)
include h1 hc f1

theorem findByte_ok (x : UInt8) : Found P (ByteAt l (· = x)) (· < ·) (fun i => i)
    (findByte P m b x) := by
  have hmax := P.intMax_ge
  classical
  obtain ⟨r, k, e, h⟩ := scanUp (P := P) (n := l.length) f1
    (cond := fun i => decide (P.toSz i < b.cap))
    (body := fun i => do
      let y ← m.ld b.p i
      if y = x then .ok (some i) else .ok none)
    (by intro i hi; rw [Plat.toSz_int (by omega) (by omega)]; simp; omega)
    (by rw [Plat.toSz_int (by omega) (by omega)]; simp; omega)
    (ByteAt l (· = x)) (fun i => i)
    (by
      intro i hi
      simp only [h1.ld hi, C.ok_bind, byteAt_lt hi]
      split <;> rfl)
  unfold findByte
  rw [hc] at e ⊢
  simp only at e ⊢
  rw [e]
  simp only [C.ok_bind]
  exact found_up h (fun r => match r with | some i => .ok i | none => .ok (NOT_FOUND P))
    (fun _ => rfl) rfl

theorem rfindByte_ok (x : UInt8) : Found P (ByteAt l (· = x)) (· > ·) (fun i => i)
    (rfindByte P m b x) := by
  have hmax := P.intMax_ge
  have hmin := P.intMin_eq
  classical
  have ha : P.toInt (P.szSub b.cap 1) = (l.length : Int) - 1 := by
    unfold Plat.szSub
    rw [hc, Plat.toInt_toSz (by omega) (by omega)]; rfl
  obtain ⟨r, k, e, h⟩ := scanDown (P := P) (n := l.length) (a := (l.length : Int) - 1) f1
    (.inr rfl) (cond := fun i => decide (i ≥ 0))
    (body := fun i => do
      let y ← m.ld b.p i
      if y = x then .ok (some i) else .ok none)
    (by intro i hi; simp; omega) (by simp; omega)
    (ByteAt l (· = x)) (fun i => i)
    (by
      intro j hj
      have e : (l.length : Int) - 1 - j = ((l.length - 1 - j : Nat) : Int) := by omega
      simp only [e, h1.ld (i := l.length - 1 - j) (by omega), C.ok_bind,
        byteAt_lt (show l.length - 1 - j < l.length by omega)]
      split <;> rfl)
  unfold rfindByte
  rw [ha]
  rw [hc]
  simp only at e ⊢
  rw [e]
  simp only [C.ok_bind]
  exact found_down h (fun r => match r with | some i => .ok i | none => .ok (NOT_FOUND P))
    (fun _ => rfl) rfl

theorem findPredicate_ok (pred : UInt8 → Bool) :
    Found P (ByteAt l (fun x => pred x = false)) (· < ·) (fun i => i)
      (findPredicate P m b pred) := by
  have hmax := P.intMax_ge
  classical
  obtain ⟨r, k, e, h⟩ := scanUp (P := P) (n := l.length) f1
    (cond := fun i => decide (i < (l.length : Int)))
    (body := fun i => do
      let y ← m.ld b.p i
      if pred y = false then .ok (some i) else .ok none)
    (by intro i hi; simp; omega) (by simp)
    (ByteAt l (fun x => pred x = false)) (fun i => i)
    (by
      intro i hi
      simp only [h1.ld hi, C.ok_bind, byteAt_lt hi]
      split <;> rfl)
  unfold findPredicate
  rw [hc, Plat.toInt_of_le f1]
  simp only [Int.toNat_natCast] at e ⊢
  rw [e]
  simp only [C.ok_bind]
  exact found_up h (fun r => match r with | some i => .ok i | none => .ok (NOT_FOUND P))
    (fun _ => rfl) rfl

theorem rfindPredicate_ok (pred : UInt8 → Bool) :
    Found P (ByteAt l (fun x => pred x = false)) (· > ·) (fun i => i)
      (rfindPredicate P m b pred) := by
  have hmax := P.intMax_ge
  classical
  obtain ⟨r, k, e, h⟩ := scanDown (P := P) (n := l.length) (a := (l.length : Int)) f1
    (.inl rfl) (cond := fun i => decide (i > 0))
    (body := fun i => do
      let y ← m.ld ⟨b.p.blk, b.p.off + (l.length : Int)⟩ (i - 1 - (l.length : Int))
      if pred y = false then .ok (some (i - 1)) else .ok none)
    (by intro i hi; simp; omega) (by simp)
    (ByteAt l (fun x => pred x = false)) (fun i => i)
    (by
      intro j hj
      have e : m.ld ⟨b.p.blk, b.p.off + (l.length : Int)⟩ ((l.length : Int) - j - 1 - l.length) =
          m.ld b.p ((l.length - 1 - j : Nat) : Int) := by
        simp only [Mem.ld]; congr 1; omega
      have e2 : (l.length : Int) - j - 1 = ((l.length - 1 - j : Nat) : Int) := by omega
      rw [e, h1.ld (i := l.length - 1 - j) (by omega), e2]
      simp only [C.ok_bind, byteAt_lt (show l.length - 1 - j < l.length by omega)]
      split <;> rfl)
  unfold rfindPredicate
  rw [hc, Plat.toInt_of_le f1]
  simp only
  rw [h1.add (Nat.le_refl _)]
  simp only [Int.toNat_natCast, C.ok_bind] at e ⊢
  rw [e]
  simp only [C.ok_bind]
  exact found_down h (fun r => match r with | some i => .ok i | none => .ok (NOT_FOUND P))
    (fun _ => rfl) rfl

end

/-! ## Slices -/

theorem view_part {m : Mem} {b : BBuf} (hv : Valid m b) {s k : Nat} (h : s + k ≤ b.cap) :
    Valid m ⟨⟨b.p.blk, b.p.off + s⟩, k⟩ ∧
    view m ⟨⟨b.p.blk, b.p.off + s⟩, k⟩ = ((view m b).drop s).take k := by
  obtain ⟨h1, h2⟩ := hv
  refine ⟨⟨by simp only; omega, by simp only; omega⟩, ?_⟩
  simp only [view]
  have e : (b.p.off + (s : Int)).toNat = b.p.off.toNat + s := by omega
  rw [e, List.drop_take, List.drop_drop, List.take_take, Nat.min_eq_left (by omega)]

theorem sliceStart_ok {P : Plat} {cap : Nat} (hf : (cap : Int) ≤ P.intMax) {i : Int}
    (h1 : -(cap : Int) ≤ i) (h2 : i ≤ P.intMax) : sliceStart P cap i = position cap i := by
  have hmin := P.intMin_eq
  unfold sliceStart position
  by_cases h : i < 0
  · rw [if_pos h, if_pos h, Plat.sz_add_toSz, Plat.toInt_toSz (by omega) (by omega)]; omega
  · rw [if_neg h, if_neg h, Plat.toSz_int (by omega) h2, Plat.toInt_of_le hf]
    unfold END
    split <;> omega

theorem sliceEnd_ok {P : Plat} {cap : Nat} (hf : (cap : Int) ≤ P.intMax) {i : Int}
    (h1 : P.intMin ≤ i) (h2 : i ≤ P.intMax) {s : Nat} :
    (if sliceEnd P cap i < s then (s : Int) else sliceEnd P cap i) =
      ((max s (position cap i) : Nat) : Int) := by
  have hmin := P.intMin_eq
  unfold sliceEnd position
  by_cases h : i < 0
  · rw [if_pos h, if_pos h, Plat.sz_add_toSz, Plat.toInt_toSz (by omega) (by omega)]
    split <;> omega
  · rw [if_neg h, if_neg h, Plat.toSz_int (by omega) h2, Plat.toInt_of_le hf]
    unfold END
    split <;> split <;> omega

theorem position_le (n : Nat) (i : Int) : position n i ≤ n := by
  unfold position; split <;> omega

theorem slice_ok {P : Plat} {m : Mem} {O : Objs} {dst src : Val} {start stop : Int}
    (hv : Valid m (O src)) (hf : Fits P (O src)) (h1 : -((O src).cap : Int) ≤ start)
    (h2 : start ≤ P.intMax) (h3 : P.intMin ≤ stop) (h4 : stop ≤ P.intMax) :
    slice P m O dst src start stop = .ok (set O dst
      ⟨⟨(O src).p.blk, (O src).p.off + (position (O src).cap start : Int)⟩,
        max (position (O src).cap start) (position (O src).cap stop) -
          position (O src).cap start⟩) := by
  have hmin := P.intMin_eq
  have hs := position_le (O src).cap start
  have he := position_le (O src).cap stop
  unfold Fits at hf
  unfold slice
  simp only
  rw [sliceStart_ok hf h1 h2, sliceEnd_ok hf h3 h4]
  have hadd := hv.at.add (i := position (O src).cap start) (by rw [view_length hv]; exact hs)
  rw [hadd]
  simp only [C.ok_bind]
  rw [Plat.int_ok (by omega) (by omega)]
  simp only [C.ok_bind, init]
  rw [Plat.toSz_int (by omega) (by omega)]
  congr 3
  omega

theorem bisect_ok {P : Plat} {m : Mem} {O : Objs} {left right src : Val} {index : Int}
    (hv : Valid m (O src)) (hf : Fits P (O src)) (h1 : -((O src).cap : Int) ≤ index)
    (h2 : index ≤ P.intMax) :
    bisect P m O left right src index = .ok (
      let k := position (O src).cap index
      let O1 := if left ≠ NULL then set O left ⟨(O src).p, k⟩ else O
      if right ≠ NULL then
        set O1 right ⟨⟨(O src).p.blk, (O src).p.off + (k : Int)⟩, (O src).cap - k⟩ else O1) := by
  have hmin := P.intMin_eq
  have hk := position_le (O src).cap index
  unfold Fits at hf
  have hidx : ∀ k : Int → C Objs, (if index < 0 then P.int (((O src).cap : Int) + index) >>= k
      else if index > ((O src).cap : Int) ∨ index = END P then k ((O src).cap : Int)
      else k index) = k ((position (O src).cap index : Nat) : Int) := by
    intro k
    unfold position END
    by_cases h : index < 0
    · rw [if_pos h, if_pos h, Plat.int_ok (by omega) (by omega), C.ok_bind]
      congr 1; omega
    · rw [if_neg h, if_neg h]
      split <;> (congr 1; omega)
  unfold bisect
  rw [Plat.toInt_of_le hf]
  refine (hidx _).trans ?_
  have hp : (if left ≠ NULL then init O left (O src).p
      (P.toSz ((position (O src).cap index : Nat) : Int)) else O) =
      (if left ≠ NULL then set O left ⟨(O src).p, position (O src).cap index⟩ else O) := by
    rw [Plat.toSz_int (by omega) (by omega)]; rfl
  simp only
  rw [hp]
  have hsrc : ∀ O1 : Objs, O1 = (if left ≠ NULL then
      set O left ⟨(O src).p, position (O src).cap index⟩ else O) → (O1 src).p = (O src).p := by
    intro O1 h
    rw [h]
    split
    · simp only [set]; split <;> rfl
    · rfl
  rw [hsrc _ rfl]
  by_cases hr : right = NULL
  · simp [hr]
  · rw [if_pos hr, hv.at.add (by rw [view_length hv]; exact hk)]
    simp only [C.ok_bind]
    rw [Plat.int_ok (by omega) (by omega)]
    simp only [C.ok_bind, init, hr, ne_eq, not_false_eq_true, if_true]
    rw [Plat.toSz_int (by omega) (by omega)]
    congr 3
    omega

end Mu.BBuf
