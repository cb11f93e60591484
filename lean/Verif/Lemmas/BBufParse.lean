import Verif.Lemmas.BBufScan

namespace Mu.BBuf

/-- Reading on from the value `v`. -/
def decFrom (v : Nat) (l : List UInt8) : Nat :=
  (l.takeWhile isDigit).foldl (fun v b => 10 * v + (b.toNat - 48)) v

theorem isDecimal_eq (b : UInt8) : isDecimal b = isDigit b := by
  simp [isDecimal, isDigit]

theorem isDigit_range {b : UInt8} (h : isDigit b = true) : 48 ≤ b.toNat ∧ b.toNat ≤ 57 := by
  simpa [isDigit] using h

theorem decFrom_cons_digit {b : UInt8} (h : isDigit b = true) (v : Nat) (l : List UInt8) :
    decFrom v (b :: l) = decFrom (10 * v + (b.toNat - 48)) l := by
  simp [decFrom, List.takeWhile_cons, h]

theorem decFrom_cons_other {b : UInt8} (h : isDigit b = false) (v : Nat) (l : List UInt8) :
    decFrom v (b :: l) = v := by
  simp [decFrom, List.takeWhile_cons, h]

theorem decFrom_nil (v : Nat) : decFrom v [] = v := rfl

theorem decFrom_zero (l : List UInt8) : decFrom 0 l = leadingNat l := rfl

theorem decFrom_ge (l : List UInt8) : ∀ v, v ≤ decFrom v l := by
  induction l with
  | nil => intro v; exact Nat.le_refl _
  | cons b l ih =>
    intro v
    cases h : isDigit b with
    | true => rw [decFrom_cons_digit h]; have := ih (10 * v + (b.toNat - 48)); omega
    | false => rw [decFrom_cons_other h]; exact Nat.le_refl _

/-- The accumulator may be reduced at any point. -/
theorem decFrom_mod (M : Nat) (l : List UInt8) : ∀ v w, v % M = w % M →
    decFrom v l % M = decFrom w l % M := by
  induction l with
  | nil => intro v w h; exact h
  | cons b l ih =>
    intro v w h
    cases hd : isDigit b with
    | true =>
      rw [decFrom_cons_digit hd, decFrom_cons_digit hd]
      apply ih
      rw [Nat.add_mod, Nat.mul_mod, h, ← Nat.mul_mod, ← Nat.add_mod]
    | false => rw [decFrom_cons_other hd, decFrom_cons_other hd, h]

theorem pow_room {P : Plat} {N : Nat} (h : N + 5 ≤ P.ib) : (16 : Int) * 2 ^ N ≤ 2 ^ (P.ib - 1) := by
  have h1 : (2 : Nat) ^ (N + 4) ≤ 2 ^ (P.ib - 1) := Nat.pow_le_pow_right (by decide) (by omega)
  have h0 : (2 : Nat) ^ (N + 4) = 16 * 2 ^ N := by rw [Nat.pow_add, Nat.mul_comm]
  rw [h0] at h1
  have h2 : ((16 * 2 ^ N : Nat) : Int) ≤ ((2 ^ (P.ib - 1) : Nat) : Int) := Int.ofNat_le.mpr h1
  rw [Int.natCast_mul, Int.natCast_pow, Int.natCast_pow] at h2
  exact h2

theorem uintStep_ok {P : Plat} {N : Nat} (hN : Regular P N) {v : Nat} (hv : v < 2 ^ N) {b : UInt8}
    (hb : isDigit b = true) :
    uintStep P N v b = .ok ((10 * v + (b.toNat - 48)) % 2 ^ N) := by
  have hr := isDigit_range hb
  have hmin := P.intMin_eq
  have hv' : (v : Int) < 2 ^ N := by
    have := Int.ofNat_lt.mpr hv
    rw [Int.natCast_pow] at this
    exact this
  have hcast : ∀ x : Nat, ((x : Int) % 2 ^ N).toNat = x % 2 ^ N := by
    intro x
    have e : (2 : Int) ^ N = ((2 ^ N : Nat) : Int) := by rw [Int.natCast_pow]; rfl
    rw [e, ← Int.natCast_emod, Int.toNat_natCast]
  have hx : (v : Int) * 10 + ((b.toNat : Int) - 48) = ((10 * v + (b.toNat - 48) : Nat) : Int) := by
    omega
  unfold uintStep
  rcases hN with hN | hN
  · rw [if_neg (by omega), Int.emod_add_emod, hx, hcast]
  · have hroom := pow_room hN
    have hmx : P.intMax = 2 ^ (P.ib - 1) - 1 := rfl
    rw [if_pos (by omega), Plat.int_ok (by omega) (by omega), C.ok_bind,
      Plat.int_ok (by omega) (by omega), C.ok_bind, hx, hcast]

theorem uintLoop_ok {P : Plat} {N : Nat} (hN : Regular P N) {m : Mem} {p : Ptr}
    {full : List UInt8} (hA : At m p full) (hf : (full.length : Int) ≤ P.intMax) :
    ∀ (l : List UInt8) (i v fuel : Nat), full.drop i = l → v < 2 ^ N → l.length < fuel →
      uintLoop P N m p fuel l.length i v = .ok (decFrom v l % 2 ^ N) := by
  have hmin := P.intMin_eq
  have hmax := P.intMax_ge
  intro l
  induction l with
  | nil =>
    intro i v fuel _ hv hfu
    obtain ⟨f, rfl⟩ : ∃ f, fuel = f + 1 := ⟨fuel - 1, by omega⟩
    simp only [uintLoop, List.length_nil]
    rw [Plat.int_ok (by simp; omega) (by simp; omega)]
    simp [decFrom_nil, Nat.mod_eq_of_lt hv]
  | cons b l ih =>
    intro i v fuel hd hv hfu
    obtain ⟨f, rfl⟩ : ∃ f, fuel = f + 1 := ⟨fuel - 1, by omega⟩
    have hlen := congrArg List.length hd
    simp only [List.length_drop, List.length_cons] at hlen hfu
    have hi : i < full.length := by omega
    have hbi : full[i] = b := by
      have := List.drop_eq_getElem_cons hi
      rw [hd] at this
      exact (List.cons.inj this).1.symm
    have htl : full.drop (i + 1) = l := by
      have := List.drop_eq_getElem_cons hi
      rw [hd] at this
      exact (List.cons.inj this).2.symm
    simp only [uintLoop, List.length_cons]
    rw [Plat.int_ok (by omega) (by omega)]
    simp only [C.ok_bind]
    rw [if_pos (by omega), hA.ld hi, hbi]
    simp only [C.ok_bind, isDecimal_eq]
    cases hb : isDigit b with
    | false => simp [decFrom_cons_other hb, Nat.mod_eq_of_lt hv]
    | true =>
      simp only [if_true]
      rw [uintStep_ok hN hv hb]
      simp only [C.ok_bind]
      have e1 : (((l.length + 1 : Nat) : Int) - 1) = (l.length : Int) := by omega
      have e2 : ((i : Int) + 1) = ((i + 1 : Nat) : Int) := by omega
      rw [e1, e2, ih (i + 1) _ f htl (Nat.mod_lt _ (Nat.pow_pos (by decide))) (by omega),
        decFrom_cons_digit hb]
      congr 1
      apply decFrom_mod
      rw [Nat.mod_mod]

theorem parseUint_ok {P : Plat} {N : Nat} (hN : Regular P N) {m : Mem} {b : BBuf}
    (hv : Valid m b) (hf : Fits P b) :
    parseUint P N m b = .ok (leadingNat (view m b) % 2 ^ N) := by
  have hl := view_length hv
  unfold Fits at hf
  unfold parseUint
  rw [Plat.toInt_of_le hf]
  simp only [Int.toNat_natCast]
  have := uintLoop_ok hN hv.at (by rw [hl]; exact hf) (view m b) 0 0 (b.cap + 1) (by simp)
    (Nat.pow_pos (by decide)) (by omega)
  rw [hl] at this
  exact this

/-! ## Signed -/

theorem narrow_range (N : Nat) (x : Int) : -(2 ^ N) ≤ narrow N x ∧ narrow N x < 2 ^ N := by
  have hp : 0 < 2 ^ N := Nat.pow_pos (by decide)
  have h1 := @Int.le_bmod x (2 ^ N) hp
  have h2 := @Int.bmod_lt x (2 ^ N) hp
  have e : ((2 ^ N : Nat) : Int) = 2 ^ N := by rw [Int.natCast_pow]; rfl
  have hp' := Plat.two_pow_pos N
  unfold narrow
  rw [e] at h1 h2
  omega

theorem narrow_step (N : Nat) (w d : Int) :
    narrow N (narrow N w * 10 + d) = narrow N (w * 10 + d) := by
  unfold narrow
  rw [Int.add_bmod, Int.bmod_mul_bmod, ← Int.add_bmod]

theorem sintStep_narrow {P : Plat} {N : Nat} (hN : N + 5 ≤ P.ib) (w : Nat) {b : UInt8}
    (hb : isDigit b = true) :
    sintStep P N (narrow N w) b = .ok (narrow N ((10 * w + (b.toNat - 48) : Nat) : Int)) := by
  have hr := isDigit_range hb
  have hmin := P.intMin_eq
  have hroom := pow_room hN
  have hmx : P.intMax = 2 ^ (P.ib - 1) - 1 := rfl
  have hpos := Plat.two_pow_pos N
  obtain ⟨h1, h2⟩ := narrow_range N w
  unfold sintStep
  rw [if_pos (by omega), Plat.int_ok (by omega) (by omega), C.ok_bind,
    Plat.int_ok (by omega) (by omega), C.ok_bind, narrow_step]
  congr 2
  omega

theorem sintStep_wide {P : Plat} {N : Nat} (hN : P.ib ≤ N) (w : Nat) {b : UInt8}
    (hb : isDigit b = true) :
    sintStep P N w b =
      if ((10 * w + (b.toNat - 48) : Nat) : Int) ≤ 2 ^ (N - 1) - 1 then
        .ok ((10 * w + (b.toNat - 48) : Nat) : Int) else .error .overflow := by
  have hr := isDigit_range hb
  have hpos := Plat.two_pow_pos (N - 1)
  have hx : (w : Int) * 10 + ((b.toNat : Int) - 48) = ((10 * w + (b.toNat - 48) : Nat) : Int) := by
    omega
  unfold sintStep intN
  rw [if_neg (by omega)]
  by_cases h1 : (w : Int) * 10 ≤ 2 ^ (N - 1) - 1
  · rw [if_pos (by omega), C.ok_bind, hx]
    by_cases h2 : ((10 * w + (b.toNat - 48) : Nat) : Int) ≤ 2 ^ (N - 1) - 1
    · rw [if_pos h2, if_pos (by omega)]
    · rw [if_neg h2, if_neg (by omega)]
  · rw [if_neg (by omega), C.error_bind, if_neg (by omega)]

theorem drop_step {full : List UInt8} {i : Nat} {b : UInt8} {l : List UInt8}
    (hd : full.drop i = b :: l) : ∃ hi : i < full.length, full[i] = b ∧ full.drop (i + 1) = l := by
  have hlen := congrArg List.length hd
  simp only [List.length_drop, List.length_cons] at hlen
  have hi : i < full.length := by omega
  have := List.drop_eq_getElem_cons hi
  rw [hd] at this
  exact ⟨hi, (List.cons.inj this).1.symm, (List.cons.inj this).2.symm⟩

theorem sintLoop_narrow {P : Plat} {N : Nat} (hN : N + 5 ≤ P.ib) {m : Mem} {p : Ptr}
    {full : List UInt8} (hA : At m p full) (hf : (full.length : Int) ≤ P.intMax) :
    ∀ (l : List UInt8) (i w fuel : Nat), full.drop i = l → l.length < fuel →
      sintLoop P N m p fuel l.length i (narrow N w) = .ok (narrow N (decFrom w l)) := by
  have hmin := P.intMin_eq
  have hmax := P.intMax_ge
  intro l
  induction l with
  | nil =>
    intro i w fuel _ hfu
    obtain ⟨f, rfl⟩ : ∃ f, fuel = f + 1 := ⟨fuel - 1, by omega⟩
    simp only [sintLoop, List.length_nil]
    rw [Plat.int_ok (by simp; omega) (by simp; omega)]
    simp [decFrom_nil]
  | cons b l ih =>
    intro i w fuel hd hfu
    obtain ⟨f, rfl⟩ : ∃ f, fuel = f + 1 := ⟨fuel - 1, by omega⟩
    have hlen := congrArg List.length hd
    simp only [List.length_drop, List.length_cons] at hlen hfu
    obtain ⟨hi, hbi, htl⟩ := drop_step hd
    simp only [sintLoop, List.length_cons]
    rw [Plat.int_ok (by omega) (by omega)]
    simp only [C.ok_bind]
    rw [if_pos (by omega), hA.ld hi, hbi]
    simp only [C.ok_bind, isDecimal_eq]
    cases hb : isDigit b with
    | false => simp [decFrom_cons_other hb]
    | true =>
      simp only [if_true]
      rw [sintStep_narrow hN w hb]
      simp only [C.ok_bind]
      have e1 : (((l.length + 1 : Nat) : Int) - 1) = (l.length : Int) := by omega
      have e2 : ((i : Int) + 1) = ((i + 1 : Nat) : Int) := by omega
      rw [e1, e2, ih (i + 1) _ f htl (by omega), decFrom_cons_digit hb]

theorem sintLoop_wide {P : Plat} {N : Nat} (hN : P.ib ≤ N) {m : Mem} {p : Ptr}
    {full : List UInt8} (hA : At m p full) (hf : (full.length : Int) ≤ P.intMax) :
    ∀ (l : List UInt8) (i w fuel : Nat), full.drop i = l → l.length < fuel →
      (w : Int) ≤ 2 ^ (N - 1) - 1 →
      sintLoop P N m p fuel l.length i w = if (decFrom w l : Int) ≤ 2 ^ (N - 1) - 1 then
        .ok (decFrom w l : Int) else .error .overflow := by
  have hmin := P.intMin_eq
  have hmax := P.intMax_ge
  intro l
  induction l with
  | nil =>
    intro i w fuel _ hfu hw
    obtain ⟨f, rfl⟩ : ∃ f, fuel = f + 1 := ⟨fuel - 1, by omega⟩
    simp only [sintLoop, List.length_nil]
    rw [Plat.int_ok (by simp; omega) (by simp; omega), decFrom_nil, if_pos hw]
    simp
  | cons b l ih =>
    intro i w fuel hd hfu hw
    obtain ⟨f, rfl⟩ : ∃ f, fuel = f + 1 := ⟨fuel - 1, by omega⟩
    have hlen := congrArg List.length hd
    simp only [List.length_drop, List.length_cons] at hlen hfu
    obtain ⟨hi, hbi, htl⟩ := drop_step hd
    simp only [sintLoop, List.length_cons]
    rw [Plat.int_ok (by omega) (by omega)]
    simp only [C.ok_bind]
    rw [if_pos (by omega), hA.ld hi, hbi]
    simp only [C.ok_bind, isDecimal_eq]
    cases hb : isDigit b with
    | false => simp only [decFrom_cons_other hb, if_pos hw]; rfl
    | true =>
      simp only [if_true]
      rw [sintStep_wide hN w hb, decFrom_cons_digit hb]
      by_cases h : ((10 * w + (b.toNat - 48) : Nat) : Int) ≤ 2 ^ (N - 1) - 1
      · rw [if_pos h]
        simp only [C.ok_bind]
        have e1 : (((l.length + 1 : Nat) : Int) - 1) = (l.length : Int) := by omega
        have e2 : ((i : Int) + 1) = ((i + 1 : Nat) : Int) := by omega
        rw [e1, e2, ih (i + 1) _ f htl (by omega) h]
      · rw [if_neg h]
        have := decFrom_ge l (10 * w + (b.toNat - 48))
        rw [if_neg (by omega)]
        rfl

/-- The sign and the rest. -/
theorem parseInt_split {P : Plat} {N : Nat} {m : Mem} {b : BBuf} (hv : Valid m b)
    (hf : Fits P b) : ∃ (neg : Bool) (i : Nat), i ≤ b.cap ∧
      leadingInt (view m b) = (if neg then -(leadingNat ((view m b).drop i) : Int)
        else (leadingNat ((view m b).drop i) : Int)) ∧
      parseInt P N m b = (do
        let v ← sintLoop P N m b.p (((view m b).drop i).length + 1) ((view m b).drop i).length i 0
        sintRet P N neg v) := by
  have hl := view_length hv
  unfold Fits at hf
  unfold parseInt
  rw [Plat.toInt_of_le hf]
  simp only
  cases hview : view m b with
  | nil =>
    rw [hview] at hl
    refine ⟨false, 0, by omega, rfl, ?_⟩
    simp only [List.length_nil] at hl
    rw [if_neg (by omega)]
    simp [← hl]
  | cons x l =>
    rw [hview] at hl
    simp only [List.length_cons] at hl
    have hld : m.ld b.p 0 = .ok x := by
      have := hv.at.ld' (i := 0) (k := 0) (by rw [hview]; simp) rfl
      rw [this]; simp [hview]
    rw [if_pos (by omega), hld]
    simp only [C.ok_bind]
    by_cases hx : x.toNat = 45
    · have hx' : x = 45 := UInt8.toNat_inj.mp hx
      refine ⟨true, 1, by omega, by simp [leadingInt, hx'], ?_⟩
      simp only [hx, decide_true, if_true, List.drop_succ_cons, List.drop_zero]
      have e : (b.cap : Int) - 1 = l.length := by omega
      rw [e]; rfl
    · have hx' : x ≠ 45 := fun e => hx (by rw [e]; rfl)
      refine ⟨false, 0, by omega, by simp [leadingInt, hx'], ?_⟩
      simp only [hx, decide_false, List.drop_zero]
      have e : (b.cap : Int) = ((x :: l).length : Nat) := by simp; omega
      rw [e]; rfl

theorem parseInt_narrow {P : Plat} {N : Nat} (hN : N + 5 ≤ P.ib) {m : Mem} {b : BBuf}
    (hv : Valid m b) (hf : Fits P b) :
    parseInt P N m b = .ok (Int.bmod (leadingInt (view m b)) (2 ^ N)) := by
  have hl := view_length hv
  have hf' := hf
  unfold Fits at hf'
  obtain ⟨neg, i, hi, h1, h2⟩ := parseInt_split (N := N) hv hf
  have h0 : (0 : Int) = narrow N ((0 : Nat) : Int) := by simp [narrow]
  rw [h2, h1, h0, sintLoop_narrow hN hv.at (by omega) _ i 0 _ rfl (by omega), decFrom_zero]
  simp only [C.ok_bind, sintRet]
  cases neg with
  | false => rfl
  | true =>
    have hmin := P.intMin_eq
    have hroom := pow_room hN
    have hmx : P.intMax = 2 ^ (P.ib - 1) - 1 := rfl
    have hpos := Plat.two_pow_pos N
    obtain ⟨g1, g2⟩ := narrow_range N (leadingNat ((view m b).drop i))
    simp only [if_true]
    rw [if_pos (by omega), Plat.int_ok (by omega) (by omega)]
    simp only [C.ok_bind, narrow, Int.bmod_neg_bmod]

theorem parseInt_wide {P : Plat} {N : Nat} (hN : P.ib ≤ N) {m : Mem} {b : BBuf}
    (hv : Valid m b) (hf : Fits P b) :
    parseInt P N m b =
      if -(2 ^ (N - 1) - 1) ≤ leadingInt (view m b) ∧ leadingInt (view m b) ≤ 2 ^ (N - 1) - 1 then
        .ok (leadingInt (view m b)) else .error .overflow := by
  have hl := view_length hv
  have hf' := hf
  unfold Fits at hf'
  have hpos := Plat.two_pow_pos (N - 1)
  obtain ⟨neg, i, hi, h1, h2⟩ := parseInt_split (N := N) hv hf
  have h0 : (0 : Int) = ((0 : Nat) : Int) := rfl
  rw [h2, h1, h0, sintLoop_wide hN hv.at (by omega) _ i 0 _ rfl (by omega) (by omega),
    decFrom_zero]
  generalize leadingNat ((view m b).drop i) = w
  by_cases h : (w : Int) ≤ 2 ^ (N - 1) - 1
  · rw [if_pos h]
    simp only [C.ok_bind, sintRet]
    cases neg with
    | false => simp only [Bool.false_eq_true, if_false]; rw [if_pos (by omega)]
    | true =>
      simp only [if_true, intN]
      rw [if_neg (by omega), if_pos (by omega), if_pos (by omega)]
  · rw [if_neg h]
    simp only [C.error_bind]
    cases neg with
    | false => simp only [Bool.false_eq_true, if_false]; rw [if_neg (by omega)]
    | true => simp only [if_true]; rw [if_neg (by omega)]

/-! ## Hexadecimal -/

theorem hexDigit_eq_fin : ∀ n : Fin 256, hexDigit (UInt8.ofNat n.val) = hexVal (UInt8.ofNat n.val) := by
  decide +kernel

theorem hexDigit_eq (b : UInt8) : hexDigit b = hexVal b := by
  have := hexDigit_eq_fin ⟨b.toNat, b.toNat_lt⟩
  simpa using this

theorem hexVal_lt (b : UInt8) (d : Nat) (h : hexVal b = some d) : d < 16 := by
  rw [← hexDigit_eq] at h
  unfold hexDigit at h
  simp only at h
  split at h
  · cases h; omega
  · split at h
    · cases h; omega
    · split at h
      · cases h; omega
      · cases h

def hexFrom (v : Nat) (l : List UInt8) : Nat :=
  (l.takeWhile (fun b => (hexVal b).isSome)).foldl (fun v b => 16 * v + (hexVal b).getD 0) v

theorem hexFrom_cons_digit {b : UInt8} {d : Nat} (h : hexVal b = some d) (v : Nat)
    (l : List UInt8) : hexFrom v (b :: l) = hexFrom (16 * v + d) l := by
  simp [hexFrom, List.takeWhile_cons, h]

theorem hexFrom_cons_other {b : UInt8} (h : hexVal b = none) (v : Nat) (l : List UInt8) :
    hexFrom v (b :: l) = v := by
  simp [hexFrom, List.takeWhile_cons, h]

theorem hexFrom_mod (M : Nat) (l : List UInt8) : ∀ v w, v % M = w % M →
    hexFrom v l % M = hexFrom w l % M := by
  induction l with
  | nil => intro v w h; exact h
  | cons b l ih =>
    intro v w h
    cases hd : hexVal b with
    | some d =>
      rw [hexFrom_cons_digit hd, hexFrom_cons_digit hd]
      apply ih
      rw [Nat.add_mod, Nat.mul_mod, h, ← Nat.mul_mod, ← Nat.add_mod]
    | none => rw [hexFrom_cons_other hd, hexFrom_cons_other hd, h]

theorem hexLoop_ok {P : Plat} {m : Mem} {p : Ptr}
    {full : List UInt8} (hA : At m p full) (hf : (full.length : Int) ≤ P.intMax) :
    ∀ (l : List UInt8) (i v fuel : Nat), full.drop i = l → v < 2 ^ P.ib → l.length < fuel →
      hexLoop P m p fuel l.length i v = .ok (hexFrom v l % 2 ^ P.ib) := by
  have hmin := P.intMin_eq
  have hmax := P.intMax_ge
  intro l
  induction l with
  | nil =>
    intro i v fuel _ hv hfu
    obtain ⟨f, rfl⟩ : ∃ f, fuel = f + 1 := ⟨fuel - 1, by omega⟩
    simp only [hexLoop, List.length_nil]
    rw [Plat.int_ok (by simp; omega) (by simp; omega)]
    simp [hexFrom, Nat.mod_eq_of_lt hv]
  | cons b l ih =>
    intro i v fuel hd hv hfu
    obtain ⟨f, rfl⟩ : ∃ f, fuel = f + 1 := ⟨fuel - 1, by omega⟩
    have hlen := congrArg List.length hd
    simp only [List.length_drop, List.length_cons] at hlen hfu
    obtain ⟨hi, hbi, htl⟩ := drop_step hd
    simp only [hexLoop, List.length_cons]
    rw [Plat.int_ok (by omega) (by omega)]
    simp only [C.ok_bind]
    rw [if_pos (by omega), hA.ld hi, hbi]
    simp only [C.ok_bind, hexDigit_eq]
    cases hb : hexVal b with
    | none => simp only [hexFrom_cons_other hb, Nat.mod_eq_of_lt hv]
    | some d =>
      simp only
      have e1 : (((l.length + 1 : Nat) : Int) - 1) = (l.length : Int) := by omega
      have e2 : ((i : Int) + 1) = ((i + 1 : Nat) : Int) := by omega
      rw [e1, e2, ih (i + 1) _ f htl (Nat.mod_lt _ (Nat.pow_pos (by decide))) (by omega),
        hexFrom_cons_digit hb]
      congr 1
      apply hexFrom_mod
      rw [Nat.mod_mod, Nat.mod_add_mod, Nat.mul_comm]

theorem parseHex_ok {P : Plat} {m : Mem} {b : BBuf} (hv : Valid m b) (hf : Fits P b) :
    parseHex P m b = .ok (leadingHex (view m b) % 2 ^ P.ib) := by
  have hl := view_length hv
  unfold Fits at hf
  unfold parseHex
  rw [Plat.toInt_of_le hf]
  simp only [Int.toNat_natCast]
  have := hexLoop_ok hv.at (by rw [hl]; exact hf) (view m b) 0 0 (b.cap + 1) (by simp)
    (Nat.pow_pos (by decide)) (by omega)
  rw [hl] at this
  exact this

end Mu.BBuf
