import Verif.Spec.BBuf

namespace Mu.BBuf

/-- The bytes at `p` are `l`. -/
def At (m : Mem) (p : Ptr) (l : List UInt8) : Prop :=
  0 ≤ p.off ∧ p.off + l.length ≤ (m p.blk).length ∧ ((m p.blk).drop p.off.toNat).take l.length = l

theorem view_length {m : Mem} {b : BBuf} (h : Valid m b) : (view m b).length = b.cap := by
  obtain ⟨h1, h2⟩ := h
  simp [view]; omega

theorem Valid.at {m : Mem} {b : BBuf} (h : Valid m b) : At m b.p (view m b) := by
  refine ⟨h.1, by rw [view_length h]; exact h.2, ?_⟩
  rw [view_length h]; rfl

theorem At.ld {m : Mem} {p : Ptr} {l : List UInt8} (h : At m p l) {i : Nat} (hi : i < l.length) :
    m.ld p i = .ok l[i] := by
  obtain ⟨h1, h2, h3⟩ := h
  obtain ⟨o, ho⟩ := Int.eq_ofNat_of_zero_le h1
  have e : p.off + (i : Int) = ((o + i : Nat) : Int) := by rw [ho]; omega
  have h4 : l[i]? = ((m p.blk))[o + i]? := by
    conv => lhs; rw [← h3]
    rw [ho]
    simp [List.getElem?_take, hi]
  unfold Mem.ld
  rw [e, ld_nat]
  apply ldN_some
  rw [← h4]; simp [hi]

theorem At.ld' {m : Mem} {p : Ptr} {l : List UInt8} (h : At m p l) {i : Int} {k : Nat}
    (hk : k < l.length) (e : i = k) : m.ld p i = .ok l[k] := by rw [e]; exact h.ld hk

theorem At.add {m : Mem} {p : Ptr} {l : List UInt8} (h : At m p l) {i : Nat} (hi : i ≤ l.length) :
    m.add p i = .ok ⟨p.blk, p.off + i⟩ := by
  obtain ⟨h1, h2, h3⟩ := h
  simp only [Mem.add]
  rw [if_pos (by omega)]

theorem At.drop {m : Mem} {p : Ptr} {l : List UInt8} (h : At m p l) {i : Nat} (hi : i ≤ l.length) :
    At m ⟨p.blk, p.off + i⟩ (l.drop i) := by
  obtain ⟨h1, h2, h3⟩ := h
  refine ⟨by simp; omega, by simp; omega, ?_⟩
  have e : (p.off + (i : Int)).toNat = p.off.toNat + i := by omega
  simp only [e]
  conv => rhs; rw [← h3]
  simp [List.drop_take, List.drop_drop]

theorem strlenAux_ok {m : Mem} {p : Ptr} {s : List UInt8} (h0 : 0 ∉ s)
    (hl : At m p (s ++ [0])) : ∀ (n i fuel : Nat), n + i = s.length → n < fuel →
    m.strlenAux p fuel i = .ok s.length := by
  intro n
  induction n with
  | zero =>
    intro i fuel hi hf
    obtain ⟨f, rfl⟩ : ∃ f, fuel = f + 1 := ⟨fuel - 1, by omega⟩
    simp only [Mem.strlenAux]
    rw [hl.ld (i := i) (by simp; omega)]
    simp [show i = s.length by omega]
  | succ n ih =>
    intro i fuel hi hf
    obtain ⟨f, rfl⟩ : ∃ f, fuel = f + 1 := ⟨fuel - 1, by omega⟩
    simp only [Mem.strlenAux]
    rw [hl.ld (i := i) (by simp; omega)]
    have hne : (s ++ [0])[i]'(by simp; omega) ≠ 0 := by
      rw [List.getElem_append_left (by omega)]
      intro e
      exact h0 (e ▸ List.getElem_mem _)
    simp only [C.ok_bind, if_neg hne]
    exact ih (i + 1) f (by omega) (by omega)

theorem IsCstr.at {m : Mem} {p : Ptr} {s : List UInt8} (h : IsCstr m p s) :
    At m p (s ++ [0]) ∧ At m p s := by
  obtain ⟨h1, h2, rest, h3⟩ := h
  have hlen := congrArg List.length h3
  simp only [List.length_drop, List.length_append, List.length_cons] at hlen
  refine ⟨⟨h1, by simp; omega, ?_⟩, ⟨h1, by omega, ?_⟩⟩
  · rw [h3]
    have : s ++ 0 :: rest = (s ++ [0]) ++ rest := by simp
    rw [this, List.take_left]
  · rw [h3, List.take_left]

theorem strlen_ok {m : Mem} {p : Ptr} {s : List UInt8} (h : IsCstr m p s) :
    m.strlen p = .ok s.length := by
  have := h.at.1.2.1
  have h0 := h.1
  simp only [List.length_append, List.length_singleton] at this
  exact strlenAux_ok h.2.1 h.at.1 s.length 0 _ (by omega) (by omega)

/-! ## Comparison -/

theorem lt_split (c : List UInt8) {x y : UInt8} (t1 t2 : List UInt8) (h : x ≠ y) :
    (c ++ x :: t1 < c ++ y :: t2) ↔ x < y := by
  induction c with
  | nil => simp [List.cons_lt_cons_iff, h]
  | cons a c ih => simp [List.cons_lt_cons_iff, ih]

theorem lt_prefix (c t : List UInt8) : (c < c ++ t ↔ t ≠ []) ∧ ¬ (c ++ t < c) := by
  induction c with
  | nil => cases t <;> simp
  | cons a c ih => simp [List.cons_lt_cons_iff, ih]

/-- Two lists: a first difference, or one is a prefix of the other. -/
theorem split_cases (l1 l2 : List UInt8) :
    (∃ (j : Nat) (h1 : j < l1.length) (h2 : j < l2.length), l1[j] ≠ l2[j] ∧
      (∀ i (hi : i < j), l1[i] = l2[i]) ∧ l1 = l1.take j ++ l1[j] :: l1.drop (j + 1) ∧
      l2 = l1.take j ++ l2[j] :: l2.drop (j + 1)) ∨
    ((∀ i (h1 : i < l1.length) (h2 : i < l2.length), l1[i] = l2[i]) ∧
      (l1 = l2 ++ l1.drop l2.length ∨ l2 = l1 ++ l2.drop l1.length)) := by
  induction l1 generalizing l2 with
  | nil => right; exact ⟨by intro i h1; simp at h1, .inr (by simp)⟩
  | cons a l1 ih =>
    cases l2 with
    | nil => right; exact ⟨by intro i _ h2; simp at h2, .inl (by simp)⟩
    | cons b l2 =>
      by_cases hab : a = b
      · subst hab
        rcases ih l2 with ⟨j, h1, h2, h3, h4, h5, h6⟩ | ⟨h1, h2⟩
        · left
          refine ⟨j + 1, by simpa using h1, by simpa using h2, by simpa using h3, ?_, ?_, ?_⟩
          · intro i hi
            cases i with
            | zero => rfl
            | succ i => simpa using h4 i (by omega)
          · simpa using h5
          · simpa using h6
        · right
          refine ⟨?_, ?_⟩
          · intro i g1 g2
            cases i with
            | zero => rfl
            | succ i => simpa using h1 i (by simpa using g1) (by simpa using g2)
          · rcases h2 with h | h
            · left; simpa using h
            · right; simpa using h
      · left
        exact ⟨0, by simp, by simp, hab, by intro i hi; omega, by simp, by simp⟩

theorem compareAux_ok {P : Plat} {m : Mem} {b : BBuf} {q : Ptr} {l1 l2 : List UInt8}
    (h1 : At m b.p l1) (hc : b.cap = l1.length) (h2 : At m q l2)
    (f1 : (l1.length : Int) ≤ P.intMax) (f2 : (l2.length : Int) ≤ P.intMax) :
    ∃ d, strCompareAux P m b q l2.length = .ok d ∧ (d < 0 ↔ l1 < l2) ∧ (d = 0 ↔ l1 = l2) ∧
      (0 < d ↔ l2 < l1) := by
  have hmin := P.intMin_eq
  unfold strCompareAux
  simp only [hc, Plat.toInt_of_le f1]
  have hlen : (if (l1.length : Int) < l2.length then (l1.length : Int) else l2.length) =
      ((min l1.length l2.length : Nat) : Int) := by
    split <;> omega
  rw [hlen, Int.toNat_natCast]
  have hbody : ∀ i : Nat, (hi : i < min l1.length l2.length) →
      (do
        let x ← m.ld b.p ((0 : Int) + 1 * i)
        let y ← m.ld q ((0 : Int) + 1 * i)
        let d := (x.toNat : Int) - (y.toNat : Int)
        if d ≠ 0 then .ok (some d) else .ok none : C (Option Int)) =
      .ok (if (l1[i].toNat : Int) - (l2[i].toNat : Int) ≠ 0 then
        some ((l1[i].toNat : Int) - (l2[i].toNat : Int)) else none) := by
    intro i hi
    rw [h1.ld' (k := i) (by omega) (by omega), h2.ld' (k := i) (by omega) (by omega)]
    simp only [C.ok_bind]
    split <;> rfl
  rcases split_cases l1 l2 with ⟨j, g1, g2, g3, g4, g5, g6⟩ | ⟨g1, g2⟩
  · have hne : l1[j].toNat ≠ l2[j].toNat := fun e => g3 (UInt8.toNat_inj.mp e)
    rw [forLoop_some (x := (l1[j].toNat : Int) - (l2[j].toNat : Int)) j _ 0 (by omega)]
    · refine ⟨_, rfl, ?_, ?_, ?_⟩
      · have := lt_split (l1.take j) (l1.drop (j + 1)) (l2.drop (j + 1)) g3
        rw [← g5, ← g6] at this
        rw [this, UInt8.lt_iff_toNat_lt]; omega
      · constructor
        · intro e; omega
        · intro e; subst e; omega
      · have := lt_split (l1.take j) (l2.drop (j + 1)) (l1.drop (j + 1)) (Ne.symm g3)
        rw [← g5, ← g6] at this
        rw [this, UInt8.lt_iff_toNat_lt]; omega
    · intro i hi
      simp; omega
    · intro i hi
      rw [hbody i (by omega), g4 i hi]; simp
    · rw [hbody j (by omega), if_pos (by omega)]
    · intro i hi; omega
  · rw [forLoop_none (min l1.length l2.length) _ 0 (by omega)]
    · simp only [C.ok_bind]
      rw [Plat.int_ok (by omega) (by omega)]
      refine ⟨_, rfl, ?_⟩
      rcases g2 with g | g
      · generalize l1.drop l2.length = t at g
        subst g
        have := lt_prefix l2 t
        rw [this.1]
        have h3 : (l2 ++ t = l2) ↔ t = [] := by simp
        rw [h3]
        simp only [List.length_append, this.2]
        cases t <;> simp <;> omega
      · generalize l2.drop l1.length = t at g
        subst g
        have := lt_prefix l1 t
        rw [this.1]
        have h3 : (l1 = l1 ++ t) ↔ t = [] := by simp
        rw [h3]
        simp only [List.length_append, this.2]
        cases t <;> simp <;> omega
    · intro i hi; simp; omega
    · simp
    · intro i hi
      rw [hbody i hi, g1 i (by omega) (by omega)]; simp
    · intro i hi; omega

/-! ## Prefix and suffix -/

theorem hasPrefixAux_ok {P : Plat} {m : Mem} {b : BBuf} {q : Ptr} {l1 l2 : List UInt8}
    (h1 : At m b.p l1) (hc : b.cap = l1.length) (h2 : At m q l2)
    (f1 : (l1.length : Int) ≤ P.intMax) :
    hasPrefixAux P m b q l2.length = .ok (decide (l2 <+: l1)) := by
  have hmin := P.intMin_eq
  unfold hasPrefixAux
  simp only [hc, Plat.toInt_of_le f1]
  by_cases h0 : l2.length = 0
  · rw [if_pos (by omega), List.length_eq_zero_iff.mp h0]; simp
  rw [if_neg (by omega)]
  by_cases hlt : l2.length ≤ l1.length
  · rw [if_neg (by omega), Int.toNat_natCast]
    have hbody : ∀ i : Nat, (hi : i < l2.length) →
        (do
          let x ← m.ld b.p ((0 : Int) + 1 * i)
          let y ← m.ld q ((0 : Int) + 1 * i)
          if x ≠ y then .ok (some ()) else .ok none : C (Option Unit)) =
        .ok (if l1[i] ≠ l2[i] then some () else none) := by
      intro i hi
      rw [h1.ld' (k := i) (by omega) (by omega), h2.ld' (k := i) (by omega) (by omega)]
      simp only [C.ok_bind]
      split <;> rfl
    rcases split_cases l2 l1 with ⟨j, g1, g2, g3, g4, g5, g6⟩ | ⟨g1, g2⟩
    · rw [forLoop_some (x := ()) j _ 0 (by omega)]
      · simp only [C.ok_bind]
        have hnp : ¬ l2 <+: l1 := by
          intro hp
          have := hp.getElem (i := j) (by omega)
          exact g3 this
        simp [hnp]; omega
      · intro i hi; simp; omega
      · intro i hi; rw [hbody i (by omega), g4 i hi]; simp
      · rw [hbody j (by omega), if_pos (Ne.symm g3)]
      · intro i hi; omega
    · rw [forLoop_none l2.length _ 0 (by omega)]
      · have hp : l2 <+: l1 := by
          rcases g2 with g | g
          · have : l2.drop l1.length = [] := by simp; omega
            rw [this, List.append_nil] at g
            rw [g]; exact List.prefix_refl _
          · rw [g]; exact List.prefix_append _ _
        simp [hp]
      · intro i hi; simp; omega
      · simp
      · intro i hi; rw [hbody i hi, g1 i hi (by omega)]; simp
      · intro i hi; omega
  · rw [if_pos (by omega)]
    have hnp : ¬ l2 <+: l1 := fun hp => hlt hp.length_le
    simp [hnp]

theorem At.ld_end {m : Mem} {p : Ptr} {l : List UInt8} (h : At m p l) {i : Nat}
    (hi : i < l.length) :
    m.ld ⟨p.blk, p.off + (l.length : Int)⟩ (-((i : Int) + 1)) =
      .ok (l.reverse[i]'(by simpa using hi)) := by
  have e : m.ld ⟨p.blk, p.off + (l.length : Int)⟩ (-((i : Int) + 1)) =
      m.ld p ((l.length - 1 - i : Nat) : Int) := by
    simp only [Mem.ld]
    congr 1
    omega
  rw [e, h.ld (by omega), List.getElem_reverse]

theorem hasSuffixAux_ok {P : Plat} {m : Mem} {b : BBuf} {q : Ptr} {l1 l2 : List UInt8}
    (h1 : At m b.p l1) (hc : b.cap = l1.length) (h2 : At m q l2)
    (f1 : (l1.length : Int) ≤ P.intMax) :
    hasSuffixAux P m b q l2.length = .ok (decide (l2 <:+ l1)) := by
  have hmin := P.intMin_eq
  unfold hasSuffixAux
  simp only [hc, Plat.toInt_of_le f1]
  by_cases h0 : l2.length = 0
  · rw [if_pos (by omega), List.length_eq_zero_iff.mp h0]; simp
  rw [if_neg (by omega)]
  by_cases hlt : l2.length ≤ l1.length
  · rw [if_neg (by omega), Int.toNat_natCast, h1.add (Nat.le_refl _), h2.add (Nat.le_refl _)]
    simp only [C.ok_bind]
    have hbody : ∀ i : Nat, (hi : i < l2.length) →
        (do
          let x ← m.ld ⟨b.p.blk, b.p.off + (l1.length : Int)⟩ (-((0 : Int) + 1 * i + 1))
          let y ← m.ld ⟨q.blk, q.off + (l2.length : Int)⟩ (-((0 : Int) + 1 * i + 1))
          if x ≠ y then .ok (some ()) else .ok none : C (Option Unit)) =
        .ok (if l1.reverse[i]'(by simp; omega) ≠ l2.reverse[i]'(by simpa using hi) then some ()
          else none) := by
      intro i hi
      have e : (0 : Int) + 1 * i = i := by omega
      rw [e, h1.ld_end (i := i) (by omega), h2.ld_end (i := i) (by omega)]
      simp only [C.ok_bind]
      split <;> rfl
    rcases split_cases l2.reverse l1.reverse with ⟨j, g1, g2, g3, g4, g5, g6⟩ | ⟨g1, g2⟩
    · have g1' : j < l2.length := by simpa using g1
      rw [forLoop_some (x := ()) j _ 0 (by omega)]
      · simp only [C.ok_bind]
        have hnp : ¬ l2 <:+ l1 := by
          intro hp
          rw [← List.reverse_prefix] at hp
          exact g3 (hp.getElem (i := j) g1)
        simp [hnp]; omega
      · intro i hi; simp; omega
      · intro i hi; rw [hbody i (by omega), g4 i hi]; simp
      · rw [hbody j g1', if_pos (Ne.symm g3)]
      · intro i hi; omega
    · rw [forLoop_none l2.length _ 0 (by omega)]
      · have hp : l2 <:+ l1 := by
          rw [← List.reverse_prefix]
          rcases g2 with g | g
          · have : l2.reverse.drop l1.reverse.length = [] := by simp; omega
            rw [this, List.append_nil] at g
            rw [g]; exact List.prefix_refl _
          · rw [g]; exact List.prefix_append _ _
        simp [hp]
      · intro i hi; simp; omega
      · simp
      · intro i hi; rw [hbody i hi, g1 i (by simpa using hi) (by simp; omega)]; simp
      · intro i hi; omega
  · rw [if_pos (by omega)]
    have hnp : ¬ l2 <:+ l1 := fun hp => hlt hp.length_le
    simp [hnp]

/-! ## Substring search -/

theorem occursAt_iff {s l : List UInt8} {i : Nat} :
    OccursAt s l i ↔ i + s.length ≤ l.length ∧ s <+: l.drop i := by
  constructor
  · rintro ⟨a, c, rfl, rfl⟩
    refine ⟨by simp, ?_⟩
    rw [List.append_assoc, List.drop_left]
    exact List.prefix_append _ _
  · rintro ⟨h1, t, h2⟩
    refine ⟨l.take i, t, ?_, by simp; omega⟩
    rw [List.append_assoc, h2, List.take_append_drop]

theorem findBody_ok {P : Plat} {m : Mem} {p q : Ptr} {l s : List UInt8} (h1 : At m p l)
    (h2 : At m q s) (f1 : (l.length : Int) ≤ P.intMax) (hs : s ≠ []) (skip : Bool) {i : Nat}
    (hi : i + s.length ≤ l.length) :
    findBody P m p q s.length skip i = .ok (if s <+: l.drop i then
      some (if skip then (i : Int) + s.length else i) else none) := by
  have hmin := P.intMin_eq
  have hpos : 0 < s.length := List.length_pos_iff.mpr hs
  have hd := h1.drop (i := i) (by omega)
  unfold findBody
  rw [h1.add (by omega)]
  simp only [C.ok_bind]
  rw [hd.ld' (i := 0) (k := 0) (by simp; omega) rfl, h2.ld' (i := 0) (k := 0) hpos rfl]
  simp only [C.ok_bind]
  have hbody : ∀ k : Nat, (hk : 1 + k < s.length) →
      (do
        let x ← m.ld ⟨p.blk, p.off + (i : Int)⟩ ((1 : Int) + 1 * k)
        let y ← m.ld q ((1 : Int) + 1 * k)
        if x ≠ y then .ok (some ()) else .ok none : C (Option Unit)) =
      .ok (if (l.drop i)[1 + k]'(by simp; omega) ≠ s[1 + k] then some () else none) := by
    intro k hk
    rw [hd.ld' (k := 1 + k) (by simp; omega) (by omega), h2.ld' (k := 1 + k) hk (by omega)]
    simp only [C.ok_bind]
    split <;> rfl
  rcases split_cases s (l.drop i) with ⟨j, g1, g2, g3, g4, g5, g6⟩ | ⟨g1, g2⟩
  · have hnp : ¬ s <+: l.drop i := by
      intro hp
      exact g3 (hp.getElem (i := j) g1)
    rw [if_neg hnp]
    cases j with
    | zero => rw [if_neg (Ne.symm g3)]
    | succ j =>
      rw [if_pos (g4 0 (by omega)).symm]
      rw [forLoop_some (x := ()) j _ 1 (by omega)]
      · simp only [C.ok_bind]
        rw [if_neg (by omega)]
      · intro k hk; simp; omega
      · intro k hk; rw [hbody k (by omega)]
        have := g4 (1 + k) (by omega)
        rw [this]; simp
      · rw [hbody j (by omega)]
        have e : 1 + j = j + 1 := by omega
        simp only [e]
        rw [if_pos (Ne.symm g3)]
      · intro k hk; omega
  · have hp : s <+: l.drop i := by
      rcases g2 with g | g
      · have : s.drop (l.drop i).length = [] := by simp; omega
        rw [this, List.append_nil] at g
        rw [← g]; exact List.prefix_refl _
      · rw [g]; exact List.prefix_append _ _
    rw [if_pos hp, if_pos (g1 0 hpos (by simp; omega)).symm]
    rw [forLoop_none (s.length - 1) _ 1 (by omega)]
    · simp only [C.ok_bind]
      rw [if_pos (by omega)]
      cases skip
      · rfl
      · simp only [if_true]
        rw [Plat.int_ok (by omega) (by omega)]; rfl
    · intro k hk; simp; omega
    · simp; omega
    · intro k hk
      rw [hbody k (by omega)]
      have := g1 (1 + k) (by omega) (by simp; omega)
      rw [this]; simp
    · intro k hk; omega

/-- What a search found. -/
def Found (P : Plat) (ok : Nat → Prop) (better : Nat → Nat → Prop) (val : Nat → Int)
    (r : C Int) : Prop :=
  (∃ i, ok i ∧ (∀ j, ok j → ¬ better j i) ∧ r = .ok (val i)) ∨
    ((∀ i, ¬ ok i) ∧ r = .ok (NOT_FOUND P))

theorem findAux_ok {P : Plat} {m : Mem} {b : BBuf} {q : Ptr} {l s : List UInt8}
    (h1 : At m b.p l) (hc : b.cap = l.length) (h2 : At m q s)
    (f1 : (l.length : Int) ≤ P.intMax) (f2 : (s.length : Int) ≤ P.intMax) (skip : Bool) :
    Found P (OccursAt s l) (· < ·) (fun i => if skip then (i : Int) + s.length else i)
      (findAux P m b q s.length skip) := by
  have hmin := P.intMin_eq
  unfold findAux
  simp only [hc, Plat.toInt_of_le f1]
  by_cases h0 : s = []
  · subst h0
    left
    exact ⟨0, ⟨[], l, by simp, rfl⟩, by intro j _; omega, by simp⟩
  have hpos : 0 < s.length := List.length_pos_iff.mpr h0
  rw [if_neg (by omega), Plat.int_ok (by omega) (by omega)]
  simp only [C.ok_bind]
  by_cases hle : s.length ≤ l.length
  · have hbody : ∀ i : Nat, i < l.length - s.length + 1 →
        findBody P m b.p q s.length skip ((0 : Int) + 1 * i) = .ok (if s <+: l.drop i then
          some (if skip then (i : Int) + s.length else i) else none) := by
      intro i hi
      have e : (0 : Int) + 1 * i = i := by omega
      rw [e, findBody_ok h1 h2 f1 h0 skip (by omega)]
    rcases first_or_none (fun i => if s <+: l.drop i then
        some (if skip then (i : Int) + s.length else i) else none) (l.length - s.length + 1)
      with hn | ⟨j, x, g1, g2, g3⟩
    · rw [forLoop_none (l.length - s.length + 1) _ 0 (by omega)]
      · right
        refine ⟨fun i ho => ?_, rfl⟩
        rw [occursAt_iff] at ho
        have := hn i (by omega)
        rw [if_pos ho.2] at this
        cases this
      · intro i hi; simp; omega
      · simp; omega
      · intro i hi; rw [hbody i hi, hn i hi]
      · intro i hi; omega
    · rw [forLoop_some (x := x) j _ 0 (by omega)]
      · left
        refine ⟨j, ?_, ?_, ?_⟩
        · rw [occursAt_iff]
          refine ⟨by omega, ?_⟩
          by_cases hp : s <+: l.drop j
          · exact hp
          · rw [if_neg hp] at g2; cases g2
        · intro k hk hlt
          rw [occursAt_iff] at hk
          have := g3 k hlt
          rw [if_pos hk.2] at this
          cases this
        · by_cases hp : s <+: l.drop j
          · rw [if_pos hp] at g2
            cases g2; rfl
          · rw [if_neg hp] at g2; cases g2
      · intro i hi; simp; omega
      · intro i hi; rw [hbody i (by omega), g3 i hi]
      · rw [hbody j g1, g2]
      · intro i hi; omega
  · rw [forLoop_none 0 _ 0 (by omega)]
    · right
      refine ⟨fun i ho => ?_, rfl⟩
      rw [occursAt_iff] at ho
      omega
    · intro i hi; omega
    · simp; omega
    · intro i hi; omega
    · intro i hi; omega

theorem rfindAux_ok {P : Plat} {m : Mem} {b : BBuf} {q : Ptr} {l s : List UInt8}
    (h1 : At m b.p l) (hc : b.cap = l.length) (h2 : At m q s)
    (f1 : (l.length : Int) ≤ P.intMax) (f2 : (s.length : Int) ≤ P.intMax) (skip : Bool) :
    Found P (OccursAt s l) (· > ·) (fun i => if skip then (i : Int) + s.length else i)
      (rfindAux P m b q s.length skip) := by
  have hmin := P.intMin_eq
  unfold rfindAux
  simp only [hc, Plat.toInt_of_le f1]
  by_cases h0 : s = []
  · subst h0
    left
    refine ⟨l.length, ⟨l, [], by simp, rfl⟩, ?_, by simp⟩
    intro j hj
    rw [occursAt_iff] at hj
    simp at hj; omega
  have hpos : 0 < s.length := List.length_pos_iff.mpr h0
  rw [if_neg (by omega), Plat.int_ok (by omega) (by omega)]
  simp only [C.ok_bind]
  by_cases hle : s.length ≤ l.length
  · have hbody : ∀ i : Nat, i < l.length - s.length + 1 →
        findBody P m b.p q s.length skip ((l.length : Int) - s.length + -1 * i) =
        .ok (if s <+: l.drop (l.length - s.length - i) then
          some (if skip then ((l.length - s.length - i : Nat) : Int) + s.length
            else (l.length - s.length - i : Nat)) else none) := by
      intro i hi
      have e : (l.length : Int) - s.length + -1 * i = ((l.length - s.length - i : Nat) : Int) := by
        omega
      rw [e, findBody_ok h1 h2 f1 h0 skip (by omega)]
    rcases first_or_none (fun i => if s <+: l.drop (l.length - s.length - i) then
        some (if skip then ((l.length - s.length - i : Nat) : Int) + s.length
          else (l.length - s.length - i : Nat)) else none) (l.length - s.length + 1)
      with hn | ⟨j, x, g1, g2, g3⟩
    · rw [forLoop_none (l.length - s.length + 1) _ _ (by omega)]
      · right
        refine ⟨fun i ho => ?_, rfl⟩
        rw [occursAt_iff] at ho
        have := hn (l.length - s.length - i) (by omega)
        rw [show l.length - s.length - (l.length - s.length - i) = i by omega,
          if_pos ho.2] at this
        cases this
      · intro i hi; simp; omega
      · simp; omega
      · intro i hi; rw [hbody i hi, hn i hi]
      · intro i hi; omega
    · rw [forLoop_some (x := x) j _ _ (by omega)]
      · left
        refine ⟨l.length - s.length - j, ?_, ?_, ?_⟩
        · rw [occursAt_iff]
          refine ⟨by omega, ?_⟩
          by_cases hp : s <+: l.drop (l.length - s.length - j)
          · exact hp
          · rw [if_neg hp] at g2; cases g2
        · intro k hk hlt
          rw [occursAt_iff] at hk
          have := g3 (l.length - s.length - k) (by omega)
          rw [show l.length - s.length - (l.length - s.length - k) = k by omega,
            if_pos hk.2] at this
          cases this
        · by_cases hp : s <+: l.drop (l.length - s.length - j)
          · rw [if_pos hp] at g2
            cases g2; rfl
          · rw [if_neg hp] at g2; cases g2
      · intro i hi; simp; omega
      · intro i hi; rw [hbody i (by omega), g3 i hi]
      · rw [hbody j g1, g2]
      · intro i hi; omega
  · rw [forLoop_none 0 _ _ (by omega)]
    · right
      refine ⟨fun i ho => ?_, rfl⟩
      rw [occursAt_iff] at ho
      omega
    · intro i hi; omega
    · simp; omega
    · intro i hi; omega
    · intro i hi; omega

end Mu.BBuf
