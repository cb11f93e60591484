import Verif.Lemmas.BBufParse
import Verif.Lemmas.BBufMut
import Verif.Lemmas.BBufTrim
import Mathlib.Tactic.ByContra

/-! # Properties of mu_bbuf: C38 - C53

Every theorem ranges over every platform, every memory, every buffer that lies inside its object
(`Valid`) and whose capacity is representable as an `int` (`Fits`); the whole library converts
capacities to `int`. -/

namespace Mu.BBuf

/-! ## A concrete memory for the examples -/

/-- Object 1 holds "abcab", object 2 "ab\0", object 3 "-12x", object 4 "fF0g", the others nothing. -/
def exMem : Mem := fun k =>
  if k = 1 then [97, 98, 99, 97, 98] else if k = 2 then [97, 98, 0]
  else if k = 3 then [45, 49, 50, 120] else if k = 4 then [102, 70, 48, 103] else []

def exHay : BBuf := ⟨⟨1, 0⟩, 5⟩
def exAb : BBuf := ⟨⟨2, 0⟩, 2⟩
def exInt : BBuf := ⟨⟨3, 0⟩, 4⟩
def exHex : BBuf := ⟨⟨4, 0⟩, 4⟩

instance (m : Mem) (b : BBuf) : Decidable (Valid m b) := by unfold Valid; infer_instance
instance (P : Plat) (N : Nat) : Decidable (Regular P N) := by unfold Regular; infer_instance
instance (P : Plat) (b : BBuf) : Decidable (Fits P b) := by unfold Fits; infer_instance

/-! ## C38 -/

/-- C38: the result is negative, zero or positive exactly as the first buffer is lexicographically
less than, equal to or greater than the second. -/
theorem C38_compare {P : Plat} {m : Mem} {b1 b2 : BBuf} (v1 : Valid m b1) (v2 : Valid m b2)
    (f1 : Fits P b1) (f2 : Fits P b2) :
    ∃ d, compare P m b1 b2 = .ok d ∧ (d < 0 ↔ view m b1 < view m b2) ∧
      (d = 0 ↔ view m b1 = view m b2) ∧ (0 < d ↔ view m b2 < view m b1) := by
  have l1 := view_length v1
  have l2 := view_length v2
  have h := compareAux_ok (P := P) v1.at l1.symm v2.at (by rw [l1]; exact f1) (by rw [l2]; exact f2)
  unfold compare
  rw [Plat.toInt_of_le f2, ← l2]
  exact h

example : Valid exMem exHay ∧ Valid exMem exAb ∧ Fits Plat.ip16 exHay ∧ Fits Plat.ip16 exAb ∧
    compare Plat.ip16 exMem exHay exAb = .ok 3 ∧ compare Plat.ip16 exMem exAb exHay = .ok (-3) ∧
    compare Plat.ip16 exMem exHay exInt = .ok 52 := by decide

/-- C38: swapping the arguments swaps the sign. -/
theorem C38_antisymmetric {P : Plat} {m : Mem} {b1 b2 : BBuf} (v1 : Valid m b1) (v2 : Valid m b2)
    (f1 : Fits P b1) (f2 : Fits P b2) {d e : Int} (h1 : compare P m b1 b2 = .ok d)
    (h2 : compare P m b2 b1 = .ok e) : (d < 0 ↔ 0 < e) ∧ (d = 0 ↔ e = 0) ∧ (0 < d ↔ e < 0) := by
  obtain ⟨d', g1, g2, g3, g4⟩ := C38_compare v1 v2 f1 f2
  obtain ⟨e', k1, k2, k3, k4⟩ := C38_compare v2 v1 f2 f1
  rw [h1] at g1; cases g1
  rw [h2] at k1; cases k1
  exact ⟨by rw [g2, k4], by rw [g3, k3]; exact eq_comm, by rw [g4, k2]⟩

/-- C38: transitive. -/
theorem C38_transitive {P : Plat} {m : Mem} {b1 b2 b3 : BBuf} (v1 : Valid m b1) (v2 : Valid m b2)
    (v3 : Valid m b3) (f1 : Fits P b1) (f2 : Fits P b2) (f3 : Fits P b3) {d e f : Int}
    (h1 : compare P m b1 b2 = .ok d) (h2 : compare P m b2 b3 = .ok e)
    (h3 : compare P m b1 b3 = .ok f) :
    (d ≤ 0 → e ≤ 0 → f ≤ 0) ∧ (d < 0 → e ≤ 0 → f < 0) ∧ (d ≤ 0 → e < 0 → f < 0) := by
  obtain ⟨d', g1, g2, g3, g4⟩ := C38_compare v1 v2 f1 f2
  obtain ⟨e', k1, k2, k3, k4⟩ := C38_compare v2 v3 f2 f3
  obtain ⟨f', j1, j2, j3, j4⟩ := C38_compare v1 v3 f1 f3
  rw [h1] at g1; cases g1
  rw [h2] at k1; cases k1
  rw [h3] at j1; cases j1
  have tr : ∀ a b c : List UInt8, a < b → b < c → a < c := fun a b c h1 h2 => List.lt_trans h1 h2
  have le : ∀ (x : Int), x ≤ 0 ↔ x < 0 ∨ x = 0 := by intro x; omega
  refine ⟨?_, ?_, ?_⟩
  · rw [le, le, le, g2, g3, k2, k3, j2, j3]
    rintro (a | a) (b | b)
    · exact .inl (tr _ _ _ a b)
    · rw [← b]; exact .inl a
    · rw [a]; exact .inl b
    · exact .inr (a.trans b)
  · rw [le, g2, k2, k3, j2]
    rintro a (b | b)
    · exact tr _ _ _ a b
    · rw [← b]; exact a
  · rw [le, g2, g3, k2, j2]
    rintro (a | a) b
    · exact tr _ _ _ a b
    · rw [a]; exact b

/-- C38: `mu_bbuf_matches` is equality of contents. -/
theorem C38_matches {P : Plat} {m : Mem} {b1 b2 : BBuf} (v1 : Valid m b1) (v2 : Valid m b2)
    (f1 : Fits P b1) (f2 : Fits P b2) :
    bmatches P m b1 b2 = .ok (decide (view m b1 = view m b2)) := by
  obtain ⟨d, g1, g2, g3, g4⟩ := C38_compare v1 v2 f1 f2
  unfold compare at g1
  unfold bmatches
  rw [g1, C.ok_bind]
  simp only [g3]

example : bmatches Plat.ip16 exMem exHay exHay = .ok true ∧
    bmatches Plat.ip16 exMem ⟨⟨1, 3⟩, 2⟩ exAb = .ok true ∧
    bmatches Plat.ip16 exMem exHay exAb = .ok false := by decide

/-- C38: the `_cstr` variants, for every zero-terminated string `s`. -/
theorem C38_cstr {P : Plat} {m : Mem} {b : BBuf} {p : Ptr} {s : List UInt8} (v : Valid m b)
    (hs : IsCstr m p s) (f : Fits P b) (fs : (s.length : Int) ≤ P.intMax) :
    (∃ d, compareCstr P m b p = .ok d ∧ (d < 0 ↔ view m b < s) ∧ (d = 0 ↔ view m b = s) ∧
      (0 < d ↔ s < view m b)) ∧
    bmatchesCstr P m b p = .ok (decide (view m b = s)) := by
  have l := view_length v
  have h := compareAux_ok (P := P) v.at l.symm hs.at.2 (by rw [l]; exact f) fs
  unfold compareCstr bmatchesCstr
  rw [strlen_ok hs, C.ok_bind, C.ok_bind, Plat.toInt_of_le fs]
  refine ⟨h, ?_⟩
  obtain ⟨d, g1, g2, g3, g4⟩ := h
  rw [g1, C.ok_bind]
  simp only [g3]

example : IsCstr exMem ⟨2, 0⟩ [97, 98] := ⟨by decide, by decide, [], by decide⟩
example : compareCstr Plat.ip16 exMem exHay ⟨2, 0⟩ = .ok 3 ∧
    bmatchesCstr Plat.ip16 exMem exAb ⟨2, 0⟩ = .ok true := by decide

/-! ## C39 -/

/-- C39 as stated: every slice is a part of the source. -/
def C39Claim : Prop := ∀ (P : Plat) (m : Mem) (O : Objs) (dst src : Val) (start stop : Int),
  Valid m (O src) → Fits P (O src) → P.intMin ≤ start → start ≤ P.intMax → P.intMin ≤ stop →
  stop ≤ P.intMax → ∃ O', slice P m O dst src start stop = .ok O' ∧ Within (O' dst) (O src) ∧
    view m (O' dst) = ((view m (O src)).take (max (position (O src).cap start)
      (position (O src).cap stop))).drop (position (O src).cap start)

/-- C39 is false: `start = -(capacity + 1)` yields a slice that begins before the source. -/
theorem C39_false : ¬ C39Claim := by
  intro h
  obtain ⟨O', h1, ⟨-, h2, -⟩, -⟩ := h Plat.lp64 exMem (fun _ => ⟨⟨1, 2⟩, 2⟩) 1 2 (-3) 1 (by decide)
    (by decide) (by decide) (by decide) (by decide) (by decide)
  have e : slice Plat.lp64 exMem (fun _ => ⟨⟨1, 2⟩, 2⟩) 1 2 (-3) 1 =
      .ok (set (fun _ => ⟨⟨1, 2⟩, 2⟩) 1 ⟨⟨1, 1⟩, 2⟩) := by rfl
  rw [e] at h1
  cases h1
  revert h2
  decide

/-- C39 for every `start` that is not below `-capacity` (every `end` is allowed, `MU_BBUF_END`
included): the slice is the range of bytes the two indices denote, empty if they are out of order; it
is a part of the source, no byte changes, and no other buffer object is touched.  `dst` may be
`src`. -/
theorem C39_slice_partial {P : Plat} {m : Mem} {O : Objs} {dst src : Val} {start stop : Int}
    (hv : Valid m (O src)) (hf : Fits P (O src)) (h1 : -((O src).cap : Int) ≤ start)
    (h2 : start ≤ P.intMax) (h3 : P.intMin ≤ stop) (h4 : stop ≤ P.intMax) :
    ∃ O', slice P m O dst src start stop = .ok O' ∧ Within (O' dst) (O src) ∧
      Valid m (O' dst) ∧
      view m (O' dst) = ((view m (O src)).take (max (position (O src).cap start)
        (position (O src).cap stop))).drop (position (O src).cap start) ∧
      ∀ x, x ≠ dst → O' x = O x := by
  have hs := position_le (O src).cap start
  have he := position_le (O src).cap stop
  refine ⟨_, slice_ok hv hf h1 h2 h3 h4, ?_, ?_, ?_, ?_⟩
  · simp only [set, if_true]
    exact ⟨rfl, by simp only; omega, by simp only; omega⟩
  · simp only [set, if_true]
    exact (view_part hv (by omega)).1
  · simp only [set, if_true]
    rw [(view_part hv (by omega)).2, List.drop_take]
  · intro x hx; simp [set, hx]

example : -((exHay.cap : Nat) : Int) ≤ -3 ∧
    slice Plat.lp64 exMem (fun _ => exHay) 1 1 (-3) (-1) =
      .ok (set (fun _ => exHay) 1 ⟨⟨1, 2⟩, 2⟩) ∧
    position 5 (-3) = 2 ∧ position 5 (-1) = 4 ∧ position 5 (END Plat.lp64) = 5 :=
  ⟨by decide, rfl, by decide, by decide, by decide⟩

/-! ## C40 -/

/-- C40 as stated (for distinct, non-NULL left and right): left followed by right is the source. -/
def C40Claim : Prop := ∀ (P : Plat) (m : Mem) (O : Objs) (left right src : Val) (index : Int),
  Valid m (O src) → Fits P (O src) → P.intMin ≤ index → index ≤ P.intMax → left ≠ NULL →
  right ≠ NULL → left ≠ right → ∃ O', bisect P m O left right src index = .ok O' ∧
    Within (O' left) (O src) ∧ Within (O' right) (O src) ∧
    view m (O' left) ++ view m (O' right) = view m (O src)

/-- C40 is false: `index = -(capacity + 1)` yields a left part with a capacity near `SIZE_MAX`. -/
theorem C40_false : ¬ C40Claim := by
  intro h
  obtain ⟨O', h1, ⟨-, -, h2⟩, -, -⟩ := h Plat.lp64 exMem (fun _ => ⟨⟨1, 2⟩, 2⟩) 1 2 3 (-3) (by decide)
    (by decide) (by decide) (by decide) (by decide) (by decide) (by decide)
  have e : bisect Plat.lp64 exMem (fun _ => ⟨⟨1, 2⟩, 2⟩) 1 2 3 (-3) =
      .ok (set (set (fun _ => ⟨⟨1, 2⟩, 2⟩) 1 ⟨⟨1, 2⟩, 18446744073709551615⟩) 2 ⟨⟨1, 1⟩, 3⟩) := by rfl
  rw [e] at h1
  cases h1
  revert h2
  decide

/-- C40 for every index that is not below `-capacity`: left is the first `k` bytes and right the
rest, `k` the clamped index; a NULL side is skipped; left or right may be the source itself (or each
other: then the right part is what remains); no other object changes. -/
theorem C40_bisect_partial {P : Plat} {m : Mem} {O : Objs} {left right src : Val} {index : Int}
    (hv : Valid m (O src)) (hf : Fits P (O src)) (h1 : -((O src).cap : Int) ≤ index)
    (h2 : index ≤ P.intMax) :
    ∃ O', bisect P m O left right src index = .ok O' ∧
      (left ≠ NULL → left ≠ right → Within (O' left) (O src) ∧ Valid m (O' left) ∧
        (O' left).cap = position (O src).cap index ∧
        view m (O' left) = (view m (O src)).take (position (O src).cap index)) ∧
      (right ≠ NULL → Within (O' right) (O src) ∧ Valid m (O' right) ∧
        view m (O' right) = (view m (O src)).drop (position (O src).cap index)) ∧
      (left ≠ NULL → right ≠ NULL → left ≠ right →
        view m (O' left) ++ view m (O' right) = view m (O src)) ∧
      (∀ x, x ≠ left → x ≠ right → O' x = O x) ∧ O' NULL = O NULL := by
  have hk := position_le (O src).cap index
  have hl := view_length hv
  refine ⟨_, bisect_ok hv hf h1 h2, ?_⟩
  generalize position (O src).cap index = k at hk
  have pl := view_part hv (s := 0) (k := k) (by omega)
  have pr := view_part hv (s := k) (k := (O src).cap - k) (by omega)
  simp only [Int.natCast_zero, Int.add_zero, List.drop_zero] at pl
  have edrop : ((view m (O src)).drop k).take ((O src).cap - k) = (view m (O src)).drop k := by
    apply List.take_of_length_le; simp; omega
  rw [edrop] at pr
  have hleft : left ≠ NULL → left ≠ right →
      (if right ≠ NULL then set (if left ≠ NULL then set O left ⟨(O src).p, k⟩ else O) right
        ⟨⟨(O src).p.blk, (O src).p.off + (k : Int)⟩, (O src).cap - k⟩
        else if left ≠ NULL then set O left ⟨(O src).p, k⟩ else O) left = ⟨(O src).p, k⟩ := by
    intro a b
    by_cases hr : right = NULL <;> simp [hr, a, b, set]
  have hright : right ≠ NULL →
      (if right ≠ NULL then set (if left ≠ NULL then set O left ⟨(O src).p, k⟩ else O) right
        ⟨⟨(O src).p.blk, (O src).p.off + (k : Int)⟩, (O src).cap - k⟩
        else if left ≠ NULL then set O left ⟨(O src).p, k⟩ else O) right =
        ⟨⟨(O src).p.blk, (O src).p.off + (k : Int)⟩, (O src).cap - k⟩ := by
    intro a; simp [a, set]
  refine ⟨?_, ?_, ?_, ?_, ?_⟩
  · intro a b
    rw [hleft a b]
    refine ⟨?_, pl.1, rfl, pl.2⟩
    exact ⟨rfl, by simp only; omega, by simp only; omega⟩
  · intro a
    rw [hright a]
    refine ⟨?_, pr.1, pr.2⟩
    exact ⟨rfl, by simp only; omega, by simp only; omega⟩
  · intro a b c
    rw [hleft a c, hright b, pl.2, pr.2, List.take_append_drop]
  · intro x hx hy
    by_cases hr : right = NULL <;> by_cases hle : left = NULL <;> simp [hr, hle, set, hx, hy]
  · have e1 : NULL = right ↔ right = NULL := eq_comm
    have e2 : NULL = left ↔ left = NULL := eq_comm
    by_cases hr : right = NULL <;> by_cases hle : left = NULL <;> simp [hr, hle, set, e1, e2]

example : (-(5 : Int)) ≤ 2 ∧ bisect Plat.lp64 exMem (fun _ => exHay) 1 2 1 2 =
    .ok (set (set (fun _ => exHay) 1 ⟨⟨1, 0⟩, 2⟩) 2 ⟨⟨1, 2⟩, 3⟩) := ⟨by decide, rfl⟩

/-! ## C41 -/

/-- C41: prefix (`<+:`) and suffix (`<:+`) tests are exact. -/
theorem C41_prefix_suffix {P : Plat} {m : Mem} {b1 b2 : BBuf} (v1 : Valid m b1) (v2 : Valid m b2)
    (f1 : Fits P b1) (f2 : Fits P b2) :
    hasPrefix P m b1 b2 = .ok (decide (view m b2 <+: view m b1)) ∧
    hasSuffix P m b1 b2 = .ok (decide (view m b2 <:+ view m b1)) := by
  have l1 := view_length v1
  have l2 := view_length v2
  unfold hasPrefix hasSuffix
  rw [Plat.toInt_of_le f2, ← l2,
    hasPrefixAux_ok v1.at l1.symm v2.at (by rw [l1]; exact f1),
    hasSuffixAux_ok v1.at l1.symm v2.at (by rw [l1]; exact f1)]
  exact ⟨rfl, rfl⟩

/-- C41: the `_cstr` variants. -/
theorem C41_cstr {P : Plat} {m : Mem} {b : BBuf} {p : Ptr} {s : List UInt8} (v : Valid m b)
    (hc : IsCstr m p s) (f : Fits P b) (fs : (s.length : Int) ≤ P.intMax) :
    hasPrefixCstr P m b p = .ok (decide (s <+: view m b)) ∧
    hasSuffixCstr P m b p = .ok (decide (s <:+ view m b)) := by
  have l := view_length v
  unfold hasPrefixCstr hasSuffixCstr
  rw [strlen_ok hc, C.ok_bind, C.ok_bind, Plat.toInt_of_le fs,
    hasPrefixAux_ok v.at l.symm hc.at.2 (by rw [l]; exact f),
    hasSuffixAux_ok v.at l.symm hc.at.2 (by rw [l]; exact f)]
  exact ⟨rfl, rfl⟩

example : hasPrefix Plat.ip16 exMem exHay exAb = .ok true ∧
    hasSuffix Plat.ip16 exMem exHay exAb = .ok true ∧
    hasSuffix Plat.ip16 exMem exHay exInt = .ok false ∧
    hasPrefixCstr Plat.ip16 exMem exHay ⟨2, 0⟩ = .ok true ∧
    hasPrefix Plat.ip16 exMem exHay ⟨⟨1, 5⟩, 0⟩ = .ok true := by decide

/-! ## C42 -/

/-- The answer of a forward search for `s` in `l`. -/
def FirstOccurrence (P : Plat) (s l : List UInt8) (skip : Bool) (r : Int) : Prop :=
  (∃ i : Nat, OccursAt s l i ∧ (∀ j, OccursAt s l j → i ≤ j) ∧
    r = i + (if skip then (s.length : Int) else 0)) ∨
  ((∀ i, ¬ OccursAt s l i) ∧ r = NOT_FOUND P)

/-- The answer of a backward search. -/
def LastOccurrence (P : Plat) (s l : List UInt8) (skip : Bool) (r : Int) : Prop :=
  (∃ i : Nat, OccursAt s l i ∧ (∀ j, OccursAt s l j → j ≤ i) ∧
    r = i + (if skip then (s.length : Int) else 0)) ∨
  ((∀ i, ¬ OccursAt s l i) ∧ r = NOT_FOUND P)

theorem first_of_found {P : Plat} {s l : List UInt8} {skip : Bool} {c : C Int}
    (h : Found P (OccursAt s l) (· < ·) (fun i => if skip then (i : Int) + s.length else i) c) :
    ∃ r, c = .ok r ∧ FirstOccurrence P s l skip r := by
  rcases h with ⟨i, h1, h2, h3⟩ | ⟨h1, h2⟩
  · refine ⟨_, h3, .inl ⟨i, h1, fun j hj => Nat.le_of_not_lt (h2 j hj), ?_⟩⟩
    cases skip <;> simp
  · exact ⟨_, h2, .inr ⟨h1, rfl⟩⟩

theorem last_of_found {P : Plat} {s l : List UInt8} {skip : Bool} {c : C Int}
    (h : Found P (OccursAt s l) (· > ·) (fun i => if skip then (i : Int) + s.length else i) c) :
    ∃ r, c = .ok r ∧ LastOccurrence P s l skip r := by
  rcases h with ⟨i, h1, h2, h3⟩ | ⟨h1, h2⟩
  · refine ⟨_, h3, .inl ⟨i, h1, fun j hj => Nat.le_of_not_lt (h2 j hj), ?_⟩⟩
    cases skip <;> simp
  · exact ⟨_, h2, .inr ⟨h1, rfl⟩⟩

/-- C42: first and last occurrence, plus the length of the needle if asked for. -/
theorem C42_find_substr {P : Plat} {m : Mem} {b s : BBuf} (v1 : Valid m b) (v2 : Valid m s)
    (f1 : Fits P b) (f2 : Fits P s) (skip : Bool) :
    (∃ r, findSubstr P m b s skip = .ok r ∧ FirstOccurrence P (view m s) (view m b) skip r) ∧
    (∃ r, rfindSubstr P m b s skip = .ok r ∧ LastOccurrence P (view m s) (view m b) skip r) := by
  have l1 := view_length v1
  have l2 := view_length v2
  unfold findSubstr rfindSubstr
  rw [Plat.toInt_of_le f2, ← l2]
  exact ⟨first_of_found (findAux_ok v1.at l1.symm v2.at (by rw [l1]; exact f1)
      (by rw [l2]; exact f2) skip),
    last_of_found (rfindAux_ok v1.at l1.symm v2.at (by rw [l1]; exact f1)
      (by rw [l2]; exact f2) skip)⟩

/-- C42: the `_subcstr` variants. -/
theorem C42_find_subcstr {P : Plat} {m : Mem} {b : BBuf} {p : Ptr} {s : List UInt8}
    (v1 : Valid m b) (hc : IsCstr m p s) (f1 : Fits P b) (fs : (s.length : Int) ≤ P.intMax)
    (skip : Bool) :
    (∃ r, findSubcstr P m b p skip = .ok r ∧ FirstOccurrence P s (view m b) skip r) ∧
    (∃ r, rfindSubcstr P m b p skip = .ok r ∧ LastOccurrence P s (view m b) skip r) := by
  have l1 := view_length v1
  unfold findSubcstr rfindSubcstr
  rw [strlen_ok hc, C.ok_bind, C.ok_bind, Plat.toInt_of_le fs]
  exact ⟨first_of_found (findAux_ok v1.at l1.symm hc.at.2 (by rw [l1]; exact f1) fs skip),
    last_of_found (rfindAux_ok v1.at l1.symm hc.at.2 (by rw [l1]; exact f1) fs skip)⟩

/-- C42: below the capacity `MU_BBUF_NOT_FOUND` itself, the answer is `MU_BBUF_NOT_FOUND` iff the
needle does not occur. -/
theorem C42_not_found_iff {P : Plat} {s l : List UInt8} {skip : Bool} {r : Int}
    (h : FirstOccurrence P s l skip r ∨ LastOccurrence P s l skip r)
    (hl : (l.length : Int) < P.intMax) : r = NOT_FOUND P ↔ ∀ i, ¬ OccursAt s l i := by
  have key : ∀ i : Nat, OccursAt s l i → r = i + (if skip then (s.length : Int) else 0) →
      r ≠ NOT_FOUND P := by
    intro i hi hr
    have := (occursAt_iff.mp hi).1
    unfold NOT_FOUND
    split at hr <;> omega
  rcases h with (⟨i, h1, h2, h3⟩ | ⟨h1, h2⟩) | (⟨i, h1, h2, h3⟩ | ⟨h1, h2⟩)
  · exact ⟨fun e => absurd e (key i h1 h3), fun e => absurd h1 (e i)⟩
  · exact ⟨fun _ => h1, fun _ => h2⟩
  · exact ⟨fun e => absurd e (key i h1 h3), fun e => absurd h1 (e i)⟩
  · exact ⟨fun _ => h1, fun _ => h2⟩

example : findSubstr Plat.ip16 exMem exHay exAb false = .ok 0 ∧
    rfindSubstr Plat.ip16 exMem exHay exAb false = .ok 3 ∧
    rfindSubstr Plat.ip16 exMem exHay exAb true = .ok 5 ∧
    findSubstr Plat.ip16 exMem exHay exInt false = .ok (NOT_FOUND Plat.ip16) ∧
    findSubcstr Plat.ip16 exMem exHay ⟨2, 0⟩ true = .ok 2 := by decide

/-! ## C43 -/

/-- C43: `mu_bbuf_find_byte` and `mu_bbuf_rfind_byte`. -/
theorem C43_byte {P : Plat} {m : Mem} {b : BBuf} (v : Valid m b) (f : Fits P b) (x : UInt8) :
    (∃ r, findByte P m b x = .ok r ∧ (r = NOT_FOUND P ↔ x ∉ view m b) ∧
      (r ≠ NOT_FOUND P → ∃ i : Nat, r = i ∧ (view m b)[i]? = some x ∧
        ∀ j, j < i → (view m b)[j]? ≠ some x)) ∧
    (∃ r, rfindByte P m b x = .ok r ∧ (r = NOT_FOUND P ↔ x ∉ view m b) ∧
      (r ≠ NOT_FOUND P → ∃ i : Nat, r = i ∧ (view m b)[i]? = some x ∧
        ∀ j, i < j → (view m b)[j]? ≠ some x)) := by
  have l := view_length v
  have hno : ∀ {c : C Int}, (∀ i, ¬ ByteAt (view m b) (· = x) i) → x ∉ view m b := by
    intro c h hx
    obtain ⟨i, hi, e⟩ := List.getElem_of_mem hx
    exact h i ⟨x, by rw [List.getElem?_eq_getElem hi, e], rfl⟩
  constructor
  · rcases findByte_ok (P := P) v.at l.symm (by rw [l]; exact f) x with ⟨i, h1, h2, h3⟩ | ⟨h1, h2⟩
    · have hlt := h1.lt
      obtain ⟨y, e, hy⟩ := h1
      subst hy
      refine ⟨_, h3, ?_, fun _ => ⟨i, rfl, e, fun j hj ej => h2 j ⟨_, ej, rfl⟩ hj⟩⟩
      refine ⟨fun h => absurd h (notFound_ne f (by omega)), fun h => absurd (List.mem_of_getElem? e) h⟩
    · refine ⟨_, h2, ⟨fun _ => hno (c := .ok 0) h1, fun _ => rfl⟩, fun h => absurd rfl h⟩
  · rcases rfindByte_ok (P := P) v.at l.symm (by rw [l]; exact f) x with ⟨i, h1, h2, h3⟩ | ⟨h1, h2⟩
    · have hlt := h1.lt
      obtain ⟨y, e, hy⟩ := h1
      subst hy
      refine ⟨_, h3, ?_, fun _ => ⟨i, rfl, e, fun j hj ej => h2 j ⟨_, ej, rfl⟩ hj⟩⟩
      refine ⟨fun h => absurd h (notFound_ne f (by omega)), fun h => absurd (List.mem_of_getElem? e) h⟩
    · refine ⟨_, h2, ⟨fun _ => hno (c := .ok 0) h1, fun _ => rfl⟩, fun h => absurd rfl h⟩

/-- C43: `mu_bbuf_find_predicate` and `mu_bbuf_rfind_predicate` find the first and last byte that
fails the predicate. -/
theorem C43_predicate {P : Plat} {m : Mem} {b : BBuf} (v : Valid m b) (f : Fits P b)
    (pred : UInt8 → Bool) :
    (∃ r, findPredicate P m b pred = .ok r ∧
      (r = NOT_FOUND P ↔ ∀ x ∈ view m b, pred x = true) ∧
      (r ≠ NOT_FOUND P → ∃ (i : Nat) (x : UInt8), r = i ∧ (view m b)[i]? = some x ∧
        pred x = false ∧ ∀ j, j < i → ∀ y, (view m b)[j]? = some y → pred y = true)) ∧
    (∃ r, rfindPredicate P m b pred = .ok r ∧
      (r = NOT_FOUND P ↔ ∀ x ∈ view m b, pred x = true) ∧
      (r ≠ NOT_FOUND P → ∃ (i : Nat) (x : UInt8), r = i ∧ (view m b)[i]? = some x ∧
        pred x = false ∧ ∀ j, i < j → ∀ y, (view m b)[j]? = some y → pred y = true)) := by
  have l := view_length v
  constructor
  · rcases findPredicate_ok (P := P) v.at l.symm (by rw [l]; exact f) pred with
      ⟨i, h1, h2, h3⟩ | ⟨h1, h2⟩
    · have hlt := h1.lt
      obtain ⟨y, e, hy⟩ := h1
      refine ⟨_, h3, ?_, fun _ => ⟨i, y, rfl, e, hy, fun j hj z ez => ?_⟩⟩
      · refine ⟨fun h => absurd h (notFound_ne f (by omega)), fun h => ?_⟩
        rw [h y (List.mem_of_getElem? e)] at hy; cases hy
      · by_contra hz
        exact h2 j ⟨z, ez, by simpa using hz⟩ hj
    · exact ⟨_, h2, ⟨fun _ => dropWhile_all h1, fun _ => rfl⟩, fun h => absurd rfl h⟩
  · rcases rfindPredicate_ok (P := P) v.at l.symm (by rw [l]; exact f) pred with
      ⟨i, h1, h2, h3⟩ | ⟨h1, h2⟩
    · have hlt := h1.lt
      obtain ⟨y, e, hy⟩ := h1
      refine ⟨_, h3, ?_, fun _ => ⟨i, y, rfl, e, hy, fun j hj z ez => ?_⟩⟩
      · refine ⟨fun h => absurd h (notFound_ne f (by omega)), fun h => ?_⟩
        rw [h y (List.mem_of_getElem? e)] at hy; cases hy
      · by_contra hz
        exact h2 j ⟨z, ez, by simpa using hz⟩ hj
    · exact ⟨_, h2, ⟨fun _ => dropWhile_all h1, fun _ => rfl⟩, fun h => absurd rfl h⟩

example : findByte Plat.ip16 exMem exHay 98 = .ok 1 ∧ rfindByte Plat.ip16 exMem exHay 98 = .ok 4 ∧
    findByte Plat.ip16 exMem exHay 0 = .ok (NOT_FOUND Plat.ip16) ∧
    rfindByte Plat.ip16 exMem ⟨⟨1, 0⟩, 0⟩ 0 = .ok (NOT_FOUND Plat.ip16) ∧
    findPredicate Plat.ip16 exMem exHay (· == 97) = .ok 1 ∧
    rfindPredicate Plat.ip16 exMem exHay (· == 98) = .ok 3 := by decide

/-! ## C44, C45 -/

/-- C44 as stated. -/
def C44Claim : Prop := ∀ (P : Plat) (m : Mem) (O : Objs) (dst src : Val) (pred : UInt8 → Bool),
  Valid m (O src) → Fits P (O src) → ∃ O', ltrim P m O dst src pred = .ok O' ∧
    view m (O' dst) = (view m (O src)).dropWhile pred

/-- C44 is false: a buffer all of whose bytes satisfy the predicate is returned whole. -/
theorem C44_false : ¬ C44Claim := by
  intro h
  obtain ⟨O', h1, h2⟩ := h Plat.lp64 exMem (fun _ => exHay) 1 2 (fun _ => true) (by decide) (by decide)
  have e : ltrim Plat.lp64 exMem (fun _ => exHay) 1 2 (fun _ => true) =
      .ok (set (fun _ => exHay) 1 exHay) := by rfl
  rw [e] at h1
  cases h1
  revert h2
  decide

/-- C44 where it holds: if some byte fails the predicate (or the buffer is empty) the result is the
source without its longest matching prefix; otherwise it is the whole source.  It is always a part of
the source and the only object written; `dst` may be `src`. -/
theorem C44_ltrim_partial {P : Plat} {m : Mem} {O : Objs} {dst src : Val} (pred : UInt8 → Bool)
    (hv : Valid m (O src)) (hf : Fits P (O src)) :
    ∃ O', ltrim P m O dst src pred = .ok O' ∧ Within (O' dst) (O src) ∧ Valid m (O' dst) ∧
      ((∃ x ∈ view m (O src), pred x = false) ∨ view m (O src) = [] →
        view m (O' dst) = (view m (O src)).dropWhile pred) ∧
      ((∀ x ∈ view m (O src), pred x = true) → view m (O' dst) = view m (O src)) ∧
      ∀ x, x ≠ dst → O' x = O x := by
  have hl := view_length hv
  obtain ⟨i, hi, h1, h2, h3⟩ := ltrim_ok (dst := dst) (pred := pred) hv hf
  obtain ⟨p1, p2⟩ := view_part hv (s := i) (k := (O src).cap - i) (by omega)
  have et : ((view m (O src)).drop i).take ((O src).cap - i) = (view m (O src)).drop i := by
    apply List.take_of_length_le; simp; omega
  rw [et] at p2
  refine ⟨_, h1, ?_, ?_, ?_, ?_, ?_⟩
  · simp only [set, if_true]
    exact ⟨rfl, by simp only; omega, by simp only; omega⟩
  · simp only [set, if_true]; exact p1
  · simp only [set, if_true]
    rw [p2]
    rintro (h | h)
    · exact h2 h
    · rw [h]; simp
  · intro h
    simp only [set, if_true]
    rw [p2, h3 h, List.drop_zero]
  · intro x hx; simp [set, hx]

example : (∃ x ∈ view exMem exHay, (x == 97) = false) ∧
    ltrim Plat.lp64 exMem (fun _ => exHay) 1 1 (· == 97) =
      .ok (set (fun _ => exHay) 1 ⟨⟨1, 1⟩, 4⟩) := ⟨⟨98, by decide, by decide⟩, rfl⟩

/-- A list without its longest suffix of bytes satisfying the predicate. -/
def dropWhileEnd (pred : UInt8 → Bool) (l : List UInt8) : List UInt8 :=
  (l.reverse.dropWhile pred).reverse

/-- C45 as stated, for `mu_bbuf_rtrim`. -/
def C45Claim : Prop := ∀ (P : Plat) (m : Mem) (O : Objs) (dst src : Val) (pred : UInt8 → Bool),
  Valid m (O src) → Fits P (O src) → ∃ O', rtrim P m O dst src pred = .ok O' ∧
    view m (O' dst) = dropWhileEnd pred (view m (O src))

/-- C45 is false, and not by accident: for *every* non-empty buffer the result of `mu_bbuf_rtrim`
differs from the promised one. -/
theorem C45_rtrim_false : ¬ C45Claim ∧
    ∀ (P : Plat) (m : Mem) (O O' : Objs) (dst src : Val) (pred : UInt8 → Bool),
      Valid m (O src) → Fits P (O src) → view m (O src) ≠ [] → rtrim P m O dst src pred = .ok O' →
      view m (O' dst) ≠ dropWhileEnd pred (view m (O src)) := by
  have main : ∀ (P : Plat) (m : Mem) (O O' : Objs) (dst src : Val) (pred : UInt8 → Bool),
      Valid m (O src) → Fits P (O src) → view m (O src) ≠ [] → rtrim P m O dst src pred = .ok O' →
      view m (O' dst) ≠ dropWhileEnd pred (view m (O src)) := by
    intro P m O O' dst src pred hv hf hne h he
    have hl := view_length hv
    obtain ⟨k, hk, h1, h2, h3⟩ := rtrim_ok (dst := dst) (pred := pred) hv hf
    rw [h1] at h
    cases h
    obtain ⟨p1, p2⟩ := view_part hv (s := 0) (k := k) (by omega)
    simp only [Int.natCast_zero, Int.add_zero, List.drop_zero] at p2
    simp only [set, if_true] at he
    rw [p2] at he
    unfold dropWhileEnd at he
    by_cases hall : ∀ x ∈ view m (O src), pred x = true
    · have hd : (view m (O src)).reverse.dropWhile pred = [] := by
        have : ∀ l : List UInt8, (∀ x ∈ l, pred x = true) → l.dropWhile pred = [] := by
          intro l
          induction l with
          | nil => intro _; rfl
          | cons a l ih =>
            intro h
            rw [List.dropWhile_cons, if_pos (h a (by simp))]
            exact ih (fun x hx => h x (by simp [hx]))
        exact this _ (fun x hx => hall x (by simpa using hx))
      rw [h3 hall, hd, ← hl, List.take_length] at he
      exact hne he
    · have hex : ∃ x ∈ view m (O src), pred x = false := by
        by_contra hc
        apply hall
        intro x hx
        by_contra hp
        exact hc ⟨x, hx, by simpa using hp⟩
      obtain ⟨g1, g2⟩ := h2 hex
      rw [← g2] at he
      have := congrArg List.length he
      simp only [List.length_take, hl] at this
      omega
  refine ⟨fun hc => ?_, main⟩
  obtain ⟨O', h1, h2⟩ := hc Plat.lp64 exMem (fun _ => exHay) 1 2 (· == 98) (by decide) (by decide)
  exact main Plat.lp64 exMem (fun _ => exHay) O' 1 2 (· == 98) (by decide) (by decide) (by decide)
    h1 h2

/-- What holds of C45 for `mu_bbuf_rtrim`: the result is always a part of the source at its
beginning; it is the promised one with its last byte missing if some byte fails the predicate, and the
whole source otherwise. -/
theorem C45_rtrim_partial {P : Plat} {m : Mem} {O : Objs} {dst src : Val} (pred : UInt8 → Bool)
    (hv : Valid m (O src)) (hf : Fits P (O src)) :
    ∃ O', rtrim P m O dst src pred = .ok O' ∧ Within (O' dst) (O src) ∧ Valid m (O' dst) ∧
      ((∃ x ∈ view m (O src), pred x = false) →
        view m (O' dst) = (dropWhileEnd pred (view m (O src))).dropLast) ∧
      ((∀ x ∈ view m (O src), pred x = true) → view m (O' dst) = view m (O src)) ∧
      ∀ x, x ≠ dst → O' x = O x := by
  have hl := view_length hv
  obtain ⟨k, hk, h1, h2, h3⟩ := rtrim_ok (dst := dst) (pred := pred) hv hf
  obtain ⟨p1, p2⟩ := view_part hv (s := 0) (k := k) (by omega)
  simp only [Int.natCast_zero, Int.add_zero, List.drop_zero] at p1 p2
  refine ⟨_, h1, ?_, ?_, ?_, ?_, ?_⟩
  · simp only [set, if_true]
    exact ⟨rfl, by simp only; omega, by simp only; omega⟩
  · simp only [set, if_true]; exact p1
  · simp only [set, if_true]
    intro h
    obtain ⟨g1, g2⟩ := h2 h
    rw [p2, dropWhileEnd, ← g2, List.dropLast_eq_take, List.take_take]
    congr 1
    simp; omega
  · intro h
    simp only [set, if_true]
    rw [p2, h3 h, ← hl, List.take_length]
  · intro x hx; simp [set, hx]

/-- What holds of C45 for `mu_bbuf_trim`: both ends are handled, each as described by
`C44_ltrim_partial` and `C45_rtrim_partial`. -/
theorem C45_trim_partial {P : Plat} {m : Mem} {O : Objs} {dst src : Val} (pred : UInt8 → Bool)
    (hv : Valid m (O src)) (hf : Fits P (O src)) :
    ∃ O', trim P m O dst src pred = .ok O' ∧ Within (O' dst) (O src) ∧ Valid m (O' dst) ∧
      ((∃ x ∈ view m (O src), pred x = false) →
        view m (O' dst) = (dropWhileEnd pred ((view m (O src)).dropWhile pred)).dropLast) ∧
      ((∀ x ∈ view m (O src), pred x = true) → view m (O' dst) = view m (O src)) ∧
      ∀ x, x ≠ dst → O' x = O x := by
  obtain ⟨O1, h1, h2, h3, h4, h5, h6⟩ := C44_ltrim_partial (dst := dst) pred hv hf
  have hf1 : Fits P (O1 dst) := by
    unfold Fits at hf ⊢; unfold Within at h2; omega
  obtain ⟨O2, k1, k2, k3, k4, k5, k6⟩ := C45_rtrim_partial (dst := dst) pred h3 hf1
  refine ⟨O2, ?_, ?_, k3, ?_, ?_, ?_⟩
  · unfold trim; rw [h1, C.ok_bind, k1]
  · unfold Within at h2 k2 ⊢; omega
  · intro hex
    have e := h4 (.inl hex)
    have hex2 : ∃ x ∈ view m (O1 dst), pred x = false := by
      rw [e]
      obtain ⟨x, hx, hp⟩ := hex
      refine ⟨x, ?_, hp⟩
      rw [← List.takeWhile_append_dropWhile (p := pred) (l := view m (O src))] at hx
      rcases List.mem_append.mp hx with hx | hx
      · have := List.all_eq_true.mp (List.all_takeWhile (p := pred) (l := view m (O src))) x hx
        rw [this] at hp; cases hp
      · exact hx
    rw [k4 hex2, e]
  · intro hall
    have e := h5 hall
    rw [k5 (by rw [e]; exact hall), e]
  · intro x hx; rw [k6 x hx, h6 x hx]

example : rtrim Plat.lp64 exMem (fun _ => exHay) 1 1 (· == 98) =
      .ok (set (fun _ => exHay) 1 ⟨⟨1, 0⟩, 3⟩) ∧
    trim Plat.lp64 exMem (fun _ => exHay) 1 1 (fun x => x == 97 || x == 98) =
      .ok (set (set (fun _ => exHay) 1 ⟨⟨1, 2⟩, 3⟩) 1 ⟨⟨1, 2⟩, 0⟩) := ⟨rfl, rfl⟩

/-! ## C46, C47, C48 -/

/-- The widths of `uint8_t` ... `uint64_t` and `unsigned int` are `Regular` on every platform with 16,
32 or 64 bit `int`. -/
theorem regular_widths (P : Plat) (h : P.ib = 16 ∨ P.ib = 32 ∨ P.ib = 64) :
    Regular P 8 ∧ Regular P 16 ∧ Regular P 32 ∧ Regular P 64 ∧ Regular P P.ib := by
  unfold Regular; omega

/-- C46. -/
theorem C46_parse_uint {P : Plat} {N : Nat} (hN : Regular P N) {m : Mem} {b : BBuf}
    (hv : Valid m b) (hf : Fits P b) :
    parseUint P N m b = .ok (leadingNat (view m b) % 2 ^ N) := parseUint_ok hN hv hf

/-- No digit, no value. -/
theorem C46_none {P : Plat} {N : Nat} (hN : Regular P N) {m : Mem} {b : BBuf}
    (hv : Valid m b) (hf : Fits P b) (h : ∀ x, (view m b)[0]? = some x → isDigit x = false) :
    parseUint P N m b = .ok 0 := by
  rw [parseUint_ok hN hv hf]
  have : leadingNat (view m b) = 0 := by
    cases hview : view m b with
    | nil => rfl
    | cons x l => simp [leadingNat, decValue, h x (by rw [hview]; rfl)]
  rw [this]; simp

example : parseUint Plat.ip16 8 exMem ⟨⟨3, 1⟩, 3⟩ = .ok 12 ∧ leadingNat [49, 50, 120] = 12 ∧
    parseUint Plat.lp64 8 (fun _ => [51, 48, 48]) ⟨⟨0, 0⟩, 3⟩ = .ok 44 ∧
    parseUint Plat.lp64 64 exMem exInt = .ok 0 := by decide

/-- C47 as stated: the value of the optional sign and digits, truncated to the width. -/
def C47Claim : Prop := ∀ (P : Plat) (N : Nat) (m : Mem) (b : BBuf), Regular P N → 8 ≤ N →
  Valid m b → Fits P b → parseInt P N m b = .ok (Int.bmod (leadingInt (view m b)) (2 ^ N))

/-- C47 is false: parsing "-2147483648" as `int32_t` overflows `int32_t` (undefined behaviour),
although the value is representable. -/
theorem C47_false : ¬ C47Claim := by
  intro h
  have h1 := h Plat.lp64 32 (fun _ => [45, 50, 49, 52, 55, 52, 56, 51, 54, 52, 56]) ⟨⟨0, 0⟩, 11⟩
    (by decide) (by decide) (by decide) (by decide)
  have h2 : parseInt Plat.lp64 32 (fun _ => [45, 50, 49, 52, 55, 52, 56, 51, 54, 52, 56])
      ⟨⟨0, 0⟩, 11⟩ = .error .overflow := by decide
  rw [h2] at h1
  cases h1

/-- C47 for types narrower than `int`: as stated, whatever the buffer. -/
theorem C47_narrow_partial {P : Plat} {N : Nat} (hN : N + 5 ≤ P.ib) {m : Mem} {b : BBuf}
    (hv : Valid m b) (hf : Fits P b) :
    parseInt P N m b = .ok (Int.bmod (leadingInt (view m b)) (2 ^ N)) := parseInt_narrow hN hv hf

/-- C47 for types at least as wide as `int`: the exact value if it lies in `[-MAX, MAX]`, undefined
behaviour (signed overflow) otherwise. -/
theorem C47_wide_partial {P : Plat} {N : Nat} (hN : P.ib ≤ N) {m : Mem} {b : BBuf}
    (hv : Valid m b) (hf : Fits P b) :
    parseInt P N m b =
      if -(2 ^ (N - 1) - 1) ≤ leadingInt (view m b) ∧ leadingInt (view m b) ≤ 2 ^ (N - 1) - 1 then
        .ok (leadingInt (view m b)) else .error .overflow := parseInt_wide hN hv hf

example : parseInt Plat.lp64 32 exMem exInt = .ok (-12) ∧ leadingInt (view exMem exInt) = -12 ∧
    parseInt Plat.lp64 8 (fun _ => [50, 48, 48]) ⟨⟨0, 0⟩, 3⟩ = .ok (-56) := by decide

/-- C48. -/
theorem C48_parse_hex {P : Plat} {m : Mem} {b : BBuf} (hv : Valid m b) (hf : Fits P b) :
    parseHex P m b = .ok (leadingHex (view m b) % 2 ^ P.ib) := parseHex_ok hv hf

example : parseHex Plat.lp64 exMem exHex = .ok 0xff0 ∧ parseHex Plat.lp64 exMem exInt = .ok 0 ∧
    leadingHex [102, 70, 48, 103] = 0xff0 := by decide

/-! ## C49 -/

/-- C49: reads. -/
theorem C49_get {m : Mem} {b : BBuf} (hv : Valid m b) (index : Nat) (byte : UInt8) :
    getByte m b index byte = .ok (match (view m b)[index]? with
      | some x => (true, x)
      | none => (false, byte)) ∧
    ((∃ x, (view m b)[index]? = some x) ↔ index < b.cap) := by
  have hl := view_length hv
  unfold getByte
  by_cases h : index < b.cap
  · rw [if_neg (by omega), hv.at.ld (by omega), C.ok_bind, List.getElem?_eq_getElem (by omega)]
    exact ⟨rfl, ⟨fun _ => h, fun _ => ⟨_, rfl⟩⟩⟩
  · rw [if_pos (by omega), List.getElem?_eq_none (by omega)]
    exact ⟨rfl, ⟨fun ⟨x, hx⟩ => (by cases hx), fun h' => absurd h' h⟩⟩

/-- C49: writes.  Exactly the byte at `index` changes (`replaced`: nothing outside the buffer does),
and reading it back gives the byte written; a failed call changes nothing. -/
theorem C49_put {m : Mem} {b : BBuf} (hv : Valid m b) (index : Nat) (byte : UInt8) :
    (index < b.cap → ∃ m', putByte m b index byte = .ok (true, m') ∧
      m' = replaced m b ((view m b).set index byte) ∧ Valid m' b ∧
      view m' b = (view m b).set index byte ∧ ∀ c, getByte m' b index c = .ok (true, byte)) ∧
    (b.cap ≤ index → putByte m b index byte = .ok (false, m)) := by
  have hl := view_length hv
  constructor
  · intro h
    have hlen : ((view m b).set index byte).length = b.cap := by simpa using hl
    obtain ⟨w1, w2⟩ := replaced_valid hv hlen
    refine ⟨_, ?_, rfl, w1, w2, ?_⟩
    · unfold putByte
      rw [if_neg (by omega), st_ok hv h, C.ok_bind]
    · intro c
      rw [(C49_get w1 index c).1, w2, List.getElem?_set_self (by omega)]
  · intro h
    unfold putByte
    rw [if_pos h]

/-- C49: `mu_bbuf_ref_ro` and `_rw` return a pointer to the byte, or NULL. -/
theorem C49_ref {m : Mem} {b : BBuf} (hv : Valid m b) (index : Nat) :
    ref m b index = .ok (if index < b.cap then some ⟨b.p.blk, b.p.off + index⟩ else none) := by
  have hl := view_length hv
  unfold ref
  by_cases h : index < b.cap
  · rw [if_pos h, if_pos h, hv.at.add (by omega)]; rfl
  · rw [if_neg h, if_neg h]

/-- C49: `mu_bbuf_clear` zeroes exactly the buffer. -/
theorem C49_clear {m : Mem} {b : BBuf} (hv : Valid m b) :
    clear m b = .ok (replaced m b (List.replicate b.cap 0)) := clear_ok hv

/-- `replaced` says "nothing else": outside the range of the buffer every byte of every object is as
before, and inside it is the new one. -/
theorem replaced_spec {m : Mem} {b : BBuf} (hv : Valid m b) {bs : List UInt8}
    (hl : bs.length = b.cap) :
    view (replaced m b bs) b = bs ∧
    ∀ k i : Nat, (k ≠ b.p.blk ∨ (i : Int) < b.p.off ∨ b.p.off + b.cap ≤ i) →
      ((replaced m b bs) k)[i]? = (m k)[i]? := by
  refine ⟨(replaced_valid hv hl).2, ?_⟩
  intro k i h
  have hvl := view_length hv
  obtain ⟨pre, post, h1, h2, h3⟩ := hv.split
  rw [h3]
  by_cases hk : k = b.p.blk
  · subst hk
    rw [Mem.set_get, h1]
    rcases h with h | h | h
    · exact absurd rfl h
    · rw [List.append_assoc, List.append_assoc, List.getElem?_append_left (by omega),
        List.getElem?_append_left (by omega)]
    · rw [List.getElem?_append_right (by simp; omega), List.getElem?_append_right (by simp; omega)]
      congr 1
      simp; omega
  · simp [Mem.set, hk]

example : getByte exMem exHay 2 0 = .ok (true, 99) ∧ getByte exMem exHay 5 7 = .ok (false, 7) ∧
    (match putByte exMem exHay 1 7 with
      | .ok (true, m') => view m' exHay = [97, 7, 99, 97, 98] ∧ m' 2 = exMem 2
      | _ => False) := by
  refine ⟨by decide, by decide, ?_⟩
  exact ⟨by decide, rfl⟩

/-! ## C50 -/

/-- The number of bytes `mu_bbuf_copy_into` should copy. -/
def overlap (dst src : Nat) (offset : Int) : Nat :=
  min (dst - offset.toNat) (src - (-offset).toNat)

/-- C50 as stated: copies `overlap` bytes and returns their number. -/
def C50Claim : Prop := ∀ (P : Plat) (m : Mem) (dst src : BBuf) (offset : Int),
  Valid m dst → Valid m src → Fits P dst → Fits P src → P.intMin < offset → offset ≤ P.intMax →
  dst.p.blk ≠ src.p.blk → ∃ m', copyInto P m dst src offset =
      .ok ((overlap dst.cap src.cap offset : Nat), m') ∧
    view m' dst = (view m dst).take offset.toNat ++
      ((view m src).drop (-offset).toNat).take (overlap dst.cap src.cap offset) ++
      (view m dst).drop (offset.toNat + overlap dst.cap src.cap offset)

/-- C50 is false: *every* call that should copy something uses an uninitialised variable. -/
theorem C50_false : ¬ C50Claim ∧ ∀ (P : Plat) (m : Mem) (dst src : BBuf) (offset : Int),
    Fits P dst → Fits P src → P.intMin < offset → offset ≤ P.intMax →
    0 < overlap dst.cap src.cap offset → copyInto P m dst src offset = .error .uninit := by
  have main : ∀ (P : Plat) (m : Mem) (dst src : BBuf) (offset : Int),
      Fits P dst → Fits P src → P.intMin < offset → offset ≤ P.intMax →
      0 < overlap dst.cap src.cap offset → copyInto P m dst src offset = .error .uninit := by
    intro P m dst src offset fd fs h1 h2 h
    have hmin := P.intMin_eq
    unfold overlap at h
    unfold copyInto copyIntoFrom
    simp only
    by_cases hp : offset > 0
    · rw [if_pos hp, Plat.toSz_int (by omega) h2, if_neg (by omega)]
      rfl
    · rw [if_neg hp]
      by_cases hn : offset < 0
      · rw [if_pos hn, Plat.int_ok (by omega) (by omega), C.ok_bind,
          Plat.toSz_int (by omega) (by omega), if_neg (by omega)]
        simp only [rdVar, C.ok_bind]
        rw [if_pos (by omega)]
        rfl
      · rw [if_neg hn]; rfl
  refine ⟨fun hc => ?_, main⟩
  obtain ⟨m', h, -⟩ := hc Plat.lp64 exMem exHay exAb 1 (by decide) (by decide) (by decide) (by decide)
    (by decide) (by decide) (by decide)
  rw [main Plat.lp64 exMem exHay exAb 1 (by decide) (by decide) (by decide) (by decide) (by decide)]
    at h
  cases h

/-- What holds of C50: an offset that leaves no overlap because it lies outside the destination
(or the source) returns 0 and changes nothing. -/
theorem C50_no_overlap_partial {P : Plat} {m : Mem} {dst src : BBuf} {offset : Int}
    (h1 : P.intMin < offset) (h2 : offset ≤ P.intMax) (h3 : offset ≠ 0)
    (h : (0 < offset ∧ dst.cap ≤ offset.toNat) ∨ (offset < 0 ∧ src.cap ≤ (-offset).toNat)) :
    copyInto P m dst src offset = .ok (0, m) := by
  have hmin := P.intMin_eq
  unfold copyInto copyIntoFrom
  simp only
  rcases h with ⟨hp, h⟩ | ⟨hn, h⟩
  · rw [if_pos hp, Plat.toSz_int (by omega) h2, if_pos h]
  · rw [if_neg (by omega), if_pos hn, Plat.int_ok (by omega) (by omega), C.ok_bind,
      Plat.toSz_int (by omega) (by omega), if_pos h]

example : overlap exHay.cap exAb.cap 1 = 2 ∧
    (copyInto Plat.lp64 exMem exHay exAb 1 matches .error .uninit) ∧
    (match copyInto Plat.lp64 exMem exHay exAb 5 with
      | .ok (0, _) => True
      | _ => False) := ⟨by decide, by decide, trivial⟩

/-! ## C51 -/

/-- C51 for every non-empty buffer: the contents are reversed, nothing else changes, and reversing
again restores the memory. -/
theorem C51_reverse_partial {P : Plat} {m : Mem} {b : BBuf} (h : Valid m b) (h0 : 0 < b.cap)
    (hs : b.cap < P.szMod) :
    ∃ m', reverse P m b = .ok m' ∧ m' = replaced m b (view m b).reverse ∧
      view m' b = (view m b).reverse ∧ reverse P m' b = .ok m := by
  have hl : (view m b).reverse.length = b.cap := by simpa using view_length h
  obtain ⟨w1, w2⟩ := replaced_valid h hl
  refine ⟨_, reverse_ok h h0 hs, rfl, w2, ?_⟩
  rw [reverse_ok w1 h0 hs, w2, List.reverse_reverse, replaced_replaced h hl, replaced_view h]

/-- C51 fails for the empty buffer: `&bytes[capacity - 1]` with capacity 0 is a pointer far outside
the object, undefined behaviour, whatever the object (smaller than the address space) is. -/
theorem C51_empty_false {P : Plat} {m : Mem} {b : BBuf} (h : Valid m b) (h0 : b.cap = 0)
    (hlen : (m b.p.blk).length + 1 < P.szMod) : reverse P m b = .error .ptr := by
  have hA := h.at
  have hp := P.szMod_pos
  have e : P.szSub b.cap 1 = P.szMod - 1 := by
    unfold Plat.szSub Plat.toSz
    rw [h0]
    have e1 : (((0 : Nat) : Int) - ((1 : Nat) : Int)) % (P.szMod : Int) = (P.szMod : Int) - 1 := by
      rw [← Int.add_emod_right, Int.emod_eq_of_lt] <;> omega
    rw [e1]; omega
  unfold reverse
  have e0 : (0 : Int) = ((0 : Nat) : Int) := rfl
  rw [e0, hA.add (i := 0) (by omega), C.ok_bind, e]
  have hbad : m.add b.p ((P.szMod - 1 : Nat) : Int) = .error .ptr := by
    unfold Mem.add
    have := h.1
    rw [if_neg (by omega)]
  rw [hbad]; rfl

example : Valid exMem exHay ∧ 0 < exHay.cap ∧ exHay.cap < Plat.lp64.szMod ∧
    (match reverse Plat.lp64 exMem ⟨⟨1, 1⟩, 4⟩ with
      | .ok m' => m' 1 = [97, 98, 97, 99, 98]
      | .error _ => False) := by
  refine ⟨by decide, by decide, by decide, ?_⟩
  show _ = _
  decide

/-! ## C52 -/

/-- C52 for non-empty buffers: with enough rounds for its loops (more than `|shift|`) the call
returns, the byte at `i` is now at `(i + shift) mod capacity`, and nothing outside the buffer
changed. -/
theorem C52_rrotate_partial {P : Plat} {m : Mem} {b : BBuf} (h : Valid m b) (h0 : 0 < b.cap)
    (hf : Fits P b) {shift : Int} (h1 : P.intMin ≤ shift) (h2 : shift ≤ P.intMax) :
    ∃ bs : List UInt8, bs.length = b.cap ∧
      (∀ i, i < b.cap → bs[(((i : Int) + shift) % b.cap).toNat]? = (view m b)[i]?) ∧
      ∀ fuel, shift.natAbs < fuel → rrotate P fuel m b shift = .ok (replaced m b bs) := by
  have hl := view_length h
  have hc : (0 : Int) < b.cap := by omega
  have hm0 := Int.emod_nonneg shift (Int.ne_of_gt hc)
  have hm1 := Int.emod_lt_of_pos shift hc
  obtain ⟨s, hs⟩ := Int.eq_ofNat_of_zero_le hm0
  refine ⟨_, ?_, ?_, fun fuel hfu => rrotate_ok h h0 hf h1 h2 hfu⟩
  · simp; omega
  · intro i hi
    have e : ((i : Int) + shift) % b.cap = ((i : Int) + s) % b.cap := by
      rw [← hs, Int.add_emod_emod]
    rw [e, hs, Int.toNat_natCast]
    rw [hs] at hm1
    by_cases hlt : i + s < b.cap
    · rw [Int.emod_eq_of_lt (by omega) (by omega)]
      rw [List.getElem?_append_right (by simp; omega), List.getElem?_take_of_lt (by simp; omega)]
      congr 1
      simp; omega
    · have e2 : ((i : Int) + s) % b.cap = ((i + s - b.cap : Nat) : Int) := by
        rw [← Int.sub_emod_right, Int.emod_eq_of_lt] <;> omega
      rw [e2, Int.toNat_natCast, List.getElem?_append_left (by simp; omega), List.getElem?_drop]
      congr 1
      omega

/-- C52 fails for the empty buffer: the call never returns, however many rounds it is given. -/
theorem C52_empty_false {P : Plat} {m : Mem} {b : BBuf} (h0 : b.cap = 0) (shift : Int) :
    ¬ ∃ fuel m', rrotate P fuel m b shift = .ok m' := by
  rintro ⟨fuel, m', h⟩
  exact rrotate_zero h0 shift fuel m' h

example : Valid exMem exHay ∧ 0 < exHay.cap ∧ Fits Plat.lp64 exHay ∧
    (match rrotate Plat.lp64 10 exMem exHay (-7) with
      | .ok m' => m' 1 = [99, 97, 98, 97, 98]
      | .error _ => False) := by
  refine ⟨by decide, by decide, by decide, ?_⟩
  show _ = _
  decide

/-! ## C53 -/

/-- C53 for every shift except `INT_MIN`: position `j` holds the byte that was at `j - shift`, or zero
if there was none, and nothing outside the buffer changed. -/
theorem C53_rshift_partial {P : Plat} {m : Mem} {b : BBuf} (h : Valid m b) (hsz : b.cap < P.szMod)
    {shift : Int} (h1 : P.intMin < shift) (h2 : shift ≤ P.intMax) :
    ∃ bs : List UInt8, bs.length = b.cap ∧ rshift P m b shift = .ok (replaced m b bs) ∧
      ∀ j, j < b.cap → bs[j]? = if 0 ≤ (j : Int) - shift ∧ (j : Int) - shift < b.cap then
        (view m b)[((j : Int) - shift).toNat]? else some 0 := by
  have hl := view_length h
  refine ⟨_, ?_, rshift_ok h hsz h1 h2, ?_⟩
  · split <;> simp <;> omega
  · intro j hj
    by_cases hs : 0 ≤ shift
    · rw [if_pos hs]
      by_cases hc : 0 ≤ (j : Int) - shift
      · rw [if_pos (by omega), List.getElem?_append_right (by simp; omega),
          List.getElem?_take_of_lt (by simp; omega)]
        congr 1
        simp; omega
      · rw [if_neg (by omega), List.getElem?_append_left (by simp; omega), List.getElem?_replicate,
          if_pos (by omega)]
    · rw [if_neg hs]
      by_cases hc : (j : Int) - shift < b.cap
      · rw [if_pos (by omega), List.getElem?_append_left (by simp; omega), List.getElem?_drop]
        congr 1
        omega
      · rw [if_neg (by omega), List.getElem?_append_right (by simp; omega), List.getElem?_replicate,
          if_pos (by simp; omega)]

/-- C53 fails for `INT_MIN`: its negation overflows. -/
theorem C53_int_min_false (P : Plat) (m : Mem) (b : BBuf) :
    rshift P m b P.intMin = .error .overflow := by
  have hmin := P.intMin_eq
  have hmax := P.intMax_ge
  unfold rshift
  simp only
  rw [decide_eq_true (show P.intMin < 0 by omega)]
  simp only [if_true]
  have : P.int (-P.intMin) = .error .overflow := by
    unfold Plat.int; rw [if_neg (by omega)]
  rw [this]; rfl

example : (match rshift Plat.lp64 exMem exHay 2 with
      | .ok m' => m' 1 = [0, 0, 97, 98, 99]
      | .error _ => False) ∧
    (match rshift Plat.lp64 exMem exHay (-2) with
      | .ok m' => m' 1 = [99, 97, 98, 0, 0]
      | .error _ => False) :=
  ⟨(by decide : _ = _), (by decide : _ = _)⟩

end Mu.BBuf
