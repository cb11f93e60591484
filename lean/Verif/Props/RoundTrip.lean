import Verif.Props.BBufExact
import Verif.Props.Init
import Verif.Lemmas.JemsRead

/-! # Functions that undo, compose with or agree with each other: C89, C90, C91 -/

namespace Mu.BBuf

/-! ## C89 -/

/-- C89: rotating by `s1` and then by `s2` is the same as rotating by any `s3` that equals `s1 + s2`
modulo the capacity. -/
theorem C89_rotations_compose {P : Plat} {m : Mem} {b : BBuf} (h : Valid m b) (h0 : 0 < b.cap)
    (hf : Fits P b) {s1 s2 s3 : Int} (a1 : P.intMin ≤ s1) (b1 : s1 ≤ P.intMax)
    (a2 : P.intMin ≤ s2) (b2 : s2 ≤ P.intMax) (a3 : P.intMin ≤ s3) (b3 : s3 ≤ P.intMax)
    (hs : (s1 + s2) % b.cap = s3 % b.cap) {f1 f2 f3 : Nat} (hf1 : s1.natAbs < f1)
    (hf2 : s2.natAbs < f2) (hf3 : s3.natAbs < f3) :
    ∃ m1 m2, rrotate P f1 m b s1 = .ok m1 ∧ rrotate P f2 m1 b s2 = .ok m2 ∧
      rrotate P f3 m b s3 = .ok m2 := by
  obtain ⟨x1, l1, i1, e1⟩ := (C76_rrotate h hf a1 b1).1 h0
  obtain ⟨hv1, hw1⟩ := replaced_valid h l1
  obtain ⟨x2, l2, i2, e2⟩ := (C76_rrotate hv1 hf a2 b2).1 h0
  obtain ⟨x3, l3, i3, e3⟩ := (C76_rrotate h hf a3 b3).1 h0
  refine ⟨_, _, e1 f1 hf1, e2 f2 hf2, ?_⟩
  rw [e3 f3 hf3, replaced_replaced h l1]
  congr 2
  have hc : (0 : Int) < b.cap := by omega
  apply List.ext_getElem?
  intro j
  by_cases hj : j < b.cap
  · -- `j` is the place of the byte `i`
    have key : ∀ s : Int, ∀ k : Nat, k < b.cap → (((((k : Int) - s) % b.cap).toNat : Int) + s) %
        b.cap = k := by
      intro s k hk
      have n1 := Int.emod_nonneg ((k : Int) - s) (by omega : (b.cap : Int) ≠ 0)
      rw [Int.toNat_of_nonneg n1, Int.emod_add_emod, Int.sub_add_cancel,
        Int.emod_eq_of_lt (by omega) (by omega)]
    have lt : ∀ z : Int, (z % b.cap).toNat < b.cap := by
      intro z
      have n1 := Int.emod_nonneg z (by omega : (b.cap : Int) ≠ 0)
      have n2 := Int.emod_lt_of_pos z hc
      omega
    have g3 := i3 _ (lt ((j : Int) - s3))
    rw [key s3 j hj, Int.toNat_natCast] at g3
    have g2 := i2 _ (lt ((j : Int) - s2))
    rw [key s2 j hj, Int.toNat_natCast, hw1] at g2
    have g1 := i1 _ (lt ((((j : Int) - s2) % b.cap).toNat - s1))
    rw [key s1 _ (lt _), Int.toNat_natCast] at g1
    rw [g3, g2, g1]
    congr 2
    have n1 := Int.emod_nonneg ((j : Int) - s2) (by omega : (b.cap : Int) ≠ 0)
    rw [Int.toNat_of_nonneg n1, Int.emod_sub_emod, Int.sub_sub, Int.add_comm s2 s1,
      Int.sub_emod, ← hs, ← Int.sub_emod]
  · rw [List.getElem?_eq_none (by omega), List.getElem?_eq_none (by omega)]

/-- C89: rotating back restores every byte. -/
theorem C89_rotate_back {P : Plat} {m : Mem} {b : BBuf} (h : Valid m b) (h0 : 0 < b.cap)
    (hf : Fits P b) {s : Int} (a : P.intMin < s) (c : s ≤ P.intMax) {f : Nat}
    (hfu : s.natAbs < f) :
    ∃ m1, rrotate P f m b s = .ok m1 ∧ rrotate P f m1 b (-s) = .ok m := by
  have hmin := P.intMin_eq
  have hmax := P.intMax_ge
  obtain ⟨m1, m2, e1, e2, e3⟩ := C89_rotations_compose (s1 := s) (s2 := -s) (s3 := 0) (f1 := f)
    (f2 := f) (f3 := f) h h0 hf (by omega) c (by omega) (by omega) (by omega) (by omega)
    (by rw [Int.add_right_neg]) hfu (by omega) (by simp; omega)
  refine ⟨m1, e1, ?_⟩
  have := rrotate_ok (P := P) h h0 hf (shift := 0) (by omega) (by omega) (fuel := f) (by simp; omega)
  simp only [Int.zero_emod, Int.toNat_zero, Nat.sub_zero] at this
  have hv := view_length h
  rw [List.drop_eq_nil_of_le (by omega), List.take_of_length_le (by omega), List.nil_append,
    replaced_view h, e3] at this
  rw [e2, this]

example : (match rrotate Plat.ip16 9 (fun _ => [9, 1, 2, 3, 9]) ⟨⟨0, 1⟩, 3⟩ 7 with
    | .ok m => m 0 = [9, 3, 1, 2, 9] ∧ match rrotate Plat.ip16 9 m ⟨⟨0, 1⟩, 3⟩ (-7) with
      | .ok m => m 0 = [9, 1, 2, 3, 9]
      | .error _ => False
    | .error _ => False) := by
  show _ ∧ _ = _
  exact ⟨by decide, by decide⟩

/-! ## C90 -/

/-- C90: the two parts `mu_bbuf_bisect` makes are the slices `[0, index)` and `[index, END)`. -/
theorem C90_bisect_slices {P : Plat} {m : Mem} {O : Objs} {left right src : Val} {index : Int}
    (hv : Valid m (O src)) (hf : Fits P (O src)) (h1 : -((O src).cap : Int) ≤ index)
    (h2 : index ≤ P.intMax) (hl : left ≠ NULL) (hr : right ≠ NULL) (hlr : left ≠ right) (d : Val) :
    ∃ O' A B, bisect P m O left right src index = .ok O' ∧
      slice P m O d src 0 index = .ok A ∧ slice P m O d src index (END P) = .ok B ∧
      view m (O' left) = view m (A d) ∧ view m (O' right) = view m (B d) := by
  have hmin := P.intMin_eq
  have hmax := P.intMax_ge
  have hc : ((O src).cap : Int) ≤ P.intMax := hf
  have hlen := view_length hv
  obtain ⟨O', e, g1, g2, -⟩ := C70_bisect (left := left) (right := right) hv hf h1 h2
  obtain ⟨A, eA, -, -, vA, -⟩ := C69_slice (dst := d) hv hf (start := 0) (stop := index) (by omega)
    (by omega) (by omega) h2
  obtain ⟨B, eB, -, -, vB, -⟩ := C69_slice (dst := d) hv hf (start := index) (stop := END P) h1
    h2 (by simp only [END]; omega) (by simp only [END]; omega)
  have p0 : position (O src).cap 0 = 0 := by simp [position]
  have pE : position (O src).cap (END P) = (O src).cap := by
    have : END P = P.intMax := rfl
    unfold position
    rw [this]
    split <;> omega
  have pl : position (O src).cap index ≤ (O src).cap := by
    unfold position; split <;> omega
  refine ⟨O', A, B, e, eA, eB, ?_, ?_⟩
  · rw [(g1 hl hlr).2.2.2, vA, p0, Nat.zero_max, List.drop_zero]
  · rw [(g2 hr).2.2, vB, pE, Nat.max_eq_right pl, List.take_of_length_le (by omega)]

end Mu.BBuf

namespace Mu.Jems
open Spec BBuf

/-! ## C91 -/

theorem bdigit (c : UInt8) : BBuf.isDigit c = Spec.isDigit c := by
  simp only [BBuf.isDigit, Spec.isDigit, UInt8.le_iff_toNat_le]
  rw [Bool.eq_iff_iff]
  simp

theorem bval (l : List UInt8) : decValue l = decVal l := by
  unfold decValue decVal
  congr 1
  funext v b
  omega

theorem leadingNat_digits (n : Nat) {r : List UInt8} (hr : ∀ c ∈ r.head?, BBuf.isDigit c = false) :
    leadingNat (digits n ++ r) = n := by
  have h1 : (digits n ++ r).takeWhile BBuf.isDigit = digits n := by
    rw [List.takeWhile_append_of_pos
      (fun c hc => by rw [bdigit]; exact digits_isDigit n c hc)]
    cases r with
    | nil => simp
    | cons c r => simp [hr c (by simp)]
  rw [leadingNat, h1, bval, decVal_digits]

theorem leadingInt_fmt (v : Int) {r : List UInt8} (hr : ∀ c ∈ r.head?, BBuf.isDigit c = false) :
    leadingInt (ascii (toString v) ++ r) = v := by
  rw [← fmtI64_eq, fmtI64]
  by_cases h : v < 0
  · rw [if_pos h, List.cons_append, leadingInt, if_pos rfl, leadingNat_digits _ hr]
    omega
  · rw [if_neg h]
    obtain ⟨c, t, h1, h2⟩ := digits_cons v.natAbs
    have h3 := leadingNat_digits v.natAbs hr
    rw [h1] at h3 ⊢
    rw [List.cons_append] at h3 ⊢
    rw [leadingInt, if_neg (isDigit_ne h2 (by decide)), h3]
    omega

/-- C91: the text `mu_jems_integer` emits for `v`, in a buffer and not followed by another digit, is
parsed by `mu_bbuf_parse_int64` (or any wider or narrower type of at least the width of `int` that can
hold `-v` and `v`) to `v`. -/
theorem C91_integer_parse {P : Plat} {ms : Mem} {j : Jems} (hj : Reached P ms j) {v : Int}
    (h1 : -(2 ^ 63) < v) (h2 : v < 2 ^ 63) {N : Nat} (hN : P.ib ≤ N)
    (hb : v.natAbs < 2 ^ (N - 1)) :
    ∃ j' t, integer P j v = .ok j' ∧ Wrote j j' t ∧ ∀ {m : Mem} {b : BBuf} {r : List UInt8},
      Valid m b → BBuf.Fits P b → view m b = t ++ r → (∀ c ∈ r.head?, BBuf.isDigit c = false) →
      parseInt P N m b = .ok v := by
  obtain ⟨j', e, w, -⟩ := C59_integer hj (by omega) h2
  refine ⟨j', _, e, w, ?_⟩
  intro m b r hv hf hview hr
  rw [C47_wide_partial hN hv hf, hview, leadingInt_fmt v hr]
  have : ((v.natAbs : Nat) : Int) < 2 ^ (N - 1) := by
    have := Int.ofNat_lt.mpr hb
    simpa using this
  rw [if_pos (by omega)]

/-- C91, the exception: the text of `INT64_MIN` makes `mu_bbuf_parse_int64` overflow. -/
theorem C91_int64_min {P : Plat} (hP : P.ib ≤ 64) {m : Mem} {b : BBuf} (hv : Valid m b)
    (hf : BBuf.Fits P b) (hview : view m b = ascii (toString (-(2 ^ 63) : Int))) :
    parseInt P 64 m b = .error .overflow := by
  rw [C47_wide_partial hP hv hf, hview]
  have := leadingInt_fmt (-(2 ^ 63)) (r := []) (by simp)
  rw [List.append_nil] at this
  rw [this, if_neg (by omega)]

/-- C91, unsigned parsers: the text of a natural number is parsed to it, modulo the width. -/
theorem C91_unsigned_parse {P : Plat} {ms : Mem} {j : Jems} (hj : Reached P ms j) {n : Nat}
    (h2 : n < 2 ^ 63) {N : Nat} (hN : Regular P N) :
    ∃ j' t, integer P j n = .ok j' ∧ Wrote j j' t ∧ ∀ {m : Mem} {b : BBuf} {r : List UInt8},
      Valid m b → BBuf.Fits P b → view m b = t ++ r → (∀ c ∈ r.head?, BBuf.isDigit c = false) →
      parseUint P N m b = .ok (n % 2 ^ N) := by
  obtain ⟨j', e, w, -⟩ := C59_integer (v := (n : Int)) hj (by omega) (by omega)
  refine ⟨j', _, e, w, ?_⟩
  intro m b r hv hf hview hr
  rw [C46_parse_uint hN hv hf, hview, ← fmtI64_eq, fmtI64, if_neg (by omega), Int.natAbs_natCast,
    leadingNat_digits n hr]

example : parseInt Plat.lp64 64 (fun _ => ascii "-9223372036854775807,") ⟨⟨0, 0⟩, 21⟩ =
    .ok (-9223372036854775807) := by decide +kernel

end Mu.Jems
