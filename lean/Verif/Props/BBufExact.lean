import Verif.Props.BBuf

/-! # Properties C69 – C77: what the buffer functions with flaws do, completely

C39, C40, C44, C45, C47 and C50 – C53 are false of the code.  These properties say what is true
instead. -/

namespace Mu.BBuf

/-- An `int` survives conversion to `size_t` and back. -/
theorem toInt_toSz {P : Plat} {x : Int} (h1 : P.intMin ≤ x) (h2 : x ≤ P.intMax) :
    P.toInt (P.toSz x) = x := by
  unfold Plat.toInt Plat.toSz
  have hp := P.szMod_pos
  have h0 : 0 ≤ x % (P.szMod : Int) := Int.emod_nonneg _ (by omega)
  rw [Int.toNat_of_nonneg h0]
  have hd : ((2 ^ P.ib : Nat) : Int) ∣ (P.szMod : Int) := by
    unfold Plat.szMod
    exact Int.natCast_dvd_natCast.mpr (Nat.pow_dvd_pow 2 P.hsb)
  have h3 : Int.bmod (x % (P.szMod : Int)) (2 ^ P.ib) = Int.bmod x (2 ^ P.ib) := by
    unfold Int.bmod
    rw [Int.emod_emod_of_dvd _ hd]
  rw [h3]
  unfold Plat.intMin at h1
  unfold Plat.intMax at h2
  have := P.pow_split
  rw [Int.bmod_eq_of_le_mul_two] <;> push_cast <;> omega

/-- `size_t` addition of a capacity and a converted `int`. -/
theorem sz_add_toSz (P : Plat) (n : Nat) (x : Int) : P.sz (n + P.toSz x) = P.toSz ((n : Int) + x) := by
  unfold Plat.sz Plat.toSz
  have hp := P.szMod_pos
  have h0 : 0 ≤ x % (P.szMod : Int) := Int.emod_nonneg _ (by omega)
  apply Int.ofNat_inj.mp
  have h1 : 0 ≤ ((n : Int) + x) % (P.szMod : Int) := Int.emod_nonneg _ (by omega)
  rw [Int.toNat_of_nonneg h1, Int.natCast_emod, Int.natCast_add, Int.toNat_of_nonneg h0,
    Int.add_emod_emod]

/-- **C69.**  For every `start` that is not below `-capacity` and every `end` (`MU_BBUF_END`
included): the slice is the range of bytes the two indices denote, empty if they are out of order; it
is a part of the source, no byte changes, and no other buffer object is touched.  `dst` may be
`src`. -/
theorem C69_slice {P : Plat} {m : Mem} {O : Objs} {dst src : Val} {start stop : Int}
    (hv : Valid m (O src)) (hf : Fits P (O src)) (h1 : -((O src).cap : Int) ≤ start)
    (h2 : start ≤ P.intMax) (h3 : P.intMin ≤ stop) (h4 : stop ≤ P.intMax) :
    ∃ O', slice P m O dst src start stop = .ok O' ∧ Within (O' dst) (O src) ∧
      Valid m (O' dst) ∧
      view m (O' dst) = ((view m (O src)).take (max (position (O src).cap start)
        (position (O src).cap stop))).drop (position (O src).cap start) ∧
      ∀ x, x ≠ dst → O' x = O x := C39_slice_partial hv hf h1 h2 h3 h4

/-- **C69, the exception.**  For every `start` below `-capacity` the call never yields a part of the
source: it computes the address `-(capacity + start)` bytes before the source, which is undefined
behaviour if the object does not begin that early, and otherwise (if it does not overflow) the slice
begins there. -/
theorem C69_slice_below {P : Plat} {m : Mem} {O : Objs} {dst src : Val} {start stop : Int}
    (hf : Fits P (O src)) (h1 : start < -((O src).cap : Int)) (h0 : P.intMin ≤ start) :
    ((O src).p.off + (O src).cap + start < 0 → slice P m O dst src start stop = .error .ptr) ∧
    ∀ O', slice P m O dst src start stop = .ok O' →
      (O' dst).p = ⟨(O src).p.blk, (O src).p.off + (O src).cap + start⟩ ∧
      ¬ Within (O' dst) (O src) := by
  unfold Fits at hf
  have hmin := P.intMin_eq
  have hmax := P.intMax_ge
  have hs : sliceStart P (O src).cap start = (O src).cap + start := by
    unfold sliceStart
    rw [if_pos (by omega), sz_add_toSz, toInt_toSz (by omega) (by omega)]
  unfold slice
  simp only [hs]
  constructor
  · intro hneg
    have : m.add (O src).p ((O src).cap + start) = .error .ptr := by
      unfold Mem.add; rw [if_neg (by omega)]
    rw [this]; rfl
  · intro O' h
    obtain ⟨p, hp, h⟩ := C.bind_eq_ok h
    obtain ⟨n, hn, h⟩ := C.bind_eq_ok h
    have hp' : p = ⟨(O src).p.blk, (O src).p.off + (O src).cap + start⟩ := by
      unfold Mem.add at hp
      split at hp
      · cases hp; congr 1; omega
      · cases hp
    cases h
    simp only [init, set, if_true, hp', true_and]
    rintro ⟨-, h, -⟩
    simp only at h
    omega

example : slice Plat.lp64 exMem (fun _ => ⟨⟨1, 2⟩, 2⟩) 1 2 (-3) 1 =
      .ok (set (fun _ => ⟨⟨1, 2⟩, 2⟩) 1 ⟨⟨1, 1⟩, 2⟩) ∧
    slice Plat.lp64 exMem (fun _ => exHay) 1 1 (-3) (-1) =
      .ok (set (fun _ => exHay) 1 ⟨⟨1, 2⟩, 2⟩) := ⟨rfl, rfl⟩

/-- **C70.**  For every index that is not below `-capacity`: left is the first `k` bytes and right
the rest, `k` the clamped index; a NULL side is skipped; left or right may be the source itself (or
each other: then the right part is what remains); no other object changes. -/
theorem C70_bisect {P : Plat} {m : Mem} {O : Objs} {left right src : Val} {index : Int}
    (hv : Valid m (O src)) (hf : Fits P (O src)) (h1 : -((O src).cap : Int) ≤ index)
    (h2 : index ≤ P.intMax) :
    ∃ O', bisect P m O left right src index = .ok O' ∧
      (left ≠ NULL → left ≠ right → Within (O' left) (O src) ∧ Valid m (O' left) ∧
        (O' left).cap = position (O src).cap index ∧
        view m (O' left) = (view m (O src)).take (position (O src).cap index)) ∧
      (right ≠ NULL → Within (O' right) (O src) ∧ Valid m (O' right) ∧
        view m (O' right) = (view m (O src)).drop (position (O src).cap index)) ∧
      (left ≠ NULL → right ≠ NULL → left ≠ right →
        view m (O' left) ++ view m (O' right) = view m (O src)) ∧
      (∀ x, x ≠ left → x ≠ right → O' x = O x) ∧ O' NULL = O NULL :=
  C40_bisect_partial hv hf h1 h2

/-- **C70, the exception.**  For every index below `-capacity`, whenever the call returns at all, a
left side that is not NULL is given a capacity above `INT_MAX` (near `SIZE_MAX`), and a right side
that is not NULL begins before the source. -/
theorem C70_bisect_below {P : Plat} {m : Mem} {O : Objs} {left right src : Val} {index : Int}
    (hf : Fits P (O src)) (h1 : index < -((O src).cap : Int)) (h0 : P.intMin ≤ index) :
    ∀ O', bisect P m O left right src index = .ok O' →
      (left ≠ NULL → left ≠ right → (O' left).p = (O src).p ∧
        ((O' left).cap : Int) = P.szMod + (O src).cap + index ∧ P.intMax < (O' left).cap) ∧
      (right ≠ NULL → (O' right).p = ⟨(O src).p.blk, (O src).p.off + (O src).cap + index⟩ ∧
        ¬ Within (O' right) (O src)) := by
  unfold Fits at hf
  have hmin := P.intMin_eq
  have hmax := P.intMax_ge
  have hsz := P.intMax_lt_szMod
  have hcap : ((P.toSz ((O src).cap + index) : Nat) : Int) = P.szMod + (O src).cap + index := by
    unfold Plat.toSz
    have h0 : 0 ≤ (((O src).cap : Int) + index) % (P.szMod : Int) := Int.emod_nonneg _ (by omega)
    rw [Int.toNat_of_nonneg h0, ← Int.add_emod_right, Int.emod_eq_of_lt] <;> omega
  intro O' h
  unfold bisect at h
  simp only [Plat.toInt_of_le hf] at h
  rw [if_pos (by omega), Plat.int_ok (by omega) (by omega)] at h
  simp only [C.ok_bind] at h
  by_cases hr : right = NULL
  · rw [if_neg (by simp [hr])] at h
    cases h
    refine ⟨fun hl _ => ?_, fun h => absurd hr h⟩
    rw [if_pos hl]
    simp only [init, set, if_true]
    exact ⟨trivial, hcap, by omega⟩
  · rw [if_pos hr] at h
    obtain ⟨p, hp, h⟩ := C.bind_eq_ok h
    obtain ⟨n, hn, h⟩ := C.bind_eq_ok h
    cases h
    refine ⟨fun hl hlr => ?_, fun _ => ?_⟩
    · rw [if_pos hl]
      simp only [init, set, hlr, if_false, if_true]
      exact ⟨trivial, hcap, by omega⟩
    · have e : ((if left ≠ NULL then init O left (O src).p (P.toSz ((O src).cap + index)) else O) src).p
          = (O src).p := by
        split
        · simp only [init, set]
          split <;> rfl
        · rfl
      rw [e] at hp
      have hp' : p = ⟨(O src).p.blk, (O src).p.off + (O src).cap + index⟩ := by
        unfold Mem.add at hp
        split at hp
        · cases hp; congr 1; omega
        · cases hp
      simp only [init, set, if_true, hp']
      refine ⟨trivial, ?_⟩
      rintro ⟨-, h, -⟩
      simp only at h
      omega

example : bisect Plat.lp64 exMem (fun _ => ⟨⟨1, 2⟩, 2⟩) 1 2 3 (-3) =
      .ok (set (set (fun _ => ⟨⟨1, 2⟩, 2⟩) 1 ⟨⟨1, 2⟩, 18446744073709551615⟩) 2 ⟨⟨1, 1⟩, 3⟩) ∧
    bisect Plat.lp64 exMem (fun _ => exHay) 1 2 1 2 =
    .ok (set (set (fun _ => exHay) 1 ⟨⟨1, 0⟩, 2⟩) 2 ⟨⟨1, 2⟩, 3⟩) := ⟨rfl, rfl⟩

/-- **C71.**  `mu_bbuf_ltrim`, every buffer and predicate: if some byte fails the predicate the result
is the source without its longest matching prefix; if none does, it is the whole source.  It is always
a part of the source and the only object written; `dst` may be `src`. -/
theorem C71_ltrim {P : Plat} {m : Mem} {O : Objs} {dst src : Val} (pred : UInt8 → Bool)
    (hv : Valid m (O src)) (hf : Fits P (O src)) :
    ∃ O', ltrim P m O dst src pred = .ok O' ∧ Within (O' dst) (O src) ∧ Valid m (O' dst) ∧
      view m (O' dst) = (if ∀ x ∈ view m (O src), pred x = true then view m (O src)
        else (view m (O src)).dropWhile pred) ∧
      ∀ x, x ≠ dst → O' x = O x := by
  obtain ⟨O', h1, h2, h3, h4, h5, h6⟩ := C44_ltrim_partial (dst := dst) pred hv hf
  refine ⟨O', h1, h2, h3, ?_, h6⟩
  split
  · next h => exact h5 h
  · next h => exact h4 (.inl (by simpa using h))

example : view exMem exHay = [97, 98, 99, 97, 98] ∧
    ltrim Plat.lp64 exMem (fun _ => exHay) 1 1 (· == 97) =
      .ok (set (fun _ => exHay) 1 ⟨⟨1, 1⟩, 4⟩) ∧
    ltrim Plat.lp64 exMem (fun _ => exHay) 1 2 (fun _ => true) =
      .ok (set (fun _ => exHay) 1 exHay) := ⟨by decide, rfl, rfl⟩

/-- **C72.**  `mu_bbuf_rtrim` and `mu_bbuf_trim`, every buffer and predicate.  If every byte matches,
both return the whole source.  Otherwise `rtrim` returns the source without its longest matching
suffix *and without the byte before it*; `trim` does that after removing the longest matching prefix.
The result is a part of the source and the only object written; `dst` may be `src`. -/
theorem C72_rtrim {P : Plat} {m : Mem} {O : Objs} {dst src : Val} (pred : UInt8 → Bool)
    (hv : Valid m (O src)) (hf : Fits P (O src)) :
    (∃ O', rtrim P m O dst src pred = .ok O' ∧ Within (O' dst) (O src) ∧ Valid m (O' dst) ∧
      view m (O' dst) = (if ∀ x ∈ view m (O src), pred x = true then view m (O src)
        else (dropWhileEnd pred (view m (O src))).dropLast) ∧
      ∀ x, x ≠ dst → O' x = O x) ∧
    (∃ O', trim P m O dst src pred = .ok O' ∧ Within (O' dst) (O src) ∧ Valid m (O' dst) ∧
      view m (O' dst) = (if ∀ x ∈ view m (O src), pred x = true then view m (O src)
        else (dropWhileEnd pred ((view m (O src)).dropWhile pred)).dropLast) ∧
      ∀ x, x ≠ dst → O' x = O x) := by
  constructor
  · obtain ⟨O', h1, h2, h3, h4, h5, h6⟩ := C45_rtrim_partial (dst := dst) pred hv hf
    refine ⟨O', h1, h2, h3, ?_, h6⟩
    split
    · next h => exact h5 h
    · next h => exact h4 (by simpa using h)
  · obtain ⟨O', h1, h2, h3, h4, h5, h6⟩ := C45_trim_partial (dst := dst) pred hv hf
    refine ⟨O', h1, h2, h3, ?_, h6⟩
    split
    · next h => exact h5 h
    · next h => exact h4 (by simpa using h)

example : dropWhileEnd (· == 98) (view exMem exHay) = [97, 98, 99, 97] ∧
    rtrim Plat.lp64 exMem (fun _ => exHay) 1 1 (· == 98) =
      .ok (set (fun _ => exHay) 1 ⟨⟨1, 0⟩, 3⟩) := ⟨by decide, rfl⟩

/-- **C73.**  The signed parsers.  A type so much narrower than `int` that ten times its values fit:
the optional `-` and digits, reduced to the width, whatever the buffer.  A type at least as wide as
`int`: the exact value if it lies in `[-MAX, MAX]`, and undefined behaviour (signed overflow)
otherwise, `MIN` itself included.  (`Regular`: every type of `<stdint.h>` is one or the other.) -/
theorem C73_parse_int {P : Plat} {N : Nat} (hN : Regular P N) {m : Mem} {b : BBuf}
    (hv : Valid m b) (hf : Fits P b) :
    parseInt P N m b =
      if N < P.ib then .ok (Int.bmod (leadingInt (view m b)) (2 ^ N))
      else if -(2 ^ (N - 1) - 1) ≤ leadingInt (view m b) ∧
          leadingInt (view m b) ≤ 2 ^ (N - 1) - 1 then .ok (leadingInt (view m b))
      else .error .overflow := by
  rcases hN with h | h
  · rw [if_neg (by omega)]; exact C47_wide_partial h hv hf
  · rw [if_pos (by omega)]; exact C47_narrow_partial h hv hf

example : Regular Plat.lp64 8 ∧ Regular Plat.lp64 64 ∧
    parseInt Plat.lp64 32 exMem exInt = .ok (-12) ∧
    parseInt Plat.lp64 32 (fun _ => [45, 50, 49, 52, 55, 52, 56, 51, 54, 52, 56]) ⟨⟨0, 0⟩, 11⟩ =
      .error .overflow ∧
    parseInt Plat.lp64 32 (fun _ => [45, 50, 49, 52, 55, 52, 56, 51, 54, 52, 55]) ⟨⟨0, 0⟩, 11⟩ =
      .ok (-2147483647) := by decide

/-- **C74.**  `mu_bbuf_copy_into`, every pair of buffers and every offset: the call has a defined
result iff the offset is positive and at or beyond the end of the destination, or negative, not
`INT_MIN`, and at least the length of the source below zero; then it returns 0 and changes nothing.
In all other cases it is undefined: an uninitialised variable is read, or `-INT_MIN` overflows. -/
theorem C74_copy_into {P : Plat} {m : Mem} {dst src : BBuf} {offset : Int}
    (h1 : P.intMin ≤ offset) (h2 : offset ≤ P.intMax) :
    copyInto P m dst src offset =
      if offset = P.intMin then .error .overflow
      else if (0 < offset ∧ (dst.cap : Int) ≤ offset) ∨ (offset < 0 ∧ (src.cap : Int) ≤ -offset) then
        .ok (0, m)
      else .error .uninit := by
  have hmin := P.intMin_eq
  have hmax := P.intMax_ge
  unfold copyInto copyIntoFrom
  simp only
  by_cases hp : offset > 0
  · rw [if_pos hp, Plat.toSz_int (by omega) h2, if_neg (by omega : ¬ offset = P.intMin)]
    by_cases hc : offset.toNat ≥ dst.cap
    · rw [if_pos hc, if_pos (by omega)]
    · rw [if_neg hc, if_neg (by omega)]
      rfl
  · rw [if_neg hp]
    by_cases hn : offset < 0
    · rw [if_pos hn]
      by_cases he : offset = P.intMin
      · rw [if_pos he]
        have : P.int (-offset) = .error .overflow := by
          unfold Plat.int; rw [if_neg (by omega)]
        rw [this]; rfl
      · rw [if_neg he, Plat.int_ok (by omega) (by omega), C.ok_bind,
          Plat.toSz_int (by omega) (by omega)]
        by_cases hc : (-offset).toNat ≥ src.cap
        · rw [if_pos hc, if_pos (by omega)]
        · rw [if_neg hc, if_neg (by omega)]
          simp only [rdVar, C.ok_bind]
          rw [if_pos (by omega)]
          rfl
    · rw [if_neg hn, if_neg (by omega), if_neg (by omega)]
      rfl

example : (copyInto Plat.lp64 exMem exHay exAb 1 matches .error .uninit) ∧
    (copyInto Plat.lp64 exMem exHay exAb 0 matches .error .uninit) ∧
    (copyInto Plat.lp64 exMem exHay exAb 5 matches .ok (0, _)) ∧
    (copyInto Plat.lp64 exMem exHay exAb (-2) matches .ok (0, _)) := by
  refine ⟨?_, ?_, ?_, ?_⟩ <;> decide

/-- **C75.**  `mu_bbuf_reverse` reverses every non-empty buffer in place, changing nothing outside it,
and a second call restores the memory; on an empty buffer (in any object smaller than the address
space) it computes an address outside the object, which is undefined. -/
theorem C75_reverse {P : Plat} {m : Mem} {b : BBuf} (h : Valid m b)
    (hs : (m b.p.blk).length + 1 < P.szMod) :
    (0 < b.cap → ∃ m', reverse P m b = .ok m' ∧ m' = replaced m b (view m b).reverse ∧
      view m' b = (view m b).reverse ∧ reverse P m' b = .ok m) ∧
    (b.cap = 0 → reverse P m b = .error .ptr) := by
  refine ⟨fun h0 => C51_reverse_partial h h0 ?_, fun h0 => C51_empty_false h h0 hs⟩
  have := h.1; have := h.2; omega

example : Valid exMem exHay ∧ (exMem 1).length + 1 < Plat.lp64.szMod ∧
    (match reverse Plat.lp64 exMem exHay with
      | .ok m' => m' 1 = [98, 97, 99, 98, 97] | .error _ => False) ∧
    (reverse Plat.lp64 exMem ⟨⟨1, 2⟩, 0⟩ matches .error .ptr) := by
  refine ⟨by decide, by decide, ?_, by decide⟩
  show _ = _
  decide

/-- **C76.**  `mu_bbuf_rrotate` with any shift on any non-empty buffer returns (its loops need at most
`|shift| + 1` rounds), moves the byte at `i` to `(i + shift) mod capacity` and changes nothing outside
the buffer; on an empty buffer it never returns. -/
theorem C76_rrotate {P : Plat} {m : Mem} {b : BBuf} (h : Valid m b) (hf : Fits P b) {shift : Int}
    (h1 : P.intMin ≤ shift) (h2 : shift ≤ P.intMax) :
    (0 < b.cap → ∃ bs : List UInt8, bs.length = b.cap ∧
      (∀ i, i < b.cap → bs[(((i : Int) + shift) % b.cap).toNat]? = (view m b)[i]?) ∧
      ∀ fuel, shift.natAbs < fuel → rrotate P fuel m b shift = .ok (replaced m b bs)) ∧
    (b.cap = 0 → ∀ fuel m', rrotate P fuel m b shift ≠ .ok m') :=
  ⟨fun h0 => C52_rrotate_partial h h0 hf h1 h2,
    fun h0 fuel m' h => C52_empty_false h0 shift ⟨fuel, m', h⟩⟩

example : Valid exMem exHay ∧ Fits Plat.lp64 exHay ∧
    (match rrotate Plat.lp64 10 exMem exHay 2 with
      | .ok m' => m' 1 = [97, 98, 97, 98, 99]
      | .error _ => False) ∧
    (rrotate Plat.lp64 10 exMem ⟨⟨1, 2⟩, 0⟩ 3 matches .error .diverge) := by
  refine ⟨by decide, by decide, ?_, by decide⟩
  show _ = _
  decide

/-- **C77.**  `mu_bbuf_rshift` with any shift but `INT_MIN`, any buffer: position `j` holds the byte
that was at `j - shift`, or zero if there was none, and nothing outside the buffer changed.  With
`INT_MIN` it overflows. -/
theorem C77_rshift {P : Plat} {m : Mem} {b : BBuf} (h : Valid m b) (hsz : b.cap < P.szMod)
    {shift : Int} (h1 : P.intMin ≤ shift) (h2 : shift ≤ P.intMax) :
    (shift ≠ P.intMin → ∃ bs : List UInt8, bs.length = b.cap ∧
      rshift P m b shift = .ok (replaced m b bs) ∧
      ∀ j, j < b.cap → bs[j]? = if 0 ≤ (j : Int) - shift ∧ (j : Int) - shift < b.cap then
        (view m b)[((j : Int) - shift).toNat]? else some 0) ∧
    (shift = P.intMin → rshift P m b shift = .error .overflow) := by
  refine ⟨fun h0 => C53_rshift_partial h hsz (by omega) h2, fun h0 => ?_⟩
  rw [h0]; exact C53_int_min_false P m b

example : (match rshift Plat.lp64 exMem exHay 2 with
      | .ok m' => m' 1 = [0, 0, 97, 98, 99]
      | .error _ => False) ∧
    (rshift Plat.lp64 exMem exHay (-2147483648) matches .error .overflow) :=
  ⟨(by decide : _ = _), by decide⟩

end Mu.BBuf
