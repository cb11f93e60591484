import Verif.Props.Array

/-! # Properties C65 – C67: what `mu_array_delete` and `mu_array_sort` do, completely

C17, C19 and C20 are false of the code.  These properties say what is true instead. -/

namespace Mu.Arr
open Spec

/-- **C65, last item and out of range.**  Deleting the last item delivers it and removes exactly it;
an index at or beyond the count returns false and changes nothing. -/
theorem C65_delete_last (P : Plat) (a : Arr) (l : List Val) (i : Nat) (h : Rep a l)
    (hs : (a.capacity : Int) ≤ P.intMax) :
    (∀ hi : i + 1 = l.length, ∃ a', delete P a i = .ok (true, some l[i], a') ∧
      Rep a' l.dropLast ∧ a'.storage = a.storage ∧ a'.capacity = a.capacity) ∧
    (l.length ≤ i → delete P a i = .ok (false, none, a)) := by
  obtain ⟨h1, -, -⟩ := C17_delete_partial P a l i h hs
  constructor
  · intro hi
    have e4 : P.szSub a.count 1 = a.count - 1 := P.szSub_of_le (by have := h.len; omega) (by
      have := P.intMax_lt_szMod; have := h.le; omega)
    have hd : delete P a i = .ok (true, some l[i], { a with count := a.count - 1 }) := by
      have hl := h.len
      unfold delete
      rw [if_neg (by simp [isEmpty]; omega), if_pos (by omega)]
      simp only [e4]
      have : a.count - 1 = i := by omega
      rw [this, h.ld (by omega)]
      rfl
    refine ⟨_, hd, ?_, rfl, rfl⟩
    have h2 := h1 (Or.inr hi)
    unfold DeleteSpec at h2
    rw [dif_pos (by omega)] at h2
    obtain ⟨a', e, r⟩ := h2
    rw [hd] at e
    cases e
    have : l.eraseIdx i = l.dropLast := by
      rw [List.dropLast_eq_take, List.eraseIdx_eq_take_drop_succ,
        List.drop_of_length_le (by omega), List.append_nil]
      congr 1; omega
    rwa [this] at r
  · intro hi
    have h2 := h1 (Or.inl hi)
    unfold DeleteSpec at h2
    rwa [dif_neg (by omega)] at h2

/-- **C65, other items.**  Deleting an item that is not the last delivers it and moves the higher
items down, but the count stays what it was: the array now ends with whatever was in the storage slot
behind the items.  If the storage has no such slot, the call reads outside the storage. -/
theorem C65_delete_inner (P : Plat) (a : Arr) (l : List Val) (i : Nat) (h : Rep a l)
    (hs : (a.capacity : Int) ≤ P.intMax) (hi : i + 1 < l.length) :
    (∀ hx : l.length < a.storage.length, ∃ a', delete P a i = .ok (true, some l[i], a') ∧
      Rep a' (l.eraseIdx i ++ [a.storage[l.length]]) ∧ a'.capacity = a.capacity ∧
      a'.storage.drop l.length = a.storage.drop l.length) ∧
    (a.storage.length = l.length → delete P a i = .error .oob) := by
  obtain ⟨-, h2, h3⟩ := C17_delete_partial P a l i h hs
  refine ⟨?_, h3 hi⟩
  intro hx
  obtain ⟨a', e, c1, c2, c3⟩ := h2 hi hx
  have hl := h.len
  have hle := h.le
  have hal := h.alloc
  have hE : (l.eraseIdx i).length = l.length - 1 := by
    rw [List.length_eraseIdx, if_pos (by omega)]
  refine ⟨a', e, ⟨?_, by omega, ?_, ?_⟩, c2, ?_⟩
  · simp [hE]; omega
  · rw [c2, c3]; simp [hE]; omega
  · rw [c3, c1, List.append_cons, List.take_left' (by simp [hE]; omega)]
  · rw [c3, List.append_cons, List.drop_left' (by simp [hE]; omega)]

/-- **C65, how to delete.**  If the storage has a slot behind the items, `mu_array_delete` followed, for
an item that is not the last, by `mu_array_pop` removes exactly that item. -/
theorem C65_delete_then_pop (P : Plat) (a : Arr) (l : List Val) (i : Nat) (h : Rep a l)
    (hs : (a.capacity : Int) ≤ P.intMax) (hi : i + 1 < l.length) (hx : l.length < a.storage.length) :
    ∃ a1 a2 stale, delete P a i = .ok (true, some l[i], a1) ∧ pop P a1 = .ok (true, some stale, a2) ∧
      Rep a2 (l.eraseIdx i) ∧ a2.capacity = a.capacity ∧
      a2.storage.drop l.length = a.storage.drop l.length := by
  obtain ⟨a1, e1, e2, e3, e4⟩ := (C65_delete_inner P a l i h hs hi).1 hx
  have := P.intMax_lt_szMod
  obtain ⟨e5, e6⟩ := pop_ok (P := P) (x := a.storage[l.length]) e2 (by simp) (by omega)
  rw [List.dropLast_concat] at e6
  exact ⟨a1, _, _, e1, e5, e6, e3, e4⟩

example : delete Plat.lp64 ⟨[1, 2, 3, 9], 4, 3⟩ 0 = .ok (true, some 1, ⟨[2, 3, 9, 9], 4, 3⟩) ∧
    delete Plat.lp64 ⟨[1, 2, 3, 9], 4, 3⟩ 2 = .ok (true, some 3, ⟨[1, 2, 3, 9], 4, 2⟩) ∧
    delete Plat.lp64 ⟨[1, 2, 3], 3, 3⟩ 1 = .error .oob := by decide

/-- **C66.**  On platforms where `size_t` is wider than `int`, and on all others for arrays of any
number of items except one, `mu_array_sort` with a comparison function that is a total preorder
terminates without leaving the array and leaves it holding a sorted permutation of its items; nothing
behind the items changes.  (Up to `(INT_MAX + 1) / 2` items.) -/
theorem C66_sort (P : Plat) (a : Arr) (l : List Val) (cmp : Cmp) (h : Rep a l)
    (ht : TotalPreorder cmp) (hw : P.ib < P.sb ∨ l.length ≠ 1)
    (hb : (2 * l.length : Int) ≤ P.intMax + 1) :
    ∃ a' l', sort P a cmp = .ok a' ∧ Rep a' l' ∧ Sorted cmp l' ∧ l'.Perm l ∧
      a'.count = a.count ∧ a'.capacity = a.capacity ∧
      a'.storage.drop l.length = a.storage.drop l.length :=
  C19_sort_partial P a l cmp h ht (fun h1 => hw.resolve_right (fun h2 => h2 h1)) hb

/-- **C66, the exception**: where `size_t` is as wide as `int`, sorting any array of one item
overflows, whatever the item and the comparison function. -/
theorem C66_single_item (P : Plat) (hw : P.sb = P.ib) (a : Arr) (x : Val) (cmp : Cmp)
    (h : Rep a [x]) : sort P a cmp = .error .overflow := by
  have hc : a.count = 1 := by have := h.len; simpa using this.symm
  have hi := P.hib
  have hmax := P.intMax_ge
  have hsz : P.szMod = 2 * 2 ^ (P.ib - 1) := by
    unfold Plat.szMod; rw [hw, ← Nat.pow_succ']; congr 1; omega
  have hcast : ((2 ^ (P.ib - 1) : Nat) : Int) = 2 ^ (P.ib - 1) := by norm_cast
  have hM : P.intMax = ((2 ^ (P.ib - 1) : Nat) : Int) - 1 := by rw [hcast]; rfl
  have hpos : 0 < 2 ^ (P.ib - 1) := Nat.pow_pos (by decide)
  have h1 : P.szSub 1 2 = P.szMod - 1 := by
    have e : ((1 : Nat) : Int) - ((2 : Nat) : Int) = -1 := by omega
    unfold Plat.szSub
    rw [e]
    unfold Plat.toSz
    have h0 : (-1 : Int) % (P.szMod : Int) = (P.szMod : Int) - 1 := by
      rw [← Int.add_emod_right, Int.emod_eq_of_lt (by omega) (by omega)]
      omega
    rw [h0]; omega
  have h2 : P.szSub 1 2 / 2 = 2 ^ (P.ib - 1) - 1 := by rw [h1]; omega
  have h3 : P.toInt (P.szSub 1 2 / 2) = P.intMax := by
    rw [Plat.toInt_of_le (by rw [h2]; omega), h2]; omega
  unfold sort
  rw [if_pos (by omega)]
  simp only [hc]
  unfold heapify
  simp only [h3]
  unfold heapifyLoop
  rw [if_pos (by omega)]
  simp only
  unfold siftDown
  have : P.int (P.intMax * 2) = .error .overflow := by
    unfold Plat.int; rw [if_neg (by omega)]
  rw [this]
  rfl

example : sort Plat.ilp32 ⟨[7, 9], 2, 1⟩ (fun _ a b => (a : Int) - b) = .error .overflow ∧
    sort Plat.ilp32 ⟨[7, 3, 9], 3, 2⟩ (fun _ a b => (a : Int) - b) = .ok ⟨[3, 7, 9], 3, 2⟩ := by
  decide

/-- **C67.**  In the same domain, whatever the comparison function answers (even differently each
time it is called), `mu_array_sort` terminates and permutes the items.  Items at or beyond the count
are neither read nor written: on a storage object of just the `count` items the call does not fault,
and with anything behind the items it computes the same. -/
theorem C67_sort_any_comparator (P : Plat) (a : Arr) (l : List Val) (cmp : Cmp)
    (h : Rep a l) (hw : P.ib < P.sb ∨ l.length ≠ 1) (hb : (2 * l.length : Int) ≤ P.intMax + 1) :
    ∃ l', l'.Perm l ∧
      sort P ⟨l, l.length, l.length⟩ cmp = .ok ⟨l', l.length, l.length⟩ ∧
      (∀ rest cap, sort P ⟨l ++ rest, cap, l.length⟩ cmp = .ok ⟨l' ++ rest, cap, l.length⟩) ∧
      sort P a cmp = .ok ⟨l' ++ a.storage.drop l.length, a.capacity, l.length⟩ :=
  C20_sort_any_comparator_partial P a l cmp h (fun h1 => hw.resolve_right (fun h2 => h2 h1)) hb

end Mu.Arr
