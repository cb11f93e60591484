import Verif.Lemmas.ArraySort

/-! # Properties C16 – C21: mu_array

`Rep a l` (Spec/Array.lean) says that the array object `a` holds exactly the items `l`; every state
reachable from `mu_array_init` satisfies it for some `l` (`C16_reachable`).  Capacities are at most
`INT_MAX` because the code moves items by an `int` count. -/

namespace Mu.Arr
open Spec

/-- **C16.**  After `mu_array_init` (of a struct with any previous content `a0`) every history of
calls returns exactly what the list bounded by `cap` returns. -/
theorem C16_array_is_bounded_list (P : Plat) (a0 : Arr) (storage : List Val) (cap : Nat)
    (halloc : cap ≤ storage.length) (hs : (cap : Int) ≤ P.intMax) (ops : List Op) :
    ∃ a', run P (init a0 storage cap) ops = .ok ((Spec.run (P.szMod - 1) cap [] ops).1, a') := by
  obtain ⟨a', h, _⟩ := run_refines (P := P) ops (init_rep a0 storage cap halloc) hs
  exact ⟨a', h⟩

/-- **C16, states.**  After any history the object holds the list the specification holds, the
capacity is unchanged and so is every slot at or beyond `cap`. -/
theorem C16_reachable (P : Plat) (a0 : Arr) (storage : List Val) (cap : Nat)
    (halloc : cap ≤ storage.length) (hs : (cap : Int) ≤ P.intMax) (ops : List Op) :
    ∃ os a', run P (init a0 storage cap) ops = .ok (os, a') ∧
      Rep a' (Spec.run (P.szMod - 1) cap [] ops).2 ∧ a'.capacity = cap ∧
      a'.storage.length = storage.length ∧ a'.storage.drop cap = storage.drop cap := by
  obtain ⟨a', h, h1, h2⟩ := run_refines (P := P) ops (init_rep a0 storage cap halloc) hs
  exact ⟨_, a', h, h1, h2.cap, h2.len, h2.drop⟩

/-- **C16, failing calls** change nothing at all. -/
theorem C16_failed_calls_change_nothing (P : Plat) (a : Arr) (l : List Val) (h : Rep a l)
    (x : Val) (i : Nat) :
    (l.length = a.capacity → push P a x = .ok (false, a)) ∧
    (l = [] → pop P a = .ok (false, none, a) ∧ peek P a = .ok (false, none, a)) ∧
    (l.length ≤ i → ref a i = .ok (false, none, a)) ∧
    (l.length = a.capacity ∨ l.length < i → insert P a x i = .ok (false, a)) := by
  refine ⟨fun hc => push_full h x (by omega), ?_, ?_, fun hc => insert_fail h x i (by omega)⟩
  · rintro rfl; exact ⟨pop_nil h, peek_nil h⟩
  · intro hi
    rw [ref_ok h]
    simp [hi]

/-- Non-vacuity of C16. -/
example : run Plat.lp64 (init ⟨[], 7, 7⟩ [90, 91, 92, 93] 3)
    [.push 5, .push 6, .insert 4 1, .push 8, .ref 1, .ref 3, .index 6, .rindex 9, .pop, .peek,
      .insert 3 0, .count, .isFull]
    = .ok ([.bool true, .bool true, .bool true, .bool false, .item true (some 4), .item false none,
            .size 2, .size (2 ^ 64 - 1), .item true (some 6), .item true (some 4), .bool true,
            .size 3, .bool true],
           ⟨[3, 5, 4, 93], 3, 3⟩) := by decide

/-! ### C17: mu_array_delete -/

/-- What C17 asks of one call of `mu_array_delete`. -/
def DeleteSpec (P : Plat) (a : Arr) (l : List Val) (i : Nat) : Prop :=
  if h : i < l.length then
    ∃ a', delete P a i = .ok (true, some l[i], a') ∧ Rep a' (l.eraseIdx i)
  else delete P a i = .ok (false, none, a)

/-- **C17 is false.**  Deleting the first of the items 1, 2, 3 (storage of four) leaves a count of
three, the third item being whatever followed the items in storage. -/
theorem C17_delete_false :
    ¬ ∀ (P : Plat) (a : Arr) (l : List Val) (i : Nat), Rep a l → (a.capacity : Int) ≤ P.intMax →
      DeleteSpec P a l i := by
  intro h
  have h1 := h Plat.lp64 ⟨[1, 2, 3, 9], 4, 3⟩ [1, 2, 3] 0
    ⟨rfl, by decide, by decide, rfl⟩ (by decide)
  have h2 : delete Plat.lp64 ⟨[1, 2, 3, 9], 4, 3⟩ 0 = .ok (true, some 1, ⟨[2, 3, 9, 9], 4, 3⟩) := by
    decide
  rw [DeleteSpec, dif_pos (by decide), h2] at h1
  obtain ⟨a', h3, h4⟩ := h1
  cases h3
  exact absurd h4.len (by decide)

/-- **C17 is false, memory safety.**  Deleting from a full array whose storage has exactly
`capacity` slots reads past the end of the storage. -/
theorem C17_delete_oob_false :
    delete Plat.lp64 ⟨[1, 2, 3], 3, 3⟩ 0 = .error .oob := by decide

/-- **C17, what holds.**  Out-of-range calls change nothing; deleting the last item is right;
deleting any other item of an array with a free storage slot delivers the item and moves the
higher items down, but leaves the count unchanged with the content of the slot behind the
last item appended; if there is no such slot it reads outside the storage object. -/
theorem C17_delete_partial (P : Plat) (a : Arr) (l : List Val) (i : Nat) (h : Rep a l)
    (hs : (a.capacity : Int) ≤ P.intMax) :
    (l.length ≤ i ∨ i + 1 = l.length → DeleteSpec P a l i) ∧
    (∀ hi : i + 1 < l.length, (hx : l.length < a.storage.length) →
      ∃ a', delete P a i = .ok (true, some l[i], a') ∧
        a'.count = a.count ∧ a'.capacity = a.capacity ∧
        a'.storage = l.eraseIdx i ++ a.storage[l.length] :: a.storage.drop l.length) ∧
    (i + 1 < l.length → a.storage.length = l.length → delete P a i = .error .oob) := by
  obtain ⟨h1, h2, h3, h4⟩ := h
  have hmod := P.intMax_lt_szMod
  have hmx := P.intMax_ge
  have hlen : a.count ≤ a.storage.length := by omega
  have hne : 0 < a.count → isEmpty a = false := by intro; simp [isEmpty]; omega
  have hget : ∀ i (hi : i < l.length), ldN a.storage i = .ok l[i] :=
    fun i hi => Rep.ld ⟨h1, h2, h3, h4⟩ hi
  refine ⟨?_, ?_, ?_⟩
  · intro hi
    unfold DeleteSpec
    by_cases hlt : i < l.length
    · rw [dif_pos hlt]
      have e4 : P.szSub a.count 1 = a.count - 1 := P.szSub_of_le (by omega) (by omega)
      refine ⟨{ a with count := a.count - 1 }, ?_, ?_⟩
      · unfold delete
        rw [if_neg (by simp [hne (by omega)]; omega), if_pos (by omega)]
        simp only [e4]
        have : a.count - 1 = i := by omega
        rw [this, hget i hlt]
        rfl
      · have := Rep.shrink ⟨h1, h2, h3, h4⟩ (a.count - 1) (by omega)
        rw [List.eraseIdx_eq_take_drop_succ, List.drop_of_length_le (by omega)]
        simpa [show i = a.count - 1 by omega] using this
    · rw [dif_neg hlt]
      unfold delete
      rw [if_pos (by omega)]
  · intro hi hx
    have e1 : P.szSub a.count 1 = a.count - 1 := P.szSub_of_le (by omega) (by omega)
    have e2 : P.szSub a.count i = a.count - i := P.szSub_of_le (by omega) (by omega)
    have e3 : P.toInt (a.count - i) = ((a.count - i : Nat) : Int) := P.toInt_of_le (by omega)
    have e4 : P.toSz ((a.count - i : Nat) : Int) = a.count - i := by
      rw [P.toSz_int (by omega) (by omega)]; simp
    refine ⟨{ a with storage := a.storage.take i ++ (a.storage.drop (i + 1)).take (a.count - i) ++
        a.storage.drop (i + (a.count - i)) }, ?_, rfl, rfl, ?_⟩
    · unfold delete
      rw [if_neg (by simp [hne (by omega)]; omega), if_neg (by omega), hget i (by omega)]
      simp only [C.ok_bind, e2, e3, e4, P.sz_of_lt (show i + 1 < P.szMod by omega)]
      rw [memmove_ok (by omega) (by omega)]
      rfl
    · simp only
      apply List.ext_getElem?
      intro k
      have hg : ∀ k, l[k]? = if k < a.count then a.storage[k]? else none := by
        intro k
        rw [← h4, List.getElem?_take]
      simp only [List.getElem?_append, List.getElem?_take, List.getElem?_drop,
        List.length_take, List.length_append, List.length_drop, List.getElem?_cons,
        List.getElem?_eraseIdx, List.length_eraseIdx, hg]
      grind
  · intro hi hx
    have e1 : P.szSub a.count 1 = a.count - 1 := P.szSub_of_le (by omega) (by omega)
    have e2 : P.szSub a.count i = a.count - i := P.szSub_of_le (by omega) (by omega)
    have e3 : P.toInt (a.count - i) = ((a.count - i : Nat) : Int) := P.toInt_of_le (by omega)
    have e4 : P.toSz ((a.count - i : Nat) : Int) = a.count - i := by
      rw [P.toSz_int (by omega) (by omega)]; simp
    unfold delete
    rw [if_neg (by simp [hne (by omega)]; omega), if_neg (by omega), hget i (by omega)]
    simp only [C.ok_bind, e2, e3, e4, P.sz_of_lt (show i + 1 < P.szMod by omega)]
    unfold memmove
    rw [if_neg (by omega)]
    rfl

example : delete Plat.lp64 ⟨[1, 2, 3, 9], 4, 3⟩ 2 = .ok (true, some 3, ⟨[1, 2, 3, 9], 4, 2⟩) := by
  decide

/-! ### C18: index and rindex -/

/-- **C18.**  `mu_array_index` and `mu_array_rindex`: the returned position holds the item and no
smaller (larger) one does; NOT_FOUND exactly when the item is absent. -/
theorem C18_index_rindex (P : Plat) (a : Arr) (l : List Val) (x : Val) (h : Rep a l)
    (hs : a.capacity < P.szMod) :
    ∃ i j, index P a x = .ok i ∧ rindex P a x = .ok j ∧
      (x ∈ l → l[i]? = some x ∧ l[j]? = some x ∧
        ∀ m, l[m]? = some x → i ≤ m ∧ m ≤ j) ∧
      (x ∉ l → i = P.szMod - 1 ∧ j = P.szMod - 1) ∧
      (i = P.szMod - 1 ↔ x ∉ l) ∧ (j = P.szMod - 1 ↔ x ∉ l) := by
  refine ⟨_, _, index_ok h x hs, rindex_ok h x hs, ?_⟩
  have hlen := h.len
  have hle := h.le
  have hin : x ∈ l → (l[firstIndex (notFound P) x l]? = some x ∧
      l[lastIndex (notFound P) x l]? = some x ∧
        ∀ m, l[m]? = some x → firstIndex (notFound P) x l ≤ m ∧ m ≤ lastIndex (notFound P) x l) := by
    intro hx
    have hi : ∃ i, l.findIdx? (· == x) = some i := by
      cases hf : l.findIdx? (· == x) with
      | none => rw [List.findIdx?_eq_none_iff] at hf; have := hf x hx; simp at this
      | some i => exact ⟨i, rfl⟩
    have hj : ∃ j, l.reverse.findIdx? (· == x) = some j := by
      cases hf : l.reverse.findIdx? (· == x) with
      | none =>
        rw [List.findIdx?_eq_none_iff] at hf
        have := hf x (by simpa using hx); simp at this
      | some i => exact ⟨i, rfl⟩
    obtain ⟨i, hi⟩ := hi
    obtain ⟨j, hj⟩ := hj
    simp only [firstIndex, lastIndex, hi, hj]
    rw [List.findIdx?_eq_some_iff_getElem] at hi hj
    obtain ⟨i1, i2, i3⟩ := hi
    obtain ⟨j1, j2, j3⟩ := hj
    simp only [List.length_reverse, List.getElem_reverse, beq_iff_eq] at j1 j2 j3 i2 i3
    have hlast : l.length - 1 - j < l.length := by omega
    refine ⟨by simp [i1, i2], by simp [hlast, j2], ?_⟩
    intro m hm
    have hml : m < l.length := by
      rcases Nat.lt_or_ge m l.length with h | h
      · exact h
      · simp [h] at hm
    have hm' : l[m] = x := by simpa [hml] using hm
    constructor
    · rcases Nat.lt_or_ge m i with hlt | hge
      · exact absurd hm' (by simpa using i3 m hlt)
      · exact hge
    · rcases Nat.lt_or_ge (l.length - 1 - j) m with hlt | hge
      · have := j3 (l.length - 1 - m) (by omega)
        have e : l.length - 1 - (l.length - 1 - m) = m := by omega
        simp only [e] at this
        exact absurd hm' (by simpa using this)
      · exact hge
  have hout : x ∉ l → firstIndex (notFound P) x l = P.szMod - 1 ∧
      lastIndex (notFound P) x l = P.szMod - 1 := by
    intro hx
    have hi : l.findIdx? (· == x) = none := by
      rw [List.findIdx?_eq_none_iff]
      intro y hy; simp; rintro rfl; exact hx hy
    have hj : l.reverse.findIdx? (· == x) = none := by
      rw [List.findIdx?_eq_none_iff]
      intro y hy; simp at hy ⊢; rintro rfl; exact hx hy
    simp [firstIndex, lastIndex, hi, hj, notFound]
  have hlt : ∀ k, l[k]? = some x → k ≠ P.szMod - 1 := by
    intro k hk
    have : k < l.length := by
      rcases Nat.lt_or_ge k l.length with h | h
      · exact h
      · simp [h] at hk
    omega
  refine ⟨hin, hout, ⟨?_, fun hx => (hout hx).1⟩, ⟨?_, fun hx => (hout hx).2⟩⟩
  · intro he hx; exact hlt _ (hin hx).1 he
  · intro he hx; exact hlt _ (hin hx).2.1 he

example : index Plat.lp64 ⟨[5, 6, 5, 7, 6], 5, 4⟩ 6 = .ok 1 ∧
    rindex Plat.lp64 ⟨[5, 6, 5, 7, 6], 5, 4⟩ 5 = .ok 2 ∧
    rindex Plat.ip16 ⟨[], 0, 0⟩ 5 = .ok 65535 := by decide

/-! ### C19, C20: sort -/

/-- **C19 and C20 are false on platforms where `size_t` is no wider than `int`** (any 32 bit
micro-controller): sorting an array of one item computes `(1 - 2) / 2` in `size_t`, which as an
`int` is INT_MAX, and overflows.  (In practice: reads far outside the array.) -/
theorem C19_sort_single_item_false :
    ¬ ∀ (P : Plat) (a : Arr) (l : List Val) (cmp : Cmp), Rep a l → TotalPreorder cmp →
      (2 * l.length : Int) ≤ P.intMax + 1 → C.Safe (sort P a cmp) := by
  intro h
  obtain ⟨a', e⟩ := h Plat.ilp32 ⟨[1], 1, 1⟩ [1] (fun _ a b => (a : Int) - b)
    ⟨rfl, by decide, by decide, rfl⟩
    ⟨fun _ _ _ _ => rfl, fun a b => by omega, fun a b c h1 h2 => by omega⟩ (by decide)
  have : sort Plat.ilp32 ⟨[1], 1, 1⟩ (fun _ a b => (a : Int) - b) = .error .overflow := by decide
  rw [this] at e
  cases e

/-- **C20 is false** for the same reason. -/
theorem C20_sort_single_item_false :
    sort Plat.ilp32 ⟨[1], 1, 1⟩ (fun _ a b => (a : Int) - b) = .error .overflow := by decide

/-- **C19.**  With a comparison function that is a total preorder, and except for one-item arrays
on platforms where `size_t` is no wider than `int`, `mu_array_sort` terminates without leaving the
array, and afterwards the array holds a sorted permutation of what it held; nothing behind the
items changes.  (`2 * count ≤ INT_MAX + 1`: larger arrays overflow `root * 2 + 1`.) -/
theorem C19_sort_partial (P : Plat) (a : Arr) (l : List Val) (cmp : Cmp) (h : Rep a l)
    (ht : TotalPreorder cmp) (hw : l.length = 1 → P.ib < P.sb)
    (hb : (2 * l.length : Int) ≤ P.intMax + 1) :
    ∃ a' l', sort P a cmp = .ok a' ∧ Rep a' l' ∧ Sorted cmp l' ∧ l'.Perm l ∧
      a'.count = a.count ∧ a'.capacity = a.capacity ∧
      a'.storage.drop l.length = a.storage.drop l.length := by
  obtain ⟨a', l', e1, e2, e3, e4, e5, e6⟩ := sort_any (P := P) h cmp hw hb
  exact ⟨a', l', e1, e2, sort_sorted h ht hw hb e1 e2, e3, e4, e5.cap, e6⟩

/-- **C19 on LP64** (32 bit `int`, 64 bit `size_t`): no exception. -/
theorem C19_sort_lp64 (a : Arr) (l : List Val) (cmp : Cmp) (h : Rep a l)
    (ht : TotalPreorder cmp) (hb : l.length ≤ 2 ^ 30) :
    ∃ a' l', sort Plat.lp64 a cmp = .ok a' ∧ Rep a' l' ∧ Sorted cmp l' ∧ l'.Perm l := by
  obtain ⟨a', l', e1, e2, e3, e4, _⟩ := C19_sort_partial Plat.lp64 a l cmp h ht
    (fun _ => by decide) (by
      have : Plat.lp64.intMax = 2147483647 := by decide
      rw [this]; omega)
  exact ⟨a', l', e1, e2, e3, e4⟩

/-- **C20.**  Whatever the comparison function answers (it may even answer differently each time it
is called), `mu_array_sort` terminates and permutes the items.  Executed on a storage object that
consists of just the `count` items (`l`, no slot more) it does not fault, and with anything behind
the items it computes the same: items at or beyond `count` are neither read nor written.  Excepted
are again one-item arrays where `size_t` is no wider than `int`. -/
theorem C20_sort_any_comparator_partial (P : Plat) (a : Arr) (l : List Val) (cmp : Cmp)
    (h : Rep a l) (hw : l.length = 1 → P.ib < P.sb) (hb : (2 * l.length : Int) ≤ P.intMax + 1) :
    ∃ l', l'.Perm l ∧
      sort P ⟨l, l.length, l.length⟩ cmp = .ok ⟨l', l.length, l.length⟩ ∧
      (∀ rest cap, sort P ⟨l ++ rest, cap, l.length⟩ cmp = .ok ⟨l' ++ rest, cap, l.length⟩) ∧
      sort P a cmp = .ok ⟨l' ++ a.storage.drop l.length, a.capacity, l.length⟩ := by
  have hr : Rep ⟨l, l.length, l.length⟩ l :=
    ⟨rfl, Nat.le_refl _, Nat.le_refl _, List.take_length⟩
  obtain ⟨a', l', e1, e2, e3, e4, e5, e6⟩ := sort_any (P := P) hr cmp hw hb
  have e7 : a' = ⟨l', l.length, l.length⟩ := by
    have h1 := e2.take
    have h2 := e5.len
    have h3 := e5.cap
    cases a'
    simp only at e4 h1 h2 h3 ⊢
    subst e4 h3
    rw [List.take_of_length_le (by omega)] at h1
    rw [h1]
  rw [e7] at e1
  refine ⟨l', e3, e1, fun rest cap => sort_ext e1, ?_⟩
  have hform : a = ⟨l ++ a.storage.drop l.length, a.capacity, l.length⟩ := by
    obtain ⟨h1, h2, h3, h4⟩ := h
    obtain ⟨s, c, n⟩ := a
    simp only at h1 h2 h3 h4 ⊢
    subst h1
    conv => lhs; rw [← List.take_append_drop l.length s, h4]
  conv => lhs; rw [hform]
  exact sort_ext e1

/-- Non-vacuity: sorting nine items; one item; and an inconsistent comparison function that always
answers -1. -/
example : sort Plat.lp64 ⟨[5, 3, 8, 1, 9, 2, 7, 3, 0, 77], 9, 9⟩ (fun _ a b => (a : Int) - b)
    = .ok ⟨[0, 1, 2, 3, 3, 5, 7, 8, 9, 77], 9, 9⟩ := by decide
example : sort Plat.lp64 ⟨[5], 1, 1⟩ (fun _ a b => (a : Int) - b) = .ok ⟨[5], 1, 1⟩ := by decide
example : ∃ a, sort Plat.lp64 ⟨[5, 3, 8, 1], 4, 4⟩ (fun k _ _ => if k % 3 = 0 then -1 else 1)
    = .ok a := ⟨_, rfl⟩
example : TotalPreorder (fun _ a b => (a : Int) - b) :=
  ⟨fun _ _ _ _ => rfl, fun a b => by omega, fun a b c h1 h2 => by omega⟩

/-! ### C21: insert_sorted -/

/-- **C21.**  Insertion into an array sorted by a total preorder: the new content is
`before ++ [x] ++ after` where `before ++ after` is the old content, everything in `before` compares
less or equal to `x`, everything in `after` greater, and the result is sorted. -/
theorem C21_insert_sorted (P : Plat) (a : Arr) (l : List Val) (x : Val) (cmp : Cmp) (h : Rep a l)
    (ht : TotalPreorder cmp) (hsd : Sorted cmp l) (hb : (2 * l.length : Int) ≤ P.intMax + 1)
    (hs : (a.capacity : Int) ≤ P.intMax) (hc : l.length < a.capacity) :
    ∃ a' before after, insertSorted P a x cmp = .ok (true, a') ∧ l = before ++ after ∧
      Rep a' (before ++ x :: after) ∧ Sorted cmp (before ++ x :: after) ∧
      (∀ y ∈ before, cmp 0 y x ≤ 0) ∧ (∀ y ∈ after, 0 < cmp 0 y x) ∧
      a'.capacity = a.capacity ∧ a'.storage.drop a.capacity = a.storage.drop a.capacity := by
  obtain ⟨a', i, e1, e2, e3, e4, e5⟩ := insertSorted_ok (P := P) h x cmp hb hs hc
  obtain ⟨e6, e7⟩ := e5 ht hsd
  have hbef : ∀ y ∈ l.take i, cmp 0 y x ≤ 0 := by
    intro y hy
    obtain ⟨j, hj, rfl⟩ := List.mem_iff_getElem.mp hy
    simp at hj
    have := e6 j (by omega)
    rw [g_eq (by omega)] at this
    simpa using this
  have haft : ∀ y ∈ l.drop i, 0 < cmp 0 y x := by
    intro y hy
    obtain ⟨j, hj, rfl⟩ := List.mem_iff_getElem.mp hy
    simp at hj
    have := e7 (i + j) (by omega) (by omega)
    rw [g_eq (by omega)] at this
    simpa using this
  refine ⟨a', l.take i, l.drop i, e1, (List.take_append_drop i l).symm, e3, ?_, hbef, haft,
    e4.cap, e4.drop⟩
  unfold Sorted at hsd ⊢
  rw [← List.take_append_drop i l, List.pairwise_append] at hsd
  obtain ⟨s1, s2, s3⟩ := hsd
  rw [List.pairwise_append]
  refine ⟨s1, ?_, ?_⟩
  · rw [List.pairwise_cons]
    refine ⟨?_, s2⟩
    intro y hy
    have := haft y hy
    have := (ht.antisymm x y).mpr this
    omega
  · intro p hp q hq
    rcases List.mem_cons.mp hq with rfl | hq
    · exact hbef p hp
    · exact s3 p hp q hq

/-- **C21, full array**: false, and nothing changes. -/
theorem C21_insert_sorted_full (P : Plat) (a : Arr) (l : List Val) (x : Val) (cmp : Cmp)
    (h : Rep a l) (hb : (2 * l.length : Int) ≤ P.intMax + 1) (hc : l.length = a.capacity) :
    insertSorted P a x cmp = .ok (false, a) :=
  insertSorted_full h x cmp hb (by omega)

/-- **C21, safety** whatever the content and the comparison function. -/
theorem C21_insert_sorted_safe (P : Plat) (a : Arr) (l : List Val) (x : Val) (cmp : Cmp)
    (h : Rep a l) (hb : (2 * l.length : Int) ≤ P.intMax + 1) (hs : (a.capacity : Int) ≤ P.intMax) :
    C.Safe (insertSorted P a x cmp) :=
  insertSorted_any h x cmp hb hs

/-- Non-vacuity: among equal keys (here: equal tens) the new item goes last. -/
example : insertSorted Plat.lp64 ⟨[10, 21, 22, 30, 0], 5, 4⟩ 20
    (fun _ a b => ((a / 10 : Nat) : Int) - (b / 10 : Nat))
    = .ok (true, ⟨[10, 21, 22, 20, 30], 5, 5⟩) := by decide

end Mu.Arr
