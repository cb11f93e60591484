import Verif.Lemmas.ArrayCost

/-! # Property C92: how often `mu_array_sort` and `mu_array_insert_sorted` call the comparison function

In the model the comparison function receives, besides the two items, the number of calls made before
this one (`Cmp`), so that "at most `B` calls are made" can be said without counting: any other
comparison function that gives the same answers on its first `B` calls leads to the same result. -/

namespace Mu.Arr
open Spec

/-- **C92.**  `mu_array_sort` of `n` items makes at most `3 n log₂ n` and at least `n / 2 + (n - 2)`
calls of the comparison function, whatever that answers. -/
theorem C92_sort_calls (P : Plat) (a : Arr) (l : List Val) (cmp : Cmp) (h : Rep a l)
    (hw : P.ib < P.sb ∨ l.length ≠ 1) (hb : (2 * l.length : Int) ≤ P.intMax + 1) :
    ∃ c, sortCalls P a cmp = .ok c ∧ l.length / 2 + (l.length - 2) ≤ c ∧
      c ≤ 3 * l.length * l.length.log2 := by
  obtain ⟨c, h1, h2, h3, -⟩ := sort_cost h cmp (fun h1 => hw.resolve_right (fun h2 => h2 h1)) hb
  exact ⟨c, h1, h2, h3⟩

/-- **C92, without a counter**: what the comparison function would answer on a call numbered
`3 n log₂ n` or higher is of no consequence. -/
theorem C92_sort_calls_observed (P : Plat) (a : Arr) (l : List Val) (cmp cmp' : Cmp) (h : Rep a l)
    (hw : P.ib < P.sb ∨ l.length ≠ 1) (hb : (2 * l.length : Int) ≤ P.intMax + 1)
    (hc : ∀ k x y, k < 3 * l.length * l.length.log2 → cmp k x y = cmp' k x y) :
    sort P a cmp = sort P a cmp' := by
  obtain ⟨c, h1, h2, h3, h4⟩ := sort_cost h cmp (fun h1 => hw.resolve_right (fun h2 => h2 h1)) hb
  exact (h4 cmp' (fun j x y _ hj => hc j x y (by omega))).1.symm

/-- **C92.**  `mu_array_insert_sorted` into `n` items makes at most `log₂ n + 1` calls, and always
passes an item of the array as first and the item to be inserted as second argument: what the comparison function would answer otherwise
is of no consequence. -/
theorem C92_insert_sorted_calls (P : Plat) (a : Arr) (l : List Val) (x : Val) (cmp cmp' : Cmp)
    (h : Rep a l) (hb : (2 * l.length : Int) ≤ P.intMax + 1)
    (hc : ∀ k, ∀ y ∈ l, k < l.length.log2 + 1 → cmp k y x = cmp' k y x) :
    insertSorted P a x cmp = insertSorted P a x cmp' := by
  have hmod := P.intMax_lt_szMod
  have hmx := P.intMax_ge
  have h1 := h.len
  unfold insertSorted
  by_cases h0 : l.length = 0
  · rw [if_pos (by simp [count]; omega), if_pos (by simp [count]; omega)]
  · rw [if_neg (by simp [count]; omega), if_neg (by simp [count]; omega)]
    unfold findInsertionIndex
    rw [P.szSub_of_le (by omega) (by omega), P.toInt_of_le (by omega)]
    have e0 : ((a.count - 1 : Nat) : Int) = ((l.length : Nat) : Int) - 1 := by omega
    have e00 : (0 : Int) = ((0 : Nat) : Int) := rfl
    rw [e0, e00, findLoop_cost (cmp' := cmp') h x hb (a.count + 1) 0 l.length 0 (by omega) (by omega)]
    intro j y hy _ hj
    refine hc j y hy ?_
    rw [Nat.log2_def, if_pos (by omega)] at hj
    have : 2 * (l.length - 0) / 2 = l.length := by omega
    rw [this] at hj
    omega

/-- Non-vacuity, and the bounds are of the right size: eight items in descending order. -/
example : sortCalls Plat.ilp32 ⟨[8, 7, 6, 5, 4, 3, 2, 1], 8, 8⟩ (fun _ a b => (a : Int) - b) = .ok 24 ∧
    Rep ⟨[8, 7, 6, 5, 4, 3, 2, 1], 8, 8⟩ [8, 7, 6, 5, 4, 3, 2, 1] ∧ 3 * 8 * Nat.log2 8 = 72 ∧
    8 / 2 + (8 - 2) = 10 := by
  refine ⟨by decide, ⟨by decide, by decide, by decide, by decide⟩, by decide, by decide⟩

end Mu.Arr
