import Verif.Lemmas.ArrayLocal
import Verif.Props.ArrayExact
import Verif.Props.ArrayCost
import Verif.Props.BBuf

/-! # Properties C94, C95: what the comparison function is called with; sorting byte buffers -/

namespace Mu.Arr
open Spec

/-- **C94.**  `mu_array_sort` calls the comparison function with items of the array only: two
comparison functions that answer the same about those (and differ arbitrarily elsewhere, where
they might for instance dereference a bad pointer) lead to the same result.  What lies in the
storage behind the items is never passed. -/
theorem C94_sort_compares_items (P : Plat) (a : Arr) (l : List Val) (cmp cmp' : Cmp) (h : Rep a l)
    (hw : P.ib < P.sb ∨ l.length ≠ 1) (hb : (2 * l.length : Int) ≤ P.intMax + 1)
    (hc : ∀ k, ∀ x ∈ l, ∀ y ∈ l, cmp k x y = cmp' k x y) :
    sort P a cmp = sort P a cmp' := by
  have hw' : l.length = 1 → P.ib < P.sb := fun h1 => hw.resolve_right (fun h2 => h2 h1)
  obtain ⟨l1, -, e1, -, e2⟩ := C20_sort_any_comparator_partial P a l cmp h hw' hb
  obtain ⟨l2, -, f1, -, f2⟩ := C20_sort_any_comparator_partial P a l cmp' h hw' hb
  have := sort_local hc e1
  rw [f1] at this
  cases this
  rw [e2, f2]

/-- **C94.**  `mu_array_insert_sorted` calls it with an item of the array as first and the new item as
second argument. -/
theorem C94_insert_sorted_compares_items (P : Plat) (a : Arr) (l : List Val) (x : Val)
    (cmp cmp' : Cmp) (h : Rep a l) (hb : (2 * l.length : Int) ≤ P.intMax + 1)
    (hc : ∀ k, ∀ y ∈ l, cmp k y x = cmp' k y x) :
    insertSorted P a x cmp = insertSorted P a x cmp' :=
  C92_insert_sorted_calls P a l x cmp cmp' h hb (fun k y hy _ => hc k y hy)

/-- Non-vacuity: 99 is behind the two items, and the second function answers differently there. -/
example : Rep ⟨[5, 3, 99], 3, 2⟩ [5, 3] ∧
    (∀ k, ∀ x ∈ [5, 3], ∀ y ∈ [5, 3], (fun (_ : Nat) (a b : Val) => (a : Int) - b) k x y =
      (fun (_ : Nat) (a b : Val) => if a = 99 ∨ b = 99 then 7 else (a : Int) - b) k x y) ∧
    sort Plat.lp64 ⟨[5, 3, 99], 3, 2⟩ (fun _ a b => (a : Int) - b) = .ok ⟨[3, 5, 99], 3, 2⟩ := by
  refine ⟨⟨by decide, by decide, by decide, by decide⟩, ?_, by decide⟩
  intro k x hx y hy
  simp only [List.mem_cons, List.not_mem_nil, or_false] at hx hy
  rcases hx with rfl | rfl <;> rcases hy with rfl | rfl <;> rfl

/-- `mu_bbuf_compare` as a comparison function of an array of pointers to `mu_bbuf_t`. -/
def bbufCmp (P : Plat) (m : Mem) (O : BBuf.Objs) : Cmp := fun _ x y =>
  match BBuf.compare P m (O x) (O y) with
  | .ok d => d
  | .error _ => 0

/-- a comparison function that agrees with `bbufCmp` on the items of `S` and is a total preorder -/
theorem bbufCmp_total (P : Plat) (m : Mem) (O : BBuf.Objs) (S : List Val)
    (hv : ∀ x ∈ S, BBuf.Valid m (O x) ∧ BBuf.Fits P (O x)) (hne : S ≠ []) :
    ∃ cmp, TotalPreorder cmp ∧ (∀ k, ∀ x ∈ S, ∀ y ∈ S, bbufCmp P m O k x y = cmp k x y) ∧
      ∀ x ∈ S, ∀ y ∈ S, cmp 0 x y ≤ 0 ↔ BBuf.view m (O x) ≤ BBuf.view m (O y) := by
  obtain ⟨z, hz⟩ : ∃ z, z ∈ S := List.exists_mem_of_ne_nil S hne
  let O' : BBuf.Objs := fun x => if x ∈ S then O x else O z
  have hO : ∀ x ∈ S, O' x = O x := fun x hx => by simp [O', hx]
  have hv' : ∀ x, BBuf.Valid m (O' x) ∧ BBuf.Fits P (O' x) := by
    intro x
    by_cases hx : x ∈ S
    · rw [hO x hx]; exact hv x hx
    · simp only [O', hx, if_false]; exact hv z hz
  have hd : ∀ k x y, ∃ d, BBuf.compare P m (O' x) (O' y) = .ok d ∧ bbufCmp P m O' k x y = d ∧
      (d < 0 ↔ BBuf.view m (O' x) < BBuf.view m (O' y)) ∧
      (0 < d ↔ BBuf.view m (O' y) < BBuf.view m (O' x)) := by
    intro k x y
    obtain ⟨d, h1, h2, h3, h4⟩ := BBuf.C38_compare (hv' x).1 (hv' y).1 (hv' x).2 (hv' y).2
    exact ⟨d, h1, by simp [bbufCmp, h1], h2, h4⟩
  have hle : ∀ x y, bbufCmp P m O' 0 x y ≤ 0 ↔ BBuf.view m (O' x) ≤ BBuf.view m (O' y) := by
    intro x y
    obtain ⟨d, h1, h2, h3, h4⟩ := hd 0 x y
    rw [h2, ← List.not_lt, ← h4]; omega
  refine ⟨bbufCmp P m O', ⟨fun _ _ _ _ => rfl, ?_, ?_⟩, ?_, ?_⟩
  · intro x y
    obtain ⟨d, h1, h2, h3, h4⟩ := hd 0 x y
    obtain ⟨e, g1, g2, g3, g4⟩ := hd 0 y x
    rw [h2, g2, h3, g4]
  · intro x y w h1 h2
    rw [hle] at *
    exact List.le_trans h1 h2
  · intro k x hx y hy
    simp [bbufCmp, hO x hx, hO y hy]
  · intro x hx y hy
    rw [hle, hO x hx, hO y hy]

/-- **C95.**  An array of pointers to byte buffers sorted with `mu_bbuf_compare`: no comparison faults,
and afterwards the array holds the same pointers, in lexicographic order of the bytes the buffers
describe.  Nothing is assumed about other pointers. -/
theorem C95_sort_bbufs (P : Plat) (m : Mem) (O : BBuf.Objs) (a : Arr) (l : List Val) (h : Rep a l)
    (hv : ∀ x ∈ l, BBuf.Valid m (O x) ∧ BBuf.Fits P (O x)) (hw : P.ib < P.sb ∨ l.length ≠ 1)
    (hb : (2 * l.length : Int) ≤ P.intMax + 1) :
    (∀ x ∈ l, ∀ y ∈ l, ∃ d, BBuf.compare P m (O x) (O y) = .ok d) ∧
    ∃ a' l', sort P a (bbufCmp P m O) = .ok a' ∧ Rep a' l' ∧ l'.Perm l ∧
      (l'.map fun x => BBuf.view m (O x)).Pairwise (· ≤ ·) := by
  refine ⟨fun x hx y hy => ?_, ?_⟩
  · obtain ⟨d, h1, -⟩ := BBuf.C38_compare (hv x hx).1 (hv y hy).1 (hv x hx).2 (hv y hy).2
    exact ⟨d, h1⟩
  · by_cases hne : l = []
    · subst hne
      have hc : a.count = 0 := by have := h.len; simpa using this.symm
      exact ⟨a, [], by simp [sort, hc], h, List.Perm.refl _, List.Pairwise.nil⟩
    · obtain ⟨cmp, ht, he, hle⟩ := bbufCmp_total P m O l hv hne
      obtain ⟨a', l', e1, e2, e3, e4, -⟩ := C66_sort P a l cmp h ht hw hb
      rw [C94_sort_compares_items P a l _ cmp h hw hb he]
      refine ⟨a', l', e1, e2, e4, ?_⟩
      rw [List.pairwise_map]
      refine List.Pairwise.imp_of_mem ?_ e3
      intro x y hx hy hxy
      exact (hle x (e4.mem_iff.1 hx) y (e4.mem_iff.1 hy)).1 hxy

/-- **C95.**  `mu_array_insert_sorted` with `mu_bbuf_compare` into an array sorted that way keeps it
sorted, and puts the new buffer after those that are equal or smaller and before the greater ones. -/
theorem C95_insert_sorted_bbufs (P : Plat) (m : Mem) (O : BBuf.Objs) (a : Arr) (l : List Val) (x : Val)
    (h : Rep a l) (hv : ∀ y ∈ x :: l, BBuf.Valid m (O y) ∧ BBuf.Fits P (O y))
    (hsd : (l.map fun x => BBuf.view m (O x)).Pairwise (· ≤ ·))
    (hb : (2 * l.length : Int) ≤ P.intMax + 1) (hs : (a.capacity : Int) ≤ P.intMax)
    (hc : l.length < a.capacity) :
    ∃ a' before after, insertSorted P a x (bbufCmp P m O) = .ok (true, a') ∧ l = before ++ after ∧
      Rep a' (before ++ x :: after) ∧
      ((before ++ x :: after).map fun x => BBuf.view m (O x)).Pairwise (· ≤ ·) ∧
      (∀ y ∈ before, BBuf.view m (O y) ≤ BBuf.view m (O x)) ∧
      (∀ y ∈ after, BBuf.view m (O x) < BBuf.view m (O y)) := by
  obtain ⟨cmp, ht, he, hle⟩ := bbufCmp_total P m O (x :: l) hv (by simp)
  have hsd' : Sorted cmp l := by
    rw [List.pairwise_map] at hsd
    refine List.Pairwise.imp_of_mem ?_ hsd
    intro y z hy hz hyz
    exact (hle y (List.mem_cons_of_mem _ hy) z (List.mem_cons_of_mem _ hz)).2 hyz
  obtain ⟨a', before, after, e1, e2, e3, e4, e5, e6, -⟩ :=
    C21_insert_sorted P a l x cmp h ht hsd' hb hs hc
  have hx : x ∈ x :: l := List.mem_cons_self
  have hm : ∀ y ∈ before ++ x :: after, y ∈ x :: l := by
    intro y hy
    rw [e2]
    simp only [List.mem_append, List.mem_cons] at hy ⊢
    rcases hy with hy | hy | hy
    · exact .inr (.inl hy)
    · exact .inl hy
    · exact .inr (.inr hy)
  refine ⟨a', before, after, ?_, e2, e3, ?_, ?_, ?_⟩
  · rw [C94_insert_sorted_compares_items P a l x _ cmp h hb
      (fun k y hy => he k y (List.mem_cons_of_mem _ hy) x hx)]
    exact e1
  · rw [List.pairwise_map]
    refine List.Pairwise.imp_of_mem ?_ e4
    intro y z hy hz hyz
    exact (hle y (hm y hy) z (hm z hz)).1 hyz
  · intro y hy
    exact (hle y (hm y (by simp [hy])) x hx).1 (e5 y hy)
  · intro y hy
    have h1 := e6 y hy
    have h2 := (hle y (hm y (by simp [hy])) x hx).not.1 (by omega)
    exact List.not_le.1 h2

/-- Non-vacuity: three buffers of different lengths. -/
example :
    let m := BBuf.exMem
    let O : BBuf.Objs := fun x => if x = 1 then BBuf.exHay else if x = 2 then BBuf.exAb else BBuf.exInt
    (∀ x ∈ [1, 2, 3], BBuf.Valid m (O x) ∧ BBuf.Fits Plat.lp64 (O x)) ∧
    sort Plat.lp64 ⟨[1, 2, 3], 3, 3⟩ (bbufCmp Plat.lp64 m O) = .ok ⟨[3, 2, 1], 3, 3⟩ := by
  decide

end Mu.Arr
