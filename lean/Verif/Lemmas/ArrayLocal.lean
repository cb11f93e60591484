import Verif.Lemmas.ArraySort

/-! # The comparison function is called on items of the array only -/

namespace Mu.Arr

theorem ld_mem {l : List Val} {i : Int} {x : Val} (h : ld l i = .ok x) : x ∈ l := by
  unfold ld at h
  split at h
  · split at h
    · rename_i a e
      cases h
      exact List.mem_of_getElem? e
    · cases h
  · cases h

theorem st_mem {l l' : List Val} {i : Int} {x : Val} (h : st l i x = .ok l') :
    ∀ y ∈ l', y = x ∨ y ∈ l := by
  unfold st at h
  split at h
  · cases h
    intro y hy
    exact (List.mem_or_eq_of_mem_set hy).symm
  · cases h

theorem swap_mem {l l' : List Val} {i j : Int} (h : swap l i j = .ok l') : ∀ y ∈ l', y ∈ l := by
  unfold swap at h
  obtain ⟨x, h1, h⟩ := C.bind_eq_ok h
  obtain ⟨y, h2, h⟩ := C.bind_eq_ok h
  obtain ⟨l1, h3, h⟩ := C.bind_eq_ok h
  intro z hz
  rcases st_mem h z hz with rfl | hz
  · exact ld_mem h1
  · rcases st_mem h3 z hz with rfl | hz
    · exact ld_mem h2
    · exact hz

/-- the two comparison functions answer the same about items of `S` -/
def SameOn (S : List Val) (cmp cmp' : Cmp) : Prop :=
  ∀ k, ∀ x ∈ S, ∀ y ∈ S, cmp k x y = cmp' k x y

theorem siftDown_local {P : Plat} {cmp cmp' : Cmp} {S : List Val} (hc : SameOn S cmp cmp')
    {stop : Int} :
    ∀ fuel root k l k' l', (∀ x ∈ l, x ∈ S) → siftDown P cmp stop fuel root k l = .ok (k', l') →
      siftDown P cmp' stop fuel root k l = .ok (k', l') ∧ ∀ x ∈ l', x ∈ S := by
  intro fuel
  induction fuel with
  | zero => intro root k l k' l' _ h; cases h
  | succ fuel ih =>
    intro root k l k' l' hS h
    unfold siftDown at h ⊢
    obtain ⟨r2, h1, h⟩ := C.bind_eq_ok h
    obtain ⟨left, h2, h⟩ := C.bind_eq_ok h
    rw [h1, C.ok_bind, h2, C.ok_bind]
    split at h
    · rename_i hl
      rw [if_pos hl]
      simp only at h ⊢
      obtain ⟨sib, h3, h⟩ := C.bind_eq_ok h
      rw [h3, C.ok_bind]
      have tail : ∀ (c : Int) (k1 : Nat), (do
            let x ← ld l root
            let y ← ld l c
            if cmp k1 x y < 0 then do
              let items ← swap l root c
              siftDown P cmp stop fuel c (k1 + 1) items
            else .ok (k1 + 1, l)) = (Except.ok (k', l') : C (Nat × List Val)) → (do
            let x ← ld l root
            let y ← ld l c
            if cmp' k1 x y < 0 then do
              let items ← swap l root c
              siftDown P cmp' stop fuel c (k1 + 1) items
            else .ok (k1 + 1, l)) = (Except.ok (k', l') : C (Nat × List Val)) ∧ ∀ x ∈ l', x ∈ S := by
        intro c k1 h
        obtain ⟨x, h5, h⟩ := C.bind_eq_ok h
        obtain ⟨y, h6, h⟩ := C.bind_eq_ok h
        rw [h5, C.ok_bind, h6, C.ok_bind]
        rw [hc k1 x (hS x (ld_mem h5)) y (hS y (ld_mem h6))] at h
        split at h
        · rename_i hc
          rw [if_pos hc]
          obtain ⟨l1, h7, h⟩ := C.bind_eq_ok h
          rw [h7, C.ok_bind]
          exact ih _ _ _ _ _ (fun z hz => hS z (swap_mem h7 z hz)) h
        · rename_i hc
          rw [if_neg hc]
          cases h; exact ⟨rfl, hS⟩
      split at h
      · rename_i hs
        rw [if_pos hs]
        obtain ⟨x, g1, h⟩ := C.bind_eq_ok h
        obtain ⟨y, g2, h⟩ := C.bind_eq_ok h
        rw [g1, C.ok_bind, g2, C.ok_bind]
        rw [hc k x (hS x (ld_mem g1)) y (hS y (ld_mem g2))] at h
        rw [C.ok_bind] at h ⊢
        exact tail _ _ h
      · rename_i hs
        rw [if_neg hs]
        rw [C.ok_bind] at h ⊢
        exact tail _ _ h
    · rename_i hl
      rw [if_neg hl]
      cases h; exact ⟨rfl, hS⟩

theorem heapifyLoop_local {P : Plat} {cmp cmp' : Cmp} {S : List Val} (hc : SameOn S cmp cmp')
    {n : Nat} :
    ∀ fuel start k l k' l', (∀ x ∈ l, x ∈ S) →
      heapifyLoop P cmp n fuel start k l = .ok (k', l') →
      heapifyLoop P cmp' n fuel start k l = .ok (k', l') ∧ ∀ x ∈ l', x ∈ S := by
  intro fuel
  induction fuel with
  | zero => intro start k l k' l' _ h; cases h
  | succ fuel ih =>
    intro start k l k' l' hS h
    unfold heapifyLoop at h ⊢
    split at h
    · rename_i hs
      rw [if_pos hs]
      simp only at h ⊢
      obtain ⟨⟨k1, l1⟩, h1, h⟩ := C.bind_eq_ok h
      obtain ⟨g1, g2⟩ := siftDown_local hc _ _ _ _ _ _ hS h1
      rw [g1, C.ok_bind]
      obtain ⟨s, h2, h⟩ := C.bind_eq_ok h
      simp only at h2 h ⊢
      rw [h2, C.ok_bind]
      exact ih _ _ _ _ _ g2 h
    · rename_i hs
      rw [if_neg hs]
      cases h; exact ⟨rfl, hS⟩

theorem sortLoop_local {P : Plat} {cmp cmp' : Cmp} {S : List Val} (hc : SameOn S cmp cmp') :
    ∀ fuel stop k l k' l', (∀ x ∈ l, x ∈ S) → sortLoop P cmp fuel stop k l = .ok (k', l') →
      sortLoop P cmp' fuel stop k l = .ok (k', l') := by
  intro fuel
  induction fuel with
  | zero => intro stop k l k' l' _ h; cases h
  | succ fuel ih =>
    intro stop k l k' l' hS h
    unfold sortLoop at h ⊢
    split at h
    · rename_i hs
      rw [if_pos hs]
      obtain ⟨l1, h1, h⟩ := C.bind_eq_ok h
      rw [h1, C.ok_bind]
      simp only at h ⊢
      obtain ⟨⟨k2, l2⟩, h2, h⟩ := C.bind_eq_ok h
      obtain ⟨g1, g2⟩ := siftDown_local hc _ _ _ _ _ _ (fun z hz => hS z (swap_mem h1 z hz)) h2
      rw [g1, C.ok_bind]
      exact ih _ _ _ _ _ g2 h
    · rename_i hs
      rw [if_neg hs]
      cases h; rfl

theorem sort_local {P : Plat} {cmp cmp' : Cmp} {l : List Val} (hc : SameOn l cmp cmp')
    {cap n : Nat} {a' : Arr} (h : sort P ⟨l, cap, n⟩ cmp = .ok a') :
    sort P ⟨l, cap, n⟩ cmp' = .ok a' := by
  unfold sort at h ⊢
  simp only at h ⊢
  split at h
  · rename_i hs
    rw [if_pos hs]
    unfold heapify at h ⊢
    simp only at h ⊢
    obtain ⟨⟨k1, l1⟩, h1, h⟩ := C.bind_eq_ok h
    obtain ⟨g1, g2⟩ := heapifyLoop_local hc _ _ _ _ _ _ (fun _ hx => hx) h1
    rw [g1, C.ok_bind]
    simp only at h ⊢
    obtain ⟨⟨k2, l2⟩, h2, h⟩ := C.bind_eq_ok h
    rw [sortLoop_local hc _ _ _ _ _ _ g2 h2, C.ok_bind]
    simp only at h ⊢
    exact h
  · rename_i hs
    rw [if_neg hs]
    exact h

end Mu.Arr
