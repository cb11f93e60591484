import Verif.C.Val

/-! # Ring buffers: `count` elements ending just before `index` -/

namespace Mu

/-- The ring `storage[0..cap)` with write position `index` holds exactly the list `l`, oldest
first. -/
structure Ring {α : Type} (storage : List α) (cap count index : Nat) (l : List α) : Prop where
  len : l.length = count
  le : count ≤ cap
  alloc : cap ≤ storage.length
  idx : index < cap ∨ (cap = 0 ∧ index = 0)
  get : ∀ k, k < count →
    storage[if index + cap - count + k < cap then index + cap - count + k
            else index + k - count]? = l[k]?

theorem Ring.init {α : Type} (storage : List α) (cap : Nat) (h : cap ≤ storage.length) :
    Ring storage cap 0 0 [] := by
  refine ⟨rfl, by omega, h, by omega, ?_⟩
  intro k hk; omega

theorem Ring.put {α : Type} {storage : List α} {cap count index : Nat} {l : List α}
    (h : Ring storage cap count index l) (hc : count < cap) (e : α) :
    Ring (storage.set index e) cap (count + 1) ((index + 1) % cap) (l ++ [e]) := by
  obtain ⟨h1, h2, h3, h4, h5⟩ := h
  have hi : index < cap := by omega
  have hm : (index + 1) % cap = if index + 1 < cap then index + 1 else 0 := by
    split
    · exact Nat.mod_eq_of_lt ‹_›
    · have : index + 1 = cap := by omega
      simp [this]
  refine ⟨by simp [h1], by omega, by simpa using h3, Or.inl (Nat.mod_lt _ (by omega)), ?_⟩
  intro k hk
  rw [hm]
  by_cases hk2 : k < count
  · have hg := h5 k hk2
    rw [List.getElem?_append_left (by omega), ← hg, List.getElem?_set_ne]
    · congr 1
      split <;> split <;> split <;> omega
    · split <;> split <;> omega
  · have hk3 : k = count := by omega
    subst hk3
    rw [List.getElem?_append_right (by omega)]
    have : (if (if index + 1 < cap then index + 1 else 0) + cap - (k + 1) + k < cap then
        (if index + 1 < cap then index + 1 else 0) + cap - (k + 1) + k
        else (if index + 1 < cap then index + 1 else 0) + k - (k + 1)) = index := by
      split <;> split <;> omega
    rw [this, List.getElem?_set_self (by omega)]
    simp [h1]

theorem Ring.head {α : Type} {storage : List α} {cap count index : Nat} {x : α} {t : List α}
    (h : Ring storage cap count index (x :: t)) :
    storage[if index + cap - count < cap then index + cap - count else index - count]? = some x := by
  have h1 := h.len
  simp at h1
  have := h.get 0 (by omega)
  simpa using this

theorem Ring.pop {α : Type} {storage : List α} {cap count index : Nat} {x : α} {t : List α}
    (h : Ring storage cap count index (x :: t)) : Ring storage cap (count - 1) index t := by
  obtain ⟨h1, h2, h3, h4, h5⟩ := h
  simp at h1
  refine ⟨by omega, by omega, h3, h4, ?_⟩
  intro k hk
  have := h5 (k + 1) (by omega)
  simp only [List.getElem?_cons_succ] at this
  rw [← this]
  congr 1
  split <;> split <;> omega

theorem Ring.reset {α : Type} {storage : List α} {cap count index : Nat} {l : List α}
    (h : Ring storage cap count index l) : Ring storage cap 0 0 [] :=
  Ring.init storage cap h.alloc

end Mu
