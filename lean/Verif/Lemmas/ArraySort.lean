import Verif.Lemmas.Array
import Mathlib.Tactic.ByContra

/-! # mu_array_sort is a heap sort -/

namespace Mu.Arr
open Spec

/-- Element `i` (0 beyond the end). -/
abbrev g (l : List Val) (i : Nat) : Val := l.getD i 0

/-- The list with elements `a` and `b` exchanged. -/
abbrev sw (l : List Val) (a b : Nat) : List Val := (l.set a (g l b)).set b (g l a)

theorem g_eq {l : List Val} {i : Nat} (h : i < l.length) : g l i = l[i] := by simp [g, h]

theorem ld_g {l : List Val} {i : Nat} (h : i < l.length) : ld l (i : Int) = .ok (g l i) := by
  rw [ld_nat, ldN_ok h, g_eq h]

theorem g_sw {l : List Val} {a b : Nat} (ha : a < l.length) (hb : b < l.length) (j : Nat) :
    g (sw l a b) j = if j = b then g l a else if j = a then g l b else g l j := by
  simp only [g, sw, List.getD_eq_getElem?_getD, List.getElem?_set, List.length_set]
  by_cases h1 : j = b
  · subst h1; simp [hb]
  · by_cases h2 : j = a
    · subst h2; simp [h1, ha, Ne.symm h1]
    · simp [h1, h2, Ne.symm h1, Ne.symm h2]

theorem swap_ok {l : List Val} {a b : Nat} (ha : a < l.length) (hb : b < l.length) :
    swap l (a : Int) (b : Int) = .ok (sw l a b) := by
  unfold swap
  rw [ld_g ha, ld_g hb]
  simp only [C.ok_bind, st_nat]
  rw [stN_ok ha]
  simp only [C.ok_bind]
  rw [stN_ok (by simpa using hb)]

theorem sw_perm {l : List Val} {a b : Nat} (ha : a < l.length) (hb : b < l.length) :
    (sw l a b).Perm l := by
  unfold sw
  rw [g_eq ha, g_eq hb]
  exact List.set_set_perm ha hb

/-- What every run of `sift_down` on positions `[r, e]` guarantees, whatever the comparison
function answers. -/
structure Shuffle (r e : Nat) (l l' : List Val) : Prop where
  perm : l'.Perm l
  same : ∀ i, i < r ∨ e < i → g l' i = g l i
  from_ : ∀ i, i ≤ e → ∃ j, j ≤ e ∧ g l' i = g l j

theorem Shuffle.refl (r e : Nat) (l : List Val) : Shuffle r e l l :=
  ⟨List.Perm.refl _, fun _ _ => rfl, fun i h => ⟨i, h, rfl⟩⟩

theorem Shuffle.len {r e : Nat} {l l' : List Val} (h : Shuffle r e l l') : l'.length = l.length :=
  h.perm.length_eq

theorem Shuffle.trans {r e : Nat} {l l' l'' : List Val} (h : Shuffle r e l l')
    (h' : Shuffle r e l' l'') : Shuffle r e l l'' := by
  refine ⟨h'.perm.trans h.perm, fun i hi => (h'.same i hi).trans (h.same i hi), ?_⟩
  intro i hi
  obtain ⟨j, hj, e1⟩ := h'.from_ i hi
  obtain ⟨k, hk, e2⟩ := h.from_ j hj
  exact ⟨k, hk, e1.trans e2⟩

theorem Shuffle.mono {r r' e : Nat} {l l' : List Val} (hr : r' ≤ r) (h : Shuffle r e l l') :
    Shuffle r' e l l' :=
  ⟨h.perm, fun i hi => h.same i (by omega), h.from_⟩

theorem sw_shuffle {l : List Val} {a b r e : Nat} (ha : a < l.length) (hb : b < l.length)
    (h1 : r ≤ a) (h2 : r ≤ b) (h3 : a ≤ e) (h4 : b ≤ e) : Shuffle r e l (sw l a b) := by
  refine ⟨sw_perm ha hb, ?_, ?_⟩
  · intro i hi
    rw [g_sw ha hb, if_neg (by omega), if_neg (by omega)]
  · intro i hi
    rw [g_sw ha hb]
    split
    · exact ⟨a, h3, rfl⟩
    · split
      · exact ⟨b, h4, rfl⟩
      · exact ⟨i, hi, rfl⟩

/-- One pass of `sift_down`, with the arithmetic discharged. -/
theorem siftDown_step {P : Plat} {cmp : Cmp} {l : List Val} {r e k fuel : Nat}
    (hr : r ≤ e) (he : e < l.length) (hb : (2 * e + 1 : Int) ≤ P.intMax) :
    siftDown P cmp e (fuel + 1) r k l =
      (if 2 * r + 1 ≤ e then
        if 2 * r + 2 ≤ e then
          let c := if cmp k (g l (2 * r + 1)) (g l (2 * r + 2)) < 0 then 2 * r + 2 else 2 * r + 1
          if cmp (k + 1) (g l r) (g l c) < 0 then
            siftDown P cmp e fuel (c : Nat) (k + 1 + 1) (sw l r c)
          else .ok (k + 1 + 1, l)
        else
          if cmp k (g l r) (g l (2 * r + 1)) < 0 then
            siftDown P cmp e fuel ((2 * r + 1 : Nat) : Int) (k + 1) (sw l r (2 * r + 1))
          else .ok (k + 1, l)
      else .ok (k, l)) := by
  have hmx := P.intMax_ge
  rw [siftDown]
  rw [P.int_ok_nonneg (by omega) (by omega)]
  simp only [C.ok_bind]
  rw [P.int_ok_nonneg (by omega) (by omega)]
  simp only [C.ok_bind]
  by_cases h1 : 2 * r + 1 ≤ e
  · rw [if_pos (by omega), if_pos h1, P.int_ok_nonneg (by omega) (by omega)]
    simp only [C.ok_bind]
    have e1 : (r : Int) * 2 + 1 = ((2 * r + 1 : Nat) : Int) := by omega
    have e2 : ((2 * r + 1 : Nat) : Int) + 1 = ((2 * r + 2 : Nat) : Int) := by omega
    rw [e1, e2, ld_g (show r < l.length by omega), ld_g (show 2 * r + 1 < l.length by omega)]
    simp only [C.ok_bind]
    by_cases h2 : 2 * r + 2 ≤ e
    · rw [if_pos (by omega), if_pos h2, ld_g (show 2 * r + 2 < l.length by omega)]
      simp only [C.ok_bind]
      by_cases h3 : cmp k (g l (2 * r + 1)) (g l (2 * r + 2)) < 0
      · simp only [h3, if_true]
        rw [ld_g (show 2 * r + 2 < l.length by omega)]
        simp only [C.ok_bind]
        rw [swap_ok (by omega) (by omega)]
        rfl
      · simp only [h3, if_false]
        rw [ld_g (show 2 * r + 1 < l.length by omega)]
        simp only [C.ok_bind]
        rw [swap_ok (by omega) (by omega)]
        simp only [C.ok_bind]
    · rw [if_neg (by omega), if_neg h2]
      rw [swap_ok (by omega) (by omega)]
      simp only [C.ok_bind]
  · rw [if_neg (by omega), if_neg h1]

theorem siftDown_any {P : Plat} {cmp : Cmp} {e : Nat} (hb : (2 * e + 1 : Int) ≤ P.intMax) :
    ∀ fuel r k l, r ≤ e → e < l.length → e < r + fuel →
      ∃ k' l', siftDown P cmp e fuel (r : Int) k l = .ok (k', l') ∧ Shuffle r e l l' := by
  intro fuel
  induction fuel with
  | zero => intro r k l _ _ _; omega
  | succ fuel ih =>
    intro r k l hr he hf
    rw [siftDown_step hr he hb]
    have rec_ : ∀ c k, 2 * r + 1 ≤ c → c ≤ e →
        ∃ k' l', siftDown P cmp e fuel (c : Int) k (sw l r c) = .ok (k', l') ∧
          Shuffle r e l l' := by
      intro c k hc1 hc2
      obtain ⟨k', l', e1, e2⟩ := ih c k (sw l r c) hc2 (by simpa using he) (by omega)
      exact ⟨k', l', e1, (sw_shuffle (by omega) (by omega) (by omega) (by omega) (by omega)
        (by omega)).trans (e2.mono (by omega))⟩
    by_cases h1 : 2 * r + 1 ≤ e
    · rw [if_pos h1]
      by_cases h2 : 2 * r + 2 ≤ e
      · rw [if_pos h2]
        simp only
        generalize hc : (if cmp k (g l (2 * r + 1)) (g l (2 * r + 2)) < 0 then 2 * r + 2
          else 2 * r + 1) = c
        have hc' : 2 * r + 1 ≤ c ∧ c ≤ e := by split at hc <;> omega
        split
        · exact rec_ c _ hc'.1 hc'.2
        · exact ⟨_, l, rfl, Shuffle.refl _ _ _⟩
      · rw [if_neg h2]
        split
        · exact rec_ (2 * r + 1) _ (Nat.le_refl _) h1
        · exact ⟨_, l, rfl, Shuffle.refl _ _ _⟩
    · rw [if_neg h1]
      exact ⟨_, l, rfl, Shuffle.refl _ _ _⟩

/-! ### The heap order -/

/-- `c` is a child of `i` in the implicit binary tree. -/
def Child (c i : Nat) : Prop := c = 2 * i + 1 ∨ c = 2 * i + 2

/-- Heap order for all parents in `[s, e]`. -/
def Heap (cmp : Cmp) (s e : Nat) (l : List Val) : Prop :=
  ∀ i c, s ≤ i → Child c i → c ≤ e → cmp 0 (g l c) (g l i) ≤ 0

section
variable {cmp : Cmp} (ht : TotalPreorder cmp)
include ht

theorem lt_iff (k : Nat) (a b : Val) : cmp k a b < 0 ↔ ¬ cmp 0 b a ≤ 0 := by
  rw [ht.pure k 0, ht.antisymm]; omega

theorem le_total (a b : Val) : cmp 0 a b ≤ 0 ∨ cmp 0 b a ≤ 0 := by
  by_cases h : cmp 0 a b < 0
  · left; omega
  · right
    by_contra h2
    exact h ((lt_iff ht 0 a b).mpr h2)

theorem siftDown_heap {P : Plat} {e : Nat} (hb : (2 * e + 1 : Int) ≤ P.intMax) :
    ∀ fuel s r k l, s ≤ r → r ≤ e → e < l.length → e < r + fuel →
      (∀ i c, s ≤ i → i ≠ r → Child c i → c ≤ e → cmp 0 (g l c) (g l i) ≤ 0) →
      (∀ p c, s ≤ p → Child r p → Child c r → c ≤ e → cmp 0 (g l c) (g l p) ≤ 0) →
      ∃ k' l', siftDown P cmp e fuel (r : Int) k l = .ok (k', l') ∧ Heap cmp s e l' := by
  intro fuel
  induction fuel with
  | zero => intro s r k l _ _ _ _; omega
  | succ fuel ih =>
    intro s r k l hs hr he hf hA hB
    rw [siftDown_step hr he hb]
    -- the recursive case: `c` is the larger child and `r` is smaller than it
    have rec_ : ∀ c k, Child c r → c ≤ e → cmp 0 (g l r) (g l c) ≤ 0 →
        (∀ c', Child c' r → c' ≤ e → cmp 0 (g l c') (g l c) ≤ 0) →
        ∃ k' l', siftDown P cmp e fuel (c : Int) k (sw l r c) = .ok (k', l') ∧
          Heap cmp s e l' := by
      intro c k hc hce hrc hmax
      have hcr : r < c := by rcases hc with h | h <;> omega
      have hgs := g_sw (l := l) (a := r) (b := c) (by omega) (by omega)
      refine ih s c k (sw l r c) (by omega) hce (by simpa using he) (by omega) ?_ ?_
      · intro i c' hsi hic hc' hce'
        by_cases hir : i = r
        · subst hir
          by_cases hcc : c' = c
          · subst hcc
            rw [hgs, hgs, if_pos rfl, if_neg (by omega), if_pos rfl]
            exact hrc
          · rw [hgs, hgs, if_neg hcc, if_neg (by rcases hc' with h | h <;> omega),
              if_neg (by omega), if_pos rfl]
            exact hmax c' hc' hce'
        · have hcc : c' ≠ c := by
            rintro rfl
            rcases hc with h | h <;> rcases hc' with h' | h' <;> omega
          by_cases hcr' : c' = r
          · subst hcr'
            rw [hgs, hgs, if_neg hcc, if_pos rfl, if_neg hic, if_neg hir]
            exact hB i c hsi hc' hc hce
          · rw [hgs, hgs, if_neg hcc, if_neg hcr', if_neg hic, if_neg hir]
            exact hA i c' hsi hir hc' hce'
      · intro p c' hsp hp hc' hce'
        have hpr : p = r := by rcases hc with h | h <;> rcases hp with h' | h' <;> omega
        subst hpr
        have : c < c' := by rcases hc' with h | h <;> omega
        rw [hgs, hgs, if_neg (by omega), if_neg (by omega), if_neg (by omega), if_pos rfl]
        exact hA c c' (by omega) (by omega) hc' hce'
    -- the final case: `r` is at least as large as its children
    have stop_ : (∀ c', Child c' r → c' ≤ e → cmp 0 (g l c') (g l r) ≤ 0) → Heap cmp s e l := by
      intro hmax i c hsi hc hce
      by_cases hir : i = r
      · subst hir; exact hmax c hc hce
      · exact hA i c hsi hir hc hce
    by_cases h1 : 2 * r + 1 ≤ e
    · rw [if_pos h1]
      by_cases h2 : 2 * r + 2 ≤ e
      · rw [if_pos h2]
        simp only
        have key : ∃ c, (if cmp k (g l (2 * r + 1)) (g l (2 * r + 2)) < 0 then 2 * r + 2
            else 2 * r + 1) = c ∧ Child c r ∧ c ≤ e ∧
            (∀ c', Child c' r → c' ≤ e → cmp 0 (g l c') (g l c) ≤ 0) := by
          have refl : ∀ a, cmp 0 a a ≤ 0 := fun a => (le_total ht a a).elim id id
          split
          · rename_i hlt
            refine ⟨_, rfl, Or.inr rfl, h2, ?_⟩
            rintro c' (rfl | rfl) _
            · rw [ht.pure k 0] at hlt; omega
            · exact refl _
          · rename_i hlt
            refine ⟨_, rfl, Or.inl rfl, h1, ?_⟩
            rintro c' (rfl | rfl) _
            · exact refl _
            · by_contra hn
              exact hlt ((lt_iff ht k _ _).mpr hn)
        obtain ⟨c, hc, hch, hce, hmax⟩ := key
        rw [hc]
        split
        · rename_i hlt
          refine rec_ c _ hch hce ?_ hmax
          rw [ht.pure (k + 1) 0] at hlt; omega
        · rename_i hlt
          refine ⟨_, l, rfl, stop_ ?_⟩
          have hcr : cmp 0 (g l c) (g l r) ≤ 0 := by
            by_contra hn
            exact hlt ((lt_iff ht _ _ _).mpr hn)
          intro c' hc' hce'
          exact ht.trans _ _ _ (hmax c' hc' hce') hcr
      · rw [if_neg h2]
        split
        · rename_i hlt
          refine rec_ (2 * r + 1) _ (Or.inl rfl) h1 ?_ ?_
          · rw [ht.pure k 0] at hlt; omega
          · rintro c' (rfl | rfl) hce'
            · exact (le_total ht _ _).elim id id
            · omega
        · rename_i hlt
          refine ⟨_, l, rfl, stop_ ?_⟩
          rintro c' (rfl | rfl) hce'
          · by_contra hn
            exact hlt ((lt_iff ht _ _ _).mpr hn)
          · omega
    · rw [if_neg h1]
      refine ⟨_, l, rfl, stop_ ?_⟩
      rintro c' (rfl | rfl) hce' <;> omega

omit ht in
/-- The heap rooted at 0 has its maximum there. -/
theorem Heap.root {e : Nat} {l : List Val} (ht : TotalPreorder cmp) (h : Heap cmp 0 e l) :
    ∀ i, i ≤ e → cmp 0 (g l i) (g l 0) ≤ 0 := by
  intro i
  induction i using Nat.strongRecOn with
  | ind i ih =>
    intro hi
    by_cases h0 : i = 0
    · subst h0; exact (le_total ht _ _).elim id id
    · have h1 := h ((i - 1) / 2) i (by omega) (by unfold Child; omega) hi
      exact ht.trans _ _ _ h1 (ih ((i - 1) / 2) (by omega) (by omega))

end

/-! ### heapify -/

theorem heapifyLoop_any {P : Plat} {cmp : Cmp} {n : Nat} (hb : (2 * n : Int) ≤ P.intMax + 1) :
    ∀ fuel m k l, m < n → n ≤ l.length → m < fuel →
      ∃ k' l', heapifyLoop P cmp n fuel ((m : Int) - 1) k l = .ok (k', l') ∧
        Shuffle 0 (n - 1) l l' := by
  have hmod := P.intMax_lt_szMod
  have hmx := P.intMax_ge
  intro fuel
  induction fuel with
  | zero => intro m k l _ _ _; omega
  | succ fuel ih =>
    intro m k l hm hn hf
    unfold heapifyLoop
    cases m with
    | zero => rw [if_neg (by omega)]; exact ⟨k, l, rfl, Shuffle.refl _ _ _⟩
    | succ m =>
      rw [if_pos (by omega)]
      have e1 : P.szSub n 1 = n - 1 := P.szSub_of_le (by omega) (by omega)
      have e2 : P.toInt (n - 1) = ((n - 1 : Nat) : Int) := P.toInt_of_le (by omega)
      have e3 : ((m + 1 : Nat) : Int) - 1 = (m : Int) := by omega
      simp only [e1, e2, e3]
      obtain ⟨k1, l1, f1, f2⟩ := siftDown_any (P := P) (cmp := cmp) (e := n - 1) (by omega)
        (n + 1) m k l (by omega) (by omega) (by omega)
      rw [f1]
      simp only [C.ok_bind]
      rw [P.int_ok (by have := P.intMin_eq; omega) (by omega)]
      simp only [C.ok_bind]
      obtain ⟨k2, l2, g1, g2⟩ := ih m k1 l1 (by omega) (by rw [f2.len]; exact hn) (by omega)
      exact ⟨k2, l2, g1, (f2.mono (by omega)).trans g2⟩

theorem heapifyLoop_heap {P : Plat} {cmp : Cmp} (ht : TotalPreorder cmp) {n : Nat}
    (hb : (2 * n : Int) ≤ P.intMax + 1) :
    ∀ fuel m k l, m < n → n ≤ l.length → m < fuel → Heap cmp m (n - 1) l →
      ∃ k' l', heapifyLoop P cmp n fuel ((m : Int) - 1) k l = .ok (k', l') ∧
        Heap cmp 0 (n - 1) l' := by
  have hmod := P.intMax_lt_szMod
  have hmx := P.intMax_ge
  intro fuel
  induction fuel with
  | zero => intro m k l _ _ _; omega
  | succ fuel ih =>
    intro m k l hm hn hf hh
    unfold heapifyLoop
    cases m with
    | zero => rw [if_neg (by omega)]; exact ⟨k, l, rfl, hh⟩
    | succ m =>
      rw [if_pos (by omega)]
      have e1 : P.szSub n 1 = n - 1 := P.szSub_of_le (by omega) (by omega)
      have e2 : P.toInt (n - 1) = ((n - 1 : Nat) : Int) := P.toInt_of_le (by omega)
      have e3 : ((m + 1 : Nat) : Int) - 1 = (m : Int) := by omega
      simp only [e1, e2, e3]
      obtain ⟨k1, l1, f1, f2⟩ := siftDown_heap ht (P := P) (e := n - 1) (by omega)
        (n + 1) m m k l (by omega) (by omega) (by omega) (by omega)
        (fun i c hi hne hc hce => hh i c (by omega) hc hce)
        (fun p c hp hc _ _ => by unfold Child at hc; omega)
      obtain ⟨k1', l1', f1', f2'⟩ := siftDown_any (P := P) (cmp := cmp) (e := n - 1) (by omega)
        (n + 1) m k l (by omega) (by omega) (by omega)
      rw [f1] at f1'
      obtain ⟨rfl, rfl⟩ := Prod.mk.inj (Except.ok.inj f1')
      rw [f1]
      simp only [C.ok_bind]
      rw [P.int_ok (by have := P.intMin_eq; omega) (by omega)]
      simp only [C.ok_bind]
      exact ih m k1 l1 (by omega) (by rw [f2'.len]; exact hn) (by omega) f2

/-- The starting point of heapify for two or more elements. -/
theorem heapify_start {P : Plat} {n : Nat} (h2 : 2 ≤ n) (hb : (n : Int) ≤ P.intMax) :
    P.toInt (P.szSub n 2 / 2) = ((n / 2 : Nat) : Int) - 1 := by
  have hmod := P.intMax_lt_szMod
  have hmx := P.intMax_ge
  rw [P.szSub_of_le h2 (by omega), P.toInt_of_le (by omega)]; omega

/-- The starting point of heapify for one element, when `size_t` is wider than `int`. -/
theorem heapify_start_one {P : Plat} (hw : P.ib < P.sb) :
    P.toInt (P.szSub 1 2 / 2) = -1 := by
  have h1 : P.szSub 1 2 = P.szMod - 1 := by
    have hp := P.szMod_pos
    have : 2 ≤ P.szMod := by
      have hmod := P.intMax_lt_szMod
      have hmx := P.intMax_ge
      omega
    unfold Plat.szSub Plat.toSz
    rw [← Int.add_emod_right, Int.emod_eq_of_lt] <;> omega
  rw [h1]
  unfold Plat.szMod Plat.toInt
  obtain ⟨d, hd⟩ : ∃ d, P.sb = P.ib + d + 1 := ⟨P.sb - P.ib - 1, by omega⟩
  have h2 : (2 ^ P.sb - 1) / 2 = 2 ^ P.ib * 2 ^ d - 1 := by
    rw [hd, Nat.pow_succ, Nat.pow_add]; omega
  rw [h2]
  have h3 : 0 < 2 ^ P.ib * 2 ^ d := Nat.mul_pos (Nat.pow_pos (by decide)) (Nat.pow_pos (by decide))
  have h4 : ((2 ^ P.ib * 2 ^ d - 1 : Nat) : Int) = -1 + (2 ^ P.ib : Nat) * (2 ^ d : Nat) := by
    omega
  rw [h4, Int.add_mul_bmod_self_left]
  have h5 := P.hib
  have h6 : 2 ^ 16 ≤ 2 ^ P.ib := Nat.pow_le_pow_right (by decide) h5
  generalize 2 ^ P.ib = M at h6
  rw [Int.bmod_eq_of_le_mul_two] <;> omega

theorem heapify_any {P : Plat} {cmp : Cmp} {n : Nat} {k : Nat} {l : List Val} (hn0 : 0 < n)
    (hn : n ≤ l.length) (hw : n = 1 → P.ib < P.sb) (hb : (2 * n : Int) ≤ P.intMax + 1) :
    ∃ k' l', heapify P cmp n k l = .ok (k', l') ∧ Shuffle 0 (n - 1) l l' := by
  unfold heapify
  have hmx := P.intMax_ge
  by_cases h1 : n = 1
  · subst h1
    rw [heapify_start_one (hw rfl)]
    exact heapifyLoop_any hb 2 0 k l (by omega) hn (by omega)
  · rw [heapify_start (by omega) (by omega)]
    exact heapifyLoop_any hb (n + 1) (n / 2) k l (by omega) hn (by omega)

theorem heapify_heap {P : Plat} {cmp : Cmp} (ht : TotalPreorder cmp) {n : Nat} {k : Nat}
    {l : List Val} (hn0 : 0 < n)
    (hn : n ≤ l.length) (hw : n = 1 → P.ib < P.sb) (hb : (2 * n : Int) ≤ P.intMax + 1) :
    ∃ k' l', heapify P cmp n k l = .ok (k', l') ∧ Heap cmp 0 (n - 1) l' := by
  unfold heapify
  have hmx := P.intMax_ge
  by_cases h1 : n = 1
  · subst h1
    rw [heapify_start_one (hw rfl)]
    refine heapifyLoop_heap ht hb 2 0 k l (by omega) hn (by omega) ?_
    intro i c _ hc hce
    unfold Child at hc; omega
  · rw [heapify_start (by omega) (by omega)]
    refine heapifyLoop_heap ht hb (n + 1) (n / 2) k l (by omega) hn (by omega) ?_
    intro i c hi hc hce
    unfold Child at hc; omega

/-! ### The extraction loop -/

theorem sortLoop_any {P : Plat} {cmp : Cmp} :
    ∀ (fuel e k : Nat) l, e < l.length → e < fuel → (2 * e + 1 : Int) ≤ P.intMax →
      ∃ k' l', sortLoop P cmp fuel e k l = .ok (k', l') ∧ Shuffle 0 e l l' := by
  have hmod := P.intMax_lt_szMod
  have hmx := P.intMax_ge
  intro fuel
  induction fuel with
  | zero => intro e k l _ _; omega
  | succ fuel ih =>
    intro e k l he hf hb
    unfold sortLoop
    cases e with
    | zero => rw [if_neg (by omega)]; exact ⟨k, l, rfl, Shuffle.refl _ _ _⟩
    | succ e =>
      rw [if_pos (by omega)]
      have e1 : P.szSub (e + 1) 1 = e := by rw [P.szSub_of_le (by omega) (by omega)]; omega
      have e2 : P.toInt e = (e : Int) := P.toInt_of_le (by omega)
      have e3 : P.toInt (e + 1) = ((e + 1 : Nat) : Int) := P.toInt_of_le (by omega)
      have e4 : (0 : Int) = ((0 : Nat) : Int) := rfl
      simp only [e1, e2, e3]
      rw [e4, swap_ok he (by omega)]
      simp only [C.ok_bind]
      obtain ⟨k1, l1, f1, f2⟩ := siftDown_any (P := P) (cmp := cmp) (e := e) (by omega)
        (e + 2) 0 k (sw l (e + 1) 0) (by omega) (by simp; omega) (by omega)
      rw [f1]
      simp only [C.ok_bind]
      obtain ⟨k2, l2, g1, g2⟩ := ih e k1 l1 (by rw [f2.len]; simp; omega) (by omega) (by omega)
      have s1 : Shuffle 0 (e + 1) l (sw l (e + 1) 0) :=
        sw_shuffle he (by omega) (by omega) (by omega) (by omega) (by omega)
      have s2 : ∀ {l l'}, Shuffle 0 e l l' → Shuffle 0 (e + 1) l l' := by
        intro l l' h
        refine ⟨h.perm, fun i hi => h.same i (by omega), ?_⟩
        intro i hi
        by_cases hie : i ≤ e
        · obtain ⟨j, hj, e⟩ := h.from_ i hie
          exact ⟨j, by omega, e⟩
        · exact ⟨i, hi, h.same i (by omega)⟩
      exact ⟨k2, l2, g1, s1.trans ((s2 f2).trans (s2 g2))⟩

theorem sortLoop_sorted {P : Plat} {cmp : Cmp} (ht : TotalPreorder cmp) {n : Nat} :
    ∀ (fuel e k : Nat) l, e < n → n ≤ l.length → e < fuel → (2 * e + 1 : Int) ≤ P.intMax →
      Heap cmp 0 e l →
      (∀ i j, i < j → e < j → j < n → cmp 0 (g l i) (g l j) ≤ 0) →
      ∃ k' l', sortLoop P cmp fuel e k l = .ok (k', l') ∧
        ∀ i j, i < j → j < n → cmp 0 (g l' i) (g l' j) ≤ 0 := by
  have hmod := P.intMax_lt_szMod
  have hmx := P.intMax_ge
  intro fuel
  induction fuel with
  | zero => intro e k l _ _; omega
  | succ fuel ih =>
    intro e k l he hn hf hb hh hs
    unfold sortLoop
    cases e with
    | zero =>
      rw [if_neg (by omega)]
      exact ⟨k, l, rfl, fun i j hij hj => hs i j hij (by omega) hj⟩
    | succ e =>
      rw [if_pos (by omega)]
      have e1 : P.szSub (e + 1) 1 = e := by rw [P.szSub_of_le (by omega) (by omega)]; omega
      have e2 : P.toInt e = (e : Int) := P.toInt_of_le (by omega)
      have e3 : P.toInt (e + 1) = ((e + 1 : Nat) : Int) := P.toInt_of_le (by omega)
      have e4 : (0 : Int) = ((0 : Nat) : Int) := rfl
      simp only [e1, e2, e3]
      rw [e4, swap_ok (by omega) (by omega)]
      simp only [C.ok_bind]
      have hgs := g_sw (l := l) (a := e + 1) (b := 0) (by omega) (by omega)
      obtain ⟨k1, l1, f1, f2⟩ := siftDown_any (P := P) (cmp := cmp) (e := e) (by omega)
        (e + 2) 0 k (sw l (e + 1) 0) (by omega) (by simp; omega) (by omega)
      obtain ⟨k1', l1', f1', f3⟩ := siftDown_heap ht (P := P) (e := e) (by omega)
        (e + 2) 0 0 k (sw l (e + 1) 0) (by omega) (by omega) (by simp; omega) (by omega)
        (by
          intro i c _ hi hc hce
          have : c ≠ 0 := by unfold Child at hc; omega
          have : i < c := by unfold Child at hc; omega
          rw [hgs, hgs, if_neg (by omega), if_neg (by omega), if_neg (by omega), if_neg (by omega)]
          exact hh i c (by omega) hc (by omega))
        (by intro p c _ hc; unfold Child at hc; omega)
      rw [f1] at f1'
      obtain ⟨rfl, rfl⟩ := Prod.mk.inj (Except.ok.inj f1')
      rw [f1]
      simp only [C.ok_bind]
      refine ih e k1 l1 (by omega) (by rw [f2.len]; simpa using hn) (by omega) (by omega) f3 ?_
      intro i j hij hj hjn
      rw [f2.same j (by omega), hgs j, if_neg (by omega)]
      -- element i of l1 is some element of l below or at its position class
      have hi : ∃ i', i' ≤ e + 1 ∧ g l1 i = g l i' ∨ (e + 1 < i ∧ g l1 i = g l i) := by
        by_cases hie : i ≤ e
        · obtain ⟨i1, h1, h2⟩ := f2.from_ i hie
          rw [hgs] at h2
          by_cases h0 : i1 = 0
          · rw [if_pos h0] at h2
            exact ⟨e + 1, Or.inl ⟨by omega, h2⟩⟩
          · rw [if_neg h0, if_neg (by omega)] at h2
            exact ⟨i1, Or.inl ⟨by omega, h2⟩⟩
        · by_cases hie2 : i = e + 1
          · refine ⟨0, Or.inl ⟨by omega, ?_⟩⟩
            rw [f2.same i (by omega), hgs, if_neg (by omega), if_pos hie2]
          · refine ⟨0, Or.inr ⟨by omega, ?_⟩⟩
            rw [f2.same i (by omega), hgs, if_neg (by omega), if_neg (by omega)]
      obtain ⟨i', ⟨h1, h2⟩ | ⟨h1, h2⟩⟩ := hi
      · rw [h2]
        by_cases hje : j = e + 1
        · rw [if_pos hje]; exact hh.root ht i' h1
        · rw [if_neg hje]; exact hs i' j (by omega) (by omega) hjn
      · rw [h2, if_neg (by omega)]
        exact hs i j hij (by omega) hjn

/-! ### Whole sort -/

/-- A permutation that leaves everything from position `n` on unchanged is a permutation of the
first `n` elements. -/
theorem Shuffle.take_perm {n : Nat} {l l' : List Val} (h : Shuffle 0 (n - 1) l l') (hn0 : 0 < n)
    (hn : n ≤ l.length) : (l'.take n).Perm (l.take n) ∧ l'.drop n = l.drop n := by
  have hd : l'.drop n = l.drop n := by
    apply List.ext_getElem
    · simp [h.len]
    · intro i h1 h2
      have := h.same (n + i) (by omega)
      simp at h1 h2
      rw [g_eq (by omega), g_eq (by omega)] at this
      simpa using this
  refine ⟨?_, hd⟩
  have hp := h.perm
  rw [← List.take_append_drop n l', ← List.take_append_drop n l, hd] at hp
  exact (List.perm_append_right_iff _).mp hp

theorem sort_any {P : Plat} {a : Arr} {l : List Val} (h : Rep a l) (cmp : Cmp)
    (hw : l.length = 1 → P.ib < P.sb) (hb : (2 * l.length : Int) ≤ P.intMax + 1) :
    ∃ a' l', sort P a cmp = .ok a' ∧ Rep a' l' ∧ l'.Perm l ∧ a'.count = a.count ∧ Frame a a' ∧
      a'.storage.drop l.length = a.storage.drop l.length := by
  obtain ⟨h1, h2, h3, h4⟩ := h
  unfold sort
  have hmod := P.intMax_lt_szMod
  have hmx := P.intMax_ge
  by_cases h0 : a.count > 0
  · rw [if_pos h0]
    have e1 : P.szSub a.count 1 = a.count - 1 := P.szSub_of_le (by omega) (by omega)
    simp only [e1]
    obtain ⟨k1, l1, f1, f2⟩ := heapify_any (P := P) (cmp := cmp) (n := a.count) (k := 0)
      (l := a.storage) h0 (by omega) (by rw [← h1]; exact hw) (by omega)
    rw [f1]
    simp only [C.ok_bind]
    obtain ⟨k2, l2, g1, g2⟩ := sortLoop_any (P := P) (cmp := cmp) (a.count + 1) (a.count - 1) k1 l1
      (by rw [f2.len]; omega) (by omega) (by omega)
    rw [g1]
    simp only [C.ok_bind]
    obtain ⟨p1, p2⟩ := (f2.trans g2).take_perm h0 (by omega)
    have hl := (f2.trans g2).len
    refine ⟨_, l2.take a.count, rfl, ⟨by simp; omega, h2, by simp [hl]; exact h3, rfl⟩,
      by rw [← h4]; exact p1, rfl, ⟨rfl, hl, ?_⟩, by rw [h1]; exact p2⟩
    simp only
    have := congrArg (List.drop (a.capacity - a.count)) p2
    rw [List.drop_drop, List.drop_drop] at this
    rwa [show a.count + (a.capacity - a.count) = a.capacity by omega] at this
  · rw [if_neg h0]
    exact ⟨a, l, rfl, ⟨h1, h2, h3, h4⟩, List.Perm.refl _, rfl, Frame.refl _, rfl⟩

theorem sort_sorted {P : Plat} {a a' : Arr} {l l' : List Val} (h : Rep a l) {cmp : Cmp}
    (ht : TotalPreorder cmp)
    (hw : l.length = 1 → P.ib < P.sb) (hb : (2 * l.length : Int) ≤ P.intMax + 1)
    (hs : sort P a cmp = .ok a') (h' : Rep a' l') : Sorted cmp l' := by
  have hcnt := h'.len
  have htk := h'.take
  have hal := h'.alloc
  have hle := h'.le
  obtain ⟨h1, h2, h3, h4⟩ := h
  unfold sort at hs
  have hmod := P.intMax_lt_szMod
  have hmx := P.intMax_ge
  by_cases h0 : a.count > 0
  · rw [if_pos h0] at hs
    have e1 : P.szSub a.count 1 = a.count - 1 := P.szSub_of_le (by omega) (by omega)
    simp only [e1] at hs
    obtain ⟨k1, l1, f1, f2⟩ := heapify_any (P := P) (cmp := cmp) (n := a.count) (k := 0)
      (l := a.storage) h0 (by omega) (by rw [← h1]; exact hw) (by omega)
    obtain ⟨k1', l1', f1', f3⟩ := heapify_heap (P := P) ht (n := a.count) (k := 0)
      (l := a.storage) h0 (by omega) (by rw [← h1]; exact hw) (by omega)
    rw [f1] at f1'
    obtain ⟨rfl, rfl⟩ := Prod.mk.inj (Except.ok.inj f1')
    rw [f1] at hs
    simp only [C.ok_bind] at hs
    obtain ⟨k2, l2, g1, g2⟩ := sortLoop_sorted (P := P) ht (n := a.count) (a.count + 1)
      (a.count - 1) k1 l1 (by omega) (by rw [f2.len]; omega) (by omega) (by omega) f3
      (by intro i j; omega)
    rw [g1] at hs
    simp only [C.ok_bind] at hs
    obtain rfl := Except.ok.inj hs
    simp only at hcnt htk hal hle
    unfold Sorted
    rw [List.pairwise_iff_getElem]
    intro i j hi hj hij
    have := g2 i j hij (by omega)
    subst htk
    simp at hi hj
    rw [g_eq (by omega), g_eq (by omega)] at this
    simpa using this
  · rw [if_neg h0] at hs
    obtain rfl := Except.ok.inj hs
    have : l'.length = 0 := by omega
    obtain rfl := List.length_eq_zero_iff.mp this
    exact List.Pairwise.nil

/-! ### Insertion into a sorted array -/

/-- The binary search stays in range and finds the upper bound. -/
theorem findLoop_any {P : Plat} {a : Arr} {l : List Val} (h : Rep a l) (x : Val) (cmp : Cmp)
    (hb : (2 * l.length : Int) ≤ P.intMax + 1) :
    ∀ fuel lo hi k, lo ≤ hi → hi ≤ l.length → hi - lo < fuel →
      ∃ r : Nat, findLoop P a x cmp fuel (lo : Int) ((hi : Int) - 1) k = .ok (r : Int) ∧
        lo ≤ r ∧ r ≤ hi ∧
        (TotalPreorder cmp → Sorted cmp l →
          (∀ i, i < lo → cmp 0 (g l i) x ≤ 0) → (∀ i, hi ≤ i → i < l.length → 0 < cmp 0 (g l i) x) →
          (∀ i, i < r → cmp 0 (g l i) x ≤ 0) ∧ (∀ i, r ≤ i → i < l.length → 0 < cmp 0 (g l i) x)) := by
  have hmod := P.intMax_lt_szMod
  have hmx := P.intMax_ge
  have hmn := P.intMin_eq
  intro fuel
  induction fuel with
  | zero => intro lo hi k _ _ _; omega
  | succ fuel ih =>
    intro lo hi k h1 h2 h3
    unfold findLoop
    by_cases hlt : lo < hi
    · rw [if_pos (by omega), P.int_ok_nonneg (by omega) (by omega)]
      simp only [C.ok_bind]
      obtain ⟨m, hm⟩ : ∃ m : Nat, m = (lo + hi - 1) / 2 := ⟨_, rfl⟩
      have hmid : ((lo : Int) + ((hi : Int) - 1)).tdiv 2 = (m : Int) := by
        rw [Int.tdiv_eq_ediv_of_nonneg (by omega)]; omega
      rw [hmid, ld_nat, h.ld (by omega)]
      simp only [C.ok_bind]
      have hg : l[m]'(by omega) = g l m := (g_eq (by omega)).symm
      rw [hg]
      split
      · rename_i hc
        rw [P.int_ok (by omega) (by omega)]
        simp only [C.ok_bind]
        obtain ⟨r, e1, e2, e3, e4⟩ := ih lo m (k + 1) (by omega) (by omega) (by omega)
        refine ⟨r, e1, e2, by omega, ?_⟩
        intro ht hsd hlo hhi
        refine e4 ht hsd hlo ?_
        intro i hi1 hi2
        rw [ht.pure k 0] at hc
        by_cases him : i = m
        · subst him; exact hc
        · have hle : cmp 0 (g l m) (g l i) ≤ 0 := by
            have := (List.pairwise_iff_getElem.mp hsd) m i (by omega) hi2 (by omega)
            rwa [g_eq (by omega), g_eq hi2]
          by_contra hn
          have := ht.trans _ _ _ hle (by omega : cmp 0 (g l i) x ≤ 0)
          omega
      · rename_i hc
        rw [P.int_ok (by omega) (by omega)]
        simp only [C.ok_bind]
        obtain ⟨r, e1, e2, e3, e4⟩ := ih (m + 1) hi (k + 1) (by omega) h2 (by omega)
        refine ⟨r, by simpa using e1, by omega, e3, ?_⟩
        intro ht hsd hlo hhi
        refine e4 ht hsd ?_ hhi
        intro i hi1
        rw [ht.pure k 0] at hc
        by_cases him : i = m
        · subst him; omega
        · have hle : cmp 0 (g l i) (g l m) ≤ 0 := by
            have := (List.pairwise_iff_getElem.mp hsd) i m (by omega) (by omega) (by omega)
            rwa [g_eq (by omega), g_eq (by omega)]
          exact ht.trans _ _ _ hle (by omega)
    · rw [if_neg (by omega)]
      refine ⟨lo, rfl, Nat.le_refl _, h1, ?_⟩
      intro ht hsd hlo hhi
      exact ⟨hlo, fun i hi1 hi2 => hhi i (by omega) hi2⟩

/-- Insertion happens at some position; with a sorted content and a total preorder it is the upper
bound. -/
theorem insertSorted_ok {P : Plat} {a : Arr} {l : List Val} (h : Rep a l) (x : Val) (cmp : Cmp)
    (hb : (2 * l.length : Int) ≤ P.intMax + 1) (hs : (a.capacity : Int) ≤ P.intMax)
    (hc : l.length < a.capacity) :
    ∃ a' i, insertSorted P a x cmp = .ok (true, a') ∧ i ≤ l.length ∧
      Rep a' (l.take i ++ x :: l.drop i) ∧ Frame a a' ∧
      (TotalPreorder cmp → Sorted cmp l →
        (∀ j, j < i → cmp 0 (g l j) x ≤ 0) ∧ (∀ j, i ≤ j → j < l.length → 0 < cmp 0 (g l j) x)) := by
  have hmod := P.intMax_lt_szMod
  have hmx := P.intMax_ge
  have h1 := h.len
  unfold insertSorted
  by_cases h0 : l.length = 0
  · obtain ⟨a', e1, e2, e3⟩ := push_ok (P := P) h x hc (by omega)
    refine ⟨a', 0, by simp [count, ← h1, h0, e1], by omega, ?_, e3, ?_⟩
    · obtain rfl := List.length_eq_zero_iff.mp h0
      simpa using e2
    · intro _ _; exact ⟨fun j hj => by omega, fun j _ hj => by omega⟩
  · rw [if_neg (by simp [count]; omega)]
    unfold findInsertionIndex
    rw [P.szSub_of_le (by omega) (by omega), P.toInt_of_le (by omega)]
    have e0 : ((a.count - 1 : Nat) : Int) = ((l.length : Nat) : Int) - 1 := by omega
    have e00 : (0 : Int) = ((0 : Nat) : Int) := rfl
    rw [e0, e00]
    obtain ⟨r, f1, f2, f3, f4⟩ := findLoop_any (P := P) h x cmp hb (a.count + 1) 0 l.length 0
      (by omega) (by omega) (by omega)
    rw [f1]
    simp only [C.ok_bind]
    have hr : P.toSz ((r : Nat) : Int) = r := by
      rw [P.toSz_int (by omega) (by omega)]; simp
    rw [hr, P.toInt_of_le (by omega), hr]
    obtain ⟨a', e1, e2, e3⟩ := insert_ok (P := P) h x r hc f3 hs
    exact ⟨a', r, e1, f3, e2, e3, fun ht hsd => f4 ht hsd (by intro i hi; omega)
      (by intro i hi1 hi2; omega)⟩

theorem insertSorted_full {P : Plat} {a : Arr} {l : List Val} (h : Rep a l) (x : Val) (cmp : Cmp)
    (hb : (2 * l.length : Int) ≤ P.intMax + 1)
    (hc : ¬ l.length < a.capacity) :
    insertSorted P a x cmp = .ok (false, a) := by
  have hmod := P.intMax_lt_szMod
  have hmx := P.intMax_ge
  have h1 := h.len
  unfold insertSorted
  by_cases h0 : l.length = 0
  · simp [count, ← h1, h0, push_full h x hc]
  · rw [if_neg (by simp [count]; omega)]
    unfold findInsertionIndex
    rw [P.szSub_of_le (by omega) (by omega), P.toInt_of_le (by omega)]
    have e0 : ((a.count - 1 : Nat) : Int) = ((l.length : Nat) : Int) - 1 := by omega
    have e00 : (0 : Int) = ((0 : Nat) : Int) := rfl
    rw [e0, e00]
    obtain ⟨r, f1, f2, f3, f4⟩ := findLoop_any (P := P) h x cmp hb (a.count + 1) 0 l.length 0
      (by omega) (by omega) (by omega)
    rw [f1]
    simp only [C.ok_bind]
    rw [insert_fail h x _ (by omega)]

theorem insertSorted_any {P : Plat} {a : Arr} {l : List Val} (h : Rep a l) (x : Val) (cmp : Cmp)
    (hb : (2 * l.length : Int) ≤ P.intMax + 1) (hs : (a.capacity : Int) ≤ P.intMax) :
    C.Safe (insertSorted P a x cmp) := by
  by_cases hc : l.length < a.capacity
  · obtain ⟨a', i, e, _⟩ := insertSorted_ok (P := P) h x cmp hb hs hc
    exact ⟨_, e⟩
  · exact ⟨_, insertSorted_full h x cmp hb hc⟩

end Mu.Arr

/-! ### Locality: running on a longer storage object changes nothing beyond -/

namespace Mu.Arr

theorem ld_ext {l t : List Val} {i : Int} {x : Val} (h : ld l i = .ok x) :
    ld (l ++ t) i = .ok x := by
  unfold ld at h ⊢
  split at h
  · rename_i h0
    rw [if_pos h0]
    split at h
    · rename_i a e
      have hlt : i.toNat < l.length := by
        rcases Nat.lt_or_ge i.toNat l.length with h | h
        · exact h
        · simp [h] at e
      rw [List.getElem?_append_left hlt, e]; exact h
    · cases h
  · cases h

theorem st_ext {l t l' : List Val} {i : Int} {x : Val} (h : st l i x = .ok l') :
    st (l ++ t) i x = .ok (l' ++ t) := by
  unfold st at h ⊢
  split at h
  · rename_i h0
    rw [if_pos (by simp; omega)]
    cases h
    rw [List.set_append_left _ _ h0.2]
  · cases h

theorem swap_ext {l t l' : List Val} {i j : Int} (h : swap l i j = .ok l') :
    swap (l ++ t) i j = .ok (l' ++ t) := by
  unfold swap at h ⊢
  obtain ⟨x, h1, h⟩ := C.bind_eq_ok h
  obtain ⟨y, h2, h⟩ := C.bind_eq_ok h
  obtain ⟨l1, h3, h⟩ := C.bind_eq_ok h
  rw [ld_ext h1, C.ok_bind, ld_ext h2, C.ok_bind, st_ext h3, C.ok_bind, st_ext h]

theorem siftDown_ext {P : Plat} {cmp : Cmp} {stop : Int} {t : List Val} :
    ∀ fuel root k l k' l', siftDown P cmp stop fuel root k l = .ok (k', l') →
      siftDown P cmp stop fuel root k (l ++ t) = .ok (k', l' ++ t) := by
  intro fuel
  induction fuel with
  | zero => intro root k l k' l' h; cases h
  | succ fuel ih =>
    intro root k l k' l' h
    unfold siftDown at h ⊢
    obtain ⟨r2, h1, h⟩ := C.bind_eq_ok h
    obtain ⟨left, h2, h⟩ := C.bind_eq_ok h
    rw [h1, C.ok_bind, h2, C.ok_bind]
    split at h
    · rename_i hl
      rw [if_pos hl]
      simp only at h ⊢
      obtain ⟨sib, h3, h⟩ := C.bind_eq_ok h
      rw [h3, C.ok_bind]
      have tail : ∀ (c : Int) (k1 : Nat), (do
            let x ← ld l root
            let y ← ld l c
            if cmp k1 x y < 0 then do
              let items ← swap l root c
              siftDown P cmp stop fuel c (k1 + 1) items
            else .ok (k1 + 1, l)) = (Except.ok (k', l') : C (Nat × List Val)) → (do
            let x ← ld (l ++ t) root
            let y ← ld (l ++ t) c
            if cmp k1 x y < 0 then do
              let items ← swap (l ++ t) root c
              siftDown P cmp stop fuel c (k1 + 1) items
            else .ok (k1 + 1, l ++ t)) = (Except.ok (k', l' ++ t) : C (Nat × List Val)) := by
        intro c k1 h
        obtain ⟨x, h5, h⟩ := C.bind_eq_ok h
        obtain ⟨y, h6, h⟩ := C.bind_eq_ok h
        rw [ld_ext h5, C.ok_bind, ld_ext h6, C.ok_bind]
        split at h
        · rename_i hc
          rw [if_pos hc]
          obtain ⟨l1, h7, h⟩ := C.bind_eq_ok h
          rw [swap_ext h7, C.ok_bind]
          exact ih _ _ _ _ _ h
        · rename_i hc
          rw [if_neg hc]
          cases h; rfl
      split at h
      · rename_i hs
        rw [if_pos hs]
        obtain ⟨x, g1, h⟩ := C.bind_eq_ok h
        obtain ⟨y, g2, h⟩ := C.bind_eq_ok h
        rw [ld_ext g1, C.ok_bind, ld_ext g2, C.ok_bind]
        rw [C.ok_bind] at h ⊢
        exact tail _ _ h
      · rename_i hs
        rw [if_neg hs]
        rw [C.ok_bind] at h ⊢
        exact tail _ _ h
    · rename_i hl
      rw [if_neg hl]
      cases h; rfl

theorem heapifyLoop_ext {P : Plat} {cmp : Cmp} {n : Nat} {t : List Val} :
    ∀ fuel start k l k' l', heapifyLoop P cmp n fuel start k l = .ok (k', l') →
      heapifyLoop P cmp n fuel start k (l ++ t) = .ok (k', l' ++ t) := by
  intro fuel
  induction fuel with
  | zero => intro start k l k' l' h; cases h
  | succ fuel ih =>
    intro start k l k' l' h
    unfold heapifyLoop at h ⊢
    split at h
    · rename_i hs
      rw [if_pos hs]
      simp only at h ⊢
      obtain ⟨⟨k1, l1⟩, h1, h⟩ := C.bind_eq_ok h
      rw [siftDown_ext _ _ _ _ _ _ h1, C.ok_bind]
      obtain ⟨s, h2, h⟩ := C.bind_eq_ok h
      simp only at h2 h ⊢
      rw [h2, C.ok_bind]
      exact ih _ _ _ _ _ h
    · rename_i hs
      rw [if_neg hs]
      cases h; rfl

theorem sortLoop_ext {P : Plat} {cmp : Cmp} {t : List Val} :
    ∀ fuel stop k l k' l', sortLoop P cmp fuel stop k l = .ok (k', l') →
      sortLoop P cmp fuel stop k (l ++ t) = .ok (k', l' ++ t) := by
  intro fuel
  induction fuel with
  | zero => intro stop k l k' l' h; cases h
  | succ fuel ih =>
    intro stop k l k' l' h
    unfold sortLoop at h ⊢
    split at h
    · rename_i hs
      rw [if_pos hs]
      obtain ⟨l1, h1, h⟩ := C.bind_eq_ok h
      rw [swap_ext h1, C.ok_bind]
      simp only at h ⊢
      obtain ⟨⟨k2, l2⟩, h2, h⟩ := C.bind_eq_ok h
      rw [siftDown_ext _ _ _ _ _ _ h2, C.ok_bind]
      exact ih _ _ _ _ _ h
    · rename_i hs
      rw [if_neg hs]
      cases h; rfl

theorem sort_ext {P : Plat} {cmp : Cmp} {l t l' : List Val} {cap n cap' n' cap0 : Nat}
    (h : sort P ⟨l, cap, n⟩ cmp = .ok ⟨l', cap', n'⟩) :
    sort P ⟨l ++ t, cap0, n⟩ cmp = .ok ⟨l' ++ t, cap0, n⟩ := by
  unfold sort at h ⊢
  simp only at h ⊢
  split at h
  · rename_i hs
    rw [if_pos hs]
    unfold heapify at h ⊢
    simp only at h ⊢
    obtain ⟨⟨k1, l1⟩, h1, h⟩ := C.bind_eq_ok h
    rw [heapifyLoop_ext _ _ _ _ _ _ h1, C.ok_bind]
    simp only at h ⊢
    obtain ⟨⟨k2, l2⟩, h2, h⟩ := C.bind_eq_ok h
    rw [sortLoop_ext _ _ _ _ _ _ h2, C.ok_bind]
    simp only at h ⊢
    cases h; rfl
  · rename_i hs
    rw [if_neg hs]
    cases h; rfl

end Mu.Arr
