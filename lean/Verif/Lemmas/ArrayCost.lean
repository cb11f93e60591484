import Verif.Lemmas.ArraySort
import Mathlib.Data.Nat.Log

/-! # How often the comparison function is called -/

namespace Mu.Arr
open Spec

/-- Two comparison functions that answer the same on calls number `k`, …, `k' - 1`. -/
def Agree (cmp cmp' : Cmp) (k k' : Nat) : Prop := ∀ j x y, k ≤ j → j < k' → cmp j x y = cmp' j x y

theorem Agree.sub {cmp cmp' : Cmp} {k k' a b : Nat} (h : Agree cmp cmp' k k') (h1 : k ≤ a)
    (h2 : b ≤ k') : Agree cmp cmp' a b := fun j x y u v => h j x y (by omega) (by omega)

theorem log_child {e r c : Nat} (h1 : 2 * r + 1 ≤ c) (h2 : 2 * r + 1 ≤ e) :
    ((e + 1) / (c + 1)).log2 + 1 ≤ ((e + 1) / (r + 1)).log2 := by
  rw [Nat.log2_eq_log_two, Nat.log2_eq_log_two]
  have h3 : 2 ≤ (e + 1) / (r + 1) := (Nat.le_div_iff_mul_le (by omega)).mpr (by omega)
  rw [Nat.log_of_one_lt_of_le (by decide) h3]
  refine Nat.succ_le_succ (Nat.log_mono_right ?_)
  rw [Nat.div_div_eq_div_mul]
  exact Nat.div_le_div_left (by omega) (by omega)

/-- What is known of the call counter after `sift_down`. -/
def SiftCost (r e k k' : Nat) : Prop :=
  k ≤ k' ∧ (2 * r + 1 ≤ e → k < k') ∧ k' ≤ k + 2 * ((e + 1) / (r + 1)).log2

theorem siftDown_cost {P : Plat} {cmp : Cmp} {e : Nat} (hb : (2 * e + 1 : Int) ≤ P.intMax) :
    ∀ fuel r k l, r ≤ e → e < l.length → e < r + fuel →
      ∃ k' l', siftDown P cmp e fuel (r : Int) k l = .ok (k', l') ∧ SiftCost r e k k' ∧
        l'.length = l.length ∧
        ∀ cmp', Agree cmp cmp' k k' → siftDown P cmp' e fuel (r : Int) k l = .ok (k', l') := by
  intro fuel
  induction fuel with
  | zero => intro r k l _ _ _; omega
  | succ fuel ih =>
    intro r k l hr he hf
    by_cases h1 : 2 * r + 1 ≤ e
    · by_cases h2 : 2 * r + 2 ≤ e
      · obtain ⟨c, hc⟩ : ∃ c, (if cmp k (g l (2 * r + 1)) (g l (2 * r + 2)) < 0 then 2 * r + 2
          else 2 * r + 1) = c := ⟨_, rfl⟩
        have hc' : 2 * r + 1 ≤ c ∧ c ≤ e := by split at hc <;> omega
        have hlog := log_child hc'.1 h1
        have main : ∀ cmp', cmp' k (g l (2 * r + 1)) (g l (2 * r + 2)) =
            cmp k (g l (2 * r + 1)) (g l (2 * r + 2)) →
            cmp' (k + 1) (g l r) (g l c) = cmp (k + 1) (g l r) (g l c) →
            siftDown P cmp' e (fuel + 1) r k l = if cmp (k + 1) (g l r) (g l c) < 0 then
              siftDown P cmp' e fuel (c : Nat) (k + 1 + 1) (sw l r c) else .ok (k + 1 + 1, l) := by
          intro cmp' a1 a2
          rw [siftDown_step hr he hb, if_pos h1, if_pos h2]
          simp only [a1, hc, a2]
        by_cases h3 : cmp (k + 1) (g l r) (g l c) < 0
        · obtain ⟨k', l', e1, ⟨c1, c2, c3⟩, e3, e4⟩ := ih c (k + 1 + 1) (sw l r c) hc'.2
            (by simpa using he) (by omega)
          refine ⟨k', l', ?_, ⟨by omega, fun _ => by omega, by omega⟩, by simpa using e3, ?_⟩
          · rw [main cmp rfl rfl, if_pos h3, e1]
          · intro cmp' ha
            rw [main cmp' (ha _ _ _ (by omega) (by omega)).symm
              (ha _ _ _ (by omega) (by omega)).symm, if_pos h3]
            exact e4 cmp' (ha.sub (by omega) (by omega))
        · refine ⟨k + 1 + 1, l, ?_, ⟨by omega, fun _ => by omega, by omega⟩, rfl, ?_⟩
          · rw [main cmp rfl rfl, if_neg h3]
          · intro cmp' ha
            rw [main cmp' (ha _ _ _ (by omega) (by omega)).symm
              (ha _ _ _ (by omega) (by omega)).symm, if_neg h3]
      · have hlog := log_child (Nat.le_refl _) h1
        have main : ∀ cmp', cmp' k (g l r) (g l (2 * r + 1)) = cmp k (g l r) (g l (2 * r + 1)) →
            siftDown P cmp' e (fuel + 1) r k l = if cmp k (g l r) (g l (2 * r + 1)) < 0 then
              siftDown P cmp' e fuel ((2 * r + 1 : Nat) : Int) (k + 1) (sw l r (2 * r + 1))
              else .ok (k + 1, l) := by
          intro cmp' a2
          rw [siftDown_step hr he hb, if_pos h1, if_neg h2, a2]
        by_cases h3 : cmp k (g l r) (g l (2 * r + 1)) < 0
        · obtain ⟨k', l', e1, ⟨c1, c2, c3⟩, e3, e4⟩ := ih (2 * r + 1) (k + 1) (sw l r (2 * r + 1)) h1
            (by simpa using he) (by omega)
          refine ⟨k', l', ?_, ⟨by omega, fun _ => by omega, by omega⟩, by simpa using e3, ?_⟩
          · rw [main cmp rfl, if_pos h3, e1]
          · intro cmp' ha
            rw [main cmp' (ha _ _ _ (by omega) (by omega)).symm, if_pos h3]
            exact e4 cmp' (ha.sub (by omega) (by omega))
        · refine ⟨k + 1, l, ?_, ⟨by omega, fun _ => by omega, by omega⟩, rfl, ?_⟩
          · rw [main cmp rfl, if_neg h3]
          · intro cmp' ha
            rw [main cmp' (ha _ _ _ (by omega) (by omega)).symm, if_neg h3]
    · refine ⟨k, l, ?_, ⟨Nat.le_refl _, fun h => absurd h h1, by omega⟩, rfl, ?_⟩
      · rw [siftDown_step hr he hb, if_neg h1]
      · intro cmp' _
        rw [siftDown_step hr he hb, if_neg h1]

theorem log_le {n x : Nat} (h : x ≤ n) : x.log2 ≤ n.log2 := by
  rw [Nat.log2_eq_log_two, Nat.log2_eq_log_two]
  exact Nat.log_mono_right h

theorem heapifyLoop_cost {P : Plat} {cmp : Cmp} {n : Nat} (hb : (2 * n : Int) ≤ P.intMax + 1) :
    ∀ fuel m k l, m ≤ n / 2 → n ≤ l.length → m < fuel →
      ∃ k' l', heapifyLoop P cmp n fuel ((m : Int) - 1) k l = .ok (k', l') ∧
        k + m ≤ k' ∧ k' ≤ k + m * (2 * n.log2) ∧ l'.length = l.length ∧
        ∀ cmp', Agree cmp cmp' k k' →
          heapifyLoop P cmp' n fuel ((m : Int) - 1) k l = .ok (k', l') := by
  have hmod := P.intMax_lt_szMod
  have hmx := P.intMax_ge
  intro fuel
  induction fuel with
  | zero => intro m k l _ _ _; omega
  | succ fuel ih =>
    intro m k l hm hn hf
    cases m with
    | zero =>
      refine ⟨k, l, ?_, by omega, by omega, rfl, ?_⟩
      · unfold heapifyLoop; rw [if_neg (by omega)]
      · intro cmp' _; unfold heapifyLoop; rw [if_neg (by omega)]
    | succ m =>
      have e1 : P.szSub n 1 = n - 1 := P.szSub_of_le (by omega) (by omega)
      have e2 : P.toInt (n - 1) = ((n - 1 : Nat) : Int) := P.toInt_of_le (by omega)
      have e3 : ((m + 1 : Nat) : Int) - 1 = (m : Int) := by omega
      obtain ⟨k1, l1, f1, ⟨c1, c2, c3⟩, f3, f4⟩ := siftDown_cost (P := P) (cmp := cmp) (e := n - 1)
        (by omega) (n + 1) m k l (by omega) (by omega) (by omega)
      obtain ⟨k2, l2, g1, g2, g3, g4, g5⟩ := ih m k1 l1 (by omega) (by omega) (by omega)
      have c4 : ((n - 1 + 1) / (m + 1)).log2 ≤ n.log2 :=
        log_le (Nat.le_trans (Nat.div_le_self _ _) (by omega))
      have c5 := c2 (by omega)
      have main : ∀ cmp', siftDown P cmp' ((n - 1 : Nat) : Int) (n + 1) (m : Int) k l
          = .ok (k1, l1) → heapifyLoop P cmp' n (fuel + 1) (((m + 1 : Nat) : Int) - 1) k l =
            heapifyLoop P cmp' n fuel ((m : Int) - 1) k1 l1 := by
        intro cmp' h
        conv_lhs => unfold heapifyLoop
        rw [if_pos (by omega)]
        simp only [e1, e2, e3]
        rw [h]
        simp only [C.ok_bind]
        rw [P.int_ok (by have := P.intMin_eq; omega) (by omega)]
        simp only [C.ok_bind]
      refine ⟨k2, l2, ?_, by omega, ?_, by omega, ?_⟩
      · rw [main cmp f1, g1]
      · rw [Nat.succ_mul]; omega
      · intro cmp' ha
        rw [main cmp' (f4 cmp' (ha.sub (by omega) (by omega)))]
        exact g5 cmp' (ha.sub (by omega) (by omega))

theorem heapify_cost {P : Plat} {cmp : Cmp} {n : Nat} {k : Nat} {l : List Val} (hn0 : 0 < n)
    (hn : n ≤ l.length) (hw : n = 1 → P.ib < P.sb) (hb : (2 * n : Int) ≤ P.intMax + 1) :
    ∃ k' l', heapify P cmp n k l = .ok (k', l') ∧ k + n / 2 ≤ k' ∧ k' ≤ k + n / 2 * (2 * n.log2) ∧
      l'.length = l.length ∧
      ∀ cmp', Agree cmp cmp' k k' → heapify P cmp' n k l = .ok (k', l') := by
  unfold heapify
  have hmx := P.intMax_ge
  by_cases h1 : n = 1
  · subst h1
    simp only [heapify_start_one (hw rfl)]
    exact heapifyLoop_cost (cmp := cmp) hb 2 0 k l (by omega) hn (by omega)
  · simp only [heapify_start (P := P) (n := n) (by omega) (by omega)]
    exact heapifyLoop_cost hb (n + 1) (n / 2) k l (by omega) hn (by omega)

theorem sortLoop_cost {P : Plat} {cmp : Cmp} :
    ∀ (fuel e k : Nat) l, e < l.length → e < fuel → (2 * e + 1 : Int) ≤ P.intMax →
      ∃ k' l', sortLoop P cmp fuel e k l = .ok (k', l') ∧ k + (e - 1) ≤ k' ∧
        k' ≤ k + e * (2 * e.log2) ∧
        ∀ cmp', Agree cmp cmp' k k' → sortLoop P cmp' fuel e k l = .ok (k', l') := by
  have hmod := P.intMax_lt_szMod
  have hmx := P.intMax_ge
  intro fuel
  induction fuel with
  | zero => intro e k l _ _; omega
  | succ fuel ih =>
    intro e k l he hf hb
    cases e with
    | zero =>
      refine ⟨k, l, ?_, by omega, by omega, ?_⟩
      · unfold sortLoop; rw [if_neg (by omega)]
      · intro cmp' _; unfold sortLoop; rw [if_neg (by omega)]
    | succ e =>
      have e1 : P.szSub (e + 1) 1 = e := by rw [P.szSub_of_le (by omega) (by omega)]; omega
      have e2 : P.toInt e = (e : Int) := P.toInt_of_le (by omega)
      have e3 : P.toInt (e + 1) = ((e + 1 : Nat) : Int) := P.toInt_of_le (by omega)
      have e4 : (0 : Int) = ((0 : Nat) : Int) := rfl
      obtain ⟨k1, l1, f1, ⟨c1, c2, c3⟩, f3, f4⟩ := siftDown_cost (P := P) (cmp := cmp) (e := e)
        (by omega) (e + 2) 0 k (sw l (e + 1) 0) (by omega) (by simp; omega) (by omega)
      simp only [List.length_set] at f3
      obtain ⟨k2, l2, g1, g2, g3, g5⟩ := ih e k1 l1 (by omega) (by omega) (by omega)
      have c4 : ((e + 1) / (0 + 1)).log2 = (e + 1).log2 := by simp
      have c5 : e.log2 ≤ (e + 1).log2 := log_le (by omega)
      have c6 : e * (2 * e.log2) ≤ e * (2 * (e + 1).log2) := Nat.mul_le_mul_left _ (by omega)
      have main : ∀ cmp', siftDown P cmp' (e : Int) (e + 2) ((0 : Nat) : Int) k (sw l (e + 1) 0)
          = .ok (k1, l1) → sortLoop P cmp' (fuel + 1) (e + 1) k l = sortLoop P cmp' fuel e k1 l1 := by
        intro cmp' h
        conv_lhs => unfold sortLoop
        rw [if_pos (by omega)]
        simp only [e1, e2, e3]
        rw [e4, swap_ok he (by omega)]
        simp only [C.ok_bind]
        rw [h]
        simp only [C.ok_bind]
      refine ⟨k2, l2, ?_, ?_, ?_, ?_⟩
      · rw [main cmp f1, g1]
      · by_cases h0 : e = 0
        · omega
        · have := c2 (by omega); omega
      · rw [Nat.succ_mul]; omega
      · intro cmp' ha
        rw [main cmp' (f4 cmp' (ha.sub (by omega) (by omega)))]
        exact g5 cmp' (ha.sub (by omega) (by omega))

theorem sort_cost {P : Plat} {a : Arr} {l : List Val} (h : Rep a l) (cmp : Cmp)
    (hw : l.length = 1 → P.ib < P.sb) (hb : (2 * l.length : Int) ≤ P.intMax + 1) :
    ∃ c, sortCalls P a cmp = .ok c ∧ l.length / 2 + (l.length - 2) ≤ c ∧
      c ≤ 3 * l.length * l.length.log2 ∧
      ∀ cmp', Agree cmp cmp' 0 c → sort P a cmp' = sort P a cmp ∧
        sortCalls P a cmp' = sortCalls P a cmp := by
  obtain ⟨h1, h2, h3, h4⟩ := h
  have hmod := P.intMax_lt_szMod
  have hmx := P.intMax_ge
  by_cases h0 : a.count > 0
  · have e1 : P.szSub a.count 1 = a.count - 1 := P.szSub_of_le (by omega) (by omega)
    obtain ⟨k1, l1, f1, f2, f3, f4, f5⟩ := heapify_cost (P := P) (cmp := cmp) (n := a.count) (k := 0)
      (l := a.storage) h0 (by omega) (by rw [← h1]; exact hw) (by omega)
    obtain ⟨k2, l2, g1, g2, g3, g4⟩ := sortLoop_cost (P := P) (cmp := cmp) (a.count + 1)
      (a.count - 1) k1 l1 (by omega) (by omega) (by omega)
    have m1 : ∀ cmp', heapify P cmp' a.count 0 a.storage = .ok (k1, l1) →
        sortLoop P cmp' (a.count + 1) (a.count - 1) k1 l1 = .ok (k2, l2) →
        sort P a cmp' = .ok { a with storage := l2 } ∧ sortCalls P a cmp' = .ok k2 := by
      intro cmp' a1 a2
      unfold sort sortCalls
      rw [if_pos h0, if_pos h0]
      simp only [e1, a1, C.ok_bind, a2]
      exact ⟨trivial, trivial⟩
    obtain ⟨m2, m3⟩ := m1 cmp f1 g1
    refine ⟨k2, m3, by omega, ?_, ?_⟩
    · have b1 : (a.count - 1).log2 ≤ a.count.log2 := log_le (by omega)
      have b2 : (a.count - 1) * (2 * (a.count - 1).log2) ≤ a.count * (2 * a.count.log2) :=
        Nat.mul_le_mul (by omega) (by omega)
      have b3 : a.count / 2 * (2 * a.count.log2) ≤ a.count * a.count.log2 := by
        rw [← Nat.mul_assoc]; exact Nat.mul_le_mul_right _ (by omega)
      have b4 : a.count * (2 * a.count.log2) = 2 * (a.count * a.count.log2) := by
        rw [Nat.mul_left_comm]
      have b5 : 3 * a.count * a.count.log2 = 3 * (a.count * a.count.log2) := Nat.mul_assoc ..
      rw [h1, b5]
      omega
    · intro cmp' ha
      obtain ⟨m4, m5⟩ := m1 cmp' (f5 cmp' (ha.sub (by omega) (by omega)))
        (g4 cmp' (ha.sub (by omega) (by omega)))
      exact ⟨by rw [m4, m2], by rw [m5, m3]⟩
  · refine ⟨0, ?_, by omega, by omega, ?_⟩
    · unfold sortCalls; rw [if_neg h0]
    · intro cmp' _
      unfold sort sortCalls
      simp only [if_neg h0]
      exact ⟨trivial, trivial⟩

theorem findLoop_cost {P : Plat} {a : Arr} {l : List Val} (h : Rep a l) (x : Val) {cmp cmp' : Cmp}
    (hb : (2 * l.length : Int) ≤ P.intMax + 1) :
    ∀ fuel lo hi k, lo ≤ hi → hi ≤ l.length → 
      (∀ j, ∀ y ∈ l, k ≤ j → j < k + Nat.log2 (2 * (hi - lo)) → cmp j y x = cmp' j y x) →
      findLoop P a x cmp fuel (lo : Int) ((hi : Int) - 1) k =
        findLoop P a x cmp' fuel (lo : Int) ((hi : Int) - 1) k := by
  have hmx := P.intMax_ge
  have hmn := P.intMin_eq
  intro fuel
  induction fuel with
  | zero => intro lo hi k _ _ _; rfl
  | succ fuel ih =>
    intro lo hi k h1 h2 h3
    unfold findLoop
    by_cases hlt : lo < hi
    · rw [if_pos (by omega), if_pos (by omega), P.int_ok_nonneg (by omega) (by omega)]
      simp only [C.ok_bind]
      obtain ⟨m, hm⟩ : ∃ m : Nat, m = (lo + hi - 1) / 2 := ⟨_, rfl⟩
      have hmid : ((lo : Int) + ((hi : Int) - 1)).tdiv 2 = (m : Int) := by
        rw [Int.tdiv_eq_ediv_of_nonneg (by omega)]; omega
      rw [hmid, ld_nat, h.ld (by omega)]
      simp only [C.ok_bind]
      have hL : (2 * (hi - lo)).log2 = (hi - lo).log2 + 1 := by
        rw [Nat.log2_def (2 * (hi - lo)), if_pos (by omega)]
        congr 2; omega
      rw [h3 k _ (List.getElem_mem _) (Nat.le_refl _) (by omega)]
      split
      · rw [P.int_ok (by omega) (by omega)]
        simp only [C.ok_bind]
        refine ih lo m (k + 1) (by omega) (by omega) ?_
        intro j y hy hj1 hj2
        have : (2 * (m - lo)).log2 ≤ (hi - lo).log2 := log_le (by omega)
        exact h3 j y hy (by omega) (by omega)
      · rw [P.int_ok (by omega) (by omega)]
        simp only [C.ok_bind]
        have hh : (m : Int) + 1 = ((m + 1 : Nat) : Int) := by omega
        rw [hh]
        refine ih (m + 1) hi (k + 1) (by omega) (by omega) ?_
        intro j y hy hj1 hj2
        have : (2 * (hi - (m + 1))).log2 ≤ (hi - lo).log2 := log_le (by omega)
        exact h3 j y hy (by omega) (by omega)
    · rw [if_neg (by omega), if_neg (by omega)]

end Mu.Arr
