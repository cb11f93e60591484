import Verif.Props.ArrayExact

/-! # Property C109: a sorted array is a priority queue -/

namespace Mu.Arr
open Spec

/-- The sorted list with `x` put behind everything that is not greater. -/
def ins (cmp : Cmp) (x : Val) (l : List Val) : List Val :=
  l.takeWhile (fun y => cmp 0 y x ≤ 0) ++ x :: l.dropWhile (fun y => cmp 0 y x ≤ 0)

/-- The content of the array, given the items in the order in which they were put. -/
def arranged (cmp : Cmp) (l : List Val) : List Val := l.foldl (fun s x => ins cmp x s) []

theorem ins_eq {cmp : Cmp} {x : Val} {b a : List Val} (hb : ∀ y ∈ b, cmp 0 y x ≤ 0)
    (ha : ∀ y ∈ a, 0 < cmp 0 y x) : ins cmp x (b ++ a) = b ++ x :: a := by
  unfold ins
  have h1 : (b ++ a).takeWhile (fun y => decide (cmp 0 y x ≤ 0)) = b := by
    rw [List.takeWhile_append_of_pos (by simpa using hb)]
    cases a with
    | nil => simp
    | cons y a =>
      have := ha y List.mem_cons_self
      rw [List.takeWhile_cons_of_neg (by simpa using this), List.append_nil]
  have h2 : (b ++ a).dropWhile (fun y => decide (cmp 0 y x ≤ 0)) = a := by
    rw [List.dropWhile_append_of_pos (by simpa using hb)]
    cases a with
    | nil => simp
    | cons y a =>
      have := ha y List.mem_cons_self
      rw [List.dropWhile_cons_of_neg (by simpa using this)]
  rw [h1, h2]

theorem ins_perm (cmp : Cmp) (x : Val) (l : List Val) : (ins cmp x l).Perm (x :: l) := by
  unfold ins
  refine List.perm_middle.trans (List.Perm.cons _ ?_)
  rw [List.takeWhile_append_dropWhile]

theorem ins_last {cmp : Cmp} {x y : Val} (s : List Val) (h : 0 < cmp 0 x y) :
    ins cmp y (s ++ [x]) = ins cmp y s ++ [x] := by
  unfold ins
  induction s with
  | nil =>
    rw [List.nil_append, List.takeWhile_cons_of_neg (by simpa using h),
      List.dropWhile_cons_of_neg (by simpa using h)]
    rfl
  | cons z s ih =>
    by_cases hz : cmp 0 z y ≤ 0
    · rw [List.cons_append, List.takeWhile_cons_of_pos (by simpa using hz),
        List.dropWhile_cons_of_pos (by simpa using hz), List.takeWhile_cons_of_pos (by simpa using hz),
        List.dropWhile_cons_of_pos (by simpa using hz), List.cons_append, ih]
      rfl
    · rw [List.cons_append, List.takeWhile_cons_of_neg (by simpa using hz),
        List.dropWhile_cons_of_neg (by simpa using hz), List.takeWhile_cons_of_neg (by simpa using hz),
        List.dropWhile_cons_of_neg (by simpa using hz)]
      rfl

theorem foldl_ins_last {cmp : Cmp} {x : Val} : ∀ (v s : List Val), (∀ y ∈ v, 0 < cmp 0 x y) →
    v.foldl (fun s x => ins cmp x s) (s ++ [x]) = v.foldl (fun s x => ins cmp x s) s ++ [x]
  | [], _, _ => rfl
  | y :: v, s, h => by
    simp only [List.foldl_cons]
    rw [ins_last s (h y List.mem_cons_self),
      foldl_ins_last v _ (fun z hz => h z (List.mem_cons_of_mem _ hz))]

theorem arranged_perm (cmp : Cmp) (l : List Val) : (arranged cmp l).Perm l := by
  have : ∀ (l s : List Val), (l.foldl (fun s x => ins cmp x s) s).Perm (s ++ l) := by
    intro l
    induction l with
    | nil => intro s; simp
    | cons x l ih =>
      intro s
      refine (ih _).trans ?_
      refine ((ins_perm cmp x s).append_right l).trans ?_
      exact List.perm_middle.symm
  simpa [arranged] using this l []

theorem arranged_snoc (cmp : Cmp) (l : List Val) (x : Val) :
    arranged cmp (l ++ [x]) = ins cmp x (arranged cmp l) := by
  simp [arranged, List.foldl_append]

theorem arranged_greatest {cmp : Cmp} (ht : TotalPreorder cmp) {l r : List Val} {x : Val}
    (h : Greatest cmp l x r) : arranged cmp l = arranged cmp r ++ [x] := by
  obtain ⟨u, v, rfl, rfl, h1, h2⟩ := h
  have e : arranged cmp (u ++ x :: v) =
      v.foldl (fun s x => ins cmp x s) (ins cmp x (arranged cmp u)) := by
    simp [arranged, List.foldl_append]
  have e2 : arranged cmp (u ++ v) = v.foldl (fun s x => ins cmp x s) (arranged cmp u) := by
    simp [arranged, List.foldl_append]
  rw [e, e2]
  have := ins_eq (cmp := cmp) (x := x) (b := arranged cmp u) (a := [])
    (fun y hy => h1 y ((arranged_perm cmp u).subset hy)) (by simp)
  rw [List.append_nil] at this
  rw [this]
  exact foldl_ins_last v _ (fun y hy => (ht.antisymm y x).1 (h2 y hy))

/-- `takeGreatest` finds the greatest item, the youngest one of several. -/
theorem takeGreatest_some {cmp : Cmp} (ht : TotalPreorder cmp) : ∀ {l : List Val} {x : Val}
    {r : List Val}, takeGreatest cmp l = some (x, r) → Greatest cmp l x r
  | [], _, _, h => by simp [takeGreatest] at h
  | y :: l, x, r, h => by
    rw [takeGreatest] at h
    split at h
    · rename_i hn
      obtain ⟨rfl, rfl⟩ := Prod.mk.inj (Option.some.inj h)
      cases l with
      | nil => exact ⟨[], [], rfl, rfl, by simp, by simp⟩
      | cons z l =>
        rw [takeGreatest] at hn
        split at hn
        · cases hn
        · split at hn <;> cases hn
    · rename_i x' r' hs
      obtain ⟨u, v, rfl, rfl, h1, h2⟩ := takeGreatest_some ht hs
      split at h
      · rename_i hle
        obtain ⟨rfl, rfl⟩ := Prod.mk.inj (Option.some.inj h)
        refine ⟨y :: u, v, rfl, rfl, ?_, h2⟩
        intro z hz
        rcases List.mem_cons.1 hz with rfl | hz
        · exact hle
        · exact h1 z hz
      · rename_i hgt
        obtain ⟨rfl, rfl⟩ := Prod.mk.inj (Option.some.inj h)
        refine ⟨[], _, rfl, rfl, by simp, ?_⟩
        have hx : cmp 0 x' y < 0 := (ht.antisymm x' y).2 (by omega)
        have key : ∀ z, cmp 0 z x' ≤ 0 → cmp 0 z y < 0 := by
          intro z hz
          apply (ht.antisymm z y).2
          apply Int.lt_of_not_ge
          intro hle
          have := ht.trans y z x' hle hz
          omega
        intro z hz
        rcases List.mem_append.1 hz with hz | hz
        · exact key z (h1 z hz)
        · rcases List.mem_cons.1 hz with rfl | hz
          · exact hx
          · exact key z (Int.le_of_lt (h2 z hz))

theorem takeGreatest_none {cmp : Cmp} {l : List Val} (h : takeGreatest cmp l = none) : l = [] := by
  cases l with
  | nil => rfl
  | cons y l =>
    rw [takeGreatest] at h
    split at h
    · cases h
    · split at h <;> cases h

/-- The state of the simulation. -/
structure Pq (cmp : Cmp) (a : Arr) (l : List Val) : Prop where
  rep : Rep a (arranged cmp l)
  sorted : Sorted cmp (arranged cmp l)

theorem Pq.length {cmp : Cmp} {a : Arr} {l : List Val} (h : Pq cmp a l) : l.length = a.count := by
  rw [← h.rep.len, (arranged_perm cmp l).length_eq]

theorem pqStep_ok {P : Plat} {cmp : Cmp} (ht : TotalPreorder cmp) {a : Arr} {l : List Val}
    (h : Pq cmp a l) (hb : (2 * a.capacity : Int) ≤ P.intMax + 1) (op : PqOp) :
    ∃ a', pqStep P cmp a op = .ok ((Spec.pqStep cmp a.capacity l op).1, a') ∧
      Pq cmp a' (Spec.pqStep cmp a.capacity l op).2 ∧ a'.capacity = a.capacity ∧
      a'.storage.drop a.capacity = a.storage.drop a.capacity := by
  have hlen := h.length
  have hle := h.rep.le
  have hmax := P.intMax_ge
  have hsz := P.intMax_lt_szMod
  have hal := (arranged_perm cmp l).length_eq
  cases op with
  | put x =>
    simp only [pqStep, Spec.pqStep]
    by_cases hc : l.length < a.capacity
    · rw [if_pos hc]
      obtain ⟨a', b, c, e1, e2, e3, e4, e5, e6, e7, e8⟩ := C21_insert_sorted P a (arranged cmp l) x cmp
        h.rep ht h.sorted (by omega) (by omega) (by omega)
      have he : arranged cmp (l ++ [x]) = b ++ x :: c := by
        rw [arranged_snoc, e2, ins_eq e5 e6]
      refine ⟨a', by rw [e1]; rfl, ⟨by rw [he]; exact e3, by rw [he]; exact e4⟩, e7, e8⟩
    · rw [if_neg hc, C21_insert_sorted_full P a (arranged cmp l) x cmp h.rep (by omega) (by omega)]
      exact ⟨a, rfl, h, rfl, rfl⟩
  | take =>
    simp only [pqStep, Spec.pqStep]
    cases hg : takeGreatest cmp l with
    | none =>
      have := takeGreatest_none hg
      subst this
      rw [pop_nil h.rep]
      exact ⟨a, rfl, h, rfl, rfl⟩
    | some p =>
      obtain ⟨x, r⟩ := p
      have he := arranged_greatest ht (takeGreatest_some ht hg)
      obtain ⟨e1, e2⟩ := pop_ok (P := P) (x := x) h.rep (by rw [he]; simp) (by omega)
      rw [e1]
      refine ⟨_, rfl, ⟨?_, ?_⟩, rfl, rfl⟩
      · rw [he, List.dropLast_concat] at e2; exact e2
      · have hs := h.sorted
        rw [he] at hs
        exact (List.pairwise_append.1 hs).1
  | top =>
    simp only [pqStep, Spec.pqStep]
    cases hg : takeGreatest cmp l with
    | none =>
      have := takeGreatest_none hg
      subst this
      rw [peek_nil h.rep]
      exact ⟨a, rfl, h, rfl, rfl⟩
    | some p =>
      obtain ⟨x, r⟩ := p
      have he := arranged_greatest ht (takeGreatest_some ht hg)
      rw [peek_ok (P := P) (x := x) h.rep (by rw [he]; simp) (by omega)]
      exact ⟨a, rfl, h, rfl, rfl⟩
  | count =>
    simp only [pqStep, Spec.pqStep, count, hlen]
    exact ⟨a, rfl, h, rfl, rfl⟩
  | reset =>
    simp only [pqStep, Spec.pqStep]
    exact ⟨reset a, rfl, ⟨⟨rfl, Nat.zero_le _, h.rep.alloc, rfl⟩, List.Pairwise.nil⟩, rfl, rfl⟩

theorem pqRun_ok {P : Plat} {cmp : Cmp} (ht : TotalPreorder cmp) (ops : List PqOp) : ∀ {a : Arr}
    {l : List Val}, Pq cmp a l → (2 * a.capacity : Int) ≤ P.intMax + 1 →
    ∃ a', pqRun P cmp a ops = .ok ((Spec.pqRun cmp a.capacity l ops).1, a') ∧
      Pq cmp a' (Spec.pqRun cmp a.capacity l ops).2 ∧ a'.capacity = a.capacity ∧
      a'.storage.drop a.capacity = a.storage.drop a.capacity := by
  induction ops with
  | nil => intro a l h _; exact ⟨a, rfl, h, rfl, rfl⟩
  | cons op ops ih =>
    intro a l h hb
    obtain ⟨a1, e1, h1, c1, d1⟩ := pqStep_ok ht h hb op
    obtain ⟨a2, e2, h2, c2, d2⟩ := ih h1 (by rw [c1]; exact hb)
    rw [c1] at e2 h2 c2 d2
    refine ⟨a2, ?_, h2, c2, d2.trans d1⟩
    simp only [pqRun, Spec.pqRun, e1, C.ok_bind, e2]

/-- **C109.**  An array that is only filled with `mu_array_insert_sorted` (always with the same
comparison function, a total preorder) and emptied with `mu_array_pop` is a priority queue: whatever the
history of calls, each pop and peek delivers the greatest item that is in it, and of several equal ones
the one put last; puts fail exactly when it is full; nothing beyond the capacity changes. -/
theorem C109_priority_queue (P : Plat) (a0 : Arr) (storage : List Val) (cap : Nat)
    (halloc : cap ≤ storage.length) (hb : (2 * cap : Int) ≤ P.intMax + 1) (cmp : Cmp)
    (ht : TotalPreorder cmp) (ops : List PqOp) :
    ∃ a', pqRun P cmp (init a0 storage cap) ops = .ok ((Spec.pqRun cmp cap [] ops).1, a') ∧
      a'.storage.drop cap = storage.drop cap := by
  obtain ⟨a', h, _, _, hd⟩ := pqRun_ok (P := P) ht ops (a := init a0 storage cap) (l := [])
    ⟨init_rep a0 storage cap halloc, List.Pairwise.nil⟩ hb
  exact ⟨a', h, hd⟩

theorem arranged_sorted {cmp : Cmp} {l : List Val} (hs : Sorted cmp l) : arranged cmp l = l := by
  have : ∀ (l s : List Val), Sorted cmp (s ++ l) → l.foldl (fun s x => ins cmp x s) s = s ++ l := by
    intro l
    induction l with
    | nil => intro s _; simp
    | cons x l ih =>
      intro s h
      have h1 := List.pairwise_append.1 h
      have e := ins_eq (cmp := cmp) (x := x) (b := s) (a := [])
        (fun y hy => h1.2.2 y hy x List.mem_cons_self) (by simp)
      rw [List.append_nil] at e
      rw [List.foldl_cons, e, ih _ (by simpa using h)]
      simp
  simpa [arranged] using this l [] (by simpa using hs)

/-- **C109, after sorting.**  The same from any array that has been sorted with `mu_array_sort` by that
comparison function: it is then a priority queue of its items (those that compare equal count as put in
the order in which the sort left them). -/
theorem C109_after_sort (P : Plat) (a : Arr) (l : List Val) (h : Rep a l)
    (hb : (2 * a.capacity : Int) ≤ P.intMax + 1) (hw : P.ib < P.sb ∨ l.length ≠ 1) (cmp : Cmp)
    (ht : TotalPreorder cmp) (ops : List PqOp) :
    ∃ a1 l' a', sort P a cmp = .ok a1 ∧ l'.Perm l ∧ Sorted cmp l' ∧
      pqRun P cmp a1 ops = .ok ((Spec.pqRun cmp a.capacity l' ops).1, a') := by
  have h1 := h.len
  have h2 := h.le
  obtain ⟨a1, l', e1, e2, e3, e4, _, e6, _⟩ := C66_sort P a l cmp h ht hw (by omega)
  obtain ⟨a', h', _⟩ := pqRun_ok (P := P) ht ops (a := a1) (l := l')
    ⟨by rw [arranged_sorted e3]; exact e2, by rw [arranged_sorted e3]; exact e3⟩
    (by rw [e6]; exact hb)
  rw [e6] at h'
  exact ⟨a1, l', a', e1, e4, e3, h'⟩

/-- Items 21 and 22 are equal (same tens); the younger of them comes out first. -/
example : TotalPreorder (fun _ a b => ((a / 10 : Nat) : Int) - (b / 10 : Nat)) ∧
    (match pqRun Plat.lp64 (fun _ a b => ((a / 10 : Nat) : Int) - (b / 10 : Nat))
        (init ⟨[], 0, 0⟩ [0, 0, 0, 7] 3) [.put 21, .put 11, .put 22, .put 90, .take, .top, .take, .take,
          .take, .count] with
      | .ok (os, _) => os = [.bool true, .bool true, .bool true, .bool false, .item true (some 22),
          .item true (some 21), .item true (some 21), .item true (some 11), .item false none, .size 0]
      | .error _ => False) := by
  refine ⟨⟨fun _ _ _ _ => rfl, fun a b => by omega, fun a b c => by omega⟩, ?_⟩
  show _ = _
  decide

end Mu.Arr
