import Verif.Spec.Array

/-! # mu_array refines a bounded list -/

namespace Mu.Arr

theorem Rep.get {a : Arr} {l : List Val} (h : Rep a l) {i : Nat} (hi : i < a.count) :
    a.storage[i]? = l[i]? := by
  rw [← h.take, List.getElem?_take]; simp [hi]

theorem Rep.lt {a : Arr} {l : List Val} (h : Rep a l) {i : Nat} (hi : i < a.count) :
    i < a.storage.length := by
  have := h.le; have := h.alloc; omega

theorem Rep.ld {a : Arr} {l : List Val} (h : Rep a l) {i : Nat} (hi : i < l.length) :
    ldN a.storage i = .ok l[i] := by
  have := h.len
  apply ldN_some
  rw [h.get (by omega)]; simp [hi]

theorem init_rep (a0 : Arr) (storage : List Val) (cap : Nat) (h : cap ≤ storage.length) :
    Rep (init a0 storage cap) [] :=
  ⟨rfl, Nat.zero_le _, h, rfl⟩

theorem Frame.refl (a : Arr) : Frame a a := ⟨rfl, rfl, rfl⟩
theorem Frame.trans {a b c : Arr} (h1 : Frame a b) (h2 : Frame b c) : Frame a c :=
  ⟨h2.cap.trans h1.cap, h2.len.trans h1.len, by rw [← h1.drop, ← h1.cap, h2.drop]⟩

theorem push_ok {P : Plat} {a : Arr} {l : List Val} (h : Rep a l) (x : Val)
    (hc : l.length < a.capacity) (hs : a.capacity < P.szMod) :
    ∃ a', push P a x = .ok (true, a') ∧ Rep a' (l ++ [x]) ∧ Frame a a' := by
  obtain ⟨h1, h2, h3, h4⟩ := h
  have hf : isFull a = false := by simp [isFull]; omega
  refine ⟨{ a with storage := a.storage.set a.count x, count := a.count + 1 }, ?_, ?_, ?_⟩
  · simp [push, hf, stN_ok (show a.count < a.storage.length by omega),
      P.sz_of_lt (show a.count + 1 < P.szMod by omega)]
  · refine ⟨by simp [h1], by simp; omega, by simpa using h3, ?_⟩
    simp only
    rw [List.take_add_one, List.take_set_of_le (by omega), h4]
    simp [show a.count < a.storage.length by omega]
  · refine ⟨rfl, by simp, ?_⟩
    simp only
    rw [List.drop_set_of_lt (by omega)]

theorem push_full {P : Plat} {a : Arr} {l : List Val} (h : Rep a l) (x : Val)
    (hc : ¬ l.length < a.capacity) : push P a x = .ok (false, a) := by
  obtain ⟨h1, h2, h3, h4⟩ := h
  have hf : isFull a = true := by simp [isFull]; omega
  simp [push, hf]

theorem insert_ok {P : Plat} {a : Arr} {l : List Val} (h : Rep a l) (x : Val) (i : Nat)
    (hc : l.length < a.capacity) (hi : i ≤ l.length) (hs : (a.capacity : Int) ≤ P.intMax) :
    ∃ a', insert P a x i = .ok (true, a') ∧ Rep a' (l.take i ++ x :: l.drop i) ∧ Frame a a' := by
  have hmod := P.intMax_lt_szMod
  have hmx := P.intMax_ge
  by_cases hi2 : i = l.length
  · obtain ⟨a', e1, e2, e3⟩ := push_ok (P := P) h x hc (by omega)
    refine ⟨a', ?_, ?_, e3⟩
    · rw [← e1]
      have := h.len
      simp [insert, push, isFull, hi2, this]
    · subst hi2; simpa using e2
  obtain ⟨h1, h2, h3, h4⟩ := h
  have hf : isFull a = false := by simp [isFull]; omega
  have e1 : P.szSub a.count i = a.count - i := P.szSub_of_le (by omega) (by omega)
  have e2 : P.toInt (a.count - i) = ((a.count - i : Nat) : Int) := P.toInt_of_le (by omega)
  have e3 : P.toSz ((a.count - i : Nat) : Int) = a.count - i := by
    rw [P.toSz_int (by omega) (by omega)]; simp
  have hcnt : i < a.count := by omega
  refine ⟨{ a with
      storage := (a.storage.take (i + 1) ++ (a.storage.drop i).take (a.count - i) ++
        a.storage.drop (i + 1 + (a.count - i))).set i x
      count := a.count + 1 }, ?_, ?_, ?_⟩
  · unfold insert
    rw [if_neg (by simp [hf]; omega), if_neg (by omega)]
    simp only [e1, e2, e3, P.sz_of_lt (show i + 1 < P.szMod by omega)]
    rw [memmove_ok (by omega) (by omega)]
    simp only [C.ok_bind]
    rw [stN_ok (by simp; omega)]
    simp [P.sz_of_lt (show a.count + 1 < P.szMod by omega)]
  · have key : (a.storage.take (i + 1) ++ (a.storage.drop i).take (a.count - i)).set i x
        = l.take i ++ x :: l.drop i := by
      rw [← h4]
      apply List.ext_getElem?
      intro k
      simp only [List.getElem?_set, List.getElem?_append, List.getElem?_take, List.getElem?_drop,
        List.length_take, List.length_append, List.length_drop, List.getElem?_cons]
      grind
    refine ⟨by simp; omega, by simp; omega, by simp; omega, ?_⟩
    simp only
    rw [List.set_append_left _ _ (show i < (a.storage.take (i + 1) ++
      (a.storage.drop i).take (a.count - i)).length by simp; omega), key]
    rw [List.take_append_of_le_length (by simp; omega), List.take_of_length_le (by simp; omega)]
  · refine ⟨rfl, ?_, ?_⟩
    · simp; omega
    · simp only
      apply List.ext_getElem?
      intro k
      simp only [List.getElem?_set, List.getElem?_append, List.getElem?_take, List.getElem?_drop,
        List.length_take, List.length_append, List.length_drop]
      grind

theorem insert_fail {P : Plat} {a : Arr} {l : List Val} (h : Rep a l) (x : Val) (i : Nat)
    (hc : ¬ (l.length < a.capacity ∧ i ≤ l.length)) : insert P a x i = .ok (false, a) := by
  obtain ⟨h1, h2, h3, h4⟩ := h
  unfold insert
  rw [if_pos]
  simp [isFull]; omega

theorem pop_nil {P : Plat} {a : Arr} (h : Rep a []) : pop P a = .ok (false, none, a) := by
  have := h.len
  simp at this
  simp [pop, isEmpty, ← this]

theorem peek_nil {P : Plat} {a : Arr} (h : Rep a []) : peek P a = .ok (false, none, a) := by
  have := h.len
  simp at this
  simp [peek, isEmpty, ← this]

theorem Rep.last {a : Arr} {l : List Val} {x : Val} (h : Rep a l) (hx : l.getLast? = some x) :
    isEmpty a = false ∧ 0 < a.count ∧ ldN a.storage (a.count - 1) = .ok x := by
  have h1 := h.len
  have hne : l ≠ [] := by rintro rfl; simp at hx
  have hpos : 0 < l.length := List.length_pos_iff.mpr hne
  refine ⟨by simp [isEmpty]; omega, by omega, ?_⟩
  rw [List.getLast?_eq_getElem?] at hx
  apply ldN_some
  rw [h.get (by omega), ← hx, h1]

theorem Rep.shrink {a : Arr} {l : List Val} (h : Rep a l) (n : Nat) (hn : n ≤ a.count) :
    Rep { a with count := n } (l.take n) := by
  obtain ⟨h1, h2, h3, h4⟩ := h
  refine ⟨by simp; omega, by simp; omega, h3, ?_⟩
  rw [← h4, List.take_take]; simp [Nat.min_eq_left hn]

theorem pop_ok {P : Plat} {a : Arr} {l : List Val} {x : Val} (h : Rep a l)
    (hx : l.getLast? = some x) (hs : a.capacity < P.szMod) :
    pop P a = .ok (true, some x, { a with count := a.count - 1 }) ∧
    Rep { a with count := a.count - 1 } l.dropLast := by
  obtain ⟨e1, e2, e3⟩ := h.last hx
  have := h.le
  have e4 : P.szSub a.count 1 = a.count - 1 := P.szSub_of_le (by omega) (by omega)
  refine ⟨by simp [pop, e1, e4, e3], ?_⟩
  have := h.shrink (a.count - 1) (by omega)
  rw [List.dropLast_eq_take, h.len]; exact this

theorem peek_ok {P : Plat} {a : Arr} {l : List Val} {x : Val} (h : Rep a l)
    (hx : l.getLast? = some x) (hs : a.capacity < P.szMod) :
    peek P a = .ok (true, some x, a) := by
  obtain ⟨e1, e2, e3⟩ := h.last hx
  have := h.le
  have e4 : P.szSub a.count 1 = a.count - 1 := P.szSub_of_le (by omega) (by omega)
  simp [peek, e1, e4, e3]

theorem ref_ok {a : Arr} {l : List Val} (h : Rep a l) (i : Nat) :
    ref a i = .ok (i < l.length, l[i]?, a) := by
  have h1 := h.len
  unfold ref
  by_cases hi : i < a.count
  · rw [if_pos hi, h.ld (by omega)]; simp [h1, hi]
  · rw [if_neg hi]; simp [h1, hi]

theorem indexLoop_ok {P : Plat} {a : Arr} {l : List Val} (h : Rep a l) (x : Val)
    (hs : a.capacity < P.szMod) :
    ∀ fuel i, l.length - i < fuel → i ≤ l.length →
      indexLoop P a x fuel i = .ok (match (l.drop i).findIdx? (· == x) with
        | some k => i + k
        | none => notFound P) := by
  have h1 := h.len
  have h2 := h.le
  intro fuel
  induction fuel with
  | zero => intro i hf; omega
  | succ fuel ih =>
    intro i hf hi
    unfold indexLoop
    by_cases hlt : i < a.count
    · rw [if_pos hlt, h.ld (by omega)]
      simp only [C.ok_bind]
      rw [List.drop_eq_getElem_cons (by omega), List.findIdx?_cons]
      by_cases hx : l[i]'(by omega) = x
      · simp [hx]
      · rw [if_neg hx, P.sz_of_lt (by omega), ih (i + 1) (by omega) (by omega)]
        simp only [beq_iff_eq, hx, if_false]
        cases (l.drop (i+1)).findIdx? (· == x) <;> simp; omega
    · rw [if_neg hlt, List.drop_of_length_le (by omega)]; simp

theorem rindexLoop_ok {P : Plat} {a : Arr} {l : List Val} (h : Rep a l) (x : Val)
    (hs : a.capacity < P.szMod) :
    ∀ fuel n, n < fuel → n ≤ l.length →
      rindexLoop P a x fuel (P.szSub n 1) = .ok (match (l.take n).reverse.findIdx? (· == x) with
        | some k => n - 1 - k
        | none => notFound P) := by
  have h1 := h.len
  have h2 := h.le
  intro fuel
  induction fuel with
  | zero => intro i hf; omega
  | succ fuel ih =>
    intro n hf hi
    unfold rindexLoop
    cases n with
    | zero =>
      have : P.szSub 0 1 = notFound P := by
        have hp := P.szMod_pos
        unfold Plat.szSub Plat.toSz notFound
        rw [← Int.add_emod_right, Int.emod_eq_of_lt] <;> omega
      simp [this]
    | succ m =>
      have e : P.szSub (m + 1) 1 = m := by rw [P.szSub_of_le (by omega) (by omega)]; omega
      rw [e, if_pos (by simp [notFound]; omega), h.ld (by omega)]
      simp only [C.ok_bind]
      rw [List.take_add_one]
      simp only [List.getElem?_eq_getElem (show m < l.length by omega), Option.toList_some,
        List.reverse_append, List.reverse_cons, List.reverse_nil, List.nil_append,
        List.cons_append, List.findIdx?_cons]
      by_cases hx : l[m]'(by omega) = x
      · simp [hx]
      · rw [if_neg hx, ih m (by omega) (by omega)]
        simp only [beq_iff_eq, hx, if_false]
        cases (l.take m).reverse.findIdx? (· == x) <;> simp; omega

theorem index_ok {P : Plat} {a : Arr} {l : List Val} (h : Rep a l) (x : Val)
    (hs : a.capacity < P.szMod) : index P a x = .ok (Spec.firstIndex (notFound P) x l) := by
  have h1 := h.len
  unfold index
  rw [indexLoop_ok h x hs _ 0 (by omega) (by omega)]
  simp only [Spec.firstIndex, List.drop_zero, Nat.zero_add]
  cases l.findIdx? (· == x) <;> rfl

theorem rindex_ok {P : Plat} {a : Arr} {l : List Val} (h : Rep a l) (x : Val)
    (hs : a.capacity < P.szMod) : rindex P a x = .ok (Spec.lastIndex (notFound P) x l) := by
  have h1 := h.len
  unfold rindex
  rw [rindexLoop_ok h x hs _ _ (by omega) (by omega), ← h1, List.take_length]
  rfl

theorem step_refines {P : Plat} {a : Arr} {l : List Val} (h : Rep a l)
    (hs : (a.capacity : Int) ≤ P.intMax) (op : Op) :
    ∃ a', step P a op = .ok ((Spec.step (notFound P) a.capacity l op).1, a') ∧
      Rep a' (Spec.step (notFound P) a.capacity l op).2 ∧ Frame a a' := by
  have h1 := h.len
  have hz : a.capacity < P.szMod := by
    have hmod := P.intMax_lt_szMod
    have hmx := P.intMax_ge
    omega
  cases op with
  | push x =>
    by_cases hc : l.length < a.capacity
    · obtain ⟨a', e1, e2, e3⟩ := push_ok (P := P) h x hc hz
      exact ⟨a', by simp [step, Spec.step, e1, hc], by simpa [Spec.step, hc] using e2, e3⟩
    · exact ⟨a, by simp [step, Spec.step, push_full h x hc, hc],
        by simpa [Spec.step, hc] using h, Frame.refl a⟩
  | pop =>
    cases hl : l.getLast? with
    | none =>
      have : l = [] := by simpa using hl
      subst this
      exact ⟨a, by simp [step, Spec.step, pop_nil h], by simpa [Spec.step] using h, Frame.refl a⟩
    | some x =>
      obtain ⟨e1, e2⟩ := pop_ok (P := P) h hl hz
      exact ⟨{ a with count := a.count - 1 }, by simp [step, Spec.step, e1, hl], by simpa [Spec.step, hl] using e2,
        ⟨rfl, rfl, rfl⟩⟩
  | peek =>
    cases hl : l.getLast? with
    | none =>
      have : l = [] := by simpa using hl
      subst this
      exact ⟨a, by simp [step, Spec.step, peek_nil h], by simpa [Spec.step] using h, Frame.refl a⟩
    | some x =>
      exact ⟨_, by simp [step, Spec.step, peek_ok (P := P) h hl hz, hl],
        by simpa [Spec.step, hl] using h, Frame.refl a⟩
  | ref i => exact ⟨a, by simp [step, Spec.step, ref_ok h], h, Frame.refl a⟩
  | insert x i =>
    by_cases hc : l.length < a.capacity ∧ i ≤ l.length
    · obtain ⟨a', e1, e2, e3⟩ := insert_ok (P := P) h x i hc.1 hc.2 hs
      exact ⟨a', by simp [step, Spec.step, e1, hc], by simpa [Spec.step, hc] using e2, e3⟩
    · exact ⟨a, by simp [step, Spec.step, insert_fail h x i hc, hc],
        by simpa [Spec.step, hc] using h, Frame.refl a⟩
  | reset => exact ⟨reset a, rfl, ⟨rfl, Nat.zero_le _, h.alloc, rfl⟩, ⟨rfl, rfl, rfl⟩⟩
  | count => exact ⟨a, by simp [step, Spec.step, count, h1], h, Frame.refl a⟩
  | capacity => exact ⟨a, by simp [step, Spec.step, capacity], h, Frame.refl a⟩
  | isEmpty =>
    refine ⟨a, ?_, h, Frame.refl a⟩
    simp only [step, Spec.step, isEmpty, ← h1]
    cases l <;> rfl
  | isFull => exact ⟨a, by simp [step, Spec.step, isFull, h1], h, Frame.refl a⟩
  | index x => exact ⟨a, by simp [step, Spec.step, index_ok h x hz], h, Frame.refl a⟩
  | rindex x => exact ⟨a, by simp [step, Spec.step, rindex_ok h x hz], h, Frame.refl a⟩

theorem run_refines {P : Plat} (ops : List Op) {a : Arr} {l : List Val} (h : Rep a l)
    (hs : (a.capacity : Int) ≤ P.intMax) :
    ∃ a', run P a ops = .ok ((Spec.run (notFound P) a.capacity l ops).1, a') ∧
      Rep a' (Spec.run (notFound P) a.capacity l ops).2 ∧ Frame a a' := by
  induction ops generalizing a l with
  | nil => exact ⟨a, rfl, h, Frame.refl a⟩
  | cons op ops ih =>
    obtain ⟨a1, e1, e2, e3⟩ := step_refines h hs op
    obtain ⟨a2, f1, f2, f3⟩ := ih e2 (by rw [e3.cap]; exact hs)
    rw [e3.cap] at f1 f2
    exact ⟨a2, by simp [run, Spec.run, e1, f1], by simpa [Spec.run] using f2, e3.trans f3⟩

end Mu.Arr
