import Verif.Lemmas.BBufScan

namespace Mu.BBuf

theorem dropWhile_of_first {pred : UInt8 → Bool} : ∀ {l : List UInt8} {i : Nat},
    ByteAt l (fun x => pred x = false) i → (∀ j, j < i → ¬ ByteAt l (fun x => pred x = false) j) →
    l.dropWhile pred = l.drop i := by
  intro l
  induction l with
  | nil => intro i h; have := h.lt; simp at this
  | cons a l ih =>
    intro i h hmin
    cases i with
    | zero =>
      have := (byteAt_lt (l := a :: l) (i := 0) (by simp)).mp h
      simp only [List.getElem_cons_zero] at this
      simp [List.dropWhile_cons, this]
    | succ i =>
      have h0 := hmin 0 (by omega)
      rw [byteAt_lt (by simp)] at h0
      simp only [List.getElem_cons_zero, Bool.not_eq_false] at h0
      rw [List.dropWhile_cons, if_pos h0, List.drop_succ_cons]
      apply ih
      · obtain ⟨x, h1, h2⟩ := h
        exact ⟨x, by simpa using h1, h2⟩
      · rintro j hj ⟨x, h1, h2⟩
        exact hmin (j + 1) (by omega) ⟨x, by simpa using h1, h2⟩

theorem dropWhile_all {pred : UInt8 → Bool} {l : List UInt8}
    (h : ∀ i, ¬ ByteAt l (fun x => pred x = false) i) : (∀ x ∈ l, pred x = true) := by
  intro x hx
  obtain ⟨i, hi, rfl⟩ := List.getElem_of_mem hx
  have := h i
  rw [byteAt_lt hi] at this
  simpa using this

theorem rdrop_of_last {pred : UInt8 → Bool} {l : List UInt8} {i : Nat}
    (h : ByteAt l (fun x => pred x = false) i)
    (hmax : ∀ j, ByteAt l (fun x => pred x = false) j → ¬ j > i) :
    (l.reverse.dropWhile pred).reverse = l.take (i + 1) := by
  have hlt := h.lt
  have hr : l.reverse.dropWhile pred = l.reverse.drop (l.length - 1 - i) := by
    apply dropWhile_of_first
    · have hq := (byteAt_lt hlt).mp h
      rw [byteAt_lt (by simp; omega), List.getElem_reverse]
      simp only [show l.length - 1 - (l.length - 1 - i) = i by omega]
      exact hq
    · intro j hj hb
      have hjl : j < l.length := by simpa using hb.lt
      rw [byteAt_lt (by simpa using hjl), List.getElem_reverse,
        ← byteAt_lt (l := l) (q := fun x => pred x = false) (i := l.length - 1 - j) (by omega)] at hb
      exact hmax _ hb (by omega)
  rw [hr, List.drop_reverse, List.reverse_reverse]
  congr 1
  omega

theorem notFound_ne {P : Plat} {b : BBuf} (hf : Fits P b) {i : Nat} (hi : i < b.cap) :
    (i : Int) ≠ NOT_FOUND P := by
  unfold NOT_FOUND; unfold Fits at hf; omega

/-- What `mu_bbuf_ltrim` does. -/
theorem ltrim_ok {P : Plat} {m : Mem} {O : Objs} {dst src : Val} {pred : UInt8 → Bool}
    (hv : Valid m (O src)) (hf : Fits P (O src)) :
    ∃ i, i ≤ (O src).cap ∧
      ltrim P m O dst src pred = .ok (set O dst
        ⟨⟨(O src).p.blk, (O src).p.off + (i : Int)⟩, (O src).cap - i⟩) ∧
      ((∃ x ∈ view m (O src), pred x = false) →
        (view m (O src)).drop i = (view m (O src)).dropWhile pred) ∧
      ((∀ x ∈ view m (O src), pred x = true) → i = 0) := by
  have hl := view_length hv
  have hmax := P.intMax_ge
  have hmin := P.intMin_eq
  have hF := findPredicate_ok (P := P) hv.at hl.symm (by rw [hl]; exact hf) pred
  unfold ltrim
  have hf' := hf
  unfold Fits at hf'
  rcases hF with ⟨i, h1, h2, h3⟩ | ⟨h1, h3⟩
  · have hlt : i < (O src).cap := by rw [← hl]; exact h1.lt
    have hpi : position (O src).cap (i : Int) = i := by unfold position; rw [if_neg (by omega)]; omega
    have hpe : position (O src).cap (END P) = (O src).cap := by
      unfold position END; rw [if_neg (by omega)]; omega
    refine ⟨i, by omega, ?_, ?_, ?_⟩
    · simp only at h3
      rw [h3, C.ok_bind, if_neg (notFound_ne hf hlt),
        slice_ok hv hf (by omega) (by omega) (by unfold END; omega) (by unfold END; omega), hpi, hpe,
        Nat.max_eq_right (by omega)]
    · intro _
      exact (dropWhile_of_first h1 (fun j hj hb => h2 j hb hj)).symm
    · intro hall
      exfalso
      obtain ⟨x, e, hx⟩ := h1
      have := hall x (List.mem_of_getElem? e)
      rw [this] at hx; cases hx
  · have hall := dropWhile_all h1
    refine ⟨0, by omega, ?_, ?_, fun _ => rfl⟩
    · rw [h3, C.ok_bind, if_pos rfl]
      simp [copy]
    · rintro ⟨x, hx, hp⟩
      rw [hall x hx] at hp; cases hp

/-- What `mu_bbuf_rtrim` does. -/
theorem rtrim_ok {P : Plat} {m : Mem} {O : Objs} {dst src : Val} {pred : UInt8 → Bool}
    (hv : Valid m (O src)) (hf : Fits P (O src)) :
    ∃ k, k ≤ (O src).cap ∧
      rtrim P m O dst src pred = .ok (set O dst ⟨(O src).p, k⟩) ∧
      ((∃ x ∈ view m (O src), pred x = false) →
        k < (O src).cap ∧
        (view m (O src)).take (k + 1) = ((view m (O src)).reverse.dropWhile pred).reverse) ∧
      ((∀ x ∈ view m (O src), pred x = true) → k = (O src).cap) := by
  have hl := view_length hv
  have hmax := P.intMax_ge
  have hmin := P.intMin_eq
  have hF := rfindPredicate_ok (P := P) hv.at hl.symm (by rw [hl]; exact hf) pred
  unfold rtrim
  have hf' := hf
  unfold Fits at hf'
  rcases hF with ⟨i, h1, h2, h3⟩ | ⟨h1, h3⟩
  · have hlt : i < (O src).cap := by rw [← hl]; exact h1.lt
    have hpi : position (O src).cap (i : Int) = i := by unfold position; rw [if_neg (by omega)]; omega
    have hp0 : position (O src).cap 0 = 0 := by
      unfold position; rw [if_neg (by omega)]; simp
    refine ⟨i, by omega, ?_, ?_, ?_⟩
    · simp only at h3
      rw [h3, C.ok_bind, if_neg (notFound_ne hf hlt),
        slice_ok hv hf (by omega) (by omega) (by omega) (by omega), hpi, hp0]
      simp
    · intro _
      exact ⟨hlt, (rdrop_of_last h1 h2).symm⟩
    · intro hall
      exfalso
      obtain ⟨x, e, hx⟩ := h1
      have := hall x (List.mem_of_getElem? e)
      rw [this] at hx; cases hx
  · have hall := dropWhile_all h1
    refine ⟨(O src).cap, by omega, ?_, ?_, fun _ => rfl⟩
    · rw [h3, C.ok_bind, if_pos rfl]
      simp [copy]
    · rintro ⟨x, hx, hp⟩
      rw [hall x hx] at hp; cases hp

end Mu.BBuf
