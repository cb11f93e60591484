import Verif.Spec.SrcTso
import Verif.Lemmas.SrcSpscConc

/-! # mu_spsc.c on two cores with store buffers: lemmas -/

namespace Mu.CS.Tso

open Conc (Ev Side G Rep)

variable {q : Conc.Place} {h h' : Heap} {b b' : Base} {o o' : Int} {x x' : CVal} {w r : Buf}

theorem upd_comm (hne : ¬(b = b' ∧ o = o')) : (h.upd b o x).upd b' o' x' = (h.upd b' o' x').upd b o x := by
  unfold Heap.upd
  by_cases h0 : 0 ≤ o <;> by_cases h1 : 0 ≤ o' <;> simp only [h0, h1, if_true, if_false]
  by_cases hb : b = b'
  · subst hb
    have : o ≠ o' := fun e => hne ⟨rfl, e⟩
    simp only [Heap.put, if_true, Heap.mk.injEq, and_true]
    funext y
    split
    · rw [List.set_comm _ _ (by omega)]
    · rfl
  · simp only [Heap.put, Heap.mk.injEq, and_true]
    funext y
    have hb' : ¬ b' = b := fun e => hb e.symm
    by_cases e1 : y = b <;> by_cases e2 : y = b' <;> simp_all

theorem at_upd_congr (e : h.at b' o' = h'.at b' o') : (h.upd b o x).at b' o' = (h'.upd b o x).at b' o' := by
  by_cases hc : b = b' ∧ o = o'
  · obtain ⟨rfl, rfl⟩ := hc
    by_cases hl : b.isLit = false
    · by_cases hs : (h.at b o).isSome = true
      · rw [Heap.at_upd_same hl hs, Heap.at_upd_same hl (by rw [← e]; exact hs)]
      · have h1 := Heap.isSome_upd h b b o o x
        have h2 := Heap.isSome_upd h' b b o o x
        rw [← e] at h2
        have hn : (h.at b o).isSome = false := by simpa using hs
        rw [hn] at h1 h2
        rw [Option.isSome_eq_false_iff, Option.isNone_iff_eq_none] at h1 h2
        rw [h1, h2]
    · cases b with
      | lit s =>
        simp only [Heap.at, Heap.cells]
      | _ => simp [Base.isLit] at hl
  · rw [Heap.at_upd_sep hc, Heap.at_upd_sep hc, e]

theorem view_append (w w' : Buf) : view h (w ++ w') = view (view h w) w' := by simp [view, List.foldl_append]

theorem view_cons : view h ((b, o, x) :: r) = view (h.upd b o x) r := rfl

theorem view_snoc : view h (w ++ [(b, o, x)]) = (view h w).upd b o x := by rw [view_append]; rfl

theorem view_upd (hn : ∀ y ∈ w, ¬(b = y.1 ∧ o = y.2.1)) : view (h.upd b o x) w = (view h w).upd b o x := by
  induction w generalizing h with
  | nil => rfl
  | cons y w ih =>
    obtain ⟨b1, o1, x1⟩ := y
    rw [view_cons, view_cons, upd_comm (hn _ List.mem_cons_self)]
    exact ih fun y hy => hn y (List.mem_cons_of_mem _ hy)

theorem view_at (hn : ∀ y ∈ w, ¬(b = y.1 ∧ o = y.2.1)) : (view h w).at b o = h.at b o := by
  induction w generalizing h with
  | nil => rfl
  | cons y w ih =>
    obtain ⟨b1, o1, x1⟩ := y
    rw [view_cons, ih fun y hy => hn y (List.mem_cons_of_mem _ hy)]
    exact Heap.at_upd_sep fun e => hn _ List.mem_cons_self ⟨e.1.symm, e.2.symm⟩

theorem view_congr (e : h.at b o = h'.at b o) : (view h w).at b o = (view h' w).at b o := by
  induction w generalizing h h' with
  | nil => exact e
  | cons y w ih => exact ih (at_upd_congr e)

theorem view_isSome : ((view h w).at b o).isSome = (h.at b o).isSome := by
  induction w generalizing h with
  | nil => rfl
  | cons y w ih =>
    obtain ⟨b1, o1, x1⟩ := y
    rw [view_cons, ih, Heap.isSome_upd]

/-! ## Reads and writes are different things -/

theorem writes_ok {v : CVal} (e : Act.writes b o x h = .ok (v, h')) : b.isLit = false ∧ (h.at b o).isSome = true ∧ v = x ∧ h' = h.upd b o x := by
  obtain ⟨h1, e1, e2⟩ := C.bind_eq_ok e
  obtain ⟨rfl, rfl⟩ := Prod.mk.inj (Except.ok.inj e2)
  have hb : b.isLit = false := by
    cases b with
    | lit s => simp [Heap.store] at e1
    | _ => rfl
  have hi : (h.at b o).isSome = true := by
    cases b with
    | lit s => simp [Heap.store] at e1
    | _ => simp only [Heap.store] at e1; split at e1 <;> simp_all
  rw [Heap.store_in hb hi] at e1
  exact ⟨hb, hi, rfl, (Except.ok.inj e1).symm⟩

theorem writes_eq (hb : b.isLit = false) (hi : (h.at b o).isSome = true) : Act.writes b o x h = .ok (x, h.upd b o x) := by
  simp only [Act.writes, Heap.store_in hb hi]; rfl

/-- Some other value. -/
theorem other_val (x : CVal) : ∃ y, y ≠ x := by
  by_cases e : x = .null
  · exact ⟨.int 0, by rw [e]; simp⟩
  · exact ⟨.null, Ne.symm e⟩

theorem touches_writes {S : Base → Int → Prop} {v : CVal} (t : Act.Touches (Act.writes b o x) S) (e : Act.writes b o x h = .ok (v, h')) : S b o := by
  obtain ⟨hb, hi, -, -⟩ := writes_ok e
  obtain ⟨y, hy⟩ := other_val x
  have hi2 : ((h.upd b o y).at b o).isSome = true := by rw [Heap.isSome_upd]; exact hi
  have e2 := writes_eq (x := x) hb hi2
  rcases t with t | ⟨b1, o1, x1, hs, t⟩
  · have := t _ _ _ e2
    have h3 : ((h.upd b o y).upd b o x).at b o = (h.upd b o y).at b o := by rw [this]
    rw [Heap.at_upd_same hb hi2, Heap.at_upd_same hb hi] at h3
    exact absurd (Option.some.inj h3).symm hy
  · by_cases hc : b1 = b ∧ o1 = o
    · obtain ⟨rfl, rfl⟩ := hc
      exact hs
    · rw [t] at e2
      obtain ⟨-, -, -, h4⟩ := writes_ok e2
      have h3 : ((h.upd b o y).upd b o x).at b o = ((h.upd b o y).upd b1 o1 x1).at b o := by rw [h4]
      rw [Heap.at_upd_same hb hi2, Heap.at_upd_sep hc, Heap.at_upd_same hb hi] at h3
      exact absurd (Option.some.inj h3).symm hy

theorem touches_kind {S : Base → Int → Prop} {f : Heap → C (CVal × Heap)} (t : Act.Touches f S) :
    Act.ReadsOnly f ∨ ∃ b o x, f = Act.writes b o x := by
  rcases t with t | ⟨b, o, x, -, t⟩
  · exact .inl t
  · exact .inr ⟨b, o, x, t⟩

/-! ## What is in the buffers -/

/-- The producer's buffer, when memory is `m` and shows the tail `T`; all items up to `E`; the consumer has released those before
`d`. -/
def PBuf (q : Conc.Place) (all : List CVal) (d E : Nat) : Heap → Nat → Buf → Prop
  | _, T, [] => T = E
  | m, T, (b, o, x) :: r =>
    (∃ i : Nat, i < q.N ∧ b = q.sb ∧ o = q.so + i ∧ (∀ j, d ≤ j → j < T → j % q.N = i → all[j]? = some x) ∧
      PBuf q all d E (m.upd b o x) T r) ∨
    (b = q.b ∧ o = q.o + 2 ∧ x = .int (T % q.N : Nat) ∧ PBuf q all d E (m.upd b o x) T r) ∨
    (b = q.b ∧ o = q.o + 2 ∧ x = .int ((T + 1) % q.N : Nat) ∧ (∃ v, all[T]? = some v ∧ v ≠ .undef ∧ m.at q.sb (q.so + (T % q.N : Nat)) = some v) ∧
      PBuf q all d E (m.upd b o x) (T + 1) r)

/-- The consumer's buffer, when memory shows the head `D`; it has taken the items before `E`. -/
def CBuf (q : Conc.Place) (E : Nat) : Nat → Buf → Prop
  | D, [] => D = E
  | D, (b, o, x) :: r =>
    (¬ q.cells b o ∧ CBuf q E D r) ∨
    (b = q.b ∧ o = q.o + 1 ∧ x = .int (D % q.N : Nat) ∧ CBuf q E D r) ∨
    (b = q.b ∧ o = q.o + 1 ∧ x = .int ((D + 1) % q.N : Nat) ∧ CBuf q E (D + 1) r)

variable {all : List CVal} {d d' E E' T D : Nat} {m m' : Heap}

theorem PBuf.le (k : PBuf q all d E m T w) : T ≤ E := by
  induction w generalizing m T with
  | nil => exact Nat.le_of_eq k
  | cons y w ih =>
    obtain ⟨b, o, x⟩ := y
    rcases k with ⟨i, -, -, -, -, k⟩ | ⟨-, -, -, k⟩ | ⟨-, -, -, -, k⟩
    · exact ih k
    · exact ih k
    · have := ih k; omega

theorem PBuf.later (k : PBuf q all d E m T w) (hd : d ≤ d') : PBuf q all d' E m T w := by
  induction w generalizing m T with
  | nil => exact k
  | cons y w ih =>
    obtain ⟨b, o, x⟩ := y
    rcases k with ⟨i, k1, k2, k3, k4, k⟩ | ⟨k1, k2, k3, k⟩ | ⟨k1, k2, k3, k4, k⟩
    · exact .inl ⟨i, k1, k2, k3, fun j hj => k4 j (Nat.le_trans hd hj), ih k⟩
    · exact .inr (.inl ⟨k1, k2, k3, ih k⟩)
    · exact .inr (.inr ⟨k1, k2, k3, k4, ih k⟩)

theorem PBuf.congr (hN : 0 < q.N) (k : PBuf q all d E m T w) (hm : ∀ i : Nat, i < q.N → m'.at q.sb (q.so + i) = m.at q.sb (q.so + i)) :
    PBuf q all d E m' T w := by
  induction w generalizing m m' T with
  | nil => exact k
  | cons y w ih =>
    obtain ⟨b, o, x⟩ := y
    have hm' : ∀ i : Nat, i < q.N → (m'.upd b o x).at q.sb (q.so + i) = (m.upd b o x).at q.sb (q.so + i) := fun i hi => at_upd_congr (hm i hi)
    rcases k with ⟨i, k1, k2, k3, k4, k⟩ | ⟨k1, k2, k3, k⟩ | ⟨k1, k2, k3, ⟨v, k4, k5, k6⟩, k⟩
    · exact .inl ⟨i, k1, k2, k3, k4, ih k hm'⟩
    · exact .inr (.inl ⟨k1, k2, k3, ih k hm'⟩)
    · exact .inr (.inr ⟨k1, k2, k3, ⟨v, k4, k5, (hm _ (Nat.mod_lt _ hN)).trans k6⟩, ih k hm'⟩)

/-- More items. -/
theorem PBuf.more (k : PBuf q all d E m T w) (l : List CVal) : PBuf q (all ++ l) d E m T w := by
  have up : ∀ {j : Nat} {v : CVal}, all[j]? = some v → (all ++ l)[j]? = some v := by
    intro j v e
    rw [List.getElem?_append_left (List.getElem?_eq_some_iff.mp e).1]; exact e
  induction w generalizing m T with
  | nil => exact k
  | cons y w ih =>
    obtain ⟨b, o, x⟩ := y
    rcases k with ⟨i, k1, k2, k3, k4, k⟩ | ⟨k1, k2, k3, k⟩ | ⟨k1, k2, k3, ⟨v, k4, k5, k6⟩, k⟩
    · exact .inl ⟨i, k1, k2, k3, fun j h1 h2 h3 => up (k4 j h1 h2 h3), ih k⟩
    · exact .inr (.inl ⟨k1, k2, k3, ih k⟩)
    · exact .inr (.inr ⟨k1, k2, k3, ⟨v, up k4, k5, k6⟩, ih k⟩)

theorem PBuf.append (k : PBuf q all d E m T w) (k' : PBuf q all d E' (view m w) E r) : PBuf q all d E' m T (w ++ r) := by
  induction w generalizing m T with
  | nil => rw [show T = E from k]; exact k'
  | cons y w ih =>
    obtain ⟨b, o, x⟩ := y
    rcases k with ⟨i, k1, k2, k3, k4, k⟩ | ⟨k1, k2, k3, k⟩ | ⟨k1, k2, k3, k4, k⟩
    · exact .inl ⟨i, k1, k2, k3, k4, ih k k'⟩
    · exact .inr (.inl ⟨k1, k2, k3, ih k k'⟩)
    · exact .inr (.inr ⟨k1, k2, k3, k4, ih k k'⟩)

theorem PBuf.cells (k : PBuf q all d E m T w) : ∀ y ∈ w, q.pcells y.1 y.2.1 := by
  induction w generalizing m T with
  | nil => simp
  | cons y w ih =>
    obtain ⟨b, o, x⟩ := y
    intro z hz
    rcases List.mem_cons.mp hz with rfl | hz
    · rcases k with ⟨i, k1, k2, k3, -, -⟩ | ⟨k1, k2, -⟩ | ⟨k1, k2, -⟩
      · exact .inr ⟨k2, by simp only [k3]; omega, by simp only [k3]; omega⟩
      · exact .inl ⟨k1, k2⟩
      · exact .inl ⟨k1, k2⟩
    · rcases k with ⟨i, k1, k2, k3, k4, k⟩ | ⟨k1, k2, k3, k⟩ | ⟨k1, k2, k3, k4, k⟩
      · exact ih k z hz
      · exact ih k z hz
      · exact ih k z hz

theorem CBuf.le (k : CBuf q E D w) : D ≤ E := by
  induction w generalizing D with
  | nil => exact Nat.le_of_eq k
  | cons y w ih =>
    obtain ⟨b, o, x⟩ := y
    rcases k with ⟨-, k⟩ | ⟨-, -, -, k⟩ | ⟨-, -, -, k⟩
    · exact ih k
    · exact ih k
    · have := ih k; omega

theorem CBuf.append (k : CBuf q E D w) (k' : CBuf q E' E r) : CBuf q E' D (w ++ r) := by
  induction w generalizing D with
  | nil => rw [show D = E from k]; exact k'
  | cons y w ih =>
    obtain ⟨b, o, x⟩ := y
    rcases k with ⟨k1, k⟩ | ⟨k1, k2, k3, k⟩ | ⟨k1, k2, k3, k⟩
    · exact .inl ⟨k1, ih k⟩
    · exact .inr (.inl ⟨k1, k2, k3, ih k⟩)
    · exact .inr (.inr ⟨k1, k2, k3, ih k⟩)

theorem CBuf.cells (k : CBuf q E D w) : ∀ y ∈ w, ¬ q.cells y.1 y.2.1 ∨ (y.1 = q.b ∧ y.2.1 = q.o + 1) := by
  induction w generalizing D with
  | nil => simp
  | cons y w ih =>
    obtain ⟨b, o, x⟩ := y
    intro z hz
    rcases List.mem_cons.mp hz with rfl | hz
    · rcases k with ⟨k1, -⟩ | ⟨k1, k2, -⟩ | ⟨k1, k2, -⟩
      · exact .inl k1
      · exact .inr ⟨k1, k2⟩
      · exact .inr ⟨k1, k2⟩
    · rcases k with ⟨k1, k⟩ | ⟨k1, k2, k3, k⟩ | ⟨k1, k2, k3, k⟩
      · exact ih k z hz
      · exact ih k z hz
      · exact ih k z hz

end Mu.CS.Tso
