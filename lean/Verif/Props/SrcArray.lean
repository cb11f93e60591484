import Verif.Lemmas.SrcArray
import Verif.Props.SrcQueue

/-! # Property C124: the parsed source of mu_array.c is a bounded list

`ACall.spec` (Spec/SrcArray.lean) is the specification, `Heap.Arr` says what it means that memory holds an
array.  `cap + n + 3` is the fuel. -/

namespace Mu.CS

variable {A : Arch} {X : Ext}

section
variable {h h' : Heap} {b sb : Base} {o so : Int} {cap : Nat} {l : List CVal}

theorem ACall.Legal.only {M : Nat} {own S : Base → Int → Prop} {h h' : Heap}
    (e : Heap.Only S h h') {k : ACall} (hl : k.Legal M own h) : k.Legal M own h' := by
  cases k <;> simp only [ACall.Legal] at hl ⊢ <;> try exact hl
  · exact ⟨hl.1, (e.isSome _ _).mpr hl.2.1, hl.2.2⟩
  · exact ⟨hl.1, (e.isSome _ _).mpr hl.2.1, hl.2.2⟩
  · exact ⟨⟨hl.1.1, (e.isSome _ _).mpr hl.1.2.1, hl.1.2.2⟩, hl.2⟩

theorem getLast?_of_pos (hl : 0 < l.length) : l.getLast? = some l[l.length - 1] := by
  rw [List.getLast?_eq_getElem?, List.getElem?_eq_getElem (by omega)]

theorem src_acall (n : Nat) (q : h.Arr b o sb so cap l) (hc : (cap : Int) ≤ A.intMax) (k : ACall)
    (hl : k.Legal A.szMod (arrCells b o sb so cap) h) :
    ∃ h', ACall.run (sem A X prog (cap + n + 3)) b o h k = .ok ((ACall.spec b o A.szMod cap l k).1, h') ∧
      h'.Arr b o sb so cap (ACall.spec b o A.szMod cap l k).2 ∧
      Heap.Only (fun b' o' => arrCells b o sb so cap b' o' ∨ k.writes b' o') h h' := by
  have hle := q.le
  have hcell : arrCells b o sb so cap b (o + 2) := .inl ⟨rfl, by omega, by omega⟩
  cases k with
  | reset =>
    obtain ⟨e1, e2⟩ := src_arr_reset (A := A) (X := X) (cap + n + 2) q
    refine ⟨_, ?_, e2, (Heap.Only.refl _ _).upd (.inl hcell)⟩
    simp only [ACall.run, e1, C.ok_bind]; rfl
  | capacity =>
    refine ⟨h, ?_, q, .refl _ _⟩
    simp only [ACall.run, src_arr_capacity (A := A) (X := X) (cap + n + 2) q, C.ok_bind]; rfl
  | count =>
    refine ⟨h, ?_, q, .refl _ _⟩
    simp only [ACall.run, src_arr_count (A := A) (X := X) (cap + n + 2) q, C.ok_bind]; rfl
  | isEmpty =>
    refine ⟨h, ?_, q, .refl _ _⟩
    simp only [ACall.run, src_arr_is_empty (A := A) (X := X) (cap + n + 2) q hc, C.ok_bind, ACall.spec,
      CVal.ofBool, decide_eq_true_eq]
  | isFull =>
    refine ⟨h, ?_, q, .refl _ _⟩
    simp only [ACall.run, src_arr_is_full (A := A) (X := X) (cap + n + 2) q hc, C.ok_bind, ACall.spec,
      CVal.ofBool, decide_eq_true_eq]
  | push v =>
    have e := src_arr_push (A := A) (X := X) (cap + n + 1) q hc (v := v) hl
    by_cases hf : l.length < cap
    · rw [if_pos hf] at e
      refine ⟨_, ?_, ?_, (q.pushed_only hf v).mono fun _ _ => .inl⟩
      · simp only [ACall.run, e, C.ok_bind, ACall.spec, if_pos hf]
      · simp only [ACall.spec, if_pos hf]; exact q.push hf hl
    · rw [if_neg hf] at e
      refine ⟨h, ?_, ?_, .refl _ _⟩
      · simp only [ACall.run, e, C.ok_bind, ACall.spec, if_neg hf]
      · simp only [ACall.spec, if_neg hf]; exact q
  | pop eb eo =>
    have w : OutVar h b o sb so cap eb eo := ⟨hl.1, hl.2.1, hl.2.2⟩
    have e := src_arr_pop (A := A) (X := X) (cap + n + 1) q hc w
    by_cases h0 : 0 < l.length
    · rw [dif_pos h0] at e
      have o1 : Heap.Only (fun b' o' => arrCells b o sb so cap b' o' ∨ (ACall.pop eb eo).writes b' o') h
          (h.upd b (o + 2) (.int (l.length - 1 : Nat))) := (Heap.Only.refl _ _).upd (.inl hcell)
      obtain ⟨d1, d2⟩ := q.shrink.deliver (w.only o1) l[l.length - 1]
      refine ⟨_, ?_, ?_, o1.upd (v := l[l.length - 1]) (.inr ⟨rfl, rfl⟩)⟩
      · simp only [ACall.run, e, C.ok_bind, ACall.spec, getLast?_of_pos h0]
        rw [if_pos trivial, d2]
      · simp only [ACall.spec, getLast?_of_pos h0]; exact d1
    · rw [dif_neg h0] at e
      obtain rfl : l = [] := List.eq_nil_of_length_eq_zero (by omega)
      refine ⟨h, ?_, q, .refl _ _⟩
      simp only [ACall.run, e, C.ok_bind, ACall.spec, List.getLast?_nil]
      rw [if_neg (by simp)]
  | peek eb eo =>
    have w : OutVar h b o sb so cap eb eo := ⟨hl.1, hl.2.1, hl.2.2⟩
    have e := src_arr_peek (A := A) (X := X) (cap + n + 1) q hc w
    by_cases h0 : 0 < l.length
    · rw [dif_pos h0] at e
      obtain ⟨d1, d2⟩ := q.deliver w l[l.length - 1]
      refine ⟨_, ?_, ?_, (Heap.Only.refl _ _).upd (v := l[l.length - 1]) (.inr ⟨rfl, rfl⟩)⟩
      · simp only [ACall.run, e, C.ok_bind, ACall.spec, getLast?_of_pos h0]
        rw [if_pos trivial, d2]
      · simp only [ACall.spec, getLast?_of_pos h0]; exact d1
    · rw [dif_neg h0] at e
      obtain rfl : l = [] := List.eq_nil_of_length_eq_zero (by omega)
      refine ⟨h, ?_, q, .refl _ _⟩
      simp only [ACall.run, e, C.ok_bind, ACall.spec, List.getLast?_nil]
      rw [if_neg (by simp)]
  | ref eb eo i =>
    have w : OutVar h b o sb so cap eb eo := ⟨hl.1.1, hl.1.2.1, hl.1.2.2⟩
    have e := src_arr_ref (A := A) (X := X) (cap + n + 2) q hc w hl.2
    by_cases h0 : i < l.length
    · rw [dif_pos h0] at e
      obtain ⟨d1, d2⟩ := q.deliver w l[i]
      refine ⟨_, ?_, ?_, (Heap.Only.refl _ _).upd (v := l[i]) (.inr ⟨rfl, rfl⟩)⟩
      · simp only [ACall.run, e, C.ok_bind, ACall.spec, List.getElem?_eq_getElem h0]
        rw [if_pos trivial, d2]
      · simp only [ACall.spec, List.getElem?_eq_getElem h0]; exact d1
    · rw [dif_neg h0] at e
      have hnone : l[i]? = none := List.getElem?_eq_none (by omega)
      refine ⟨h, ?_, by simp only [ACall.spec, hnone]; exact q, .refl _ _⟩
      simp only [ACall.run, e, C.ok_bind, ACall.spec, hnone]
      rw [if_neg (by simp)]
  | insert v i =>
    obtain ⟨h', e1, e2, e3⟩ := src_arr_insert (A := A) (X := X) (cap + n + 1) q hc (v := v) hl.1 hl.2
    refine ⟨h', ?_, ?_, e3.mono fun _ _ => .inl⟩
    · simp only [ACall.run, e1, C.ok_bind, ACall.spec]
      split <;> rfl
    · simp only [ACall.spec]
      by_cases hx : l.length < cap ∧ i ≤ l.length
      · rw [if_pos hx] at e2 ⊢; exact e2
      · rw [if_neg hx] at e2 ⊢; exact e2
  | index v =>
    refine ⟨h, ?_, q, .refl _ _⟩
    simp only [ACall.run, src_arr_index (A := A) (X := X) (n := cap + n + 2) q hc (by omega) (v := v) hl,
      C.ok_bind]; rfl
  | rindex v =>
    refine ⟨h, ?_, q, .refl _ _⟩
    simp only [ACall.run, src_arr_rindex (A := A) (X := X) (n := cap + n + 2) q hc (by omega) (v := v) hl,
      C.ok_bind]; rfl

theorem src_acalls (n : Nat) (hc : (cap : Int) ≤ A.intMax) : ∀ (ks : List ACall) {h : Heap} {l : List CVal},
    h.Arr b o sb so cap l → (∀ k ∈ ks, k.Legal A.szMod (arrCells b o sb so cap) h) →
    ∃ h', ACall.runAll (sem A X prog (cap + n + 3)) b o h ks =
        .ok ((ACall.specAll b o A.szMod cap l ks).1, h') ∧
      h'.Arr b o sb so cap (ACall.specAll b o A.szMod cap l ks).2 ∧
      Heap.Only (fun b' o' => arrCells b o sb so cap b' o' ∨ ∃ k ∈ ks, k.writes b' o') h h' := by
  intro ks
  induction ks with
  | nil =>
    intro h l q _
    exact ⟨h, rfl, q, .refl _ _⟩
  | cons k ks ih =>
    intro h l q hk
    obtain ⟨g, e1, e2, e5⟩ := src_acall (A := A) (X := X) n q hc k (hk k (by simp))
    obtain ⟨h', f1, f2, f3⟩ := ih e2 (fun k' hk' => (hk k' (by simp [hk'])).only e5)
    refine ⟨h', ?_, f2, ?_⟩
    · simp only [ACall.runAll, e1, C.ok_bind, f1]; rfl
    · refine (e5.mono ?_).trans (f3.mono ?_)
      · rintro b' o' (x | x)
        · exact .inl x
        · exact .inr ⟨k, by simp, x⟩
      · rintro b' o' (x | ⟨k', hk', x⟩)
        · exact .inl x
        · exact .inr ⟨k', by simp [hk'], x⟩

end

variable (A : Arch) (X : Ext) (n : Nat) (h : Heap) (b sb : Base) (o so : Int) (cap : Nat) (l : List CVal)

/-- **C124, histories.**  Let a `mu_array_t` and `cap` slots be anywhere in memory, not overlapping, with
any content.  After `mu_array_init`, every history of calls (push, pop, peek, ref, insert, index, rindex,
reset, count, capacity, is_empty, is_full) answers and delivers what the list bounded by `cap` does, runs
without a fault, leaves that list in memory, and changes no memory except the struct, the `cap` slots and
the variables given to pop, peek and ref. -/
theorem C124_array_source_is_bounded_list (hb : b.isLit = false) (hsb : sb.isLit = false)
    (hstruct : ∀ k : Nat, k < 3 → (h.at b (o + k)).isSome = true)
    (hstore : ∀ i : Nat, i < cap → (h.at sb (so + i)).isSome = true)
    (hsep : ∀ i : Nat, i < cap → ∀ k : Nat, k < 3 → ¬(b = sb ∧ o + k = so + i))
    (hc : (cap : Int) ≤ A.intMax) (ks : List ACall)
    (hl : ∀ k ∈ ks, k.Legal A.szMod (arrCells b o sb so cap) h) :
    ∃ h1 h2, sem A X prog (cap + n + 3) .mu_array_init h [.ptr b o, .ptr sb so, .int cap] =
        .ok (.ptr b o, h1) ∧
      ACall.runAll (sem A X prog (cap + n + 3)) b o h1 ks =
        .ok ((ACall.specAll b o A.szMod cap [] ks).1, h2) ∧
      h2.Arr b o sb so cap (ACall.specAll b o A.szMod cap [] ks).2 ∧
      Heap.Only (fun b' o' => arrCells b o sb so cap b' o' ∨ ∃ k ∈ ks, k.writes b' o') h h2 := by
  obtain ⟨h1, e1, q, o1⟩ := src_arr_init (A := A) (X := X) (cap + n + 1) cap hb hsb hstruct hstore hsep
  obtain ⟨h2, e2, e3, e4⟩ := src_acalls (A := A) (X := X) n hc ks q (fun k hk => (hl k hk).only o1)
  exact ⟨h1, h2, e1, e2, e3, (o1.mono fun _ _ x => .inl (.inl x)).trans e4⟩

/-- **C124, delete.**  On an array holding `l`: an index at or behind the end gives false and no change;
deleting the last item removes and delivers it.  (The other indices: the next theorem.) -/
theorem C124_delete_last (q : h.Arr b o sb so cap l) (hc : (cap : Int) ≤ A.intMax) (eb : Base) (eo : Int)
    (hew : eb.isLit = false) (hes : (h.at eb eo).isSome = true) (hea : ¬ arrCells b o sb so cap eb eo) :
    (∀ i, l.length ≤ i → i < A.szMod →
      sem A X prog (n + 2) .mu_array_delete h [.ptr b o, .ptr eb eo, .int i] = .ok (.int 0, h)) ∧
    (∀ x, l.getLast? = some x → ∃ h',
      sem A X prog (n + 2) .mu_array_delete h [.ptr b o, .ptr eb eo, .int (l.length - 1 : Nat)] =
        .ok (.int 1, h') ∧
      h'.Arr b o sb so cap l.dropLast ∧ h'.at eb eo = some x ∧
      Heap.Only (fun b' o' => span b (o + 2) 1 b' o' ∨ (b' = eb ∧ o' = eo)) h h') := by
  have w : OutVar h b o sb so cap eb eo := ⟨hew, hes, hea⟩
  refine ⟨fun i h1 h2 => src_arr_delete_none n q hc h2 h1, ?_⟩
  intro x hx
  have h0 : 0 < l.length := by
    cases l with
    | nil => simp at hx
    | cons => simp
  rw [getLast?_of_pos h0] at hx
  have o1 : Heap.Only (fun b' o' => span b (o + 2) 1 b' o' ∨ (b' = eb ∧ o' = eo)) h
      (h.upd b (o + 2) (.int (l.length - 1 : Nat))) := (Heap.Only.refl _ _).upd (.inl ⟨rfl, by omega, by omega⟩)
  obtain ⟨d1, d2⟩ := q.shrink.deliver (w.only o1) l[l.length - 1]
  exact ⟨_, src_arr_delete_last n q hc w h0, d1, d2.trans hx, o1.upd (.inr ⟨rfl, rfl⟩)⟩

/-- **C124, delete in the middle** (finding 3 of DESIGN.md, on the source).  The item is delivered and
the items behind it move, but the count stays: the slot behind the items becomes the last item.  If the
storage ends with the items, `memmove` reads past it. -/
theorem C124_delete_inner (q : h.Arr b o sb so cap l) (hc : (cap : Int) ≤ A.intMax) (eb : Base) (eo : Int)
    (hew : eb.isLit = false) (hes : (h.at eb eo).isSome = true) (hea : ¬ arrCells b o sb so cap eb eo)
    (i : Nat) (hi : i + 1 < l.length) :
    (∀ stale, l.length < cap → h.at sb (so + l.length) = some stale → ∃ h',
      sem A X prog (n + 2) .mu_array_delete h [.ptr b o, .ptr eb eo, .int i] = .ok (.int 1, h') ∧
      h'.at eb eo = l[i]? ∧ h'.at b (o + 2) = some (.int l.length) ∧
      (stale ≠ .undef → h'.Arr b o sb so cap (l.eraseIdx i ++ [stale])) ∧
      Heap.Only (fun b' o' => span sb so cap b' o' ∨ (b' = eb ∧ o' = eo)) h h') ∧
    (h.at sb (so + l.length) = none →
      sem A X prog (n + 2) .mu_array_delete h [.ptr b o, .ptr eb eo, .int i] = .error .oob) := by
  have w : OutVar h b o sb so cap eb eo := ⟨hew, hes, hea⟩
  have e := src_arr_delete_inner (A := A) (X := X) n q hc w hi
  obtain ⟨d1, d2⟩ := q.deliver w l[i]
  have o1 : Heap.Only (fun b' o' => b' = eb ∧ o' = eo) h (h.upd eb eo l[i]) :=
    (Heap.Only.refl _ _).upd ⟨rfl, rfl⟩
  have hn : ¬ span sb so cap b (o + 2) := by
    rintro ⟨rfl, x, y⟩
    exact q.sep (o + 2 - so).toNat (by omega) 2 (by omega) ⟨rfl, by omega⟩
  constructor
  · intro stale hf hs
    have hs' := o1.at_of hs (by rintro ⟨rfl, rfl⟩; exact hea (.inr ⟨rfl, by omega, by omega⟩))
    obtain ⟨h', m1, m2, m3⟩ := d1.deleted hi hs'
    rw [m1] at e
    refine ⟨h', e, ?_, m2.at_of d1.cnt hn, m3, (o1.mono fun _ _ => .inr).trans (m2.mono fun _ _ => .inl)⟩
    rw [List.getElem?_eq_getElem (by omega)]
    exact m2.at_of d2 (fun x => hea (.inr x))
  · intro hs
    rw [e]
    have hb : ¬ (so + ((i + 1 : Nat) : Int) + ((l.length - i : Nat) : Int) ≤
        ((h.upd eb eo l[i]).cells sb).length) := by
      intro hx
      rw [Heap.length_upd] at hx
      have hs0 := (Heap.isSome_at _ _ _).mp (q.slot 0 (by have := q.le; omega))
      have := (Heap.isSome_at h sb (so + l.length)).mpr ⟨by omega, by omega⟩
      rw [hs] at this; cases this
    simp only [Lib.memmove, Heap.getN, Int.toNat_natCast]
    rw [if_neg (fun x => hb x.2)]
    rfl

/-- Non-vacuity: a struct in object 0, three slots in object 1, a variable in object 2. -/
def aDemo : Heap where
  mem
    | .obj 0 => List.replicate 3 .undef
    | .obj 1 => List.replicate 3 .undef
    | .obj 2 => [.int 77]
    | _ => []
  next := 3

/-- The calls of the example. -/
def aDemoCalls : List ACall :=
  [.push (.int 5), .push (.int 6), .insert (.int 7) 1, .isFull, .push (.int 8), .index (.int 6),
   .rindex (.int 9), .ref (.obj 2) 0 1, .pop (.obj 2) 0, .peek (.obj 2) 0, .count, .insert (.int 5) 2,
   .rindex (.int 5), .index (.int 5)]

example : ACall.specAll (.obj 0) 0 (2 ^ 64) 3 [] aDemoCalls =
    ([⟨.int 1, none⟩, ⟨.int 1, none⟩, ⟨.int 1, none⟩, ⟨.int 1, none⟩, ⟨.int 0, none⟩, ⟨.int 2, none⟩,
      ⟨.int 18446744073709551615, none⟩, ⟨.int 1, some (.int 7)⟩, ⟨.int 1, some (.int 6)⟩,
      ⟨.int 1, some (.int 7)⟩, ⟨.int 2, none⟩, ⟨.int 1, none⟩, ⟨.int 2, none⟩, ⟨.int 0, none⟩],
     [.int 5, .int 7, .int 5]) := by decide

example (X : Ext) : ∃ h1 h2,
    sem .lp64 X prog 6 .mu_array_init aDemo [.ptr (.obj 0) 0, .ptr (.obj 1) 0, .int (3 : Nat)] =
      .ok (.ptr (.obj 0) 0, h1) ∧
    ACall.runAll (sem .lp64 X prog 6) (.obj 0) 0 h1 aDemoCalls =
      .ok ((ACall.specAll (.obj 0) 0 (2 ^ 64) 3 [] aDemoCalls).1, h2) ∧
    h2.Arr (.obj 0) 0 (.obj 1) 0 3 [.int 5, .int 7, .int 5] := by
  obtain ⟨h1, h2, e1, e2, e3, -⟩ := C124_array_source_is_bounded_list .lp64 X 0 aDemo (.obj 0) (.obj 1)
    0 0 3 rfl rfl (by decide) (by decide) (by intro i _ k _ e; cases e.1)
    (by decide) aDemoCalls (by
      intro c hc
      simp only [aDemoCalls, List.mem_cons, List.not_mem_nil, or_false] at hc
      rcases hc with rfl | rfl | rfl | rfl | rfl | rfl | rfl | rfl | rfl | rfl | rfl | rfl | rfl | rfl <;>
        simp [ACall.Legal, arrCells, span, Base.isLit, Heap.at, Heap.cells, aDemo, Arch.lp64, Plat.lp64,
          Plat.szMod])
  exact ⟨h1, h2, e1, e2, e3⟩

end Mu.CS
