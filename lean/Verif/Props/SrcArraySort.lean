import Verif.Lemmas.SrcArraySort
import Verif.Props.ArrayExact
import Verif.Props.SrcArray

/-! # Property C125: sorting, from the parsed source of mu_array.c

`Compares` and `Orders` (Spec/SrcCmp.lean) say what a comparison function is; `Heap.Arr`
(Spec/SrcArray.lean) says what it means that memory holds an array. -/

namespace Mu.CS

variable {A : Arch} {X : Ext} {P : CVal → Prop} {own wr : Base → Int → Prop} {S : Nat → Heap → Prop}
  {cmp : Nat → CVal → CVal → Int}

open Classical in
/-- `cmp` on comparable values, and some order on the others. -/
noncomputable def cmpExt (P : CVal → Prop) (cmp : Nat → CVal → CVal → Int) : Nat → CVal → CVal → Int :=
  fun k x y => if P x then if P y then cmp k x y else -1 else if P y then 1 else 0

theorem cmpExt_in {k : Nat} {x y : CVal} (hx : P x) (hy : P y) : cmpExt P cmp k x y = cmp k x y := by
  unfold cmpExt; rw [if_pos hx, if_pos hy]

theorem Compares.ext {call : SemFn} (h : Compares A call P own wr S cmp) :
    Compares A call P own wr S (cmpExt P cmp) where
  answer := by
    intro k g x y hs hx hy
    rw [cmpExt_in hx hy]
    exact h.answer k g x y hs hx hy
  int := by
    intro k x y
    have := h.int k x y
    have := A.intMin_eq
    have := A.intMax_ge
    unfold cmpExt
    split <;> split <;> omega
  stable := h.stable

theorem cmpExt_preorder (hp : ∀ k x y, P x → P y → cmp k x y = cmp 0 x y) (ho : Orders P (cmp 0)) :
    Arr.Spec.TotalPreorder (cmpN (cmpExt P cmp)) where
  pure := by
    intro k k' a b
    simp only [cmpN, cmpExt]
    split
    · rename_i h1
      split
      · rename_i h2
        rw [hp k _ _ h1 h2, hp k' _ _ h1 h2]
      · rfl
    · rfl
  antisymm := by
    intro a b
    simp only [cmpN, cmpExt]
    split
    · rename_i h1
      split
      · rename_i h2
        exact ho.antisymm _ _ h1 h2
      · omega
    · split <;> omega
  trans := by
    intro a b c
    simp only [cmpN, cmpExt]
    by_cases h1 : P (code a) <;> by_cases h2 : P (code b) <;> by_cases h3 : P (code c)
    · simp only [h1, h2, h3, if_true]; exact ho.trans _ _ _ h1 h2 h3
    all_goals simp only [h1, h2, h3, if_true, if_false]; omega

theorem perm_of_map_enc {l l' : List CVal} (h : (l'.map enc).Perm (l.map enc)) : l'.Perm l := by
  have := h.map code
  simpa [List.map_map, Function.comp_def, code_enc] using this

variable {h : Heap} {b sb : Base} {o so : Int} {cap : Nat} {l : List CVal}

/-- **C125, `mu_array_sort`.**  Memory holds the array `l` (of items that satisfy `P`), and `f` is a
comparison function for such items that leaves the array alone: its `k`-th call answers `cmp k`, an
arbitrary `int`.  Then `mu_array_sort` returns its first argument and the array is a permutation `l'` of
`l`; if the answers do not depend on `k` and are those of a total preorder, `l'` is in order.
The two conditions on the length are those of C66/C67: the child index of the last item must be an `int`, and
an array of one item can be sorted only where `size_t` is wider than `int`. -/
theorem C125_sort (A : Arch) (X : Ext) (n f : Nat) (hw : A.ib < A.sb ∨ l.length ≠ 1)
    (hb : (2 * l.length : Int) ≤ A.intMax + 1)
    (hc : ∀ m, n ≤ m → Compares A (X.cb (sem A X prog m) f) P (arrCells b o sb so cap) (span sb so l.length) S cmp)
    (q : h.Arr b o sb so cap l) (hP : ∀ v ∈ l, P v) (h0 : S 0 h) :
    ∃ h' l' k, sem A X prog (l.length + n + 5) .mu_array_sort h [.ptr b o, .fn f] = .ok (.ptr b o, h') ∧
      h'.Arr b o sb so cap l' ∧ l'.Perm l ∧ S k h' ∧
      ((∀ k x y, P x → P y → cmp k x y = cmp 0 x y) → Orders P (cmp 0) →
        l'.Pairwise fun x y => cmp 0 x y ≤ 0) := by
  have hmod := A.intMax_lt_szMod
  have hmx := A.intMax_ge
  obtain ⟨w, hperm, hs, -⟩ := Arr.C67_sort_any_comparator A.toPlat _ _ (cmpN (cmpExt P cmp)) (rep_enc l)
    (by rw [List.length_map]; exact hw) (by rw [List.length_map]; exact hb)
  rw [List.length_map] at hs
  obtain ⟨h', l', k, e1, e2, e3, e4⟩ := src_sort_run (A := A) (X := X) (n := l.length + n + 4) (f := f)
    (by omega) (by omega) (fun m hm => (hc m (by omega)).ext) ⟨q, hP, h0⟩ hs
  dsimp only at e2
  subst e2
  refine ⟨h', l', k, e1, e4.arr, perm_of_map_enc hperm, e4.st, ?_⟩
  intro hp ho
  obtain ⟨a', w', f1, f2, f3, -⟩ := Arr.C66_sort A.toPlat _ _ (cmpN (cmpExt P cmp)) (rep_enc l) (cmpExt_preorder hp ho)
    (by rw [List.length_map]; exact hw) (by rw [List.length_map]; exact hb)
  rw [hs] at f1
  obtain rfl := Except.ok.inj f1
  have hw' : w' = l'.map enc := by
    have := f2.take
    dsimp only at this
    rw [List.take_of_length_le (by rw [List.length_map]; omega)] at this
    exact this.symm
  subst hw'
  unfold Arr.Spec.Sorted at f3
  rw [List.pairwise_map] at f3
  refine f3.imp_of_mem ?_
  intro x y hx hy hxy
  simp only [cmpN, code_enc, cmpExt_in (e4.ok x hx) (e4.ok y hy)] at hxy
  exact hxy

/-- **C125, nothing else changes**: with a comparison function that only looks at its arguments, sorting
writes no cell other than those of the items. -/
theorem C125_sort_writes_only_items (A : Arch) (X : Ext) (n f : Nat) (hw : A.ib < A.sb ∨ l.length ≠ 1)
    (hb : (2 * l.length : Int) ≤ A.intMax + 1) (cmp : CVal → CVal → Int)
    (hint : ∀ x y, A.intMin ≤ cmp x y ∧ cmp x y ≤ A.intMax)
    (hc : ∀ m, n ≤ m → ∀ g x y, P x → P y → X.cb (sem A X prog m) f g [x, y] = .ok (.int (cmp x y), g))
    (q : h.Arr b o sb so cap l) (hP : ∀ v ∈ l, P v) :
    ∃ h' l', sem A X prog (l.length + n + 5) .mu_array_sort h [.ptr b o, .fn f] = .ok (.ptr b o, h') ∧
      h'.Arr b o sb so cap l' ∧ l'.Perm l ∧ Heap.Only (span sb so l.length) h h' ∧
      (Orders P cmp → l'.Pairwise fun x y => cmp x y ≤ 0) := by
  obtain ⟨h', l', k, e1, e2, e3, e4, e5⟩ := C125_sort (P := P) (S := fun _ g => Heap.Only (span sb so l.length) h g)
    (cmp := fun _ => cmp) A X n f hw hb (fun m hm => by
      refine ⟨?_, fun _ => hint, ?_⟩
      · intro k g x y hs hx hy
        exact ⟨g, hc m hm g x y hx hy, hs, .refl _ _⟩
      · intro k g g' hs ho
        exact hs.trans ho) q hP (.refl _ _)
  exact ⟨h', l', e1, e2, e3, e4, e5 (fun _ _ _ _ _ => rfl)⟩

/-- **C125, the exception**: where `size_t` is as wide as `int`, the source overflows when it sorts an array
of one item. -/
theorem C125_sort_single_item (A : Arch) (X : Ext) (n f : Nat) (hw : A.sb = A.ib) {v : CVal}
    (q : h.Arr b o sb so cap [v]) :
    sem A X prog (n + 4) .mu_array_sort h [.ptr b o, .fn f] = .error .overflow := by
  have hi := A.hib
  have hmax := A.intMax_ge
  have hmn := A.intMin_eq
  have hM : A.szMod = 2 * 2 ^ (A.ib - 1) := by
    unfold Plat.szMod; rw [hw, ← Nat.pow_succ']; congr 1; omega
  have hcast : ((2 ^ (A.ib - 1) : Nat) : Int) = 2 ^ (A.ib - 1) := by norm_cast
  have hI : A.intMax = ((2 ^ (A.ib - 1) : Nat) : Int) - 1 := by rw [hcast]; rfl
  have hpos : 0 < 2 ^ (A.ib - 1) := Nat.pow_pos (by decide)
  have hge := szMod_ge A.toPlat
  have h1 : A.szSub 1 2 = A.szMod - 1 := by
    unfold Plat.szSub Plat.toSz
    have e : ((1 : Nat) : Int) - ((2 : Nat) : Int) = -1 := by omega
    rw [e, show (-1 : Int) = ((A.szMod - 1 : Nat) : Int) + (A.szMod : Int) * (-1) by omega, Int.add_mul_emod_self_left,
      Int.emod_eq_of_lt (by omega) (by omega), Int.toNat_natCast]
  have h2 : (A.szMod - 1) / 2 = 2 ^ (A.ib - 1) - 1 := by omega
  have h3 : A.toInt (2 ^ (A.ib - 1) - 1) = A.intMax := by
    rw [A.toInt_of_le (by omega)]; omega
  have hsub : A.szSub 1 1 = 0 := by rw [Plat.szSub_of_le (by omega) (by omega)]
  have h4 : A.toInt 0 = 0 := A.toInt_of_le (by omega)
  have cM := conv_int (A := A) (n := A.intMax) ⟨by omega, by omega⟩
  have hov : A.int (A.intMax * 2) = .error .overflow := by
    unfold Plat.int; rw [if_neg (by omega)]
  have e1 : sem A X prog (n + 2) .sift_down__array h [.ptr sb so, .fn f, .int A.intMax, .int 0] = .error .overflow := by
    rw [sem_succ (d := Src.sift_down__array) rfl, FunDef.run_regs rfl rfl]
    generalize hK : (⟨sem A X prog (n + 1), X.cb (sem A X prog (n + 1))⟩ : Calls) = KK
    have r : exec A KK (n + 1) Src.sift_down__array_loop1 ⟨[.ptr sb so, .fn f, .int A.intMax, .int 0, .int A.intMax, .undef], h⟩ =
        .error .overflow := by
      show Stmt.rounds A KK (n + 1) Src.sift_down__array_loop1 (n + 1) _ = _
      rw [Stmt.rounds_succ]
      simp [csrc, Src.sift_down__array_loop1, Stmt.cond, cM, hov, Except.bind]
    simp [csrc, Src.sift_down__array, r, cM]
  have e2 : sem A X prog (n + 3) .heapify__array h [.ptr sb so, .int 1, .fn f] = .error .overflow := by
    rw [sem_succ (d := Src.heapify__array) rfl, FunDef.run_regs rfl rfl]
    generalize hK : (⟨sem A X prog (n + 2), X.cb (sem A X prog (n + 2))⟩ : Calls) = KK
    have e1' : KK.fn .sift_down__array h [.ptr sb so, .fn f, .int A.intMax, .int 0] = .error .overflow := by
      rw [← hK]; exact e1
    have s1 := sub_size_one A 1
    rw [hsub] at s1
    have s2 := sub_size_two A 1
    rw [h1] at s2
    have d2 := div_size_two A (a := A.szMod - 1) (by omega)
    have c2 := conv_size_lt (A := A) (n := A.szMod - 1) (by omega)
    rw [h2] at d2
    have c3 : IT.conv ⟨A.ib, true⟩ ((2 ^ (A.ib - 1) - 1 : Nat) : Int) = A.intMax := h3
    have hmp : (0 ≤ A.intMax) = True := eq_true (by omega)
    rw [Int.natCast_one] at s1 s2
    have r : exec A KK (n + 2) Src.heapify__array_loop1 ⟨[.ptr sb so, .int 1, .fn f, .int A.intMax], h⟩ =
        .error .overflow := by
      show Stmt.rounds A KK (n + 2) Src.heapify__array_loop1 (n + 2) _ = _
      rw [Stmt.rounds_succ]
      simp [csrc, Src.heapify__array_loop1, Stmt.cond, Stmt.body, cM, hmp, s1, e1']
    generalize 2 ^ (A.ib - 1) - 1 = t at *
    generalize A.szMod - 1 = u at *
    simp [csrc, Src.heapify__array, s2, d2, c2, c3, conv_size_two, r]
  rw [sem_succ (d := Src.mu_array_sort) rfl, FunDef.run_regs rfl rfl]
  generalize hK : (⟨sem A X prog (n + 3), X.cb (sem A X prog (n + 3))⟩ : Calls) = KK
  have e2' : KK.fn .heapify__array h [.ptr sb so, .int 1, .fn f] = .error .overflow := by rw [← hK]; exact e2
  have hit := q.items
  have hcn : h.at b (o + 2) = some (.int 1) := q.cnt
  have s1 := sub_size_one A 1
  rw [hsub, Int.natCast_one] at s1
  simp [csrc, Src.mu_array_sort, hit, hcn, s1, e2']

/-- **C125, `mu_array_insert_sorted`.**  Under the same conditions (here the comparison function may not rely
on any cell of the array) `mu_array_insert_sorted` returns 1 and has inserted `v` at some place when there is
room, and returns 0 and has changed no item otherwise.  If the answers are those of a total preorder and the
array is in order, the place is after all the items that are not above `v` and before all the others, so the
array is in order afterwards. -/
theorem C125_insert_sorted (A : Arch) (X : Ext) (n f : Nat) (hcap : (cap : Int) ≤ A.intMax)
    (hb : (2 * l.length : Int) ≤ A.intMax + 1) {v : CVal} (hv : P v) (hu : v ≠ .undef)
    (hc : ∀ m, n ≤ m → Compares A (X.cb (sem A X prog m) f) P (arrCells b o sb so cap) (arrCells b o sb so cap) S cmp)
    (q : h.Arr b o sb so cap l) (hP : ∀ v ∈ l, P v) (h0 : S 0 h) :
    ∃ h' before after k, sem A X prog (l.length + n + 3) .mu_array_insert_sorted h [.ptr b o, v, .fn f] =
        .ok (.int (if l.length < cap then 1 else 0), h') ∧ l = before ++ after ∧
      h'.Arr b o sb so cap (if l.length < cap then before ++ v :: after else l) ∧ S k h' ∧
      ((∀ k x y, P x → P y → cmp k x y = cmp 0 x y) → Orders P (cmp 0) → (l.Pairwise fun x y => cmp 0 x y ≤ 0) →
        (∀ x ∈ before, cmp 0 x v ≤ 0) ∧ (∀ x ∈ after, 0 < cmp 0 x v) ∧
        (before ++ v :: after).Pairwise fun x y => cmp 0 x y ≤ 0) := by
  obtain ⟨h', i, k, e1, e2, e3, e4, e5⟩ := src_insert_sorted_run (A := A) (X := X) (n := l.length + n + 2) (f := f) hv hu
    (by omega) hcap hb (fun m hm => (hc m (by omega)).ext) ⟨q, hP, h0⟩
  refine ⟨h', l.take i, l.drop i, k, e1, (List.take_append_drop i l).symm, e3, e4, ?_⟩
  intro hp ho hsd
  have hsd' : Arr.Spec.Sorted (cmpN (cmpExt P cmp)) (l.map enc) := by
    unfold Arr.Spec.Sorted
    rw [List.pairwise_map]
    refine hsd.imp_of_mem ?_
    intro x y hx hy hxy
    simp only [cmpN, code_enc, cmpExt_in (hP x hx) (hP y hy)]
    exact hxy
  obtain ⟨z1, z2⟩ := e5 (cmpExt_preorder hp ho) hsd'
  have b1 : ∀ x ∈ l.take i, cmp 0 x v ≤ 0 := by
    intro x hx
    obtain ⟨j, hj, rfl⟩ := List.mem_iff_getElem.mp hx
    rw [List.length_take] at hj
    rw [List.getElem_take]
    have := z1 j (by omega) (by omega)
    rwa [cmpExt_in (hP _ (List.getElem_mem _)) hv] at this
  have b2 : ∀ x ∈ l.drop i, 0 < cmp 0 x v := by
    intro x hx
    obtain ⟨j, hj, rfl⟩ := List.mem_iff_getElem.mp hx
    rw [List.length_drop] at hj
    rw [List.getElem_drop]
    have := z2 (i + j) (by omega) (by omega)
    rwa [cmpExt_in (hP _ (List.getElem_mem _)) hv] at this
  refine ⟨b1, b2, ?_⟩
  rw [← List.take_append_drop i l, List.pairwise_append] at hsd
  obtain ⟨s1, s2, s3⟩ := hsd
  rw [List.pairwise_append, List.pairwise_cons]
  refine ⟨s1, ⟨?_, s2⟩, ?_⟩
  · intro y hy
    have := (ho.antisymm v y hv (hP y (List.mem_of_mem_drop hy))).mpr (b2 y hy)
    omega
  · intro x hx y hy
    rcases List.mem_cons.mp hy with rfl | hy
    · exact b1 x hx
    · exact s3 x hx y hy

/-- **C125, nothing else changes** when an item is inserted in order. -/
theorem C125_insert_sorted_writes_only_array (A : Arch) (X : Ext) (n f : Nat) (hcap : (cap : Int) ≤ A.intMax)
    (hb : (2 * l.length : Int) ≤ A.intMax + 1) {v : CVal} (hv : P v) (hu : v ≠ .undef) (cmp : CVal → CVal → Int)
    (hint : ∀ x y, A.intMin ≤ cmp x y ∧ cmp x y ≤ A.intMax)
    (hc : ∀ m, n ≤ m → ∀ g x y, P x → P y → X.cb (sem A X prog m) f g [x, y] = .ok (.int (cmp x y), g))
    (q : h.Arr b o sb so cap l) (hP : ∀ v ∈ l, P v) :
    ∃ h' r, sem A X prog (l.length + n + 3) .mu_array_insert_sorted h [.ptr b o, v, .fn f] = .ok (r, h') ∧
      Heap.Only (arrCells b o sb so cap) h h' := by
  obtain ⟨h', x, y, k, e1, e2, e3, e4, e5⟩ := C125_insert_sorted (P := P)
    (S := fun _ g => Heap.Only (arrCells b o sb so cap) h g)
    (cmp := fun _ => cmp) A X n f hcap hb hv hu (fun m hm => by
      refine ⟨?_, fun _ => hint, ?_⟩
      · intro k g x y hs hx hy
        exact ⟨g, hc m hm g x y hx hy, hs, .refl _ _⟩
      · intro k g g' hs ho
        exact hs.trans ho) q hP (.refl _ _)
  exact ⟨h', _, e1, e4⟩

/-- Non-vacuity: three records; the items are pointers to them and are compared by what they hold. -/
def sortDemo : Heap where
  mem
    | .obj 0 => [.ptr (.obj 1) 0, .int 4, .int 3]
    | .obj 1 => [.ptr (.obj 2) 0, .ptr (.obj 2) 1, .ptr (.obj 2) 2, .undef]
    | .obj 2 => [.int 30, .int 10, .int 20]
    | _ => []
  next := 3

/-- The difference of what two pointers point to. -/
def recCmp : SemFn := fun h args =>
  match args with
  | [.ptr b o, .ptr b' o'] =>
    match h.at b o, h.at b' o' with
    | some (.int x), some (.int y) => .ok (.int (x - y), h)
    | _, _ => .error .ptr
  | _ => .error .ptr

/-- What the three records hold. -/
def recKey : CVal → Int
  | .ptr (.obj 2) 0 => 30
  | .ptr (.obj 2) 1 => 10
  | .ptr (.obj 2) 2 => 20
  | _ => 0

theorem recCmp_compares (call : SemFn) (hcall : call = recCmp) (own wr : Base → Int → Prop)
    (hwr : ∀ o, ¬ wr (.obj 2) o) :
    Compares .lp64 call (fun v => v ∈ [.ptr (.obj 2) 0, .ptr (.obj 2) 1, .ptr (.obj 2) 2]) own wr
      (fun _ h => h.at (.obj 2) 0 = some (.int 30) ∧ h.at (.obj 2) 1 = some (.int 10) ∧ h.at (.obj 2) 2 = some (.int 20))
      (fun _ x y => recKey x - recKey y) where
  answer := by
    intro k h x y hs hx hy
    refine ⟨h, ?_, hs, .refl _ _⟩
    subst hcall
    obtain ⟨h1, h2, h3⟩ := hs
    simp only [List.mem_cons, List.not_mem_nil, or_false] at hx hy
    rcases hx with rfl | rfl | rfl <;> rcases hy with rfl | rfl | rfl <;>
      simp [recCmp, recKey, h1, h2, h3]
  int := by
    intro k x y
    have hk : ∀ v, 0 ≤ recKey v ∧ recKey v ≤ 30 := by
      intro v
      unfold recKey
      split <;> omega
    have := hk x
    have := hk y
    have := Arch.lp64.intMin_eq
    have := Arch.lp64.intMax_ge
    omega
  stable := by
    intro k h h' hs ho
    exact ⟨by rw [ho.at_of hs.1 (hwr _)], by rw [ho.at_of hs.2.1 (hwr _)], by rw [ho.at_of hs.2.2 (hwr _)]⟩

theorem sortDemo_cell (i : Nat) (v : CVal)
    (hv : [CVal.ptr (.obj 2) 0, .ptr (.obj 2) 1, .ptr (.obj 2) 2][i]? = some v) :
    sortDemo.at (.obj 1) (0 + i) = some v := by
  match i, hv with
  | 0, hv => cases hv; rfl
  | 1, hv => cases hv; rfl
  | 2, hv => cases hv; rfl

example (X : Ext) (hX : ∀ s, X.cb s 7 = recCmp) : ∃ h' l',
    sem .lp64 X prog 8 .mu_array_sort sortDemo [.ptr (.obj 0) 0, .fn 7] = .ok (.ptr (.obj 0) 0, h') ∧
      h'.Arr (.obj 0) 0 (.obj 1) 0 4 l' ∧ l'.Perm [.ptr (.obj 2) 0, .ptr (.obj 2) 1, .ptr (.obj 2) 2] ∧
      l'.Pairwise fun x y => recKey x - recKey y ≤ 0 := by
  obtain ⟨h', l', k, e1, e2, e3, -, e4⟩ := C125_sort (h := sortDemo) (b := .obj 0) (sb := .obj 1) (o := 0) (so := 0) (cap := 4)
    (l := [.ptr (.obj 2) 0, .ptr (.obj 2) 1, .ptr (.obj 2) 2]) .lp64 X 0 7 (.inl (by decide)) (by decide)
    (fun m _ => recCmp_compares _ (hX _) _ _ (by rintro o ⟨e, -⟩; cases e))
    ⟨rfl, rfl, rfl, rfl, rfl, sortDemo_cell, by decide, (by rintro i _ k _ ⟨e, -⟩; cases e), by decide, by decide⟩
    (fun v hv => hv) ⟨rfl, rfl, rfl⟩
  refine ⟨h', l', e1, e2, e3, e4 (fun _ _ _ _ _ => rfl) ⟨?_, ?_⟩⟩
  · intro a b _ _; omega
  · intro a b c _ _ _; omega

end Mu.CS
