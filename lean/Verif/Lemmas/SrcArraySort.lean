import Verif.Lemmas.SrcArray
import Verif.Lemmas.ArraySort
import Verif.Spec.SrcCmp

/-! # mu_array.c from the parsed source: sorting -/

namespace Mu.CS

variable {A : Arch} {X : Ext}

/-- The two halves of a sequence. -/
def Stmt.fst : Stmt → Stmt
  | .seq a _ => a
  | s => s
def Stmt.snd : Stmt → Stmt
  | .seq _ b => b
  | s => s

/-- A comparison function on the numbers of values. -/
noncomputable def cmpN (cmp : Nat → CVal → CVal → Int) : Arr.Cmp := fun k a b => cmp k (code a) (code b)

section
variable {h h' : Heap} {b sb : Base} {o so : Int} {cap : Nat} {l l' : List CVal}

theorem ld_map {i : Int} {x : Nat} (e : ld (l.map enc) i = .ok x) :
    ∃ (j : Nat) (hj : j < l.length), i = j ∧ x = enc l[j] := by
  unfold ld at e
  split at e
  · rename_i h0
    rw [List.getElem?_map] at e
    cases hx : l[i.toNat]? with
    | none => rw [hx] at e; cases e
    | some v =>
      rw [hx] at e
      obtain ⟨hj, hv⟩ := List.getElem?_eq_some_iff.mp hx
      refine ⟨i.toNat, hj, by omega, ?_⟩
      rw [hv]
      exact (Except.ok.inj e).symm
  · cases e

theorem ld_map_nat {j : Nat} (hj : j < l.length) : ld (l.map enc) (j : Int) = .ok (enc l[j]) := by
  unfold ld
  rw [if_pos (by omega), Int.toNat_natCast, List.getElem?_map, List.getElem?_eq_getElem hj]
  rfl

/-- Two items exchanged. -/
def swapped (l : List CVal) (i j : Nat) : List CVal :=
  (l.set i (l[j]?.getD .undef)).set j (l[i]?.getD .undef)

@[simp] theorem swapped_length (l : List CVal) (i j : Nat) : (swapped l i j).length = l.length := by
  simp [swapped]

theorem model_swap {i j : Nat} (hi : i < l.length) (hj : j < l.length) :
    Arr.swap (l.map enc) (i : Int) (j : Int) = .ok ((swapped l i j).map enc) := by
  unfold Arr.swap
  rw [ld_map_nat hi, ld_map_nat hj]
  simp only [C.ok_bind, st]
  rw [if_pos ⟨by omega, by simpa using hi⟩]
  simp only [C.ok_bind]
  rw [if_pos ⟨by omega, by simpa using hj⟩]
  simp [swapped, List.getElem?_eq_getElem hi, List.getElem?_eq_getElem hj, List.map_set]

/-- The memory after the exchange of two items. -/
def Heap.swapped (h : Heap) (sb : Base) (so : Int) (i j : Nat) (x y : CVal) : Heap :=
  (h.upd sb (so + i) y).upd sb (so + j) x

theorem Heap.Arr.swap (q : h.Arr b o sb so cap l) {i j : Nat} (hi : i < l.length) (hj : j < l.length) :
    (h.swapped sb so i j l[i] l[j]).Arr b o sb so cap (CS.swapped l i j) ∧
      Heap.Only (span sb so l.length) h (h.swapped sb so i j l[i] l[j]) := by
  have hle := q.le
  have o1 : Heap.Only (span sb so l.length) h (h.swapped sb so i j l[i] l[j]) :=
    ((Heap.Only.refl _ _).upd ⟨rfl, by omega, by omega⟩).upd ⟨rfl, by omega, by omega⟩
  have hn : ∀ k : Nat, k < 3 → ¬ span sb so l.length b (o + k) := by
    rintro k hk ⟨rfl, x, y⟩
    exact q.sep (o + k - so).toNat (by omega) k hk ⟨rfl, by omega⟩
  have n0 := hn 0 (by omega)
  rw [show o + ((0 : Nat) : Int) = o by omega] at n0
  refine ⟨q.change o1 n0 (hn 1 (by omega)) ?_ ?_ (by simpa using hle) ?_, o1⟩
  · rw [swapped_length]; exact o1.at_of q.cnt (hn 2 (by omega))
  · intro k v hv
    unfold CS.swapped at hv
    rw [List.getElem?_eq_getElem hi, List.getElem?_eq_getElem hj, Option.getD_some, Option.getD_some,
      List.getElem?_set, List.length_set] at hv
    unfold Heap.swapped
    by_cases hjk : j = k
    · subst hjk
      rw [if_pos rfl, if_pos hj] at hv
      cases hv
      exact Heap.at_upd_same q.swr (by rw [Heap.isSome_upd]; exact q.slot _ (by omega))
    · rw [if_neg hjk, List.getElem?_set] at hv
      rw [Heap.at_upd_sep (by omega)]
      by_cases hik : i = k
      · subst hik
        rw [if_pos rfl, if_pos hi] at hv
        cases hv
        exact Heap.at_upd_same q.swr (q.slot _ (by omega))
      · rw [if_neg hik] at hv
        rw [Heap.at_upd_sep (by omega)]
        exact q.cell k v hv
  · intro v hv
    unfold CS.swapped at hv
    rw [List.getElem?_eq_getElem hi, List.getElem?_eq_getElem hj, Option.getD_some, Option.getD_some] at hv
    rcases List.mem_or_eq_of_mem_set hv with hv | rfl
    · rcases List.mem_or_eq_of_mem_set hv with hv | rfl
      · exact q.defd v hv
      · exact q.defd _ (List.getElem_mem hj)
    · exact q.defd _ (List.getElem_mem hi)

theorem swapped_all {P : CVal → Prop} (hP : ∀ v ∈ l, P v) {i j : Nat} (hi : i < l.length) (hj : j < l.length) :
    ∀ v ∈ swapped l i j, P v := by
  intro v hv
  unfold swapped at hv
  rw [List.getElem?_eq_getElem hi, List.getElem?_eq_getElem hj, Option.getD_some, Option.getD_some] at hv
  rcases List.mem_or_eq_of_mem_set hv with hv | rfl
  · rcases List.mem_or_eq_of_mem_set hv with hv | rfl
    · exact hP v hv
    · exact hP _ (List.getElem_mem hj)
  · exact hP _ (List.getElem_mem hi)

theorem src_arr_swap (n : Nat) (q : h.Arr b o sb so cap l) {i j : Nat} (hi : i < l.length) (hj : j < l.length) :
    sem A X prog (n + 1) .swap__array h [.ptr sb so, .int i, .int j] =
      .ok (.undef, h.swapped sb so i j l[i] l[j]) := by
  rw [sem_succ (d := Src.swap__array) rfl, FunDef.run_regs rfl rfl]
  obtain ⟨r1, r2⟩ := q.ld hi
  obtain ⟨r3, r4⟩ := q.ld hj
  have hw := q.swr
  have hle := q.le
  have s1 := q.slot i (by omega)
  have s2 := q.slot j (by omega)
  unfold Heap.swapped
  generalize l[i] = x at *
  generalize l[j] = y at *
  simp [csrc, Src.swap__array, r1, r2, r3, r4, hw, s1, s2]

/-- Memory holds the array `l` of comparable items, and what the comparison function relies on. -/
structure Sorting (h : Heap) (b : Base) (o : Int) (sb : Base) (so : Int) (cap : Nat) (l : List CVal)
    (P : CVal → Prop) (S : Nat → Heap → Prop) (k : Nat) : Prop where
  arr : h.Arr b o sb so cap l
  ok : ∀ v ∈ l, P v
  st : S k h

variable {P : CVal → Prop} {S : Nat → Heap → Prop} {cmp : Nat → CVal → CVal → Int} {k : Nat}
  {own wr : Base → Int → Prop}

theorem Sorting.compare {call : SemFn} (g : Sorting h b o sb so cap l P S k)
    (hc : Compares A call P (arrCells b o sb so cap) wr S cmp) {x y : CVal} (hx : P x) (hy : P y) :
    ∃ h', call h [x, y] = .ok (.int (cmp k x y), h') ∧ Sorting h' b o sb so cap l P S (k + 1) := by
  obtain ⟨h', e1, e2, e3⟩ := hc.answer k h x y g.st hx hy
  exact ⟨h', e1, g.arr.only e3 (fun b' o' hx hn => hn hx), g.ok, e2⟩

theorem Sorting.swap {call : SemFn} (g : Sorting h b o sb so cap l P S k)
    (hc : Compares A call P own (span sb so l.length) S cmp) {i j : Nat} (hi : i < l.length) (hj : j < l.length) :
    Sorting (h.swapped sb so i j l[i] l[j]) b o sb so cap (CS.swapped l i j) P S k :=
  ⟨(g.arr.swap hi hj).1, swapped_all g.ok hi hj, hc.stable _ _ _ g.st (g.arr.swap hi hj).2⟩

/-- The first `if` of the body of `sift_down`: which child is larger. -/
def siftB : Stmt := Src.sift_down__array_loop1.body.snd.fst
/-- The second `if`. -/
def siftC : Stmt := Src.sift_down__array_loop1.body.snd.snd

theorem ite_ok_eq {c : Prop} [Decidable c] {α : Type} {a b : α} :
    (if c then (Except.ok a : C α) else .ok b) = .ok (if c then a else b) := by split <;> rfl

theorem sift_child {K : Calls} {N f : Nat} {start : CVal} {stop root left : Int} {ck : Int × Nat}
    (g : Sorting h b o sb so cap l P S k) (hc : Compares A (K.cb f) P (arrCells b o sb so cap) wr S cmp)
    (hstop : A.InInt stop) (hleft : A.InInt left) (hsib : A.int (left + 1) = .ok (left + 1))
    (hm : (if left + 1 ≤ stop then do
          let x ← ld (l.map enc) left
          let y ← ld (l.map enc) (left + 1)
          .ok (if cmpN cmp k x y < 0 then left + 1 else left, k + 1)
        else .ok (left, k) : C (Int × Nat)) = .ok ck) :
    ∃ h', exec A K N siftB ⟨[.ptr sb so, .fn f, start, .int stop, .int root, .int left], h⟩ =
        .ok (.next, ⟨[.ptr sb so, .fn f, start, .int stop, .int root, .int ck.1], h'⟩) ∧
      Sorting h' b o sb so cap l P S ck.2 ∧ A.InInt ck.1 := by
  have c1 := conv_int hstop
  have c2 := conv_int hleft
  have c3 := conv_int (inInt_of_int hsib)
  by_cases hle : left + 1 ≤ stop
  · rw [if_pos hle] at hm
    obtain ⟨x, hx, hm⟩ := C.bind_eq_ok hm
    obtain ⟨y, hy, hm⟩ := C.bind_eq_ok hm
    obtain ⟨j, hj, ej, rfl⟩ := ld_map hx
    obtain ⟨i, hi, ei, rfl⟩ := ld_map hy
    subst ej
    have hm' := Except.ok.inj hm
    simp only [cmpN, code_enc] at hm'
    obtain ⟨h', e1, e2⟩ := g.compare hc (g.ok _ (List.getElem_mem hj)) (g.ok _ (List.getElem_mem hi))
    obtain ⟨r1, r2⟩ := g.arr.ld hj
    obtain ⟨r3, r4⟩ := g.arr.ld hi
    have hle' : ((j : Int) + 1 ≤ stop) = True := eq_true hle
    have c4 := conv_int (A := A) (hc.int k l[j] l[i])
    obtain rfl : i = j + 1 := by omega
    have p1 := Heap.padd_in (h := h) (b := sb) (o := so) (i := (j : Int)) (n := 1)
      (by rw [Int.natCast_one, Int.one_mul, r1]; rfl)
    have p2 := Heap.padd_in (h := h) (b := sb) (o := so) (i := ((j : Int) + 1)) (n := 1)
      (by rw [Int.natCast_one, Int.one_mul, ei, r3]; rfl)
    rw [Int.natCast_one, Int.one_mul] at p1 p2
    have r3' := r3
    rw [← ei] at r3'
    refine ⟨h', ?_, by rw [← hm']; exact e2, ?_⟩
    · rw [← hm']
      generalize l[j] = x at *
      generalize l[j + 1] = y at *
      generalize hz : cmp k x y = z at *
      by_cases hneg : z < 0
      · have hneg' : (z < 0) = True := eq_true hneg
        simp [csrc, siftB, Stmt.fst, Stmt.snd, Stmt.body, Src.sift_down__array_loop1, c1, c2, c3, c4, hsib, hle', p1, p2, r1, r2, r3', r4,
          e1, hneg']
      · have hneg' : (z < 0) = False := eq_false hneg
        simp [csrc, siftB, Stmt.fst, Stmt.snd, Stmt.body, Src.sift_down__array_loop1, c1, c2, c3, c4, hsib, hle', p1, p2, r1, r2, r3', r4,
          e1, hneg']
    · rw [← hm']
      dsimp only
      split
      · exact inInt_of_int hsib
      · exact hleft
  · rw [if_neg hle] at hm
    obtain rfl := Except.ok.inj hm
    have hle' : (left + 1 ≤ stop) = False := eq_false hle
    refine ⟨h, ?_, g, hleft⟩
    simp [csrc, siftB, Stmt.fst, Stmt.snd, Stmt.body, Src.sift_down__array_loop1, c1, c2, c3, hsib, hle']

theorem sift_move {K : Calls} {N f : Nat} {start : CVal} {stop root child : Int} {x y : Nat}
    (g : Sorting h b o sb so cap l P S k) (hc : Compares A (K.cb f) P (arrCells b o sb so cap) (span sb so l.length) S cmp)
    (hsw : ∀ {h : Heap} {l : List CVal} {i j : Nat}, h.Arr b o sb so cap l → (hi : i < l.length) → (hj : j < l.length) →
      K.fn .swap__array h [.ptr sb so, .int i, .int j] = .ok (.undef, h.swapped sb so i j l[i] l[j]))
    (hroot : A.InInt root) (hchild : A.InInt child)
    (hx : ld (l.map enc) root = .ok x) (hy : ld (l.map enc) child = .ok y) :
    if cmpN cmp k x y < 0 then
      ∃ h' l', exec A K N siftC ⟨[.ptr sb so, .fn f, start, .int stop, .int root, .int child], h⟩ =
          .ok (.next, ⟨[.ptr sb so, .fn f, start, .int stop, .int child, .int child], h'⟩) ∧
        Arr.swap (l.map enc) root child = .ok (l'.map enc) ∧ l'.length = l.length ∧
        Sorting h' b o sb so cap l' P S (k + 1)
    else
      ∃ h', exec A K N siftC ⟨[.ptr sb so, .fn f, start, .int stop, .int root, .int child], h⟩ =
          .ok (.ret .undef, ⟨[.ptr sb so, .fn f, start, .int stop, .int root, .int child], h'⟩) ∧
        Sorting h' b o sb so cap l P S (k + 1) := by
  obtain ⟨i, hi, rfl, rfl⟩ := ld_map hx
  obtain ⟨j, hj, rfl, rfl⟩ := ld_map hy
  have c2 := conv_int hroot
  have c3 := conv_int hchild
  obtain ⟨h', e1, e2⟩ := g.compare hc (g.ok _ (List.getElem_mem hi)) (g.ok _ (List.getElem_mem hj))
  obtain ⟨r1, r2⟩ := g.arr.ld hi
  obtain ⟨r3, r4⟩ := g.arr.ld hj
  have c4 := conv_int (A := A) (hc.int k l[i] l[j])
  have p1 := Heap.padd_in (h := h) (b := sb) (o := so) (i := (i : Int)) (n := 1)
    (by rw [Int.natCast_one, Int.one_mul, r1]; rfl)
  have p2 := Heap.padd_in (h := h) (b := sb) (o := so) (i := (j : Int)) (n := 1)
    (by rw [Int.natCast_one, Int.one_mul, r3]; rfl)
  rw [Int.natCast_one, Int.one_mul] at p1 p2
  have w := hsw e2.arr hi hj
  have e3 := e2.swap hc hi hj
  simp only [cmpN, code_enc]
  split
  · rename_i hneg
    refine ⟨_, _, ?_, model_swap hi hj, swapped_length l i j, e3⟩
    generalize l[i] = x at *
    generalize l[j] = y at *
    generalize hz : cmp k x y = z at *
    have hneg' : (z < 0) = True := eq_true hneg
    simp [csrc, siftC, Stmt.fst, Stmt.snd, Stmt.body, Src.sift_down__array_loop1, c2, c3, c4, p1, p2, r1, r2, r3, r4,
          e1, hneg', w]
  · rename_i hneg
    refine ⟨h', ?_, e2⟩
    generalize l[i] = x at *
    generalize l[j] = y at *
    generalize hz : cmp k x y = z at *
    have hneg' : (z < 0) = False := eq_false hneg
    simp [csrc, siftC, Stmt.fst, Stmt.snd, Stmt.body, Src.sift_down__array_loop1, c2, c3, c4, p1, p2, r1, r2, r3, r4,
          e1, hneg']

theorem sift_rounds {K : Calls} {N f : Nat} {start : CVal} {stop : Int} (hstop : A.InInt stop)
    (hsw : ∀ {h : Heap} {l : List CVal} {i j : Nat}, h.Arr b o sb so cap l → (hi : i < l.length) → (hj : j < l.length) →
      K.fn .swap__array h [.ptr sb so, .int i, .int j] = .ok (.undef, h.swapped sb so i j l[i] l[j])) {len : Nat}
    (hc : Compares A (K.cb f) P (arrCells b o sb so cap) (span sb so len) S cmp) :
    ∀ (fuel n : Nat) (h : Heap) (l : List CVal) (root : Int) (c : CVal) (k k' : Nat) (st' : List Nat),
      fuel ≤ n → l.length = len → A.InInt root → Sorting h b o sb so cap l P S k →
      Arr.siftDown A.toPlat (cmpN cmp) stop fuel root k (l.map enc) = .ok (k', st') →
      ∃ fl s' l', Src.sift_down__array_loop1.rounds A K N n
          ⟨[.ptr sb so, .fn f, start, .int stop, .int root, c], h⟩ = .ok (fl, s') ∧
        (fl = .next ∨ fl = .ret .undef) ∧ st' = l'.map enc ∧ l'.length = len ∧
        Sorting s'.2 b o sb so cap l' P S k' := by
  intro fuel
  induction fuel with
  | zero => intro n h l root c k k' st' _ _ _ _ hm; cases hm
  | succ fuel ih =>
    intro n h l root c k k' st' hn hlen hroot g hm
    obtain ⟨n, rfl⟩ : ∃ m, n = m + 1 := ⟨n - 1, by omega⟩
    subst hlen
    rw [Arr.siftDown] at hm
    obtain ⟨r2, h2, hm⟩ := C.bind_eq_ok hm
    obtain ⟨left, hl, hm⟩ := C.bind_eq_ok hm
    have cr := conv_int hroot
    have cst := conv_int hstop
    have hr2 := h2
    have hll := hl
    obtain ⟨rfl, hi2⟩ := int_eq_ok h2
    obtain ⟨rfl, hil⟩ := int_eq_ok hl
    have c2 := conv_int hi2
    have c3 := conv_int hil
    by_cases hle : root * 2 + 1 ≤ stop
    · rw [if_pos hle] at hm
      dsimp only at hm
      obtain ⟨sib, hs, hm⟩ := C.bind_eq_ok hm
      have hss := hs
      obtain ⟨rfl, his⟩ := int_eq_ok hs
      obtain ⟨⟨child, k1⟩, hck, hm⟩ : ∃ ck : Int × Nat,
          (if root * 2 + 1 + 1 ≤ stop then do
            let x ← ld (l.map enc) (root * 2 + 1)
            let y ← ld (l.map enc) (root * 2 + 1 + 1)
            .ok (if cmpN cmp k x y < 0 then root * 2 + 1 + 1 else root * 2 + 1, k + 1)
          else .ok (root * 2 + 1, k) : C (Int × Nat)) = .ok ck ∧
          (do
            let x ← ld (l.map enc) root
            let y ← ld (l.map enc) ck.1
            if cmpN cmp ck.2 x y < 0 then do
              let items ← Arr.swap (l.map enc) root ck.1
              Arr.siftDown A.toPlat (cmpN cmp) stop fuel ck.1 (ck.2 + 1) items
            else .ok (ck.2 + 1, l.map enc) : C (Nat × List Nat)) = .ok (k', st') := by
        split at hm
        · rename_i hs'
          obtain ⟨x, hx, hm⟩ := C.bind_eq_ok hm
          obtain ⟨y, hy, hm⟩ := C.bind_eq_ok hm
          exact ⟨_, by rw [if_pos hs', hx, C.ok_bind, hy]; rfl, hm⟩
        · rename_i hs'
          exact ⟨_, by rw [if_neg hs'], hm⟩
      obtain ⟨h1, e1, g1, hch⟩ := sift_child (K := K) (N := N) (start := start) (root := root) g hc hstop hil hss hck
      dsimp only at hm e1 g1 hch
      obtain ⟨x, hx, hm⟩ := C.bind_eq_ok hm
      obtain ⟨y, hy, hm⟩ := C.bind_eq_ok hm
      have mv := sift_move (N := N) (start := start) (stop := stop) g1 hc hsw hroot hch hx hy
      have hcond : evalCond A K Src.sift_down__array_loop1.cond
          ⟨[.ptr sb so, .fn f, start, .int stop, .int root, c], h⟩ =
          .ok (true, ⟨[.ptr sb so, .fn f, start, .int stop, .int root, c], h⟩) := by
        have hle' : (root * 2 + 1 ≤ stop) = True := eq_true hle
        simp [csrc, Src.sift_down__array_loop1, Stmt.cond, cr, cst, hr2, hll, c2, c3, hle']
      have hset : exec A K N Src.sift_down__array_loop1.body.fst
          ⟨[.ptr sb so, .fn f, start, .int stop, .int root, c], h⟩ =
          .ok (.next, ⟨[.ptr sb so, .fn f, start, .int stop, .int root, .int (root * 2 + 1)], h⟩) := by
        simp [csrc, Src.sift_down__array_loop1, Stmt.body, Stmt.fst, cr, hr2, hll, c2, c3]
      have hbody : Src.sift_down__array_loop1.body =
          .seq Src.sift_down__array_loop1.body.fst (.seq siftB siftC) := rfl
      by_cases hneg : cmpN cmp k1 x y < 0
      · rw [if_pos hneg] at mv hm
        obtain ⟨h', l', e2, esw, hlen', g2⟩ := mv
        rw [esw] at hm
        have hb : exec A K N Src.sift_down__array_loop1.body _ = _ :=
          (congrArg (fun z => exec A K N z _) hbody).trans
            ((exec_seq_next hset).trans ((exec_seq_next e1).trans e2))
        rw [Stmt.rounds_next hcond hb (t := ⟨[.ptr sb so, .fn f, start, .int stop, .int child, .int child], h'⟩) rfl]
        exact ih n h' l' child _ (k1 + 1) k' st' (by omega) hlen' hch g2 hm
      · rw [if_neg hneg] at mv hm
        obtain ⟨h', e2, g2⟩ := mv
        have hb : exec A K N Src.sift_down__array_loop1.body _ = _ :=
          (congrArg (fun z => exec A K N z _) hbody).trans
            ((exec_seq_next hset).trans ((exec_seq_next e1).trans e2))
        obtain ⟨rfl, rfl⟩ := Prod.mk.inj (Except.ok.inj hm)
        exact ⟨_, _, l, Stmt.rounds_ret hcond hb, .inr rfl, rfl, rfl, g2⟩
    · rw [if_neg hle] at hm
      obtain ⟨rfl, rfl⟩ := Prod.mk.inj (Except.ok.inj hm)
      refine ⟨_, _, l, Stmt.rounds_exit (s' := ⟨[.ptr sb so, .fn f, start, .int stop, .int root, c], h⟩) ?_, .inl rfl, rfl, rfl, g⟩
      have hle' : (root * 2 + 1 ≤ stop) = False := eq_false hle
      simp [csrc, Src.sift_down__array_loop1, Stmt.cond, cr, cst, hr2, hll, c2, c3, hle']

theorem src_sift {n f : Nat} {len fuel k' : Nat} {start stop : Int} {st' : List Nat} (hn : fuel + 1 ≤ n)
    (hstop : A.InInt stop) (hstart : A.InInt start) (hlen : l.length = len)
    (hc : Compares A (X.cb (sem A X prog n) f) P (arrCells b o sb so cap) (span sb so len) S cmp)
    (g : Sorting h b o sb so cap l P S k)
    (hm : Arr.siftDown A.toPlat (cmpN cmp) stop fuel start k (l.map enc) = .ok (k', st')) :
    ∃ h' l', sem A X prog (n + 1) .sift_down__array h [.ptr sb so, .fn f, .int start, .int stop] = .ok (.undef, h') ∧
      st' = l'.map enc ∧ l'.length = len ∧ Sorting h' b o sb so cap l' P S k' := by
  obtain ⟨n, rfl⟩ : ∃ m, n = m + 1 := ⟨n - 1, by omega⟩
  rw [sem_succ (d := Src.sift_down__array) rfl, FunDef.run_regs rfl rfl]
  obtain ⟨fl, s', l', e, hfl, h1, h2, h3⟩ := sift_rounds (K := ⟨sem A X prog (n + 1), X.cb (sem A X prog (n + 1))⟩)
    (N := n + 1) (start := .int start) hstop (fun q hi hj => src_arr_swap n q hi hj) hc fuel (n + 1) h l start .undef k k' st'
    (by omega) hlen hstart g hm
  have c1 := conv_int hstart
  have c2 := conv_int hstop
  generalize hK : (⟨sem A X prog (n + 1), X.cb (sem A X prog (n + 1))⟩ : Calls) = KK at e ⊢
  refine ⟨s'.2, l', ?_, h1, h2, h3⟩
  have e' : exec A KK (n + 1) Src.sift_down__array_loop1 ⟨[.ptr sb so, .fn f, .int start, .int stop, .int start, .undef], h⟩ = _ := e
  rcases hfl with rfl | rfl <;> simp [csrc, Src.sift_down__array, e', c1, c2]

theorem heapify_rounds {K : Calls} {N f : Nat} {count len : Nat}
    (hsi : ∀ {h : Heap} {l : List CVal} {start stop : Int} {k k' : Nat} {st' : List Nat}, l.length = len → A.InInt stop →
      A.InInt start → Sorting h b o sb so cap l P S k →
      Arr.siftDown A.toPlat (cmpN cmp) stop (count + 1) start k (l.map enc) = .ok (k', st') →
      ∃ h' l', K.fn .sift_down__array h [.ptr sb so, .fn f, .int start, .int stop] = .ok (.undef, h') ∧
        st' = l'.map enc ∧ l'.length = len ∧ Sorting h' b o sb so cap l' P S k') (hcount : count < A.szMod) :
    ∀ (fuel n : Nat) (h : Heap) (l : List CVal) (start : Int) (k k' : Nat) (st' : List Nat),
      fuel ≤ n → l.length = len → A.InInt start → Sorting h b o sb so cap l P S k →
      Arr.heapifyLoop A.toPlat (cmpN cmp) count fuel start k (l.map enc) = .ok (k', st') →
      ∃ s' l', Src.heapify__array_loop1.rounds A K N n ⟨[.ptr sb so, .int count, .fn f, .int start], h⟩ = .ok (.next, s') ∧
        st' = l'.map enc ∧ l'.length = len ∧ Sorting s'.2 b o sb so cap l' P S k' := by
  intro fuel
  induction fuel with
  | zero => intro n h l start k k' st' _ _ _ _ hm; cases hm
  | succ fuel ih =>
    intro n h l start k k' st' hn hlen hstart g hm
    obtain ⟨n, rfl⟩ : ∃ m, n = m + 1 := ⟨n - 1, by omega⟩
    rw [Arr.heapifyLoop] at hm
    have c1 := conv_int hstart
    by_cases hs : start ≥ 0
    · rw [if_pos hs] at hm
      dsimp only at hm
      obtain ⟨⟨k1, st1⟩, h1, hm⟩ := C.bind_eq_ok hm
      dsimp only at hm
      obtain ⟨s1, h2, hm⟩ := C.bind_eq_ok hm
      obtain ⟨h', l', e, rfl, hlen', g'⟩ := hsi hlen (inInt_toInt _) hstart g h1
      have h2' := h2
      obtain ⟨rfl, hi⟩ := int_eq_ok h2
      have c2 := conv_int hi
      have hb : exec A K N Src.heapify__array_loop1.body ⟨[.ptr sb so, .int count, .fn f, .int start], h⟩ =
          .ok (.next, ⟨[.ptr sb so, .int count, .fn f, .int (start - 1)], h'⟩) := by
        have c3 : IT.conv ⟨A.ib, true⟩ (A.szSub count 1 : Nat) = A.toInt (A.szSub count 1) := rfl
        simp [csrc, Src.heapify__array_loop1, Stmt.body, conv_size_lt hcount, e, h2', c1, c2, c3]
      have hcond : evalCond A K Src.heapify__array_loop1.cond ⟨[.ptr sb so, .int count, .fn f, .int start], h⟩ =
          .ok (true, ⟨[.ptr sb so, .int count, .fn f, .int start], h⟩) := by
        have hs' : (0 ≤ start) = True := eq_true hs
        simp [csrc, Src.heapify__array_loop1, Stmt.cond, c1, hs']
      rw [Stmt.rounds_next hcond hb (t := ⟨[.ptr sb so, .int count, .fn f, .int (start - 1)], h'⟩) rfl]
      exact ih n h' l' _ k1 k' st' (by omega) hlen' hi g' hm
    · rw [if_neg hs] at hm
      obtain ⟨rfl, rfl⟩ := Prod.mk.inj (Except.ok.inj hm)
      refine ⟨_, l, Stmt.rounds_exit (s' := ⟨[.ptr sb so, .int count, .fn f, .int start], h⟩) ?_, rfl, hlen, g⟩
      have hs' : (0 ≤ start) = False := eq_false hs
      simp [csrc, Src.heapify__array_loop1, Stmt.cond, c1, hs']

theorem div_size_two (A : Arch) {a : Nat} (ha : a < A.szMod) :
    AOp.run ⟨A.sb, false⟩ .div (a : Int) 2 = .ok ((a / 2 : Nat) : Int) := by
  simp only [AOp.run, IT.arith, Bool.false_eq_true, if_false]
  rw [if_neg (by decide), two_pow_cast]
  have e : ((a : Int).tdiv 2) = ((a / 2 : Nat) : Int) := rfl
  have e2 : (((a / 2 : Nat) : Int) % ((2 ^ A.sb : Nat) : Int)) = ((a / 2 : Nat) : Int) := by
    have : a / 2 < 2 ^ A.sb := by unfold Plat.szMod at ha; omega
    rw [← Int.natCast_emod, Nat.mod_eq_of_lt this]
  rw [e, e2]

theorem conv_size_two (A : Arch) : IT.conv ⟨A.sb, false⟩ 2 = 2 := by
  have := conv_size_lt (A := A) (n := 2) (by have := szMod_ge A.toPlat; omega)
  exact this

theorem sub_size_two (A : Arch) (a : Nat) :
    AOp.run ⟨A.sb, false⟩ .sub (a : Int) 2 = .ok ((A.szSub a 2 : Nat) : Int) := sub_size A a 2

theorem src_heapify {n f count : Nat} {k' : Nat} {st' : List Nat} (hn : count + 3 ≤ n) (hcount : count < A.szMod)
    (hc : Compares A (X.cb (sem A X prog (n - 1)) f) P (arrCells b o sb so cap) (span sb so count) S cmp)
    (g : Sorting h b o sb so cap l P S k) (hlen : l.length = count)
    (hm : Arr.heapify A.toPlat (cmpN cmp) count k (l.map enc) = .ok (k', st')) :
    ∃ h' l', sem A X prog (n + 1) .heapify__array h [.ptr sb so, .int count, .fn f] = .ok (.undef, h') ∧
      st' = l'.map enc ∧ l'.length = count ∧ Sorting h' b o sb so cap l' P S k' := by
  obtain ⟨n, rfl⟩ : ∃ m, n = m + 1 := ⟨n - 1, by omega⟩
  rw [Nat.add_sub_cancel] at hc
  rw [sem_succ (d := Src.heapify__array) rfl, FunDef.run_regs rfl rfl]
  obtain ⟨s', l', e, h1, h2, h3⟩ := heapify_rounds (A := A) (K := ⟨sem A X prog (n + 1), X.cb (sem A X prog (n + 1))⟩)
    (N := n + 1) (f := f) (count := count) (len := count)
    (fun hl hs hst g hm => src_sift (n := n) (fuel := count + 1) (by omega) hs hst hl hc g hm) hcount (count + 1) (n + 1) h l
    (A.toInt (A.szSub count 2 / 2)) k k' st' (by omega) hlen (inInt_toInt _) g hm
  generalize hK : (⟨sem A X prog (n + 1), X.cb (sem A X prog (n + 1))⟩ : Calls) = KK at e ⊢
  refine ⟨s'.2, l', ?_, h1, h2, h3⟩
  have e' : exec A KK (n + 1) Src.heapify__array_loop1 ⟨[.ptr sb so, .int count, .fn f, .int (A.toInt (A.szSub count 2 / 2))], h⟩ = _ := e
  have d2 := div_size_two A (szSub_lt A count 2)
  have c3 : IT.conv ⟨A.ib, true⟩ ((A.szSub count 2 / 2 : Nat) : Int) = A.toInt (A.szSub count 2 / 2) := rfl
  generalize hq : A.szSub count 2 / 2 = w at *
  simp [csrc, Src.heapify__array, e', conv_size_lt hcount, conv_size_two, sub_size_two, d2, c3]

theorem sort_rounds {K : Calls} {N f : Nat} {count len : Nat} {a : CVal}
    (hsw : ∀ {h : Heap} {l : List CVal} {i j : Nat}, h.Arr b o sb so cap l → (hi : i < l.length) → (hj : j < l.length) →
      K.fn .swap__array h [.ptr sb so, .int i, .int j] = .ok (.undef, h.swapped sb so i j l[i] l[j]))
    (hsi : ∀ {h : Heap} {l : List CVal} {stop : Int} {k k' m : Nat} {st' : List Nat}, l.length = len → A.InInt stop →
      m ≤ len → Sorting h b o sb so cap l P S k →
      Arr.siftDown A.toPlat (cmpN cmp) stop (m + 1) 0 k (l.map enc) = .ok (k', st') →
      ∃ h' l', K.fn .sift_down__array h [.ptr sb so, .fn f, .int 0, .int stop] = .ok (.undef, h') ∧
        st' = l'.map enc ∧ l'.length = len ∧ Sorting h' b o sb so cap l' P S k')
    (hst : ∀ k h h', S k h → Heap.Only (span sb so len) h h' → S k h') :
    ∀ (fuel n : Nat) (h : Heap) (l : List CVal) (stop : Nat) (k k' : Nat) (st' : List Nat),
      fuel ≤ n → l.length = len → stop < len → stop < A.szMod → Sorting h b o sb so cap l P S k →
      Arr.sortLoop A.toPlat (cmpN cmp) fuel stop k (l.map enc) = .ok (k', st') →
      ∃ l0 h' l', Src.mu_array_sort_loop1.rounds A K N n ⟨[a, .fn f, .ptr sb so, .int count, .int stop], h⟩ =
          .ok (.next, ⟨a :: l0, h'⟩) ∧
        st' = l'.map enc ∧ l'.length = len ∧ Sorting h' b o sb so cap l' P S k' := by
  intro fuel
  induction fuel with
  | zero => intro n h l start k k' st' _ _ _ _ _ hm; cases hm
  | succ fuel ih =>
    intro n h l stop k k' st' hn hlen hlt hsz g hm
    obtain ⟨n, rfl⟩ : ∃ m, n = m + 1 := ⟨n - 1, by omega⟩
    rw [Arr.sortLoop] at hm
    have c1 := conv_size_lt hsz
    by_cases hs : stop > 0
    · rw [if_pos hs] at hm
      obtain ⟨st1, h1, hm⟩ := C.bind_eq_ok hm
      dsimp only at hm
      obtain ⟨⟨k1, st2⟩, h2, hm⟩ := C.bind_eq_ok hm
      dsimp only at hm
      have hsub : A.szSub stop 1 = stop - 1 := Plat.szSub_of_le (by omega) hsz
      rw [hsub] at h2 hm
      have h1' := h1
      unfold Arr.swap at h1'
      obtain ⟨x, hx, h1'⟩ := C.bind_eq_ok h1'
      clear h1'
      obtain ⟨i, hi, ei, rfl⟩ := ld_map hx
      rw [ei, show (0 : Int) = ((0 : Nat) : Int) from rfl, model_swap (j := 0) hi (by omega)] at h1
      obtain rfl := Except.ok.inj h1
      have hw := hsw g.arr hi (show 0 < l.length by omega)
      rw [Int.natCast_zero] at hw
      have g1 : Sorting (h.swapped sb so i 0 l[i] l[0]) b o sb so cap (swapped l i 0) P S k :=
        ⟨(g.arr.swap hi (by omega)).1, swapped_all g.ok hi (by omega),
          hst _ _ _ g.st (by subst hlen; exact (g.arr.swap hi (by omega)).2)⟩
      rw [show stop - 1 + 2 = stop + 1 by omega] at h2
      obtain ⟨h', l', e, rfl, hlen', g'⟩ := hsi (by simpa using hlen) (inInt_toInt _) (by omega) g1 h2
      have hb : exec A K N Src.mu_array_sort_loop1.body ⟨[a, .fn f, .ptr sb so, .int count, .int stop], h⟩ =
          .ok (.next, ⟨[a, .fn f, .ptr sb so, .int count, .int (stop - 1 : Nat)], h'⟩) := by
        have c3 : IT.conv ⟨A.ib, true⟩ (stop : Int) = i := ei
        have c4 : IT.conv ⟨A.ib, true⟩ ((stop - 1 : Nat) : Int) = A.toInt (stop - 1) := rfl
        have c5 := conv_size_lt (A := A) (n := stop - 1) (by omega)
        generalize hx : l[i] = x at *
        generalize hy : l[0] = y at *
        generalize hz : stop - 1 = z at *
        simp [csrc, Src.mu_array_sort_loop1, Stmt.body, c1, c3, c4, c5, hw, e, hsub]
      have hcond : evalCond A K Src.mu_array_sort_loop1.cond ⟨[a, .fn f, .ptr sb so, .int count, .int stop], h⟩ =
          .ok (true, ⟨[a, .fn f, .ptr sb so, .int count, .int stop], h⟩) := by
        have hs' : (0 < stop) = True := eq_true hs
        simp [csrc, Src.mu_array_sort_loop1, Stmt.cond, c1, hs']
      rw [Stmt.rounds_next hcond hb (t := ⟨[a, .fn f, .ptr sb so, .int count, .int (stop - 1 : Nat)], h'⟩) rfl]
      exact ih n h' l' _ k1 k' st' (by omega) hlen' (by omega) (by omega) g' hm
    · rw [if_neg hs] at hm
      obtain ⟨rfl, rfl⟩ := Prod.mk.inj (Except.ok.inj hm)
      refine ⟨_, _, l, Stmt.rounds_exit (s' := ⟨[a, .fn f, .ptr sb so, .int count, .int stop], h⟩) ?_, rfl, hlen, g⟩
      have hs' : (0 < stop) = False := eq_false hs
      simp [csrc, Src.mu_array_sort_loop1, Stmt.cond, c1, hs']

theorem src_sort_run {n f : Nat} {a1 : Mu.Arr.Arr} (hn : l.length + 4 ≤ n) (hlen : l.length < A.szMod)
    (hc : ∀ m, n ≤ m + 2 → Compares A (X.cb (sem A X prog m) f) P (arrCells b o sb so cap) (span sb so l.length) S cmp)
    (g : Sorting h b o sb so cap l P S 0)
    (hm : Arr.sort A.toPlat ⟨l.map enc, l.length, l.length⟩ (cmpN cmp) = .ok a1) :
    ∃ h' l' k, sem A X prog (n + 1) .mu_array_sort h [.ptr b o, .fn f] = .ok (.ptr b o, h') ∧
      a1.storage = l'.map enc ∧ l'.length = l.length ∧ Sorting h' b o sb so cap l' P S k := by
  obtain ⟨n, rfl⟩ : ∃ m, n = m + 2 := ⟨n - 2, by omega⟩
  rw [sem_succ (d := Src.mu_array_sort) rfl, FunDef.run_regs rfl rfl]
  have hit := g.arr.items
  have hcn := g.arr.cnt
  have c1 := conv_size_lt hlen
  unfold Arr.sort at hm
  dsimp only at hm
  by_cases h0 : l.length > 0
  · rw [if_pos h0] at hm
    obtain ⟨⟨k1, st1⟩, hm1, hm⟩ := C.bind_eq_ok hm
    dsimp only at hm
    obtain ⟨⟨k2, st2⟩, hm2, hm⟩ := C.bind_eq_ok hm
    dsimp only at hm
    obtain rfl := Except.ok.inj hm
    have hsub : A.szSub l.length 1 = l.length - 1 := Plat.szSub_of_le (by omega) hlen
    rw [hsub] at hm2
    obtain ⟨h1, l1, e1, rfl, hl1, g1⟩ := src_heapify (A := A) (X := X) (n := n + 1) (f := f) (by omega) hlen
      (hc n (by omega)) g rfl hm1
    obtain ⟨l0, h2, l2, e2, rfl, hl2, g2⟩ := sort_rounds (A := A)
      (K := ⟨sem A X prog (n + 2), X.cb (sem A X prog (n + 2))⟩)
      (N := n + 2) (f := f) (count := l.length) (len := l.length) (a := .ptr b o)
      (fun q hi hj => src_arr_swap (n + 1) q hi hj)
      (fun {_ _ _ _ _ m _} hl hs hm' g hm => src_sift (n := n + 1) (fuel := m + 1) (by omega) hs ⟨by have := A.intMin_eq; have := A.intMax_ge; omega, by have := A.intMax_ge; omega⟩ hl
        (hc (n + 1) (by omega)) g hm)
      (hc n (by omega)).stable (l.length + 1) (n + 2) h1 l1 (l.length - 1) k1 k2 st2 (by omega) hl1 (by omega) (by omega) g1 hm2
    refine ⟨h2, l2, k2, ?_, rfl, hl2, g2⟩
    generalize hK : (⟨sem A X prog (n + 2), X.cb (sem A X prog (n + 2))⟩ : Calls) = KK at e2 ⊢
    have e1' : KK.fn .heapify__array h [.ptr sb so, .int l.length, .fn f] = .ok (.undef, h1) := by rw [← hK]; exact e1
    have e2' : exec A KK (n + 2) Src.mu_array_sort_loop1 ⟨[.ptr b o, .fn f, .ptr sb so, .int l.length, .int (l.length - 1 : Nat)], h1⟩ = _ := e2
    have h0' : (0 < l.length) = True := eq_true h0
    have c5 := conv_size_lt (A := A) (n := l.length - 1) (by omega)
    clear e1 e2 hm1 hm2
    generalize hz : l.length - 1 = z at *
    generalize hw : l.length = w at *
    simp [csrc, Src.mu_array_sort, hit, hcn, c1, h0', hsub, c5, e1', e2']
  · rw [if_neg h0] at hm
    obtain rfl := Except.ok.inj hm
    refine ⟨h, l, 0, ?_, rfl, rfl, g⟩
    have h0' : (0 < l.length) = False := eq_false h0
    generalize hw : l.length = w at *
    simp [csrc, Src.mu_array_sort, hit, hcn, c1, h0']

/-! ## Inserting in order -/

theorem find_rounds {K : Calls} {N f : Nat} {v : CVal} (hv : P v) (hvu : v.use = .ok v)
    (hc : Compares A (K.cb f) P (arrCells b o sb so cap) wr S cmp) {stl : List Nat} {cap' cnt' : Nat} :
    ∀ (fuel n : Nat) (h : Heap) (low high : Int) (c : CVal) (k : Nat) (r : Int),
      fuel ≤ n → stl = l.map enc → A.InInt low → A.InInt high → Sorting h b o sb so cap l P S k →
      Arr.findLoop A.toPlat ⟨stl, cap', cnt'⟩ (enc v) (cmpN cmp) fuel low high k = .ok r →
      ∃ h' x y k', Src.find_insertion_index__array_loop1.rounds A K N n
          ⟨[.ptr b o, v, .fn f, .int low, .int high, c], h⟩ = .ok (.next, ⟨[.ptr b o, v, .fn f, .int r, x, y], h'⟩) ∧
        Sorting h' b o sb so cap l P S k' := by
  intro fuel
  induction fuel with
  | zero => intro n h low high c k r _ _ _ _ _ hm; cases hm
  | succ fuel ih =>
    intro n h low high c k r hn hst hlow hhigh g hm
    obtain ⟨n, rfl⟩ : ∃ m, n = m + 1 := ⟨n - 1, by omega⟩
    rw [Arr.findLoop] at hm
    have c1 := conv_int hlow
    have c2 := conv_int hhigh
    by_cases hle : low ≤ high
    · rw [if_pos hle] at hm
      obtain ⟨sum, hs, hm⟩ := C.bind_eq_ok hm
      dsimp only at hm
      obtain ⟨x, hx, hm⟩ := C.bind_eq_ok hm
      rw [hst] at hx
      obtain ⟨j, hj, ej, rfl⟩ := ld_map hx
      have hs' := hs
      obtain ⟨rfl, hsi⟩ := int_eq_ok hs
      have c3 := conv_int hsi
      have hdiv : AOp.run ⟨A.ib, true⟩ .div (low + high) 2 = .ok (j : Int) := by
        have hmx := A.intMax_ge
        have hmn := A.intMin_eq
        obtain ⟨q1, q2⟩ := hsi
        rw [show AOp.run ⟨A.ib, true⟩ .div (low + high) 2 = A.int ((low + high).tdiv 2) from rfl]
        rw [A.int_ok ?_ ?_]
        · exact congrArg _ ej
        · rw [ej]; omega
        · rw [ej]
          have : (j : Int) ≤ (low + high).tdiv 2 := by rw [ej]
          have h9 : (low + high).tdiv 2 ≤ A.intMax := by
            rcases Int.le_total 0 (low + high) with h' | h'
            · rw [Int.tdiv_eq_ediv_of_nonneg h']; omega
            · rw [show low + high = -(-(low+high)) by omega, Int.neg_tdiv, Int.tdiv_eq_ediv_of_nonneg (by omega)]; omega
          omega
      obtain ⟨h1, e1, g1⟩ := g.compare hc (g.ok _ (List.getElem_mem hj)) hv
      obtain ⟨r1, r2⟩ := g.arr.ld hj
      have hit := g.arr.items
      have p1 := Heap.padd_in (h := h) (b := sb) (o := so) (i := (j : Int)) (n := 1)
        (by rw [Int.natCast_one, Int.one_mul, r1]; rfl)
      rw [Int.natCast_one, Int.one_mul] at p1
      have c4 := conv_int (A := A) (hc.int k l[j] v)
      simp only [cmpN, code_enc] at hm
      have hcond : evalCond A K Src.find_insertion_index__array_loop1.cond
          ⟨[.ptr b o, v, .fn f, .int low, .int high, c], h⟩ =
          .ok (true, ⟨[.ptr b o, v, .fn f, .int low, .int high, c], h⟩) := by
        have hle' : (low ≤ high) = True := eq_true hle
        simp [csrc, Src.find_insertion_index__array_loop1, Stmt.cond, c1, c2, hle']
      rw [ej] at hm
      have cj : IT.conv ⟨A.ib, true⟩ (j : Int) = j := by
        apply conv_int
        obtain ⟨q1, q2⟩ := hsi
        have hmx := A.intMax_ge
        have hmn := A.intMin_eq
        exact ⟨by omega, by
          have h9 : (low + high).tdiv 2 ≤ A.intMax := by
            rcases Int.le_total 0 (low + high) with h' | h'
            · rw [Int.tdiv_eq_ediv_of_nonneg h']; omega
            · rw [show low + high = -(-(low+high)) by omega, Int.neg_tdiv, Int.tdiv_eq_ediv_of_nonneg (by omega)]; omega
          omega⟩
      by_cases hpos : cmp k l[j] v > 0
      · rw [if_pos hpos] at hm
        obtain ⟨hi2, hh, hm⟩ := C.bind_eq_ok hm
        have hh' := hh
        obtain ⟨rfl, hin⟩ := int_eq_ok hh
        have c5 := conv_int hin
        have hb : exec A K N Src.find_insertion_index__array_loop1.body
            ⟨[.ptr b o, v, .fn f, .int low, .int high, c], h⟩ =
            .ok (.next, ⟨[.ptr b o, v, .fn f, .int low, .int ((j : Int) - 1), .int j], h1⟩) := by
          generalize l[j] = x at *
          generalize hz : cmp k x v = z at *
          have hpos' : (0 < z) = True := eq_true hpos
          simp [csrc, Src.find_insertion_index__array_loop1, Stmt.body, c1, c2, c3, hs', hdiv, hit, p1, r1, r2, e1, c4, hpos', hh', c5, cj, hvu]
        rw [Stmt.rounds_next hcond hb (t := ⟨[.ptr b o, v, .fn f, .int low, .int ((j : Int) - 1), .int j], h1⟩) rfl]
        exact ih n h1 low _ _ _ r (by omega) hst hlow hin g1 hm
      · rw [if_neg hpos] at hm
        obtain ⟨lo2, hh, hm⟩ := C.bind_eq_ok hm
        have hh' := hh
        obtain ⟨rfl, hin⟩ := int_eq_ok hh
        have c5 := conv_int hin
        have hb : exec A K N Src.find_insertion_index__array_loop1.body
            ⟨[.ptr b o, v, .fn f, .int low, .int high, c], h⟩ =
            .ok (.next, ⟨[.ptr b o, v, .fn f, .int ((j : Int) + 1), .int high, .int j], h1⟩) := by
          generalize l[j] = x at *
          generalize hz : cmp k x v = z at *
          have hpos' : (0 < z) = False := eq_false hpos
          simp [csrc, Src.find_insertion_index__array_loop1, Stmt.body, c1, c2, c3, hs', hdiv, hit, p1, r1, r2, e1, c4, hpos', hh', c5, cj, hvu]
        rw [Stmt.rounds_next hcond hb (t := ⟨[.ptr b o, v, .fn f, .int ((j : Int) + 1), .int high, .int j], h1⟩) rfl]
        exact ih n h1 _ high _ _ r (by omega) hst hin hhigh g1 hm
    · rw [if_neg hle] at hm
      obtain rfl := Except.ok.inj hm
      refine ⟨h, _, _, k, Stmt.rounds_exit (s' := ⟨[.ptr b o, v, .fn f, .int low, .int high, c], h⟩) ?_, g⟩
      have hle' : (low ≤ high) = False := eq_false hle
      simp [csrc, Src.find_insertion_index__array_loop1, Stmt.cond, c1, c2, hle']

/-- The array of the model that holds the numbers of the items. -/
theorem rep_enc (l : List CVal) : Arr.Rep ⟨l.map enc, l.length, l.length⟩ (l.map enc) := by
  refine ⟨?_, ?_, ?_, ?_⟩ <;> simp

theorem src_find {n f : Nat} {v : CVal} (hv : P v) (hvu : v.use = .ok v) (hn : l.length + 1 ≤ n)
    (hlen : l.length < A.szMod) (hmax : (l.length : Int) ≤ A.intMax)
    (hc : Compares A (X.cb (sem A X prog n) f) P (arrCells b o sb so cap) wr S cmp)
    (g : Sorting h b o sb so cap l P S 0) {r : Nat} (hr : r ≤ l.length)
    (hm : Arr.findLoop A.toPlat ⟨l.map enc, l.length, l.length⟩ (enc v) (cmpN cmp) (l.length + 1) 0
      (A.toInt (A.szSub l.length 1)) 0 = .ok (r : Int)) :
    ∃ h' k', sem A X prog (n + 1) .find_insertion_index__array h [.ptr b o, v, .fn f] = .ok (.int r, h') ∧
      Sorting h' b o sb so cap l P S k' := by
  rw [sem_succ (d := Src.find_insertion_index__array) rfl, FunDef.run_regs rfl rfl]
  obtain ⟨h', x, y, k', e, g'⟩ := find_rounds (A := A) (K := ⟨sem A X prog n, X.cb (sem A X prog n)⟩) (N := n) hv hvu hc
    (l.length + 1) n h 0 (A.toInt (A.szSub l.length 1)) .undef 0 r (by omega) rfl
    ⟨by have := A.intMin_eq; have := A.intMax_ge; omega, by have := A.intMax_ge; omega⟩ (inInt_toInt _) g hm
  refine ⟨h', k', ?_, g'⟩
  generalize hK : (⟨sem A X prog n, X.cb (sem A X prog n)⟩ : Calls) = KK at e ⊢
  have e' : exec A KK n Src.find_insertion_index__array_loop1 ⟨[.ptr b o, v, .fn f, .int 0, .int (A.toInt (A.szSub l.length 1)), .undef], h⟩ = _ := e
  have hcn := g.arr.cnt
  have c1 := conv_size_lt hlen
  have c2 := conv_size_lt (A := A) (n := r) (by omega)
  have c3 : IT.conv ⟨A.ib, true⟩ (A.szSub l.length 1 : Nat) = A.toInt (A.szSub l.length 1) := rfl
  clear e hm
  generalize l.length = w at *
  simp [csrc, Src.find_insertion_index__array, hcn, c1, c2, c3, e']

theorem src_insert_sorted_run {n f : Nat} {v : CVal} (hv : P v) (hvu : v ≠ .undef) (hn : l.length + 2 ≤ n)
    (hcap : (cap : Int) ≤ A.intMax) (hb : (2 * l.length : Int) ≤ A.intMax + 1)
    (hc : ∀ m, n ≤ m + 1 → Compares A (X.cb (sem A X prog m) f) P (arrCells b o sb so cap) (arrCells b o sb so cap) S cmp)
    (g : Sorting h b o sb so cap l P S 0) :
    ∃ h' i k, sem A X prog (n + 1) .mu_array_insert_sorted h [.ptr b o, v, .fn f] =
        .ok (.int (if l.length < cap then 1 else 0), h') ∧ i ≤ l.length ∧
      h'.Arr b o sb so cap (if l.length < cap then l.take i ++ v :: l.drop i else l) ∧ S k h' ∧
      (Arr.Spec.TotalPreorder (cmpN cmp) → Arr.Spec.Sorted (cmpN cmp) (l.map enc) →
        (∀ j (hj : j < i) (hl : j < l.length), cmp 0 l[j] v ≤ 0) ∧ (∀ j (hj : i ≤ j) (hl : j < l.length), 0 < cmp 0 l[j] v)) := by
  obtain ⟨n, rfl⟩ : ∃ m, n = m + 2 := ⟨n - 2, by omega⟩
  rw [sem_succ (d := Src.mu_array_insert_sorted) rfl, FunDef.run_regs rfl rfl]
  have hlt := (g.arr.lt hcap).1
  have hle := g.arr.le
  have hu : v.use = .ok v := by cases v <;> first | rfl | exact absurd rfl hvu
  have e0 := src_arr_count (A := A) (X := X) (n + 1) g.arr
  have c1 := conv_size_lt hlt
  by_cases h0 : l.length = 0
  · have e1 := src_arr_push (A := A) (X := X) n g.arr hcap hvu
    have q := g.arr
    obtain rfl := List.length_eq_zero_iff.mp h0
    generalize hK : (⟨sem A X prog (n + 2), X.cb (sem A X prog (n + 2))⟩ : Calls) = KK
    have e0' : KK.fn .mu_array_count h [.ptr b o] = .ok (.int 0, h) := by rw [← hK]; exact e0
    by_cases hroom : 0 < cap
    · have hp := q.push hroom hvu
      refine ⟨h.pushed b o sb so 0 v, 0, 0, ?_, Nat.le_refl _, ?_, ?_, ?_⟩
      · rw [if_pos (show ([] : List CVal).length < cap from hroom)] at e1
        have e1' : KK.fn .mu_array_push h [.ptr b o, v] = .ok (.int 1, h.pushed b o sb so 0 v) := by rw [← hK]; exact e1
        simp [csrc, Src.mu_array_insert_sorted, e0', e1', hu, hroom]
      · rw [if_pos (show ([] : List CVal).length < cap from hroom)]
        exact hp
      · exact (hc (n + 1) (by omega)).stable _ _ _ g.st (q.pushed_only hroom v)
      · intro _ _; exact ⟨fun j hj => by omega, fun j _ hj => by simp at hj⟩
    · refine ⟨h, 0, 0, ?_, Nat.le_refl _, ?_, g.st, ?_⟩
      · rw [if_neg (show ¬ ([] : List CVal).length < cap from hroom)] at e1
        have e1' : KK.fn .mu_array_push h [.ptr b o, v] = .ok (.int 0, h) := by rw [← hK]; exact e1
        simp [csrc, Src.mu_array_insert_sorted, e0', e1', hu, hroom]
      · rw [if_neg (show ¬ ([] : List CVal).length < cap from hroom)]
        exact q
      · intro _ _; exact ⟨fun j hj => by omega, fun j _ hj => by simp at hj⟩
  · have hsub : A.toInt (A.szSub l.length 1) = (((l.map enc).length : Nat) : Int) - 1 := by
      rw [A.szSub_of_le (by omega) (by omega), A.toInt_of_le (by omega), List.length_map]; omega
    obtain ⟨r, f1, f2, f3, f4⟩ := Arr.findLoop_any (P := A.toPlat) (rep_enc l) (enc v) (cmpN cmp) (by rw [List.length_map]; exact hb)
      (l.length + 1) 0 (l.map enc).length 0 (by omega) (by omega) (by rw [List.length_map]; omega)
    rw [← hsub] at f1
    rw [List.length_map] at f3
    obtain ⟨h1, k1, e1, g1⟩ := src_find (A := A) (X := X) (n := n + 1) (f := f) hv hu (by omega) hlt (by omega) (hc (n + 1) (by omega)) g f3 f1
    obtain ⟨h2, e2, q2, o2⟩ := src_arr_insert (A := A) (X := X) n g1.arr hcap hvu (i := r) (by omega)
    have eq2 : (if l.length < cap ∧ r ≤ l.length then l.take r ++ v :: l.drop r else l) =
        if l.length < cap then l.take r ++ v :: l.drop r else l := by
      by_cases hx : l.length < cap
      · rw [if_pos hx, if_pos ⟨hx, f3⟩]
      · rw [if_neg hx, if_neg (fun h => hx h.1)]
    rw [eq2] at q2
    have ew : (if l.length < cap ∧ r ≤ l.length then (1 : Int) else 0) = if l.length < cap then 1 else 0 := by
      by_cases hx : l.length < cap
      · rw [if_pos hx, if_pos ⟨hx, f3⟩]
      · rw [if_neg hx, if_neg (fun h => hx h.1)]
    rw [ew] at e2
    refine ⟨h2, r, k1, ?_, f3, q2, (hc (n + 1) (by omega)).stable _ _ _ g1.st o2, ?_⟩
    · generalize hK : (⟨sem A X prog (n + 2), X.cb (sem A X prog (n + 2))⟩ : Calls) = KK
      have e0' : KK.fn .mu_array_count h [.ptr b o] = .ok (.int l.length, h) := by rw [← hK]; exact e0
      have e1' : KK.fn .find_insertion_index__array h [.ptr b o, v, .fn f] = .ok (.int r, h1) := by rw [← hK]; exact e1
      have e2' : KK.fn .mu_array_insert h1 [.ptr b o, v, .int r] = .ok (.int (if l.length < cap then 1 else 0), h2) := by rw [← hK]; exact e2
      have h0' : (l.length = 0) = False := eq_false h0
      have cr : IT.conv ⟨A.ib, true⟩ (r : Int) = r := conv_int ⟨by have := A.intMin_eq; have := A.intMax_ge; omega, by omega⟩
      have cr2 := conv_size_lt (A := A) (n := r) (by omega)
      clear e0 e1 e2 f4 f1 q2 hsub
      generalize (if l.length < cap then (1 : Int) else 0) = ww at *
      generalize l.length = w at *
      simp [csrc, Src.mu_array_insert_sorted, e0', e1', e2', hu, h0', c1, cr, cr2]
    · intro ht hsd
      obtain ⟨z1, z2⟩ := f4 ht hsd (by omega) (by intro i h1 h2; omega)
      have hg : ∀ j (hl : j < l.length), cmpN cmp 0 (Arr.g (l.map enc) j) (enc v) = cmp 0 l[j] v := by
        intro j hl
        unfold Arr.g cmpN
        simp [hl, code_enc]
      exact ⟨fun j hj hl => by rw [← hg j hl]; exact z1 j hj,
        fun j hj hl => by rw [← hg j hl]; exact z2 j hj (by rw [List.length_map]; exact hl)⟩

end

end Mu.CS
