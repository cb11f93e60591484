import Verif.Spec.SrcArrayBBuf
import Verif.Props.SrcArraySort
import Verif.Props.SrcBBufView

/-! # C137: sorting byte buffers, from the parsed source

mu_array.c and mu_bbuf.c as parsed; the comparison function calls mu_bbuf_compare. -/

namespace Mu.CS

open BBuf

variable {A : Arch} {X : Ext} {h : Heap} {b sb : Base} {o so : Int} {cap : Nat} {l : List CVal} {text : CVal → List UInt8} {f : Nat}

/-! ## The result of a comparison -/

theorem forLoop_some {α : Type} {P : Plat} {cond : Int → Bool} {d : Int} {body : Int → C (Option α)} {Q : α → Prop}
    (hb : ∀ i a, body i = .ok (some a) → Q a) : ∀ (n : Nat) (i j : Int) (a : α), forLoop P cond d body n i = .ok (some a, j) → Q a := by
  intro n
  induction n with
  | zero => intro i j a e; cases e
  | succ n ih =>
    intro i j a e
    rw [forLoop] at e
    split at e
    · obtain ⟨r, e1, e⟩ := C.bind_eq_ok e
      cases r with
      | some c =>
        simp only [Except.ok.injEq, Prod.mk.injEq, Option.some.injEq] at e
        exact e.1 ▸ hb i c e1
      | none =>
        obtain ⟨k, -, e⟩ := C.bind_eq_ok e
        exact ih k j a e
    · simp at e

theorem compare_int {P : Plat} {m : Mem} {x y : BBuf} {d : Int} (e : BBuf.compare P m x y = .ok d) : P.intMin ≤ d ∧ d ≤ P.intMax := by
  unfold BBuf.compare BBuf.strCompareAux at e
  obtain ⟨⟨r, j⟩, e1, e⟩ := C.bind_eq_ok e
  cases r with
  | some a =>
    simp only [Except.ok.injEq] at e
    subst e
    refine forLoop_some (Q := fun d => P.intMin ≤ d ∧ d ≤ P.intMax) ?_ _ _ _ _ e1
    intro i a ea
    obtain ⟨u, -, ea⟩ := C.bind_eq_ok ea
    obtain ⟨w, -, ea⟩ := C.bind_eq_ok ea
    dsimp only at ea
    split at ea
    · simp only [Except.ok.injEq, Option.some.injEq] at ea
      have := u.toNat_lt
      have := w.toNat_lt
      have := P.intMin_eq
      have := P.intMax_ge
      omega
    · simp at ea
  | none =>
    unfold Plat.int at e
    simp only at e
    split at e
    · rename_i hd
      obtain rfl := Except.ok.inj e
      exact hd
    · cases e

/-- What mu_bbuf_compare returns for two byte strings. -/
def order (A : Arch) (s t : List UInt8) : Int :=
  match BBuf.compare A.toPlat (two s t) (buf0 s) (buf1 t) with
  | .ok d => d
  | .error _ => 0

theorem order_int (s t : List UInt8) : A.intMin ≤ order A s t ∧ order A s t ≤ A.intMax := by
  unfold order
  split
  · rename_i d e; exact compare_int e
  · have := A.intMin_eq
    have := A.intMax_ge
    omega

theorem order_spec {s t : List UInt8} (s1 : Short A s) (s2 : Short A t) :
    BBuf.compare A.toPlat (two s t) (buf0 s) (buf1 t) = .ok (order A s t) ∧ (order A s t < 0 ↔ s < t) ∧ (0 < order A s t ↔ t < s) := by
  obtain ⟨d, e, c1, -, c2⟩ := BBuf.C38_compare (P := A.toPlat) (valid0 (l := s) (l2 := t)) valid1 s1 s2
  rw [view0, view1] at c1 c2
  have : order A s t = d := by unfold order; rw [e]
  rw [this]
  exact ⟨e, c1, c2⟩

theorem order_le {s t : List UInt8} (s1 : Short A s) (s2 : Short A t) : order A s t ≤ 0 ↔ s ≤ t := by
  rw [← List.not_lt, ← (order_spec s1 s2).2.2]
  omega

theorem Heap.Shows.only {own W : Base → Int → Prop} {g : Heap} {v : CVal} {s : List UInt8} (hv : h.Shows own v s) (o : Heap.Only W h g)
    (hW : ∀ b o, W b o → own b o) : g.Shows own v s := by
  obtain ⟨b, o', bb, ob, rfl, ⟨b1, b2, b3⟩, s1, s2⟩ := hv
  refine ⟨b, o', bb, ob, rfl, ⟨?_, ?_, ?_⟩, s1, s2⟩
  · exact o.at_of b1 fun hw => s1 0 (by omega) (by simpa using hW _ _ hw)
  · exact o.at_of b2 fun hw => s1 1 (by omega) (hW _ _ hw)
  · exact o.bytes b3 fun i hi hw => s2 i hi (hW _ _ hw)

theorem shows_compare {own : Base → Int → Prop} {x y : CVal} {s t : List UInt8} (hx : h.Shows own x s) (hy : h.Shows own y t)
    (s1 : Short A s) (s2 : Short A t) {n : Nat} (hn : s.length + 3 ≤ n) :
    sem A X prog n .mu_bbuf_compare h [x, y] = .ok (.int (order A s t), h) := by
  obtain ⟨b, o, bb, ob, rfl, h1, -⟩ := hx
  obtain ⟨b2, o2, bb2, ob2, rfl, h2, -⟩ := hy
  obtain ⟨n, rfl⟩ : ∃ k, n = k + 1 := ⟨n - 1, by omega⟩
  exact src_compare n (MB.two h1.bytes h2.bytes) (h1.rep0 s1) (h2.rep1 s2) (fuel_short s1 (by omega)) (order_spec s1 s2).1

theorem order_orders {P : CVal → Prop} (hs : ∀ v, P v → Short A (text v)) : Orders P fun x y => order A (text x) (text y) := by
  constructor
  · intro x y hx hy
    rw [(order_spec (hs x hx) (hs y hy)).2.1, (order_spec (hs y hy) (hs x hx)).2.2]
  · intro x y z hx hy hz h1 h2
    rw [order_le (hs x hx) (hs y hy)] at h1
    rw [order_le (hs y hy) (hs z hz)] at h2
    rw [order_le (hs x hx) (hs z hz)]
    exact List.le_trans h1 h2

theorem bbuf_compares {W : Base → Int → Prop} (hx : BBufCmp X f) {L n : Nat} (hL : ∀ v ∈ l, (text v).length ≤ L) (hn : L + 3 ≤ n)
    (hs : ∀ v ∈ l, Short A (text v)) (hh : ∀ v ∈ l, h.Shows (arrCells b o sb so cap) v (text v))
    (hW : ∀ b' o', W b' o' → arrCells b o sb so cap b' o') :
    Compares A (X.cb (sem A X prog n) f) (· ∈ l) (arrCells b o sb so cap) W (fun _ g => Heap.Only W h g)
      (fun _ x y => order A (text x) (text y)) := by
  refine ⟨fun k g x y og mx my => ⟨g, ?_, og, .refl _ _⟩, fun _ _ _ => order_int _ _, fun _ _ _ h1 h2 => h1.trans h2⟩
  rw [hx]
  have := hL x mx
  exact shows_compare ((hh x mx).only og hW) ((hh y my).only og hW) (hs x mx) (hs y my) (by omega)

/-- **C137, sorting**: an array of pointers to byte buffers, sorted with a comparison function that calls `mu_bbuf_compare`, holds the same
pointers in lexicographic order of the bytes of the buffers; nothing but the order of the items has changed, and the buffers are as
before. -/
theorem C137_sort (hx : BBufCmp X f) {n L : Nat} (hw : A.ib < A.sb ∨ l.length ≠ 1) (hb : (2 * l.length : Int) ≤ A.intMax + 1)
    (q : h.Arr b o sb so cap l) (hh : ∀ v ∈ l, h.Shows (arrCells b o sb so cap) v (text v)) (hs : ∀ v ∈ l, Short A (text v))
    (hL : ∀ v ∈ l, (text v).length ≤ L) (hn : l.length + L + 8 ≤ n) :
    ∃ h' l', sem A X prog n .mu_array_sort h [.ptr b o, .fn f] = .ok (.ptr b o, h') ∧ h'.Arr b o sb so cap l' ∧ l'.Perm l ∧
      Heap.Only (span sb so l.length) h h' ∧ (∀ v ∈ l, h'.Shows (arrCells b o sb so cap) v (text v)) ∧
      (l'.map text).Pairwise (· ≤ ·) := by
  have hW : ∀ b' o', span sb so l.length b' o' → arrCells b o sb so cap b' o' := by
    rintro b' o' ⟨e, h1, h2⟩
    have := q.le
    exact .inr ⟨e, h1, by omega⟩
  obtain ⟨m, rfl⟩ : ∃ m, n = l.length + m + 5 := ⟨n - l.length - 5, by omega⟩
  obtain ⟨h', l', k, e1, e2, e3, e4, e5⟩ := C125_sort (S := fun _ g => Heap.Only (span sb so l.length) h g) (P := (· ∈ l))
    (cmp := fun _ x y => order A (text x) (text y)) A X m f hw hb
    (fun n hn' => bbuf_compares hx hL (by omega) hs hh hW) q (fun _ hv => hv) (.refl _ _)
  refine ⟨h', l', e1, e2, e3, e4, fun v hv => (hh v hv).only e4 hW, ?_⟩
  have := e5 (fun _ _ _ _ _ => rfl) (order_orders hs)
  rw [List.pairwise_map]
  refine this.imp_of_mem fun {x y} mx my hxy => ?_
  exact (order_le (hs x (e3.mem_iff.mp mx)) (hs y (e3.mem_iff.mp my))).mp hxy

/-- **C137, insertion**: inserting a pointer to a byte buffer into an array that is in lexicographic order, not full, with the same
comparison function puts it behind all buffers that are not greater. -/
theorem C137_insert_sorted (hx : BBufCmp X f) {n L : Nat} {v : CVal} (hcap : (cap : Int) ≤ A.intMax) (hb : (2 * l.length : Int) ≤ A.intMax + 1)
    (q : h.Arr b o sb so cap l) (hroom : l.length < cap) (hh : ∀ y ∈ v :: l, h.Shows (arrCells b o sb so cap) y (text y))
    (hs : ∀ y ∈ v :: l, Short A (text y)) (hL : ∀ y ∈ v :: l, (text y).length ≤ L) (hsort : (l.map text).Pairwise (· ≤ ·))
    (hn : l.length + L + 6 ≤ n) :
    ∃ h' before after, sem A X prog n .mu_array_insert_sorted h [.ptr b o, v, .fn f] = .ok (.int 1, h') ∧ l = before ++ after ∧
      h'.Arr b o sb so cap (before ++ v :: after) ∧ (∀ y ∈ before, text y ≤ text v) ∧ (∀ y ∈ after, text v < text y) ∧
      ((before ++ v :: after).map text).Pairwise (· ≤ ·) ∧ Heap.Only (arrCells b o sb so cap) h h' ∧
      ∀ y ∈ v :: l, h'.Shows (arrCells b o sb so cap) y (text y) := by
  obtain ⟨m, rfl⟩ : ∃ m, n = l.length + m + 3 := ⟨n - l.length - 3, by omega⟩
  have hv : v ≠ .undef := by
    obtain ⟨b, o, -, -, rfl, -⟩ := hh v (by simp)
    simp
  obtain ⟨h', before, after, k, e1, rfl, e2, e3, e4⟩ := C125_insert_sorted (S := fun _ g => Heap.Only (arrCells b o sb so cap) h g)
    (P := (· ∈ v :: l)) (cmp := fun _ x y => order A (text x) (text y)) A X m f hcap hb (v := v) (by simp) hv
    (fun n hn' => bbuf_compares (l := v :: l) hx hL (by omega) hs hh fun _ _ hw => hw) q (fun _ hv => by simp [hv]) (.refl _ _)
  rw [if_pos hroom] at e1 e2
  have hin : ∀ y, y ∈ before ++ v :: after → y ∈ v :: (before ++ after) := by
    intro y hy
    simp only [List.mem_append, List.mem_cons] at hy ⊢
    rcases hy with hy | hy | hy <;> simp [hy]
  have hsv := hs v (by simp)
  obtain ⟨f1, f2, f3⟩ := e4 (fun _ _ _ _ _ => rfl) (order_orders hs) (by
    rw [List.pairwise_map] at hsort
    exact hsort.imp_of_mem fun {x y} mx my hxy => (order_le (hs x (List.mem_cons_of_mem _ mx)) (hs y (List.mem_cons_of_mem _ my))).mpr hxy)
  refine ⟨h', before, after, e1, rfl, e2, ?_, ?_, ?_, e3, fun y hy => (hh y hy).only e3 fun _ _ hw => hw⟩
  · intro y hy
    exact (order_le (hs y (by simp [hy])) hsv).mp (f1 y hy)
  · intro y hy
    exact (order_spec (hs y (by simp [hy])) hsv).2.2.mp (f2 y hy)
  · rw [List.pairwise_map]
    exact f3.imp_of_mem fun {x y} mx my hxy => (order_le (hs x (hin x mx)) (hs y (hin y my))).mp hxy

/-! ## An example: three buffers `ba`, `a`, `b` -/

def bufsDemo : Heap where
  mem
    | .obj 0 => [.ptr (.obj 1) 0, .int 4, .int 3]
    | .obj 1 => [.ptr (.obj 2) 0, .ptr (.obj 2) 2, .ptr (.obj 2) 4, .undef]
    | .obj 2 => [.ptr (.obj 3) 0, .int 2, .ptr (.obj 3) 1, .int 1, .ptr (.obj 3) 0, .int 1]
    | .obj 3 => [.int 98, .int 97]
    | _ => []
  next := 4

def bufsDemoText : CVal → List UInt8
  | .ptr _ 0 => [98, 97]
  | .ptr _ 2 => [97]
  | _ => [98]

def bufsDemoFns (X : Ext) : Ext where
  fn := X.fn
  cb S f h args := match f, args with
    | 5, [x, y] => S .mu_bbuf_compare h [x, y]
    | _, _ => X.cb S f h args

theorem bufsDemo_shows (v : CVal) (hv : v ∈ [CVal.ptr (.obj 2) 0, .ptr (.obj 2) 2, .ptr (.obj 2) 4]) :
    bufsDemo.Shows (arrCells (.obj 0) 0 (.obj 1) 0 4) v (bufsDemoText v) := by
  simp only [List.mem_cons, List.not_mem_nil, or_false] at hv
  rcases hv with rfl | rfl | rfl
  · refine ⟨_, _, .obj 3, 0, rfl, ⟨rfl, rfl, by decide, by decide, ?_⟩, ?_, ?_⟩
    · intro i c hc
      match i with
      | 0 => simp [bufsDemoText] at hc; subst hc; rfl
      | 1 => simp [bufsDemoText] at hc; subst hc; rfl
      | i + 2 => simp [bufsDemoText] at hc
    · simp [arrCells, span]
    · simp [arrCells, span]
  · refine ⟨_, _, .obj 3, 1, rfl, ⟨rfl, rfl, by decide, by decide, ?_⟩, ?_, ?_⟩
    · intro i c hc
      match i with
      | 0 => simp [bufsDemoText] at hc; subst hc; rfl
      | i + 1 => simp [bufsDemoText] at hc
    · simp [arrCells, span]
    · simp [arrCells, span]
  · refine ⟨_, _, .obj 3, 0, rfl, ⟨rfl, rfl, by decide, by decide, ?_⟩, ?_, ?_⟩
    · intro i c hc
      match i with
      | 0 => simp [bufsDemoText] at hc; subst hc; rfl
      | i + 1 => simp [bufsDemoText] at hc
    · simp [arrCells, span]
    · simp [arrCells, span]

example (X : Ext) : ∃ h' l', sem .lp64 (bufsDemoFns X) prog 20 .mu_array_sort bufsDemo [.ptr (.obj 0) 0, .fn 5] = .ok (.ptr (.obj 0) 0, h') ∧
    h'.Arr (.obj 0) 0 (.obj 1) 0 4 l' ∧ l'.Perm [.ptr (.obj 2) 0, .ptr (.obj 2) 2, .ptr (.obj 2) 4] ∧
    (l'.map bufsDemoText).Pairwise (· ≤ ·) := by
  have q : bufsDemo.Arr (.obj 0) 0 (.obj 1) 0 4 [.ptr (.obj 2) 0, .ptr (.obj 2) 2, .ptr (.obj 2) 4] := by
    refine ⟨rfl, rfl, rfl, rfl, rfl, ?_, by decide, (by rintro i _ k _ ⟨e, -⟩; cases e), by decide, by decide⟩
    intro i v hv
    match i with
    | 0 => simp at hv; subst hv; rfl
    | 1 => simp at hv; subst hv; rfl
    | 2 => simp at hv; subst hv; rfl
    | i + 3 => simp at hv
  have hlen : ∀ v, (bufsDemoText v).length ≤ 2 := by
    intro v
    unfold bufsDemoText
    split <;> simp
  obtain ⟨h', l', e1, e2, e3, -, -, e4⟩ := C137_sort (A := .lp64) (X := bufsDemoFns X) (f := 5) (n := 20) (L := 2) (text := bufsDemoText)
    (fun _ _ _ _ => rfl) (.inl (by decide)) (by decide) q bufsDemo_shows
    (fun v _ => by
      have h1 := hlen v
      have h2 : (2 : Int) ≤ Arch.lp64.intMax := by decide
      show ((bufsDemoText v).length : Int) ≤ Arch.lp64.intMax
      omega) (fun v _ => hlen v) (by decide)
  exact ⟨h', l', e1, e2, e3, e4⟩

end Mu.CS
