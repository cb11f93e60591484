import Verif.Lemmas.SrcBBufView
import Verif.Props.SrcBBuf

/-! # Property C121: the parsed source of mu_bbuf.c, the functions that make views

`h.BBuf b o bb ob l`: at `(b, o)` memory holds a `mu_bbuf_t` whose bytes are `l`, kept at `(bb, ob)`.
`Room2 h b o`: there is room for one.  `position n i` is the position an index denotes in a buffer of
`n` bytes (negative: from the end; Spec/BBuf.lean). -/

namespace Mu.CS

open BBuf

variable {A : Arch} {X : Ext}

/-! ## Setting a `mu_bbuf_t` -/

section
variable {h : Heap} {b bb : Base} {o ob : Int} {l : List UInt8}

theorem Heap.setBBuf_only (h : Heap) (b : Base) (o : Int) (p : CVal) (c : Int) :
    Heap.Only (span b o 2) h (h.setBBuf b o p c) :=
  ((Heap.Only.refl _ _).upd ⟨rfl, by omega, by omega⟩).upd ⟨rfl, by omega, by omega⟩

theorem Heap.Only.bytes {S : Base → Int → Prop} {h h' : Heap} (e : Heap.Only S h h') {b : Base} {o : Int}
    {l : List UInt8} (hb : h.Bytes b o l) (hs : ∀ i : Nat, i < l.length → ¬ S b (o + i)) :
    h'.Bytes b o l := by
  refine ⟨hb.1, by rw [e.size]; exact hb.2.1, ?_⟩
  intro i c hc
  rw [e.cell _ _ (hs i (List.getElem?_eq_some_iff.mp hc).1)]
  exact hb.2.2 i c hc

theorem Apart.not_span {b b' : Base} {o o' : Int} {n n' : Nat} (ha : Apart b o n b' o' n') (i : Nat)
    (hi : i < n') : ¬ span b o n b' (o' + i) := by
  rintro ⟨rfl, h1, h2⟩
  rcases ha with ha | ha | ha
  · exact ha rfl
  · omega
  · omega

theorem Heap.Bytes.sub {q p : Nat} (hb : h.Bytes b o l) (hp : p ≤ l.length) :
    h.Bytes b (o + p) ((l.take q).drop p) := by
  obtain ⟨h0, h1, h2⟩ := hb
  refine ⟨by omega, ?_, ?_⟩
  · have : ((l.take q).drop p).length ≤ l.length - p := by simp; omega
    omega
  · intro i c e
    rw [List.getElem?_drop, List.getElem?_take] at e
    split at e
    · have := h2 _ _ e
      rw [show o + ((p + i : Nat) : Int) = o + p + i by omega] at this
      exact this
    · cases e

theorem Heap.setBBuf_bbuf (r : Room2 h b o) (hb : h.Bytes bb ob l) (ha : Apart b o 2 bb ob l.length) :
    (h.setBBuf b o (.ptr bb ob) l.length).BBuf b o bb ob l := by
  refine ⟨?_, ?_, (Heap.setBBuf_only h b o _ _).bytes hb ha.not_span⟩
  · unfold Heap.setBBuf
    rw [Heap.at_upd_sep (by omega), Heap.at_upd_same r.w r.c0]
  · unfold Heap.setBBuf
    rw [Heap.at_upd_same r.w (by rw [Heap.isSome_upd]; exact r.c1)]

theorem Apart.sub {b b' : Base} {o o' : Int} {n n' : Nat} (ha : Apart b o n b' o' n') {k m : Nat}
    (hk : k + m ≤ n') : Apart b o n b' (o' + k) m := by
  rcases ha with ha | ha | ha
  · exact .inl ha
  · exact .inr (.inl (by omega))
  · exact .inr (.inr (by omega))

theorem position_le (n : Nat) (i : Int) : position n i ≤ n := by
  unfold position; split <;> omega

theorem toSz_nat {n : Nat} (h : n < A.szMod) : A.toSz (n : Int) = n := by
  unfold Plat.toSz
  have : ((n : Int) % (A.szMod : Int)) = n := Int.emod_eq_of_lt (by omega) (by omega)
  rw [this]; rfl

end

section
variable (A : Arch) (X : Ext) (n : Nat) (h : Heap) (b bb bd : Base) (o ob od : Int) (l : List UInt8)

/-- **C121, initialisation.**  The three initialisers make a buffer of the bytes (of the string, without
its terminator) and change nothing else. -/
theorem C121_init (h1 : h.Bytes bb ob l) (r : Room2 h bd od) (ha : Apart bd od 2 bb ob l.length) :
    (∃ h', sem A X prog (n + 1) .mu_bbuf_init_ro h [.ptr bd od, .ptr bb ob, .int l.length] =
      .ok (.ptr bd od, h') ∧ h'.BBuf bd od bb ob l ∧ Heap.Only (span bd od 2) h h') ∧
    (∃ h', sem A X prog (n + 1) .mu_bbuf_init_rw h [.ptr bd od, .ptr bb ob, .int l.length] =
      .ok (.ptr bd od, h') ∧ h'.BBuf bd od bb ob l ∧ Heap.Only (span bd od 2) h h') :=
  ⟨⟨_, src_init_ro n r (by simp) _, Heap.setBBuf_bbuf r h1 ha, Heap.setBBuf_only _ _ _ _ _⟩,
    ⟨_, src_init_rw n r (by simp) _, Heap.setBBuf_bbuf r h1 ha, Heap.setBBuf_only _ _ _ _ _⟩⟩

theorem C121_init_cstr (s : List UInt8) (h1 : h.Cstr bb ob s) (r : Room2 h bd od)
    (ha : Apart bd od 2 bb ob (s.length + 1)) :
    ∃ h', sem A X prog (n + 2) .mu_bbuf_init_cstr h [.ptr bd od, .ptr bb ob] = .ok (.ptr bd od, h') ∧
      h'.BBuf bd od bb ob s ∧ Heap.Only (span bd od 2) h h' := by
  have o1 : Heap.Only (span bd od 2) h (h.upd bd od (.ptr bb ob)) :=
    (Heap.Only.refl _ _).upd ⟨rfl, by simp, by simp; omega⟩
  have hb' := o1.bytes h1.2 (by simpa using ha.not_span)
  have hs := (MB.two hb' hb').strlen (p := ⟨1, 0⟩) (strlen_ok (cstr1 (l := s ++ [0]) h1.1))
  have hb0 : h.Bytes bb ob s := by
    have := h1.2.sub (q := s.length) (p := 0) (by simp)
    simpa using this
  refine ⟨_, src_init_cstr n r (by simp) (c := s.length) (by simpa [pv, twoPl] using hs),
    Heap.setBBuf_bbuf r hb0 ?_, Heap.setBBuf_only _ _ _ _ _⟩
  have := ha.sub (k := 0) (m := s.length) (by omega)
  simpa using this

/-- **C121, `mu_bbuf_copy`**: the copy covers the same bytes. -/
theorem C121_copy (h1 : h.BBuf b o bb ob l) (r : Room2 h bd od) (ha : Apart bd od 2 bb ob l.length)
    (hs : Aside bd od b o) :
    ∃ h', sem A X prog (n + 1) .mu_bbuf_copy h [.ptr bd od, .ptr b o] = .ok (.ptr bd od, h') ∧
      h'.BBuf bd od bb ob l ∧ Heap.Only (span bd od 2) h h' :=
  ⟨_, src_copy n r h1.ptr h1.cap (by
      rintro ⟨rfl, rfl⟩
      rcases hs with ⟨-, hs⟩ | hs | hs | hs
      · omega
      · exact hs rfl
      · omega
      · omega),
    Heap.setBBuf_bbuf r h1.bytes ha, Heap.setBBuf_only _ _ _ _ _⟩

/-- **C121, `mu_bbuf_slice`**, for a start not below `-capacity` and any end: the bytes from the position
of the start up to that of the end (none if the end comes first), at the same place in memory.  `dst`
may be `src`. -/
theorem C121_slice (start stop : Int) (h1 : h.BBuf b o bb ob l) (s1 : Short A l) (r : Room2 h bd od)
    (ha : Apart bd od 2 bb ob l.length) (i1 : -(l.length : Int) ≤ start) (i2 : start ≤ A.intMax)
    (i3 : A.InInt stop) :
    ∃ h', sem A X prog (n + 2) .mu_bbuf_slice h [.ptr bd od, .ptr b o, .int start, .int stop] =
        .ok (.ptr bd od, h') ∧
      h'.BBuf bd od bb (ob + position l.length start)
        ((l.take (max (position l.length start) (position l.length stop))).drop
          (position l.length start)) ∧
      Heap.Only (span bd od 2) h h' := by
  have hmin := A.intMin_eq
  have hmax := A.intMax_ge
  have hsz := A.intMax_lt_szMod
  have q1 := position_le l.length start
  have q2 := position_le l.length stop
  have st := sliceStart_ok s1 i1 i2
  have en := sliceEnd_ok (s := position l.length start) s1 i3.1 i3.2
  have hp : h.padd 1 (.ptr bb ob) (position l.length start : Nat) =
      .ok (.ptr bb (ob + (position l.length start : Nat))) := by
    obtain ⟨a, c, -⟩ := h1.bytes
    simp [Heap.padd]; omega
  have hi : A.int (((max (position l.length start) (position l.length stop) : Nat) : Int) -
      (position l.length start : Nat)) = .ok _ := Plat.int_ok (by omega) (by omega)
  have := src_slice (A := A) (X := X) n r h1.ptr h1.cap (le_szMod_of_intMax s1)
    ⟨by omega, i2⟩ i3 st en hp hi
  refine ⟨_, this, ?_, Heap.setBBuf_only _ _ _ _ _⟩
  have hlen : ((l.take (max (position l.length start) (position l.length stop))).drop
      (position l.length start)).length = max (position l.length start) (position l.length stop) -
      position l.length start := by simp; omega
  have hcap : ((A.toSz (((max (position l.length start) (position l.length stop) : Nat) : Int) -
      (position l.length start : Nat)) : Nat) : Int) =
      (((l.take (max (position l.length start) (position l.length stop))).drop
      (position l.length start)).length : Nat) := by
    rw [hlen, show ((max (position l.length start) (position l.length stop) : Nat) : Int) -
      (position l.length start : Nat) = ((max (position l.length start) (position l.length stop) -
        position l.length start : Nat) : Int) by omega, toSz_nat (by omega)]
  rw [hcap]
  exact Heap.setBBuf_bbuf r (h1.bytes.sub q1) (ha.sub (by rw [hlen]; omega))

/-- **C121, the exception of `mu_bbuf_slice`** (finding C39): with a start so far below `-capacity` that
it is before the beginning of the object, the call is undefined. -/
theorem C121_slice_below (start stop : Int) (h1 : h.BBuf b o bb ob l) (s1 : Short A l)
    (i1 : start < -(l.length : Int)) (i2 : A.InInt start) (i3 : A.InInt stop)
    (hb : ob + l.length + start < 0) :
    sem A X prog (n + 2) .mu_bbuf_slice h [.ptr bd od, .ptr b o, .int start, .int stop] =
      .error .ptr := by
  have hmin := A.intMin_eq
  have hmax := A.intMax_ge
  have s1' : (l.length : Int) ≤ A.intMax := s1
  have st : sliceStart A.toPlat l.length start = l.length + start := by
    unfold sliceStart
    rw [if_pos (by omega), sz_add_toSz, toInt_toSz (by have := i2.1; omega) (by omega)]
  refine src_slice_fault n h1.ptr h1.cap (le_szMod_of_intMax s1) i2 i3 st ?_
  simp [Heap.padd]; omega

/-! ## Bisect -/

/-- The result of an argument that may be NULL: nothing, or a buffer. -/
def Got (h : Heap) (v : CVal) (bb : Base) (ob : Int) (l : List UInt8) : Prop :=
  ∀ b o, v = .ptr b o → h.BBuf b o bb ob l

/-- The cells of an argument that may be NULL. -/
def outCells (v : CVal) (b : Base) (o : Int) : Prop := ∃ b2 o2, v = .ptr b2 o2 ∧ span b2 o2 2 b o

/-- Two results are not at the same place. -/
def Distinct (v w : CVal) : Prop := ∀ b o b2 o2, v = .ptr b o → w = .ptr b2 o2 → Apart b o 2 b2 o2 2

/-- A result does not lie in the bytes. -/
def Clear (v : CVal) (bb : Base) (ob : Int) (k : Nat) : Prop := ∀ b o, v = .ptr b o → Apart b o 2 bb ob k

theorem Heap.setOut_only (h : Heap) (v p : CVal) (c : Int) :
    Heap.Only (outCells v) h (h.setOut v p c) := by
  unfold Heap.setOut
  split
  · exact (Heap.setBBuf_only _ _ _ _ _).mono fun b o hs => ⟨_, _, rfl, hs⟩
  · exact Heap.Only.refl _ _

theorem OutArg.got {h : Heap} {b bb : Base} {o ob : Int} {v : CVal} {l : List UInt8} (r : OutArg h b o v)
    (hb : h.Bytes bb ob l) (hc : Clear v bb ob l.length) :
    Got (h.setOut v (.ptr bb ob) l.length) v bb ob l := by
  intro b' o' e
  rcases r with rfl | ⟨b2, o2, rfl, r, -⟩
  · cases e
  · cases e
    exact Heap.setBBuf_bbuf r hb (hc _ _ rfl)

theorem Got.only {S : Base → Int → Prop} {h h' : Heap} {bb : Base} {ob : Int} {v : CVal} {l : List UInt8}
    (g : Got h v bb ob l) (e : Heap.Only S h h')
    (h1 : ∀ b o, v = .ptr b o → ¬ S b o ∧ ¬ S b (o + 1))
    (h2 : ∀ i : Nat, i < l.length → ¬ S bb (ob + i)) : Got h' v bb ob l := by
  intro b o ev
  have := g b o ev
  exact ⟨by rw [e.cell _ _ (h1 b o ev).1]; exact this.ptr,
    by rw [e.cell _ _ (h1 b o ev).2]; exact this.cap, e.bytes this.bytes h2⟩

/-- **C121, `mu_bbuf_bisect`**, for an index not below `-capacity`: the left result covers the bytes before
the position of the index, the right one those behind it; either may be NULL, and either may be the
source itself.  Nothing else changes. -/
theorem C121_bisect (left right : CVal) (index : Int) (h1 : h.BBuf b o bb ob l) (s1 : Short A l)
    (rl : OutArg h b o left) (rr : OutArg h b o right) (hd : Distinct left right)
    (cl : Clear left bb ob l.length) (cr : Clear right bb ob l.length)
    (i1 : -(l.length : Int) ≤ index) (i2 : index ≤ A.intMax) :
    ∃ h', sem A X prog (n + 2) .mu_bbuf_bisect h [left, right, .ptr b o, .int index] =
        .ok (.ptr b o, h') ∧
      Got h' left bb ob (l.take (position l.length index)) ∧
      Got h' right bb (ob + position l.length index) (l.drop (position l.length index)) ∧
      Heap.Only (fun b' o' => outCells left b' o' ∨ outCells right b' o') h h' := by
  have hmin := A.intMin_eq
  have hmax := A.intMax_ge
  have hsz := A.intMax_lt_szMod
  have s1' : (l.length : Int) ≤ A.intMax := s1
  have hpos := position_le l.length index
  have hp : h.padd 1 (.ptr bb ob) (position l.length index : Nat) =
      .ok (.ptr bb (ob + (position l.length index : Nat))) := by
    obtain ⟨a, c, -⟩ := h1.bytes
    simp [Heap.padd]; omega
  have ei : bisectIndex A.toPlat l.length index = .ok (position l.length index : Nat) := by
    unfold bisectIndex position
    rw [Plat.toInt_of_le s1]
    by_cases c1 : index < 0
    · rw [if_pos c1, if_pos c1, Plat.int_ok (by omega) (by omega)]
      congr 1; omega
    · rw [if_neg c1, if_neg c1]
      unfold END
      split
      · congr 1; omega
      · congr 1; omega
  have hi : A.int (A.toInt l.length - (position l.length index : Nat)) =
      .ok (A.toInt l.length - (position l.length index : Nat)) := by
    rw [Plat.toInt_of_le s1]
    exact Plat.int_ok (by omega) (by omega)
  have := src_bisect (A := A) (X := X) n rl rr h1.ptr h1.cap ⟨by omega, i2⟩ ei hp hi
  rw [Plat.toInt_of_le s1] at this
  generalize position l.length index = p at *
  have c1 : ((A.toSz (p : Int) : Nat) : Int) = ((l.take p).length : Nat) := by
    rw [toSz_nat (by omega)]; simp; omega
  have c2 : ((A.toSz ((l.length : Int) - p) : Nat) : Int) = ((l.drop p).length : Nat) := by
    rw [show (l.length : Int) - p = ((l.length - p : Nat) : Int) by omega, toSz_nat (by omega)]; simp
  rw [c1, c2] at this
  have bl : h.Bytes bb ob (l.take p) := by
    have := h1.bytes.sub (q := p) (p := 0) (by omega)
    simpa using this
  have br : h.Bytes bb (ob + p) (l.drop p) := by
    have := h1.bytes.sub (q := l.length) (p := p) hpos
    simpa using this
  have cl' : Clear left bb ob (l.take p).length := by
    intro b o e
    have := (cl b o e).sub (k := 0) (m := (l.take p).length) (by simp)
    simpa using this
  have cr' : Clear right bb (ob + p) (l.drop p).length := by
    intro b o e
    exact (cr b o e).sub (by simp; omega)
  have ol := Heap.setOut_only h left (.ptr bb ob) (l.take p).length
  have g1 := rl.got bl cl'
  have nl : ∀ {v : CVal}, Clear v bb ob l.length → ∀ (k j : Nat) (i : Nat), k + j ≤ l.length → i < j →
      ¬ outCells v bb (ob + k + i) := by
    rintro v hc k j i hk hi' ⟨b2, o2, e, hs⟩
    have := (hc _ _ e).sub (k := k) (m := j) hk
    exact this.not_span i hi' hs
  have br' := ol.bytes br (fun i hi' => nl cl p (l.length - p) i (by omega) (by simpa using hi'))
  have or := Heap.setOut_only (h.setOut left (.ptr bb ob) (l.take p).length) right (.ptr bb (ob + p))
    (l.drop p).length
  refine ⟨_, this, g1.only or ?_ ?_, rr.out.got br' cr', (ol.mono fun _ _ => Or.inl).trans
    (or.mono fun _ _ => Or.inr)⟩
  · rintro b' o' rfl
    constructor
    · rintro ⟨b2, o2, rfl, hs⟩
      have := (hd _ _ _ _ rfl rfl)
      rcases this with x | x | x
      · exact x hs.1
      · have := hs.2.1; have := hs.2.2; omega
      · have := hs.2.1; have := hs.2.2; omega
    · rintro ⟨b2, o2, rfl, hs⟩
      have := (hd _ _ _ _ rfl rfl)
      rcases this with x | x | x
      · exact x hs.1
      · have := hs.2.1; have := hs.2.2; omega
      · have := hs.2.1; have := hs.2.2; omega
  · intro i hi'
    have := nl cr 0 p i (by omega) (by have : (l.take p).length = p := by simp; omega
                                       omega)
    simpa using this

/-! ## Trimming -/

/-- The function `call` of the user answers as `pred` says; its state is kept in the cells `W`, and it
changes no others. -/
structure UserPred {σ : Type} (call : SemFn) (arg : CVal) (W : Base → Int → Prop) (S : σ → Heap → Prop)
    (pred : σ → UInt8 → Bool × σ) : Prop where
  answers : ∀ s h (c : UInt8), S s h → ∃ h', call h [.int c.toNat, arg] =
    .ok (.ofBool (pred s c).1, h') ∧ S (pred s c).2 h' ∧ Heap.Only W h h'
  keeps : ∀ s h h', S s h → (∀ b o, W b o → h'.at b o = h.at b o) → S s h'

/-- The cells `W` are none of the `k` cells at `(b, o)`. -/
def Off (W : Base → Int → Prop) (b : Base) (o : Int) (k : Nat) : Prop := ∀ i : Nat, i < k → ¬ W b (o + i)

theorem UserPred.within {σ : Type} {call : SemFn} {arg : CVal} {W : Base → Int → Prop}
    {S : σ → Heap → Prop} {pred : σ → UInt8 → Bool × σ} (u : UserPred call arg W S pred) (h : Heap) :
    Answers call arg (fun s h' => S s h' ∧ Heap.Only W h h') pred := by
  rintro s h1 c ⟨hs, ho⟩
  obtain ⟨h2, e, hs2, ho2⟩ := u.answers s h1 c hs
  exact ⟨h2, e, hs2, ho.trans ho2⟩

theorem Heap.Only.bbuf {W : Base → Int → Prop} {h h' : Heap} (e : Heap.Only W h h') {b bb : Base}
    {o ob : Int} {l : List UInt8} (hb : h.BBuf b o bb ob l) (w1 : Off W b o 2) (w2 : Off W bb ob l.length) :
    h'.BBuf b o bb ob l :=
  ⟨by rw [e.cell _ _ (by simpa using w1 0 (by omega))]; exact hb.ptr,
    by rw [e.cell b (o + 1) (w1 1 (by omega))]; exact hb.cap, e.bytes hb.bytes w2⟩

theorem Heap.Only.room {W : Base → Int → Prop} {h h' : Heap} (e : Heap.Only W h h') {b : Base} {o : Int}
    (r : Room2 h b o) : Room2 h' b o :=
  ⟨r.w, (e.isSome _ _).mpr r.c0, (e.isSome _ _).mpr r.c1⟩

theorem UserPred.kept {σ : Type} {call : SemFn} {arg : CVal} {W : Base → Int → Prop}
    {S : σ → Heap → Prop} {pred : σ → UInt8 → Bool × σ} (u : UserPred call arg W S pred) {h h' : Heap}
    {s : σ} {b : Base} {o : Int} (hs : S s h) (e : Heap.Only (span b o 2) h h') (w : Off W b o 2) :
    S s h' := by
  refine u.keeps s h h' hs ?_
  intro b' o' hw
  refine e.cell b' o' ?_
  rintro ⟨rfl, x1, x2⟩
  have := w (o' - o).toNat (by omega)
  rw [show o + ((o' - o).toNat : Int) = o' by omega] at this
  exact this hw

variable {σ : Type} (f : Nat) (arg : CVal) (W : Base → Int → Prop) (S : σ → Heap → Prop)
  (pred : σ → UInt8 → Bool × σ) (s0 : σ)

/-- **C121, `mu_bbuf_ltrim`**: the bytes from the first one on that the predicate refuses; the whole
buffer if it refuses none.  `dst` may be `src`. -/
theorem C121_ltrim (h1 : h.BBuf b o bb ob l) (s1 : Short A l) (r : Room2 h bd od)
    (ha : Apart bd od 2 bb ob l.length) (hs : Aside bd od b o) (harg : arg ≠ .undef) (hS : S s0 h)
    (hf : UserPred (X.cb (sem A X prog n) f) arg W S pred) (w1 : Off W b o 2) (w2 : Off W bd od 2)
    (w3 : Off W bb ob l.length) (hn : l.length + 2 ≤ n) :
    ∃ h', sem A X prog (n + 2) .mu_bbuf_ltrim h [.ptr bd od, .ptr b o, .fn f, arg] =
        .ok (.ptr bd od, h') ∧
      h'.BBuf bd od bb (ob + ((ask pred s0 l).1.getD 0 : Nat)) (ltrimmed l (ask pred s0 l).1) ∧
      S (ask pred s0 l).2 h' ∧ Heap.Only (fun b' o' => span bd od 2 b' o' ∨ W b' o') h h' := by
  obtain ⟨n, rfl⟩ : ∃ k, n = k + 1 := ⟨n - 1, by omega⟩
  have hmax := A.intMax_ge
  have hmin := A.intMin_eq
  have s1' : (l.length : Int) ≤ A.intMax := s1
  obtain ⟨⟨g, eg, hSg, og⟩, -⟩ := C120_find_predicate A X (n + 1) h b bb o ob l f arg
    (fun s h' => S s h' ∧ Heap.Only W h h') pred s0 h1 s1 harg ⟨hS, Heap.Only.refl _ _⟩
    (fun s h' hh => hh.2.bytes h1.bytes w3) (hf.within h) (by omega)
  have gb := og.bbuf h1 w1 w3
  have gr := og.room r
  have hm : A.InInt A.intMax := ⟨by omega, Int.le_refl _⟩
  rw [sem_succ (d := Src.mu_bbuf_ltrim) rfl, FunDef.run_regs rfl rfl]
  generalize hA : ask pred s0 l = q at *
  obtain ⟨_ | i, u⟩ := q
  · obtain ⟨h', e, hb', ho⟩ := C121_copy A X (n + 1) g b bb bd o ob od l gb gr ha hs
    refine ⟨h', ?_, by simpa [ltrimmed] using hb', hf.kept hSg ho w2,
      (og.mono fun _ _ => Or.inr).trans (ho.mono fun _ _ => Or.inl)⟩
    generalize hK : (⟨sem A X prog (n + 1 + 1), X.cb (sem A X prog (n + 1 + 1))⟩ : Calls) = KK
    have eg' : KK.fn .mu_bbuf_find_predicate h [.ptr b o, .fn f, arg] = .ok (.int A.intMax, g) := by
      rw [← hK]; exact eg
    have e' : KK.fn .mu_bbuf_copy g [.ptr bd od, .ptr b o] = .ok (.ptr bd od, h') := by rw [← hK]; exact e
    simp [csrc, Src.mu_bbuf_ltrim, eg', e', harg, conv_int hm]
  · have hi := ask_lt hA
    have p1 : position l.length (i : Int) = i := by unfold position; rw [if_neg (by omega)]; omega
    have p2 : position l.length A.intMax = l.length := by
      unfold position; rw [if_neg (by omega)]; omega
    obtain ⟨h', e, hb', ho⟩ := C121_slice A X n g b bb bd o ob od l i A.intMax gb s1 gr ha
      (by omega) (by omega) hm
    rw [p1, p2, Nat.max_eq_right (by omega), List.take_length] at hb'
    refine ⟨h', ?_, by simpa [ltrimmed] using hb', hf.kept hSg ho w2,
      (og.mono fun _ _ => Or.inr).trans (ho.mono fun _ _ => Or.inl)⟩
    generalize hK : (⟨sem A X prog (n + 1 + 1), X.cb (sem A X prog (n + 1 + 1))⟩ : Calls) = KK
    have eg' : KK.fn .mu_bbuf_find_predicate h [.ptr b o, .fn f, arg] = .ok (.int i, g) := by
      rw [← hK]; exact eg
    have e' : KK.fn .mu_bbuf_slice g [.ptr bd od, .ptr b o, .int i, .int A.intMax] =
        .ok (.ptr bd od, h') := by rw [← hK]; exact e
    have hii : A.InInt i := ⟨by omega, by omega⟩
    have hne : ((i : Int) = A.intMax) = False := eq_false (by omega)
    simp [csrc, Src.mu_bbuf_ltrim, eg', e', harg, conv_int hm, conv_int hii, hne]

/-- **C121, `mu_bbuf_rtrim`**: the bytes before the last one that the predicate refuses (that byte goes
too, finding C45); the whole buffer if it refuses none. -/
theorem C121_rtrim (h1 : h.BBuf b o bb ob l) (s1 : Short A l) (r : Room2 h bd od)
    (ha : Apart bd od 2 bb ob l.length) (hs : Aside bd od b o) (harg : arg ≠ .undef) (hS : S s0 h)
    (hf : UserPred (X.cb (sem A X prog n) f) arg W S pred) (w1 : Off W b o 2) (w2 : Off W bd od 2)
    (w3 : Off W bb ob l.length) (hn : l.length + 2 ≤ n) :
    ∃ h', sem A X prog (n + 2) .mu_bbuf_rtrim h [.ptr bd od, .ptr b o, .fn f, arg] =
        .ok (.ptr bd od, h') ∧
      h'.BBuf bd od bb ob (rtrimmed l (ask pred s0 l.reverse).1) ∧
      S (ask pred s0 l.reverse).2 h' ∧
      Heap.Only (fun b' o' => span bd od 2 b' o' ∨ W b' o') h h' := by
  obtain ⟨n, rfl⟩ : ∃ k, n = k + 1 := ⟨n - 1, by omega⟩
  have hmax := A.intMax_ge
  have hmin := A.intMin_eq
  have s1' : (l.length : Int) ≤ A.intMax := s1
  obtain ⟨-, g, eg, hSg, og⟩ := C120_find_predicate A X (n + 1) h b bb o ob l f arg
    (fun s h' => S s h' ∧ Heap.Only W h h') pred s0 h1 s1 harg ⟨hS, Heap.Only.refl _ _⟩
    (fun s h' hh => hh.2.bytes h1.bytes w3) (hf.within h) (by omega)
  have gb := og.bbuf h1 w1 w3
  have gr := og.room r
  have hm : A.InInt A.intMax := ⟨by omega, Int.le_refl _⟩
  rw [sem_succ (d := Src.mu_bbuf_rtrim) rfl, FunDef.run_regs rfl rfl]
  generalize hA : ask pred s0 l.reverse = q at *
  obtain ⟨_ | i, u⟩ := q
  · obtain ⟨h', e, hb', ho⟩ := C121_copy A X (n + 1) g b bb bd o ob od l gb gr ha hs
    refine ⟨h', ?_, by simpa [rtrimmed] using hb', hf.kept hSg ho w2,
      (og.mono fun _ _ => Or.inr).trans (ho.mono fun _ _ => Or.inl)⟩
    generalize hK : (⟨sem A X prog (n + 1 + 1), X.cb (sem A X prog (n + 1 + 1))⟩ : Calls) = KK
    have eg' : KK.fn .mu_bbuf_rfind_predicate h [.ptr b o, .fn f, arg] = .ok (.int A.intMax, g) := by
      rw [← hK]; exact eg
    have e' : KK.fn .mu_bbuf_copy g [.ptr bd od, .ptr b o] = .ok (.ptr bd od, h') := by rw [← hK]; exact e
    simp [csrc, Src.mu_bbuf_rtrim, eg', e', harg, conv_int hm]
  · have hi := ask_lt hA
    rw [List.length_reverse] at hi
    have hj : l.length - 1 - i < l.length := by omega
    generalize hjj : l.length - 1 - i = j at *
    have p1 : position l.length (0 : Int) = 0 := by simp [position]
    have p2 : position l.length (j : Int) = j := by unfold position; rw [if_neg (by omega)]; omega
    have hii : A.InInt j := ⟨by omega, by omega⟩
    obtain ⟨h', e, hb', ho⟩ := C121_slice A X n g b bb bd o ob od l 0 j gb s1 gr ha
      (by omega) (by omega) hii
    rw [p1, p2] at hb'
    refine ⟨h', ?_, by simpa [rtrimmed, hjj] using hb', hf.kept hSg ho w2,
      (og.mono fun _ _ => Or.inr).trans (ho.mono fun _ _ => Or.inl)⟩
    have eg0 : sem A X prog (n + 1 + 1) .mu_bbuf_rfind_predicate h [.ptr b o, .fn f, arg] =
        .ok (.int j, g) := by
      have := eg
      simp only [Option.map_some, foundAt, hjj] at this
      exact this
    generalize hK : (⟨sem A X prog (n + 1 + 1), X.cb (sem A X prog (n + 1 + 1))⟩ : Calls) = KK
    have eg' : KK.fn .mu_bbuf_rfind_predicate h [.ptr b o, .fn f, arg] = .ok (.int j, g) := by
      rw [← hK]; exact eg0
    have e' : KK.fn .mu_bbuf_slice g [.ptr bd od, .ptr b o, .int 0, .int j] =
        .ok (.ptr bd od, h') := by rw [← hK]; exact e
    have hne : ((j : Int) = A.intMax) = False := eq_false (by omega)
    simp [csrc, Src.mu_bbuf_rtrim, eg', e', harg, conv_int hm, conv_int hii, hne]

/-- **C121, `mu_bbuf_trim`**: trimmed on the left, then on the right, by the same predicate. -/
theorem C121_trim (h1 : h.BBuf b o bb ob l) (s1 : Short A l) (r : Room2 h bd od)
    (ha : Apart bd od 2 bb ob l.length) (hs : Aside bd od b o) (harg : arg ≠ .undef) (hS : S s0 h)
    (hf : UserPred (X.cb (sem A X prog n) f) arg W S pred) (w1 : Off W b o 2) (w2 : Off W bd od 2)
    (w3 : Off W bb ob l.length) (hn : l.length + 2 ≤ n) :
    let front := ask pred s0 l
    let rest := ltrimmed l front.1
    let back := ask pred front.2 rest.reverse
    ∃ h', sem A X prog (n + 3) .mu_bbuf_trim h [.ptr bd od, .ptr b o, .fn f, arg] =
        .ok (.ptr bd od, h') ∧
      h'.BBuf bd od bb (ob + (front.1.getD 0 : Nat)) (rtrimmed rest back.1) ∧ S back.2 h' ∧
      Heap.Only (fun b' o' => span bd od 2 b' o' ∨ W b' o') h h' := by
  intro front rest back
  obtain ⟨g, e1, b1, S1, o1⟩ := C121_ltrim A X n h b bb bd o ob od l f arg W S pred s0 h1 s1 r ha hs
    harg hS hf w1 w2 w3 hn
  have hk : front.1.getD 0 + rest.length ≤ l.length := by
    have hask : ∀ i, front.1 = some i → i < l.length := by
      intro i hi
      exact ask_lt (s' := front.2) (show ask pred s0 l = (some i, front.2) from Prod.ext hi rfl)
    show front.1.getD 0 + (ltrimmed l front.1).length ≤ l.length
    cases hc : front.1 with
    | none => simp [ltrimmed]
    | some i => have := hask i hc; simp [ltrimmed]; omega
  have sr : Short A rest := by
    have s1' : (l.length : Int) ≤ A.intMax := s1
    show (rest.length : Int) ≤ A.intMax
    omega
  have w3' : Off W bb (ob + (front.1.getD 0 : Nat)) rest.length := by
    intro i hi
    have := w3 (front.1.getD 0 + i) (by omega)
    rwa [show ob + ((front.1.getD 0 + i : Nat) : Int) = ob + (front.1.getD 0 : Nat) + i by omega] at this
  obtain ⟨h', e2, b2, S2, o2⟩ := C121_rtrim A X n g bd bb bd od (ob + (front.1.getD 0 : Nat)) od rest f arg W
    S pred front.2 b1 sr (o1.room r) (ha.sub hk) (.inl ⟨rfl, rfl⟩) harg S1 hf w2 w2 w3' (by omega)
  refine ⟨h', ?_, b2, S2, o1.trans o2⟩
  rw [sem_succ (d := Src.mu_bbuf_trim) rfl, FunDef.run_regs rfl rfl]
  generalize hK : (⟨sem A X prog (n + 2), X.cb (sem A X prog (n + 2))⟩ : Calls) = KK
  have e1' : KK.fn .mu_bbuf_ltrim h [.ptr bd od, .ptr b o, .fn f, arg] = .ok (.ptr bd od, g) := by
    rw [← hK]; exact e1
  have e2' : KK.fn .mu_bbuf_rtrim g [.ptr bd od, .ptr bd od, .fn f, arg] = .ok (.ptr bd od, h') := by
    rw [← hK]; exact e2
  simp [csrc, Src.mu_bbuf_trim, e1', e2', harg]

end

/-! ## An example: the buffers of `bbDemo`, results in objects 5 and 6 -/

def bvDemo : Heap where
  mem
    | .obj 5 => [.undef, .undef]
    | .obj 6 => [.undef, .undef]
    | b => bbDemo.mem b
  next := 7

theorem bvDemo_bufs : bvDemo.BBuf (.obj 2) 0 (.obj 0) 0 [97, 98, 99, 97, 98] ∧ Room2 bvDemo (.obj 5) 0 ∧
    Room2 bvDemo (.obj 6) 0 :=
  ⟨⟨rfl, rfl, .of_all (by decide) (by decide) (by decide)⟩, ⟨rfl, rfl, rfl⟩, ⟨rfl, rfl, rfl⟩⟩

example (X : Ext) : ∃ h', sem .lp64 X prog 2 .mu_bbuf_slice bvDemo
    [.ptr (.obj 5) 0, .ptr (.obj 2) 0, .int (-4), .int 3] = .ok (.ptr (.obj 5) 0, h') ∧
    h'.BBuf (.obj 5) 0 (.obj 0) 1 [98, 99] := by
  obtain ⟨h', e, hb, -⟩ := C121_slice .lp64 X 0 bvDemo (.obj 2) (.obj 0) (.obj 5) 0 0 0
    [97, 98, 99, 97, 98] (-4) 3 bvDemo_bufs.1 (by decide) bvDemo_bufs.2.1 (.inl (by decide)) (by decide)
    (by decide) ⟨by decide, by decide⟩
  exact ⟨h', e, hb⟩

example (X : Ext) : ∃ h', sem .lp64 X prog 2 .mu_bbuf_bisect bvDemo
    [.ptr (.obj 5) 0, .ptr (.obj 6) 0, .ptr (.obj 2) 0, .int 2] = .ok (.ptr (.obj 2) 0, h') ∧
    h'.BBuf (.obj 5) 0 (.obj 0) 0 [97, 98] ∧ h'.BBuf (.obj 6) 0 (.obj 0) 2 [99, 97, 98] := by
  obtain ⟨h', e, h1, h2, -⟩ := C121_bisect .lp64 X 0 bvDemo (.obj 2) (.obj 0) 0 0
    [97, 98, 99, 97, 98] (.ptr (.obj 5) 0) (.ptr (.obj 6) 0) 2 bvDemo_bufs.1 (by decide)
    (.inr ⟨_, _, rfl, bvDemo_bufs.2.1, .inr (.inl (by decide))⟩)
    (.inr ⟨_, _, rfl, bvDemo_bufs.2.2, .inr (.inl (by decide))⟩)
    (by intro b o b2 o2 h1 h2; cases h1; cases h2; exact .inl (by decide))
    (by intro b o h1; cases h1; exact .inl (by decide))
    (by intro b o h1; cases h1; exact .inl (by decide)) (by decide) (by decide)
  exact ⟨h', e, h1 _ _ rfl, h2 _ _ rfl⟩

theorem abPred_user (n : Nat) : UserPred (abPred.cb (sem .lp64 abPred prog n) 0) .null
    (fun _ _ => False) (fun (_ : Unit) _ => True) (fun _ c => (c = 97 || c = 98, ())) := by
  refine ⟨?_, fun _ _ _ _ _ => trivial⟩
  intro s h c _
  refine ⟨h, ?_, trivial, Heap.Only.refl _ _⟩
  have e1 : ((c.toNat : Int) = 97) = (c = 97) := byte_eq c 97
  have e2 : ((c.toNat : Int) = 98) = (c = 98) := byte_eq c 98
  simp [abPred, e1, e2]

example : ∃ h', sem .lp64 abPred prog 9 .mu_bbuf_ltrim bvDemo
    [.ptr (.obj 2) 0, .ptr (.obj 2) 0, .fn 0, .null] = .ok (.ptr (.obj 2) 0, h') ∧
    h'.BBuf (.obj 2) 0 (.obj 0) 2 [99, 97, 98] := by
  obtain ⟨h', e, hb, -⟩ := C121_ltrim .lp64 abPred 7 bvDemo (.obj 2) (.obj 0) (.obj 2) 0 0 0
    [97, 98, 99, 97, 98] 0 .null _ _ _ () bvDemo_bufs.1 (by decide) ⟨rfl, rfl, rfl⟩ (.inl (by decide))
    (.inl ⟨rfl, rfl⟩) (by simp) trivial (abPred_user 7) (fun _ _ h => h) (fun _ _ h => h)
    (fun _ _ h => h) (by decide)
  exact ⟨h', e, hb⟩

end Mu.CS
