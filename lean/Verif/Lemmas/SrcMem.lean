import Verif.Lemmas.Src
import Verif.Spec.SrcMem
import Verif.C.Mem

/-! # Byte memory and `int` arithmetic of the parsed source -/

namespace Mu.CS

variable {A : Arch}

/-! ## `int` -/

/-- Representable in `int`. -/
def Arch.InInt (A : Arch) (n : Int) : Prop := A.intMin ≤ n ∧ n ≤ A.intMax

theorem conv_int {n : Int} (h : A.InInt n) : IT.conv ⟨A.ib, true⟩ n = n := by
  rw [IT.conv_signed]
  obtain ⟨h1, h2⟩ := h
  have hp := A.pow_split
  unfold Plat.intMin at h1
  unfold Plat.intMax at h2
  apply Int.bmod_eq_of_le_mul_two <;> push_cast <;> omega

@[csrc] theorem conv_int_small {n : Int} (h1 : -32768 ≤ n) (h2 : n ≤ 32767) :
    IT.conv ⟨A.ib, true⟩ n = n := by
  apply conv_int
  have := A.intMax_ge
  have := A.intMin_eq
  constructor <;> omega

@[csrc] theorem conv_int_byte (c : UInt8) : IT.conv ⟨A.ib, true⟩ (c.toNat : Int) = c.toNat := by
  have := c.toNat_lt
  exact conv_int_small (by omega) (by omega)

/-- Conversion of a `size_t` to `int`. -/
theorem conv_int_nat (n : Nat) : IT.conv ⟨A.ib, true⟩ (n : Int) = A.toInt n := rfl

theorem inInt_toInt (n : Nat) : A.InInt (A.toInt n) := by
  refine ⟨?_, A.toInt_le_max n⟩
  unfold Plat.toInt Plat.intMin
  have h1 := A.pow_split
  have := @Int.le_bmod n (2 ^ A.ib) (Nat.pow_pos (by decide))
  push_cast at this
  push_cast
  omega

@[csrc] theorem conv_int_toInt (n : Nat) : IT.conv ⟨A.ib, true⟩ (A.toInt n) = A.toInt n :=
  conv_int (inInt_toInt n)

@[csrc] theorem add_int (a b : Int) : AOp.run ⟨A.ib, true⟩ .add a b = A.int (a + b) := rfl
@[csrc] theorem sub_int (a b : Int) : AOp.run ⟨A.ib, true⟩ .sub a b = A.int (a - b) := rfl
@[csrc] theorem mul_int (a b : Int) : AOp.run ⟨A.ib, true⟩ .mul a b = A.int (a * b) := rfl

theorem int_eq_ok {P : Plat} {x y : Int} (h : P.int x = .ok y) :
    y = x ∧ P.intMin ≤ x ∧ x ≤ P.intMax := by
  unfold Plat.int at h
  split at h
  · rename_i hc; cases h; exact ⟨rfl, hc⟩
  · cases h

theorem inInt_of_int {x y : Int} (h : A.int x = .ok y) : A.InInt y := by
  obtain ⟨rfl, h⟩ := int_eq_ok h
  exact h

/-- Conversion of an `int` to `size_t`. -/
theorem conv_size_int (i : Int) : IT.conv ⟨A.sb, false⟩ i = (A.toSz i : Nat) := conv_size_toSz A i

/-! ## Loops -/

/-- The condition of a loop. -/
def Stmt.cond : Stmt → Expr
  | .loop c _ _ => c
  | _ => .null
/-- The third expression of a `for`. -/
def Stmt.step : Stmt → Option Expr
  | .loop _ s _ => s
  | _ => none
/-- The body of a loop. -/
def Stmt.body : Stmt → Stmt
  | .loop _ _ b => b
  | s => s

/-- At most `n` rounds of a loop whose body has the fuel `N`. -/
def Stmt.rounds (A : Arch) (K : Calls) (N : Nat) (l : Stmt) (n : Nat) (s : St) : C (Flow × St) :=
  runLoop (evalCond A K l.cond) (exec A K N l.body) (evalStep A K l.step) n s

theorem Stmt.rounds_succ (A : Arch) (K : Calls) (N : Nat) (l : Stmt) (n : Nat) (s : St) :
    l.rounds A K N (n + 1) s = (do
      let (b, s) ← evalCond A K l.cond s
      if b then do
        let (f, s) ← exec A K N l.body s
        match f with
        | .next => do
          let s ← evalStep A K l.step s
          l.rounds A K N n s
        | .brk => .ok (.next, s)
        | .ret v => .ok (.ret v, s)
      else .ok (.next, s)) := rfl

theorem Stmt.rounds_exit {A : Arch} {K : Calls} {N : Nat} {l : Stmt} {n : Nat} {s s' : St}
    (h : evalCond A K l.cond s = .ok (false, s')) :
    l.rounds A K N (n + 1) s = .ok (.next, s') := by
  rw [Stmt.rounds_succ, h]; rfl

theorem Stmt.rounds_ret {A : Arch} {K : Calls} {N : Nat} {l : Stmt} {n : Nat} {s s' s'' : St}
    {v : CVal} (h : evalCond A K l.cond s = .ok (true, s'))
    (h2 : exec A K N l.body s' = .ok (.ret v, s'')) :
    l.rounds A K N (n + 1) s = .ok (.ret v, s'') := by
  rw [Stmt.rounds_succ, h, C.ok_bind]; dsimp only; rw [if_pos rfl, h2]; rfl

theorem Stmt.rounds_brk {A : Arch} {K : Calls} {N : Nat} {l : Stmt} {n : Nat} {s s' s'' : St}
    (h : evalCond A K l.cond s = .ok (true, s'))
    (h2 : exec A K N l.body s' = .ok (.brk, s'')) :
    l.rounds A K N (n + 1) s = .ok (.next, s'') := by
  rw [Stmt.rounds_succ, h, C.ok_bind]; dsimp only; rw [if_pos rfl, h2]; rfl

theorem Stmt.rounds_next {A : Arch} {K : Calls} {N : Nat} {l : Stmt} {n : Nat} {s s' s'' t : St}
    (h : evalCond A K l.cond s = .ok (true, s'))
    (h2 : exec A K N l.body s' = .ok (.next, s''))
    (h3 : evalStep A K l.step s'' = .ok t) :
    l.rounds A K N (n + 1) s = l.rounds A K N n t := by
  rw [Stmt.rounds_succ, h, C.ok_bind]; dsimp only; rw [if_pos rfl, h2, C.ok_bind]; dsimp only
  rw [h3]; rfl

/-! ## Bytes -/

theorem byte_eq (c d : UInt8) : ((c.toNat : Int) = d.toNat) = (c = d) := by
  apply propext
  constructor
  · intro h; exact UInt8.toNat_inj.mp (by omega)
  · rintro rfl; rfl

@[csrc] theorem byte_eq_0 (c : UInt8) : ((c.toNat : Int) = 0) = (c = 0) := byte_eq c 0
@[csrc] theorem byte_eq_1 (c : UInt8) : ((c.toNat : Int) = 1) = (c = 1) := byte_eq c 1
@[csrc] theorem byte_eq_4 (c : UInt8) : ((c.toNat : Int) = 4) = (c = 4) := byte_eq c 4
@[csrc] theorem byte_eq_16 (c : UInt8) : ((c.toNat : Int) = 16) = (c = 16) := byte_eq c 16

/-- Where the objects of the models' byte memory are in the memory of the C semantics. -/
abbrev Place := Nat → Base × Int

/-- The C pointer for a pointer of the models. -/
def pv (β : Place) (p : Ptr) : CVal := .ptr (β p.blk).1 ((β p.blk).2 + p.off)

@[csrc] theorem use_pv (β : Place) (p : Ptr) : (pv β p).use = .ok (pv β p) := rfl

/-- Memory `h` holds the byte memory `m`. -/
structure MRep (β : Place) (h : Heap) (m : Mem) : Prop where
  bytes : ∀ k, h.Bytes (β k).1 (β k).2 (m k)
  inj : ∀ k k' (i i' : Nat), k ≠ k' → i < (m k).length → i' < (m k').length →
    ¬((β k).1 = (β k').1 ∧ (β k).2 + i = (β k').2 + i')

/-- A cell that belongs to no byte object. -/
def Outside (β : Place) (m : Mem) (b : Base) (o : Int) : Prop :=
  ∀ k (i : Nat), i < (m k).length → ¬((β k).1 = b ∧ (β k).2 + i = o)

theorem Mem.ld_ok {m : Mem} {p : Ptr} {i : Int} {c : UInt8} (h : m.ld p i = .ok c) :
    0 ≤ p.off + i ∧ (m p.blk)[(p.off + i).toNat]? = some c := by
  unfold Mem.ld Mu.ld at h
  split at h
  · rename_i h0
    split at h
    · rename_i e; cases h; exact ⟨h0, e⟩
    · cases h
  · cases h

theorem Mem.st_ok {m m' : Mem} {p : Ptr} {i : Int} {c : UInt8} (h : m.st p i c = .ok m') :
    0 ≤ p.off + i ∧ (p.off + i).toNat < (m p.blk).length ∧
      m' = m.set p.blk ((m p.blk).set (p.off + i).toNat c) := by
  unfold Mem.st Mu.st at h
  split at h
  · rename_i h0
    rw [C.ok_bind] at h
    cases h; exact ⟨h0.1, h0.2, rfl⟩
  · rw [C.error_bind] at h; cases h

theorem MRep.at {β : Place} {h : Heap} {m : Mem} (r : MRep β h m) {p : Ptr} {i : Int} {c : UInt8}
    (e : m.ld p i = .ok c) : h.at (β p.blk).1 ((β p.blk).2 + p.off + i) = some (.int c.toNat) := by
  obtain ⟨h0, e⟩ := Mem.ld_ok e
  have := (r.bytes p.blk).2.2 _ _ e
  rw [← this]
  congr 1
  omega

theorem Heap.padd_one {h : Heap} {b : Base} {o i : Int} (h0 : 0 ≤ o + i)
    (h1 : o + i ≤ (h.cells b).length) : h.padd 1 (.ptr b o) i = .ok (.ptr b (o + i)) := by
  simp only [Heap.padd, Int.ofNat_one, Int.one_mul, Int.natCast_one]
  rw [if_pos ⟨h0, h1⟩]

theorem MRep.padd {β : Place} {h : Heap} {m : Mem} (r : MRep β h m) {p : Ptr} {i : Int}
    (h0 : 0 ≤ p.off + i) (h1 : p.off + i ≤ (m p.blk).length) :
    h.padd 1 (.ptr (β p.blk).1 ((β p.blk).2 + p.off)) i =
      .ok (.ptr (β p.blk).1 ((β p.blk).2 + p.off + i)) := by
  have := r.bytes p.blk
  exact Heap.padd_one (by have := this.1; omega) (by have := this.2.1; omega)

theorem MRep.padd_ld {β : Place} {h : Heap} {m : Mem} (r : MRep β h m) {p : Ptr} {i : Int}
    {c : UInt8} (e : m.ld p i = .ok c) :
    h.padd 1 (.ptr (β p.blk).1 ((β p.blk).2 + p.off)) i =
      .ok (.ptr (β p.blk).1 ((β p.blk).2 + p.off + i)) := by
  obtain ⟨h0, e⟩ := Mem.ld_ok e
  have := (List.getElem?_eq_some_iff.mp e).1
  exact r.padd h0 (by omega)

/-- Writing outside the byte objects keeps them. -/
theorem MRep.upd_outside {β : Place} {h : Heap} {m : Mem} (r : MRep β h m) {b : Base} {o : Int}
    {v : CVal} (ho : Outside β m b o) : MRep β (h.upd b o v) m := by
  refine ⟨fun k => ⟨(r.bytes k).1, by rw [Heap.length_upd]; exact (r.bytes k).2.1, ?_⟩, r.inj⟩
  intro i c e
  have hl := (List.getElem?_eq_some_iff.mp e).1
  rw [Heap.at_upd_sep (fun x => ho k i hl ⟨x.1.symm, x.2.symm⟩)]
  exact (r.bytes k).2.2 i c e

/-- Writing a byte. -/
theorem MRep.st {β : Place} {h : Heap} {m m' : Mem} (r : MRep β h m) {p : Ptr} {i : Int}
    {c : UInt8} (hw : (β p.blk).1.isLit = false) (e : m.st p i c = .ok m') :
    MRep β (h.upd (β p.blk).1 ((β p.blk).2 + p.off + i) (.int c.toNat)) m' ∧
      (h.at (β p.blk).1 ((β p.blk).2 + p.off + i)).isSome = true ∧
      ∀ k, (m' k).length = (m k).length := by
  obtain ⟨h0, h1, rfl⟩ := Mem.st_ok e
  have hlen : ∀ k, ((m.set p.blk ((m p.blk).set (p.off + i).toNat c)) k).length = (m k).length := by
    intro k
    unfold Mem.set
    split
    · rename_i ek; rw [List.length_set, ek]
    · rfl
  have hb := r.bytes p.blk
  have hin : (h.at (β p.blk).1 ((β p.blk).2 + p.off + i)).isSome = true := by
    rw [Heap.isSome_at]
    exact ⟨by have := hb.1; omega, by have := hb.2.1; omega⟩
  refine ⟨⟨fun k => ⟨(r.bytes k).1, by rw [Heap.length_upd, hlen]; exact (r.bytes k).2.1, ?_⟩, ?_⟩,
    hin, hlen⟩
  · intro j d e
    have hj := (List.getElem?_eq_some_iff.mp e).1
    rw [hlen] at hj
    by_cases hk : k = p.blk
    · subst hk
      by_cases hj2 : j = (p.off + i).toNat
      · have : (β p.blk).2 + (j : Int) = (β p.blk).2 + p.off + i := by omega
        rw [this, Heap.at_upd_same hw hin]
        simp only [Mem.set, if_true, hj2, List.getElem?_set_self h1] at e
        cases e; rfl
      · rw [Heap.at_upd_ne (Or.inr (by omega))]
        simp only [Mem.set, if_true] at e
        rw [List.getElem?_set_ne (by omega)] at e
        exact (r.bytes _).2.2 j d e
    · have := r.inj k p.blk j (p.off + i).toNat hk hj h1
      rw [Heap.at_upd_sep (fun x => this ⟨x.1.symm, by have := x.2; omega⟩)]
      simp only [Mem.set, hk, if_false] at e
      exact (r.bytes _).2.2 j d e
  · intro k k' j j' hk hj hj'
    rw [hlen] at hj hj'
    exact r.inj k k' j j' hk hj hj'

theorem Outside.congr {β : Place} {m m' : Mem} {b : Base} {o : Int}
    (hl : ∀ k, (m' k).length = (m k).length) (h : Outside β m b o) : Outside β m' b o :=
  fun k i hi => h k i (by rw [← hl k]; exact hi)

theorem MRep.of_only {β : Place} {S : Base → Int → Prop} {h h' : Heap} {m : Mem} (r : MRep β h m)
    (e : Heap.Only S h h') (hs : ∀ b o, S b o → Outside β m b o) : MRep β h' m := by
  refine ⟨fun k => ⟨(r.bytes k).1, by rw [e.size]; exact (r.bytes k).2.1, ?_⟩, r.inj⟩
  intro i c hc
  have hl := (List.getElem?_eq_some_iff.mp hc).1
  rw [e.cell _ _ (fun x => hs _ _ x k i hl ⟨rfl, rfl⟩)]
  exact (r.bytes k).2.2 i c hc

/-! ## Objects for locals -/

/-- Create an object of `n` cells. -/
def Heap.alloc (h : Heap) (n : Nat) : Heap :=
  { (h.put (.obj h.next) (List.replicate n .undef)) with next := h.next + 1 }

theorem FunDef.run_mem1 {A : Arch} {K : Calls} {fuel : Nat} {d : FunDef} {i n : Nat}
    (hm : d.mems = [(i, n)]) (hv : d.va = none) (h : Heap) (args : List CVal) :
    d.run A K fuel h args = (do
      let (f, s) ← exec A K fuel d.body
        ⟨(args.take d.params ++ List.replicate d.locals CVal.undef).set i (.ptr (.obj h.next) 0),
          h.alloc n⟩
      .ok (f.result, s.h.release h.next)) := by
  simp [FunDef.run, hm, hv, allocs, allocVa, Heap.alloc]

theorem Heap.at_alloc_new {h : Heap} {n : Nat} {o : Int} :
    ((h.alloc n).at (.obj h.next) o).isSome = true ↔ 0 ≤ o ∧ o < n := by
  rw [Heap.isSome_at]
  simp [Heap.alloc, Heap.cells, Heap.put]

theorem Heap.cells_alloc_ne {h : Heap} {n : Nat} {b : Base} (hb : b ≠ .obj h.next) :
    (h.alloc n).cells b = h.cells b := by
  cases b with
  | lit s => rfl
  | _ => simp [Heap.alloc, Heap.cells, Heap.put, hb]

theorem Heap.at_alloc_ne {h : Heap} {n : Nat} {b : Base} {o : Int} (hb : b ≠ .obj h.next) :
    (h.alloc n).at b o = h.at b o := by
  unfold Heap.at; rw [Heap.cells_alloc_ne hb]

theorem Heap.Fresh.cells {h : Heap} (hf : h.Fresh) : h.cells (.obj h.next) = [] :=
  hf h.next (Nat.le_refl _)

theorem Heap.Fresh.at_next {h : Heap} (hf : h.Fresh) (o : Int) : h.at (.obj h.next) o = none := by
  unfold Heap.at; rw [hf.cells]; simp

theorem Heap.Fresh.alloc {h : Heap} (hf : h.Fresh) (n : Nat) : (h.alloc n).Fresh := by
  intro k hk
  simp only [Heap.alloc] at hk
  have : h.mem (.obj k) = [] := hf k (by omega)
  simp only [Heap.alloc, Heap.put]
  rw [if_neg (by simp; omega), this]

/-- The byte objects are where they were. -/
theorem MRep.alloc {β : Place} {h : Heap} {m : Mem} (r : MRep β h m) (hf : h.Fresh) (n : Nat) :
    MRep β (h.alloc n) m := by
  refine ⟨fun k => ⟨(r.bytes k).1, ?_, ?_⟩, r.inj⟩
  · by_cases e : (β k).1 = .obj h.next
    · have := (r.bytes k).2.1
      rw [e, hf.cells] at this
      rw [e]; simp at this; omega
    · rw [Heap.cells_alloc_ne e]; exact (r.bytes k).2.1
  · intro i c hc
    have h1 := (r.bytes k).2.2 i c hc
    rw [Heap.at_alloc_ne]
    · exact h1
    · intro e
      rw [e, hf.at_next] at h1; cases h1

theorem MRep.outside_next {β : Place} {h : Heap} {m : Mem} (r : MRep β h m) (hf : h.Fresh)
    (o : Int) : Outside β m (.obj h.next) o := by
  intro k i hi ⟨e, _⟩
  have h1 := (r.bytes k).2.2 i _ (List.getElem?_eq_getElem hi)
  rw [e, hf.at_next] at h1; cases h1

theorem Heap.at_release_of_lt {h : Heap} {n : Nat} {b : Base} (hb : ∀ k, b = .obj k → k < n) :
    (h.release n).cells b = h.cells b := by
  cases b with
  | lit s => rfl
  | glob g => rfl
  | obj k =>
    have := hb k rfl
    simp [Heap.release, Heap.cells]
    intro; omega

theorem Heap.cells_release_ge {h : Heap} {n k : Nat} (hk : n ≤ k) :
    (h.release n).cells (.obj k) = [] := by
  simp [Heap.release, Heap.cells, hk]

/-- What happened to the new object is not seen after the return. -/
theorem Heap.Only.release {S : Base → Int → Prop} {h h' : Heap} {n : Nat} (hf : h.Fresh)
    (e : Heap.Only (fun b o => S b o ∨ b = .obj h.next) (h.alloc n) h') :
    Heap.Only S h (h'.release h.next) := by
  have hc : ∀ b : Base, (∃ k, b = .obj k ∧ h.next ≤ k) ∨ (∀ k, b = .obj k → k < h.next) := by
    intro b
    cases b with
    | obj k =>
      by_cases hk : h.next ≤ k
      · exact Or.inl ⟨k, rfl, hk⟩
      · exact Or.inr (fun k' e => by cases e; omega)
    | lit s => exact Or.inr (fun k e => by cases e)
    | glob g => exact Or.inr (fun k e => by cases e)
  refine ⟨?_, ?_, rfl⟩
  · intro b o hs
    rcases hc b with ⟨k, rfl, hk⟩ | hb
    · have h1 : h.cells (.obj k) = [] := hf k hk
      unfold Heap.at
      rw [Heap.cells_release_ge hk, h1]
    · have hne : b ≠ .obj h.next := fun e => by have := hb _ e; omega
      have := e.cell b o (fun x => x.elim hs hne)
      rw [Heap.at_alloc_ne hne] at this
      unfold Heap.at at this ⊢
      rw [Heap.at_release_of_lt hb]; exact this
  · intro b
    rcases hc b with ⟨k, rfl, hk⟩ | hb
    · have h1 : h.cells (.obj k) = [] := hf k hk
      rw [Heap.cells_release_ge hk, h1]
    · have hne : b ≠ .obj h.next := fun e => by have := hb _ e; omega
      rw [Heap.at_release_of_lt hb, e.size, Heap.cells_alloc_ne hne]

/-- The byte objects survive the return. -/
theorem MRep.release {β : Place} {h h' : Heap} {m m' : Mem} (r0 : MRep β h m) (hf : h.Fresh)
    (hl : ∀ k, (m' k).length = (m k).length) (hs : ∀ b, b ≠ .obj h.next → (h'.cells b).length = (h.cells b).length)
    (r : MRep β h' m') : MRep β (h'.release h.next) m' := by
  have key : ∀ k, (m k).length ≠ 0 → ∀ j, (β k).1 = .obj j → j < h.next := by
    intro k hk j e
    by_cases hj : h.next ≤ j
    · have h1 : h.cells (.obj j) = [] := hf j hj
      have := (r0.bytes k).2.1
      rw [e, h1] at this
      have := (r0.bytes k).1
      simp only [List.length_nil] at *; omega
    · omega
  refine ⟨fun k => ⟨(r.bytes k).1, ?_, ?_⟩, r.inj⟩
  · by_cases hk : (m k).length = 0
    · rw [hl, hk]
      have h1 := (r0.bytes k).2.1
      by_cases e : ∃ j, (β k).1 = .obj j ∧ h.next ≤ j
      · obtain ⟨j, e, hj⟩ := e
        have h2 : h.cells (.obj j) = [] := hf j hj
        rw [e, h2] at h1
        rw [e, Heap.cells_release_ge hj]
        simp at *; omega
      · have hb : ∀ j, (β k).1 = .obj j → j < h.next := fun j ej => by
          by_cases hj : h.next ≤ j
          · exact absurd ⟨j, ej, hj⟩ e
          · omega
        rw [Heap.at_release_of_lt hb, hs _ (fun ej => by have := hb _ ej; omega)]
        omega
    · rw [Heap.at_release_of_lt (key k hk)]; exact (r.bytes k).2.1
  · intro i c hc
    have hi := (List.getElem?_eq_some_iff.mp hc).1
    rw [hl] at hi
    have := (r.bytes k).2.2 i c hc
    unfold Heap.at at this ⊢
    rw [Heap.at_release_of_lt (key k (by omega))]; exact this

end Mu.CS
