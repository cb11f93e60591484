import Verif.C.SrcAttr
import Verif.Src.Prog

/-! # Executing syntax trees: memory, arithmetic, and the rules used to run a function body -/

namespace Mu.CS

/-! ## Memory -/

@[csrc] theorem isLit_obj (n : Nat) : (Base.obj n).isLit = false := by simp only [Base.isLit]
@[csrc] theorem isLit_glob (g : Glob) : (Base.glob g).isLit = false := by simp only [Base.isLit]

theorem Heap.cells_eq {b : Base} (hb : b.isLit = false) (h : Heap) : h.cells b = h.mem b := by
  cases b with
  | lit s => simp [Base.isLit] at hb
  | obj n => rfl
  | glob g => rfl

@[csrc] theorem Heap.at_upd_same {h : Heap} {b : Base} {o : Int} {v : CVal} (hb : b.isLit = false)
    (hw : (h.at b o).isSome = true) : (h.upd b o v).at b o = some v := by
  obtain ⟨w, hw⟩ := Option.isSome_iff_exists.mp hw
  have h0 : 0 ≤ o := by
    by_cases h0 : 0 ≤ o
    · exact h0
    · simp [Heap.at, h0] at hw
  have hc := Heap.cells_eq hb
  simp only [Heap.at, h0, if_true, hc] at hw ⊢
  have hl : o.toNat < (h.mem b).length := by
    rw [List.getElem?_eq_some_iff] at hw; exact hw.1
  simp [Heap.upd, h0, Heap.put, hl]

@[csrc] theorem Heap.at_upd_ne {h : Heap} {b b' : Base} {o o' : Int} {v : CVal}
    (hne : b' ≠ b ∨ o' ≠ o) : (h.upd b o v).at b' o' = h.at b' o' := by
  unfold Heap.upd
  split
  · rename_i h0
    unfold Heap.at
    split
    · rename_i h1
      cases b' with
      | lit s => rfl
      | _ =>
        simp only [Heap.cells, Heap.put]
        split
        · rename_i e
          rw [List.getElem?_set, if_neg, ← e]
          rcases hne with hne | hne
          · exact absurd e hne
          · omega
        · rfl
    · rfl
  · rfl

/-- Another form of the same fact. -/
theorem Heap.at_upd_sep {h : Heap} {b b' : Base} {o o' : Int} {v : CVal}
    (hne : ¬(b = b' ∧ o = o')) : (h.upd b o v).at b' o' = h.at b' o' := by
  apply Heap.at_upd_ne
  by_cases e : b' = b
  · right; intro e'; exact hne ⟨e.symm, e'.symm⟩
  · left; exact e

@[csrc] theorem self_ne_add {o k : Int} (hk : k ≠ 0) : (o = o + k) = False := by
  simp only [eq_iff_iff, iff_false]; omega
@[csrc] theorem add_ne_self {o k : Int} (hk : k ≠ 0) : (o + k = o) = False := by
  simp only [eq_iff_iff, iff_false]; omega

@[simp] theorem Heap.next_upd (h : Heap) (b : Base) (o : Int) (v : CVal) :
    (h.upd b o v).next = h.next := by
  unfold Heap.upd; split <;> rfl

@[simp] theorem Heap.length_upd (h : Heap) (b b' : Base) (o : Int) (v : CVal) :
    ((h.upd b o v).cells b').length = (h.cells b').length := by
  unfold Heap.upd
  split
  · cases b' with
    | lit s => rfl
    | _ =>
      simp only [Heap.cells, Heap.put]
      split
      · rename_i e; rw [List.length_set, ← e]
      · rfl
  · rfl

theorem Heap.at_some_bounds {h : Heap} {b : Base} {o : Int} {w : CVal} (hw : h.at b o = some w) :
    0 ≤ o ∧ o < (h.cells b).length := by
  unfold Heap.at at hw
  split at hw
  · rename_i h0
    rw [List.getElem?_eq_some_iff] at hw
    exact ⟨h0, by have := hw.1; omega⟩
  · cases hw

theorem Heap.isSome_at (h : Heap) (b : Base) (o : Int) :
    (h.at b o).isSome = true ↔ 0 ≤ o ∧ o < (h.cells b).length := by
  constructor
  · intro hs
    obtain ⟨w, hw⟩ := Option.isSome_iff_exists.mp hs
    exact Heap.at_some_bounds hw
  · rintro ⟨h0, h1⟩
    unfold Heap.at
    rw [if_pos h0, List.getElem?_eq_getElem (by omega)]
    rfl

@[csrc] theorem Heap.isSome_upd (h : Heap) (b b' : Base) (o o' : Int) (v : CVal) :
    ((h.upd b o v).at b' o').isSome = (h.at b' o').isSome := by
  rw [Bool.eq_iff_iff, Heap.isSome_at, Heap.isSome_at, Heap.length_upd]

/-- `h'` differs from `h` only in the cells of `S`. -/
structure Heap.Only (S : Base → Int → Prop) (h h' : Heap) : Prop where
  cell : ∀ b o, ¬ S b o → h'.at b o = h.at b o
  size : ∀ b, (h'.cells b).length = (h.cells b).length
  next : h'.next = h.next

theorem Heap.Only.refl (S : Base → Int → Prop) (h : Heap) : Heap.Only S h h :=
  ⟨fun _ _ _ => rfl, fun _ => rfl, rfl⟩

theorem Heap.Only.trans {S : Base → Int → Prop} {h1 h2 h3 : Heap} (a : Heap.Only S h1 h2)
    (b : Heap.Only S h2 h3) : Heap.Only S h1 h3 :=
  ⟨fun c o n => (b.cell c o n).trans (a.cell c o n), fun c => (b.size c).trans (a.size c),
    b.next.trans a.next⟩

theorem Heap.Only.mono {S T : Base → Int → Prop} {h1 h2 : Heap} (a : Heap.Only S h1 h2)
    (hs : ∀ b o, S b o → T b o) : Heap.Only T h1 h2 :=
  ⟨fun c o n => a.cell c o (fun x => n (hs c o x)), a.size, a.next⟩

theorem Heap.Only.upd {S : Base → Int → Prop} {h h' : Heap} {b : Base} {o : Int} {v : CVal}
    (a : Heap.Only S h h') (hs : S b o) : Heap.Only S h (h'.upd b o v) :=
  a.trans ⟨fun b' o' n => Heap.at_upd_ne (by
      by_cases e : b' = b
      · right; intro e'; subst e; subst e'; exact n hs
      · left; exact e), fun _ => by simp, by simp⟩

theorem Heap.Only.isSome {S : Base → Int → Prop} {h h' : Heap} (e : Heap.Only S h h') (b : Base)
    (o : Int) : (h'.at b o).isSome = true ↔ (h.at b o).isSome = true := by
  rw [Heap.isSome_at, Heap.isSome_at, e.size]

/-! ## Loads and stores -/

@[csrc] theorem use_int (n : Int) : (CVal.int n).use = .ok (.int n) := rfl
@[csrc] theorem use_null : CVal.null.use = .ok .null := rfl
@[csrc] theorem use_ptr (b : Base) (o : Int) : (CVal.ptr b o).use = .ok (.ptr b o) := rfl
@[csrc] theorem use_fn (n : Nat) : (CVal.fn n).use = .ok (.fn n) := rfl
@[csrc] theorem use_dbl (d : Jems.Dbl) : (CVal.dbl d).use = .ok (.dbl d) := rfl
@[csrc] theorem use_ofBool (b : Bool) : (CVal.ofBool b).use = .ok (.ofBool b) := rfl
@[csrc] theorem use_ne {v : CVal} (h : v ≠ .undef) : v.use = .ok v := by
  cases v <;> first | rfl | exact absurd rfl h

@[csrc] theorem Heap.load_ptr (h : Heap) (b : Base) (o : Int) :
    h.load (.ptr b o) = match h.at b o with
      | some v => v.use
      | none => .error .oob := rfl

theorem Heap.load_some {h : Heap} {b : Base} {o : Int} {v : CVal} (hv : v ≠ .undef)
    (e : h.at b o = some v) : h.load (.ptr b o) = .ok v := by
  rw [Heap.load_ptr, e]; exact use_ne hv

@[csrc] theorem Heap.store_in {h : Heap} {b : Base} {o : Int} {v : CVal} (hb : b.isLit = false)
    (e : (h.at b o).isSome = true) : h.store (.ptr b o) v = .ok (h.upd b o v) := by
  obtain ⟨w, e⟩ := Option.isSome_iff_exists.mp e
  cases b with
  | lit s => simp [Base.isLit] at hb
  | obj n => simp [Heap.store, e]
  | glob g => simp [Heap.store, e]

@[csrc] theorem Heap.padd_in {h : Heap} {b : Base} {o i : Int} {n : Nat}
    (e : (h.at b (o + n * i)).isSome = true) : h.padd n (.ptr b o) i = .ok (.ptr b (o + n * i)) := by
  obtain ⟨w, e⟩ := Option.isSome_iff_exists.mp e
  have := Heap.at_some_bounds e
  simp only [Heap.padd]
  rw [if_pos ⟨this.1, by omega⟩]

/-! ## Arithmetic -/

theorem IT.conv_unsigned (w : Nat) (n : Int) : IT.conv ⟨w, false⟩ n = n % 2 ^ w := rfl
theorem IT.conv_signed (w : Nat) (n : Int) :
    IT.conv ⟨w, true⟩ n = n.bmod (2 ^ w) := rfl

theorem two_pow_cast (w : Nat) : (2 : Int) ^ w = ((2 ^ w : Nat) : Int) := by
  rw [Int.natCast_pow]; rfl

@[csrc] theorem Arch.it_size (A : Arch) : A.it .size = ⟨A.sb, false⟩ := rfl
@[csrc] theorem Arch.it_int (A : Arch) : A.it .int = ⟨A.ib, true⟩ := rfl
@[csrc] theorem Arch.it_uint (A : Arch) : A.it .uint = ⟨A.ib, false⟩ := rfl

/-- Conversion of a natural number to `size_t`. -/
theorem conv_size (A : Arch) (n : Nat) : IT.conv ⟨A.sb, false⟩ (n : Int) = (A.sz n : Nat) := by
  rw [IT.conv_unsigned, two_pow_cast]; rfl

theorem conv_size_lt {A : Arch} {n : Nat} (h : n < A.szMod) :
    IT.conv ⟨A.sb, false⟩ (n : Int) = n := by
  rw [conv_size, Plat.sz_of_lt h]

/-- Conversion of any integer to `size_t`. -/
theorem conv_size_toSz (A : Arch) (n : Int) : IT.conv ⟨A.sb, false⟩ n = (A.toSz n : Nat) := by
  rw [IT.conv_unsigned, Plat.toSz, two_pow_cast, Int.toNat_of_nonneg]; rfl
  exact Int.emod_nonneg _ (by have := A.szMod_pos; unfold Plat.szMod at *; omega)

theorem szMod_ge (A : Plat) : 65536 ≤ A.szMod := by
  have h1 : 16 ≤ A.sb := Nat.le_trans A.hib A.hsb
  have : (2 : Nat) ^ 16 ≤ 2 ^ A.sb := Nat.pow_le_pow_right (by decide) h1
  exact this

@[csrc] theorem conv_size_zero (A : Arch) : IT.conv ⟨A.sb, false⟩ 0 = 0 := by
  have := conv_size_lt (A := A) (n := 0) (by have := szMod_ge A.toPlat; omega)
  exact this
@[csrc] theorem conv_size_one (A : Arch) : IT.conv ⟨A.sb, false⟩ 1 = 1 := by
  have := conv_size_lt (A := A) (n := 1) (by have := szMod_ge A.toPlat; omega)
  exact this

/-- `size_t` addition. -/
theorem add_size (A : Arch) (a b : Nat) :
    AOp.run ⟨A.sb, false⟩ .add (a : Int) (b : Int) = .ok ((A.sz (a + b) : Nat) : Int) := by
  simp only [AOp.run, IT.arith, Bool.false_eq_true, if_false]
  rw [two_pow_cast, ← Int.natCast_add]; rfl

/-- `size_t` subtraction. -/
theorem sub_size (A : Arch) (a b : Nat) :
    AOp.run ⟨A.sb, false⟩ .sub (a : Int) (b : Int) = .ok ((A.szSub a b : Nat) : Int) := by
  simp only [AOp.run, IT.arith, Bool.false_eq_true, if_false]
  have := conv_size_toSz A ((a : Int) - b)
  rw [IT.conv_unsigned] at this
  rw [this]; rfl

theorem szSub_lt (A : Arch) (a b : Nat) : A.szSub a b < A.szMod := by
  unfold Plat.szSub Plat.toSz
  have h0 := A.szMod_pos
  have := Int.emod_lt_of_pos ((a : Int) - b) (b := (A.szMod : Int)) (by omega)
  have := Int.emod_nonneg ((a : Int) - b) (b := (A.szMod : Int)) (by omega)
  omega

@[csrc] theorem conv_sz (A : Arch) (n : Nat) :
    IT.conv ⟨A.sb, false⟩ ((A.sz n : Nat) : Int) = (A.sz n : Nat) :=
  conv_size_lt (Nat.mod_lt _ A.szMod_pos)
@[csrc] theorem conv_szSub (A : Arch) (a b : Nat) :
    IT.conv ⟨A.sb, false⟩ ((A.szSub a b : Nat) : Int) = (A.szSub a b : Nat) :=
  conv_size_lt (szSub_lt A a b)
attribute [csrc] add_size sub_size
@[csrc] theorem add_size_one (A : Arch) (a : Nat) :
    AOp.run ⟨A.sb, false⟩ .add (a : Int) 1 = .ok ((A.sz (a + 1) : Nat) : Int) := add_size A a 1
@[csrc] theorem sub_size_one (A : Arch) (a : Nat) :
    AOp.run ⟨A.sb, false⟩ .sub (a : Int) 1 = .ok ((A.szSub a 1 : Nat) : Int) := sub_size A a 1

/-- `size_t` remainder. -/
theorem mod_size (A : Arch) {a b : Nat} (ha : a < A.szMod) (hb : b ≠ 0) :
    AOp.run ⟨A.sb, false⟩ .mod (a : Int) (b : Int) = .ok ((a % b : Nat) : Int) := by
  simp only [AOp.run, IT.arith, Bool.false_eq_true, if_false]
  rw [if_neg (by omega), Int.tmod_eq_emod_of_nonneg (by omega), ← Int.natCast_emod, two_pow_cast,
    ← Int.natCast_emod, Nat.mod_eq_of_lt]
  exact Nat.lt_of_le_of_lt (Nat.mod_le _ _) ha

@[csrc] theorem Arch.sz_lt (A : Arch) (n : Nat) : A.sz n < A.szMod := Nat.mod_lt _ A.szMod_pos

/-! ## Running a body -/

attribute [csrc] Flow.result eval evalArgs evalCond evalStep exec St.get COp.run
  C.ok_bind C.error_bind

@[csrc] theorem run_arith (A : Arch) (h : Heap) (o : AOp) (t : ITy) (x y : Int) :
    Op.run A h (.arith o t) (.int x) (.int y) =
      (o.run (A.it t) ((A.it t).conv x) ((A.it t).conv y)).bind (fun r => .ok (.int r)) := rfl
@[csrc] theorem run_cmp (A : Arch) (h : Heap) (o : COp) (t : ITy) (x y : Int) :
    Op.run A h (.cmp o t) (.int x) (.int y) =
      .ok (.ofBool (o.run ((A.it t).conv x) ((A.it t).conv y))) := rfl
@[csrc] theorem run_pcmp (A : Arch) (h : Heap) (o : COp) (x y : CVal) :
    Op.run A h (.pcmp o) x y = (o.runPtr x y).bind (fun r => .ok (.ofBool r)) := rfl
@[csrc] theorem run_padd (A : Arch) (h : Heap) (n : Nat) (x : CVal) (i : Int) :
    Op.run A h (.padd n) x (.int i) = h.padd n x i := by cases x <;> rfl
@[csrc] theorem run_psub (A : Arch) (h : Heap) (n : Nat) (x : CVal) (i : Int) :
    Op.run A h (.psub n) x (.int i) = h.padd n x (-i) := by cases x <;> rfl
@[csrc] theorem Except.bind_ok' {α β : Type} (a : α) (f : α → C β) :
    (Except.ok a : C α).bind f = f a := rfl

@[csrc] theorem convTo_some (A : Arch) (t : ITy) (n : Int) :
    convTo A (some t) (.int n) = .ok (.int ((A.it t).conv n)) := rfl
@[csrc] theorem convTo_none (A : Arch) (v : CVal) : convTo A none v = .ok v := rfl

@[csrc] theorem truth_ofBool (b : Bool) : (CVal.ofBool b).truth = .ok b := by
  cases b <;> rfl
@[csrc] theorem truth_int (n : Int) : (CVal.int n).truth = .ok (decide (n ≠ 0)) := rfl
@[csrc] theorem truth_null : CVal.null.truth = .ok false := rfl
@[csrc] theorem truth_ptr (b : Base) (o : Int) : (CVal.ptr b o).truth = .ok true := rfl
@[csrc] theorem truth_fn (n : Nat) : (CVal.fn n).truth = .ok true := rfl
@[csrc] theorem natCast_inj' (a b : Nat) : ((a : Int) = b) = (a = b) := propext Int.ofNat_inj
@[csrc] theorem natCast_lt' (a b : Nat) : ((a : Int) < b) = (a < b) := propext Int.ofNat_lt
@[csrc] theorem natCast_le' (a b : Nat) : ((a : Int) ≤ b) = (a ≤ b) := propext Int.ofNat_le
@[csrc] theorem ge_le' (a b : Int) : (a ≥ b) = (b ≤ a) := rfl
@[csrc] theorem gt_lt' (a b : Int) : (a > b) = (b < a) := rfl

theorem FunDef.run_regs {A : Arch} {K : Calls} {fuel : Nat} {d : FunDef} (hm : d.mems = [])
    (hv : d.va = none) (h : Heap) (args : List CVal) :
    d.run A K fuel h args = (do
      let (f, s) ← exec A K fuel d.body ⟨args ++ List.replicate d.locals .undef, h⟩
      .ok (f.result, s.h)) := by
  simp [FunDef.run, hm, hv]

theorem sem_succ {A : Arch} {X : Ext} {p : Fn → Option FunDef} {n : Nat} {f : Fn} {d : FunDef}
    (hd : p f = some d) :
    sem A X p (n + 1) f = d.run A ⟨sem A X p n, X.cb (sem A X p n)⟩ n := by
  simp [sem, hd]

end Mu.CS
