import Verif.Spec.SrcConc
import Verif.Lemmas.SrcAct

/-! # The number of accesses of code without loops and calls -/

namespace Mu.CS.Conc

variable {A : Arch} {K : ACalls} {fuel : Nat}

section within
variable {α β : Type}

theorem Within.mono {a : Act α} : ∀ {m n : Nat}, m ≤ n → Within a m → Within a n := by
  induction a with
  | done a => intros; simp [Within]
  | fail e => intros; simp [Within]
  | mem f k ih =>
    intro m n hmn h
    cases m with
    | zero => exact absurd h (by simp [Within])
    | succ m =>
      cases n with
      | zero => omega
      | succ n => exact fun v => ih v (by omega) (h v)
  | pick k ih =>
    intro m n hmn h
    simp only [Within] at h ⊢
    exact fun b => ih b hmn (h b)

theorem Within.bind {a : Act α} {k : α → Act β} {n : Nat} : ∀ {m : Nat}, Within a m → (∀ x, Within (k x) n) → Within (a.bind k) (m + n) := by
  induction a with
  | done a => intro m _ h; exact (h a).mono (by omega)
  | fail e => intros; simp [Act.bind, Within]
  | mem f c ih =>
    intro m h hk
    cases m with
    | zero => exact absurd h (by simp [Within])
    | succ m =>
      rw [show m + 1 + n = (m + n) + 1 by omega]
      exact fun v => ih v (h v) hk
  | pick c ih =>
    intro m h hk
    simp only [Within] at h
    simp only [Act.bind, Within]
    exact fun b => ih b (h b) hk

theorem within_both {σ : Type} {a : σ → Act (α × σ)} {b : σ → Act (β × σ)} {m n : Nat} (ha : ∀ s, Within (a s) m) (hb : ∀ s, Within (b s) n)
    (s : σ) : Within (Act.both a b s) (m + n) := by
  simp only [Act.both, Within]
  intro x
  cases x
  · exact ((hb s).bind (fun y => (ha y.2).bind (n := 0) (fun x => by simp [Within]))).mono (by omega)
  · exact ((ha s).bind (fun y => (hb y.2).bind (n := 0) (fun x => by simp [Within]))).mono (by omega)

theorem within_done (a : α) : Within (.done a) 0 := by simp [Within]
theorem within_lift (a : C α) : Within (Act.lift a) 0 := by cases a <;> simp [Act.lift, Within]
theorem within_load (p : CVal) : Within (Act.load p) 1 := fun _ => by simp [Within]
theorem within_store (p v : CVal) : Within (Act.store p v) 1 := fun _ => by simp [Within]
theorem within_op (o : Op) (x y : CVal) : Within (Act.op A o x y) (match o with | .padd _ | .psub _ => 1 | _ => 0) := by
  cases o <;> first | exact within_lift _ | exact fun _ => by simp [Within]
theorem within_ite {p : Prop} [Decidable p] {a b : Act α} {m n : Nat} (ha : Within a m) (hb : Within b n) :
    Within (if p then a else b) (max m n) := by
  split
  · exact ha.mono (by omega)
  · exact hb.mono (by omega)
end within


/-- The accesses of an operator. -/
def opCost : Op → Nat
  | .padd _ | .psub _ => 1
  | _ => 0

/-- No calls. -/
def plainE : Expr → Bool
  | .load p => plainE p
  | .setv _ e | .updv _ _ _ _ e | .neg _ e | .lnot e | .cast _ e | .tobool e | .dtoi _ e | .itod e | .fld e _ => plainE e
  | .store a b | .upd a _ _ _ b | .bin _ a b | .land a b | .lor a b => plainE a && plainE b
  | .cond c a b => plainE c && plainE a && plainE b
  | .call _ _ | .callp _ _ => false
  | _ => true

/-- The accesses of an expression. -/
def costE : Expr → Nat
  | .load p => costE p + 1
  | .setv _ e | .neg _ e | .lnot e | .cast _ e | .tobool e | .dtoi _ e | .itod e | .fld e _ => costE e
  | .updv _ o _ _ e => costE e + opCost o
  | .store a b => costE a + costE b + 1
  | .upd a o _ _ b => costE a + 1 + costE b + opCost o + 1
  | .bin o a b => costE a + costE b + opCost o
  | .land a b | .lor a b => costE a + costE b
  | .cond c a b => costE c + max (costE a) (costE b)
  | _ => 0

/-- No calls and no loops. -/
def plainS : Stmt → Bool
  | .expr e | .ret e => plainE e
  | .seq a b => plainS a && plainS b
  | .ite c a b => plainE c && plainS a && plainS b
  | .loop _ _ _ => false
  | _ => true

/-- The accesses of a statement. -/
def costS : Stmt → Nat
  | .expr e | .ret e => costE e
  | .seq a b => costS a + costS b
  | .ite c a b => costE c + max (costS a) (costS b)
  | _ => 0

theorem within_zero {α : Type} {a : Act α} {n : Nat} (h : Within a 0) : Within a n := h.mono (Nat.zero_le _)

theorem within_op' (o : Op) (x y : CVal) : Within (Act.op A o x y) (opCost o) := by
  cases o <;> first | exact within_lift _ | exact fun _ => by simp [Within]

theorem within_fail {α : Type} (e : Fault) (n : Nat) : Within (.fail e : Act α) n := by simp [Within]

theorem within_evalA : ∀ e, plainE e = true → ∀ s, Within (evalA A K e s) (costE e)
  | .num _, _, _ => within_done _
  | .intMax, _, _ => within_done _
  | .sizeMax, _, _ => within_done _
  | .null, _, _ => within_done _
  | .str _, _, _ => within_done _
  | .glob _, _, _ => within_done _
  | .var i, _, s => (within_lift (s.get i)).bind (n := 0) fun _ => within_done _
  | .load p, h, s => by
    simp only [plainE] at h
    exact (within_evalA p h s).bind fun x => (within_load x.1).bind (n := 0) fun _ => within_done _
  | .setv i e, h, s => by
    simp only [plainE] at h
    exact (within_evalA e h s).bind (n := 0) fun x => within_done _
  | .store a b, h, s => by
    simp only [plainE, Bool.and_eq_true] at h
    exact (within_both (within_evalA a h.1) (within_evalA b h.2) s).bind fun x => (within_store _ _).bind (n := 0) fun _ => within_done _
  | .updv i o to post e, h, s => by
    simp only [plainE] at h
    refine Within.mono (m := 0 + costE e + (opCost o + 0)) (by simp [costE]) ?_
    refine Within.bind (within_both (fun s => ?_) (within_evalA e h) s) fun x => ?_
    · exact Within.bind (m := 0) (n := 0) (within_lift _) fun _ => within_done _
    · exact Within.bind (within_op' o _ _) fun _ => Within.bind (m := 0) (n := 0) (within_lift _) fun _ => within_done _
  | .upd a o to post b, h, s => by
    simp only [plainE, Bool.and_eq_true] at h
    refine Within.mono (m := costE a + 1 + costE b + (opCost o + 1)) (by simp [costE]; omega) ?_
    refine Within.bind (within_both (fun s => ?_) (within_evalA b h.2) s) fun x => ?_
    · exact Within.bind (n := 1) (within_evalA a h.1 s) fun x => Within.bind (n := 0) (within_load _) fun _ => within_done _
    · exact Within.bind (within_op' o _ _) fun _ => Within.bind (m := 0) (n := 1) (within_lift _) fun _ =>
        Within.bind (n := 0) (within_store _ _) fun _ => within_done _
  | .bin o a b, h, s => by
    simp only [plainE, Bool.and_eq_true] at h
    exact (within_both (within_evalA a h.1) (within_evalA b h.2) s).bind fun x => (within_op' o _ _).bind (n := 0) fun _ => within_done _
  | .neg t e, h, s => by
    simp only [plainE] at h
    refine (within_evalA e h s).bind (n := 0) fun ⟨v, s⟩ => ?_
    cases v <;> first | exact within_fail _ _ | exact (within_lift _).bind (n := 0) fun _ => within_done _
  | .lnot e, h, s => by
    simp only [plainE] at h
    exact (within_evalA e h s).bind (n := 0) fun x => (within_lift _).bind (n := 0) fun _ => within_done _
  | .cast t e, h, s => by
    simp only [plainE] at h
    exact (within_evalA e h s).bind (n := 0) fun x => (within_lift _).bind (n := 0) fun _ => within_done _
  | .tobool e, h, s => by
    simp only [plainE] at h
    exact (within_evalA e h s).bind (n := 0) fun x => (within_lift _).bind (n := 0) fun _ => within_done _
  | .dtoi t e, h, s => by
    simp only [plainE] at h
    refine (within_evalA e h s).bind (n := 0) fun ⟨v, s⟩ => ?_
    cases v <;> cases t <;> first | exact within_fail _ _ | exact (within_lift _).bind (n := 0) fun _ => within_done _
  | .itod e, h, s => by
    simp only [plainE] at h
    refine (within_evalA e h s).bind (n := 0) fun ⟨v, s⟩ => ?_
    cases v <;> first | exact within_fail _ _ | exact within_done _
  | .land a b, h, s => by
    simp only [plainE, Bool.and_eq_true] at h
    refine (within_evalA a h.1 s).bind fun x => ((within_lift _).bind (n := costE b) fun p => ?_).mono (by omega)
    split
    · exact (within_evalA b h.2 _).bind (n := 0) fun _ => (within_lift _).bind (n := 0) fun _ => within_done _
    · exact within_zero (within_done _)
  | .lor a b, h, s => by
    simp only [plainE, Bool.and_eq_true] at h
    refine (within_evalA a h.1 s).bind fun x => ((within_lift _).bind (n := costE b) fun p => ?_).mono (by omega)
    split
    · exact within_zero (within_done _)
    · exact (within_evalA b h.2 _).bind (n := 0) fun _ => (within_lift _).bind (n := 0) fun _ => within_done _
  | .cond c a b, h, s => by
    simp only [plainE, Bool.and_eq_true] at h
    exact (within_evalA c h.1.1 s).bind fun x => ((within_lift _).bind fun p =>
      within_ite (within_evalA a h.1.2 _) (within_evalA b h.2 _)).mono (by omega)
  | .fld p k, h, s => by
    simp only [plainE] at h
    refine (within_evalA p h s).bind (n := 0) fun ⟨v, s⟩ => ?_
    cases v <;> first | exact within_fail _ _ | exact within_done _
  | .call _ _, h, _ => by simp [plainE] at h
  | .callp _ _, h, _ => by simp [plainE] at h

theorem within_execA : ∀ c, plainS c = true → ∀ s, Within (execA A K fuel c s) (costS c)
  | .skip, _, _ => within_done _
  | .expr e, h, s => by
    simp only [plainS] at h
    exact (within_evalA e h s).bind (n := 0) fun _ => within_done _
  | .undef i, _, _ => within_done _
  | .seq a b, h, s => by
    simp only [plainS, Bool.and_eq_true] at h
    refine (within_execA a h.1 s).bind fun ⟨f, s⟩ => ?_
    cases f
    · exact within_execA b h.2 s
    · exact within_zero (within_done _)
    · exact within_zero (within_done _)
  | .ite c a b, h, s => by
    simp only [plainS, Bool.and_eq_true] at h
    exact ((within_evalA c h.1.1 s).bind (n := 0) fun _ => (within_lift _).bind (n := 0) fun _ => within_done _).bind fun x =>
      within_ite (within_execA a h.1.2 _) (within_execA b h.2 _)
  | .loop _ _ _, h, _ => by simp [plainS] at h
  | .brk, _, _ => within_done _
  | .ret e, h, s => by
    simp only [plainS] at h
    exact (within_evalA e h s).bind (n := 0) fun _ => within_done _
  | .retVoid, _, _ => within_done _

end Mu.CS.Conc
