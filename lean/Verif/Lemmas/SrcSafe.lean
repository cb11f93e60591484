import Verif.Lemmas.SrcRg
import Verif.Lemmas.SrcOrder

/-! # Reasoning about a program that can be interrupted, and about bounds on steps

`Act.safe`: whatever happens in between, the program does not fault, keeps a property of memory at all times, and ends as
stated.  `Act.Le`: the same program, looked at for fewer steps. -/

namespace Mu.CS

/-- What can happen in between, and the property that memory has at all times. -/
structure Env where
  rel : Heap → Heap → Prop
  good : Heap → Prop
  refl : ∀ h, rel h h
  trans : ∀ {h h1 h2}, rel h h1 → rel h1 h2 → rel h h2

/-- Started in `h`, the program does not fault, memory is good at all times, and the program ends with a result and a memory
that satisfy `Q`. -/
def Act.safe (E : Env) {α : Type} : Act α → Heap → (α → Heap → Prop) → Prop
  | .done a, h, Q => ∀ h1, E.rel h h1 → E.good h1 ∧ Q a h1
  | .fail e, h, _ => e = .diverge ∧ ∀ h1, E.rel h h1 → E.good h1
  | .mem f k, h, Q => ∀ h1, E.rel h h1 → E.good h1 ∧ ∃ v h2, f h1 = .ok (v, h2) ∧ Act.safe E (k v) h2 Q
  | .pick k, h, Q => ∀ b, Act.safe E (k b) h Q

variable {E : Env} {α β : Type} {h h1 : Heap}

namespace Act

theorem safe_rel {t : Act α} {Q : α → Heap → Prop} (s : t.safe E h Q) (r : E.rel h h1) : t.safe E h1 Q := by
  induction t generalizing h with
  | done a => exact fun h2 r2 => s h2 (E.trans r r2)
  | fail e => exact ⟨s.1, fun h2 r2 => s.2 h2 (E.trans r r2)⟩
  | mem f k ih => exact fun h2 r2 => s h2 (E.trans r r2)
  | pick k ih => exact fun b => ih b (s b) r

theorem safe_good {t : Act α} {Q : α → Heap → Prop} (s : t.safe E h Q) (r : E.rel h h1) : E.good h1 := by
  induction t generalizing h with
  | done a => exact (s h1 r).1
  | fail e => exact s.2 h1 r
  | mem f k ih => exact (s h1 r).1
  | pick k ih => exact ih true (s true) r

theorem safe_mono {t : Act α} {Q Q' : α → Heap → Prop} (s : t.safe E h Q) (hq : ∀ a h, Q a h → Q' a h) : t.safe E h Q' := by
  induction t generalizing h with
  | done a => exact fun h2 r2 => ⟨(s h2 r2).1, hq _ _ (s h2 r2).2⟩
  | fail e => exact s
  | mem f k ih =>
    intro h2 r2
    obtain ⟨g, v, h3, e, s⟩ := s h2 r2
    exact ⟨g, v, h3, e, ih v s⟩
  | pick k ih => exact fun b => ih b (s b)

theorem safe_bind_iff {t : Act α} {k : α → Act β} {Q : β → Heap → Prop} :
    (t.bind k).safe E h Q ↔ t.safe E h fun a h' => (k a).safe E h' Q := by
  induction t generalizing h with
  | done a =>
    refine ⟨fun s h1 r => ⟨safe_good s r, safe_rel s r⟩, fun s => (s h (E.refl h)).2⟩
  | fail e => exact Iff.rfl
  | mem f c ih =>
    refine forall_congr' fun h1 => imp_congr_right fun _ => and_congr_right fun _ => exists_congr fun v => exists_congr fun h2 =>
      and_congr_right fun _ => ih v
  | pick c ih => exact forall_congr' fun b => ih b

/-- The same program, looked at for fewer steps. -/
inductive Le : Act α → Act α → Prop
  | more {b} : Le (.fail .diverge) b
  | done {a} : Le (.done a) (.done a)
  | fail {e} : Le (.fail e) (.fail e)
  | mem {f k k'} : (∀ v, Le (k v) (k' v)) → Le (.mem f k) (.mem f k')
  | pick {k k'} : (∀ b, Le (k b) (k' b)) → Le (.pick k) (.pick k')

theorem Le.refl (t : Act α) : Le t t := by
  induction t with
  | done a => exact .done
  | fail e => exact .fail
  | mem f k ih => exact .mem ih
  | pick k ih => exact .pick ih

theorem Le.trans {a b c : Act α} (x : Le a b) (y : Le b c) : Le a c := by
  induction x generalizing c with
  | more => exact .more
  | done => exact y
  | fail => exact y
  | mem _ ih => cases y with | mem y => exact .mem fun v => ih v (y v)
  | pick _ ih => cases y with | pick y => exact .pick fun v => ih v (y v)

theorem Le.bind {a b : Act α} {k k' : α → Act β} (x : Le a b) (y : ∀ v, Le (k v) (k' v)) : Le (a.bind k) (b.bind k') := by
  induction x with
  | more => exact .more
  | done => exact y _
  | fail => exact .fail
  | mem _ ih => exact .mem ih
  | pick _ ih => exact .pick ih

theorem Le.both {σ : Type} {a a' : σ → Act (α × σ)} {b b' : σ → Act (β × σ)} (x : ∀ s, Le (a s) (a' s)) (y : ∀ s, Le (b s) (b' s)) (s : σ) :
    Le (Act.both a b s) (Act.both a' b' s) := by
  refine .pick fun p => ?_
  cases p
  · exact (y _).bind fun v => (x _).bind fun _ => .done
  · exact (x _).bind fun v => (y _).bind fun _ => .done

theorem Le.safe {a b : Act α} (x : Le a b) {Q : α → Heap → Prop} (s : b.safe E h Q) : a.safe E h Q := by
  induction x generalizing h with
  | more => exact ⟨rfl, fun h1 r => safe_good s r⟩
  | done => exact s
  | fail => exact s
  | mem _ ih =>
    intro h1 r
    obtain ⟨g, v, h3, e, s⟩ := s h1 r
    exact ⟨g, v, h3, e, ih v s⟩
  | pick _ ih => exact fun p => ih p (s p)

theorem Le.out {a b : Act α} (x : Le a b) {r : α × Heap} (o : a.Out h (.ok r)) : b.Out h (.ok r) := by
  induction x generalizing h with
  | more => cases o
  | done => exact o
  | fail => exact o
  | mem _ ih => cases o with | mem e o => exact .mem e (ih _ o)
  | pick _ ih => cases o with | pick p o => exact .pick p (ih p o)

end Act

open Act

variable {A : Arch} {K K' : ACalls}

/-- The functions that can be called, looked at for fewer steps. -/
structure ACalls.Le (K K' : ACalls) : Prop where
  fn : ∀ f args, Act.Le (K.fn f args) (K'.fn f args)
  cb : ∀ f args, Act.Le (K.cb f args) (K'.cb f args)

mutual
theorem evalA_le (hk : K.Le K') : ∀ e s, Act.Le (evalA A K e s) (evalA A K' e s)
  | .num n, s => .done
  | .intMax, s => .done
  | .sizeMax, s => .done
  | .null, s => .done
  | .str t, s => .done
  | .glob g, s => .done
  | .var i, s => .refl _
  | .load p, s => (evalA_le hk p s).bind fun _ => .refl _
  | .setv i e, s => (evalA_le hk e s).bind fun _ => .refl _
  | .store p e, s => (Le.both (evalA_le hk p) (evalA_le hk e) s).bind fun _ => .refl _
  | .updv i op to post e, s => by
      simp only [evalA, bind_eq]
      exact (Le.both (a' := fun s => (Act.lift (s.get i)).bind fun v => .done (v, s)) (fun _ => .refl _) (evalA_le hk e) s).bind fun _ => .refl _
  | .upd p op to post e, s => (Le.both (fun s => (evalA_le hk p s).bind fun _ => .refl _) (evalA_le hk e) s).bind fun _ => .refl _
  | .bin op a b, s => (Le.both (evalA_le hk a) (evalA_le hk b) s).bind fun _ => .refl _
  | .neg t e, s => (evalA_le hk e s).bind fun _ => .refl _
  | .lnot e, s => (evalA_le hk e s).bind fun _ => .refl _
  | .cast t e, s => (evalA_le hk e s).bind fun _ => .refl _
  | .tobool e, s => (evalA_le hk e s).bind fun _ => .refl _
  | .dtoi t e, s => (evalA_le hk e s).bind fun _ => .refl _
  | .itod e, s => (evalA_le hk e s).bind fun _ => .refl _
  | .land a b, s => (evalA_le hk a s).bind fun x => (Le.refl _).bind fun p => by
      cases p
      · exact .refl _
      · exact (evalA_le hk b _).bind fun _ => .refl _
  | .lor a b, s => (evalA_le hk a s).bind fun x => (Le.refl _).bind fun p => by
      cases p
      · exact (evalA_le hk b _).bind fun _ => .refl _
      · exact .refl _
  | .cond c a b, s => (evalA_le hk c s).bind fun x => (Le.refl _).bind fun p => by
      cases p
      · exact evalA_le hk b _
      · exact evalA_le hk a _
  | .fld p k, s => (evalA_le hk p s).bind fun _ => .refl _
  | .call f as, s => (evalArgsA_le hk as s).bind fun _ => (hk.fn _ _).bind fun _ => .refl _
  | .callp f as, s => (Le.both (evalA_le hk f) (evalArgsA_le hk as) s).bind fun x => by
      obtain ⟨v, vs, s⟩ := x
      cases v <;> first | exact .fail | exact (hk.cb _ _).bind fun _ => .refl _
theorem evalArgsA_le (hk : K.Le K') : ∀ es s, Act.Le (evalArgsA A K es s) (evalArgsA A K' es s)
  | [], s => .refl _
  | e :: es, s => (Le.both (evalA_le hk e) (evalArgsA_le hk es) s).bind fun _ => .refl _
end

theorem evalCondA_le (hk : K.Le K') (c : Expr) (s : Locals) : Act.Le (evalCondA A K c s) (evalCondA A K' c s) :=
  (evalA_le hk c s).bind fun _ => .refl _

theorem evalStepA_le (hk : K.Le K') (c : Option Expr) (s : Locals) : Act.Le (evalStepA A K c s) (evalStepA A K' c s) := by
  cases c with
  | none => exact .refl _
  | some e => exact (evalA_le hk e s).bind fun _ => .refl _

theorem runLoopA_le {cond cond' : Locals → Act (Bool × Locals)} {body body' : Locals → Act (Flow × Locals)} {step step' : Locals → Act Locals}
    (hc : ∀ s, Act.Le (cond s) (cond' s)) (hb : ∀ s, Act.Le (body s) (body' s)) (hs : ∀ s, Act.Le (step s) (step' s)) {n m : Nat} (hn : n ≤ m)
    (s : Locals) : Act.Le (runLoopA cond body step n s) (runLoopA cond' body' step' m s) := by
  induction n generalizing s m with
  | zero => exact .more
  | succ n ih =>
    obtain ⟨m, rfl⟩ : ∃ k, m = k + 1 := ⟨m - 1, by omega⟩
    refine (hc s).bind fun x => ?_
    obtain ⟨p, s1⟩ := x
    cases p
    · exact .refl _
    · refine (hb s1).bind fun y => ?_
      obtain ⟨f, s2⟩ := y
      cases f
      · exact (hs s2).bind fun z => ih (by omega) z
      · exact .refl _
      · exact .refl _

theorem execA_le (hk : K.Le K') {n m : Nat} (hn : n ≤ m) : ∀ c s, Act.Le (execA A K n c s) (execA A K' m c s)
  | .skip, s => .refl _
  | .expr e, s => (evalA_le hk e s).bind fun _ => .refl _
  | .undef i, s => .refl _
  | .seq a b, s => (execA_le hk hn a s).bind fun x => by
      obtain ⟨f, s⟩ := x
      cases f
      · exact execA_le hk hn b s
      · exact .refl _
      · exact .refl _
  | .ite c a b, s => (evalCondA_le hk c s).bind fun x => by
      obtain ⟨p, s⟩ := x
      cases p
      · exact execA_le hk hn b s
      · exact execA_le hk hn a s
  | .loop c step body, s => runLoopA_le (evalCondA_le hk c) (execA_le hk hn body) (evalStepA_le hk step) hn s
  | .brk, s => .refl _
  | .ret e, s => (evalA_le hk e s).bind fun _ => .refl _
  | .retVoid, s => .refl _

theorem act_le (hk : K.Le K') {n m : Nat} (hn : n ≤ m) (d : FunDef) (args : List CVal) : Act.Le (d.act A K n args) (d.act A K' m args) := by
  unfold FunDef.act
  split
  · exact (execA_le hk hn _ _).bind fun _ => .refl _
  · refine .mem fun v => ?_
    cases v <;> first | exact .fail | exact (execA_le hk hn _ _).bind fun _ => .refl _

/-- If user functions do not depend on the library, more steps make no difference to what the first of them are. -/
theorem semA_le {X : AExt} (hX : ∀ S S', X.cb S = X.cb S') {prog : Fn → Option FunDef} {n m : Nat} (hn : n ≤ m) (f : Fn) (args : List CVal) :
    Act.Le (semA A X prog n f args) (semA A X prog m f args) := by
  induction n generalizing m f args with
  | zero => exact .more
  | succ n ih =>
    obtain ⟨m, rfl⟩ : ∃ k, m = k + 1 := ⟨m - 1, by omega⟩
    simp only [semA]
    cases prog f with
    | none => exact .refl _
    | some d =>
      refine act_le ⟨fun f args => ih (by omega) f args, fun f args => ?_⟩ (by omega) d args
      rw [hX (semA A X prog n) (semA A X prog m)]
      exact .refl _

end Mu.CS
