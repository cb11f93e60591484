import Verif.Lemmas.SrcLocal

/-! # Code that passes the check keeps away from the interrupt queue -/

namespace Mu.CS.Isr

open Act

/-- Locals are as their types say. -/
def LocTy (Γ : List Ty) (s : Locals) : Prop := ∀ (i : Nat) (t : Ty) (v : CVal), Γ[i]? = some t → s[i]? = some v → t.Val v

/-- Arguments are as their types say. -/
inductive Vals : List Ty → List CVal → Prop
  | nil : Vals [] []
  | cons {t ts v vs} : t.Val v → Vals ts vs → Vals (t :: ts) (v :: vs)

/-- The functions are as their types say. -/
def TypedK (F : Fn → List Ty → Option Ty) (K K' : ACalls) : Prop :=
  ∀ f ts t vs, F f ts = some t → Vals ts vs → Off t.Val (K.fn f vs) (K'.fn f vs)

variable {A : Arch} {F : Fn → List Ty → Option Ty} {K K' : ACalls} {Γ : List Ty} {s : Locals}

theorem LocTy.set {i : Nat} {v : CVal} (h : LocTy Γ s) (hv : ∀ t, Γ[i]? = some t → t.Val v) : LocTy Γ (s.set i v) := by
  intro j t w ht hw
  rw [List.getElem?_set] at hw
  split at hw
  · rename_i e
    subst e
    split at hw
    · obtain rfl := Option.some.inj hw
      exact hv t ht
    · cases hw
  · exact h j t w ht hw

theorem LocTy.get {i : Nat} {t : Ty} (h : LocTy Γ s) (ht : Γ[i]? = some t) (v : CVal) (hv : s.get i = .ok v) : t.Val v := by
  unfold Locals.get at hv
  split at hv
  · rename_i w hw
    cases w <;> simp only [CVal.use] at hv <;> first | (obtain rfl := Except.ok.inj hv; exact h i t _ ht hw) | cases hv
  · cases hv

theorem off_op {o : Op} (ho : o.looks = false) (x y : CVal) : Off (Ty.Val .any) (Act.op A o x y) (Act.op A o x y) := by
  cases o <;> first | exact Off.lift fun _ _ => trivial | cases ho

theorem off_load {t u : Ty} {p : CVal} (hp : t.Val p) (ht : t.read = some u) : Off u.Val (Act.load p) (Act.load p) :=
  Off.access (loc_load hp ht)

theorem off_store {t : Ty} {p v : CVal} (hp : t.Val p) (ht : t.write = true) : Off (Ty.Val .any) (Act.store p v) (Act.store p v) :=
  Off.access (loc_store hp ht v _ trivial)

theorem any_done {v : CVal} {s : Locals} (hs : LocTy Γ s) :
    Off (fun x => Ty.Val .any x.1 ∧ LocTy Γ x.2) (.done (v, s)) (.done (v, s)) := .done ⟨trivial, hs⟩

theorem Ty.fld_val {t u : Ty} {b : Base} {o : Int} {k : Nat} (hp : t.Val (.ptr b o)) (ht : t.fld k = some u) : u.Val (.ptr b (o + k)) := by
  cases t <;> simp only [fld, Option.some.injEq, reduceCtorEq] at ht
  · subst ht
    rcases hp with hp | hp
    · cases hp
    · cases hp
      exact .inr (by simp)
  · subst ht
    rcases hp with hp | hp | ⟨o', hp⟩ <;> cases hp
    exact .inr (.inr ⟨_, rfl⟩)
  · subst ht
    rcases hp with hp | hp | ⟨o', hp⟩ <;> cases hp
    exact .inr (.inr ⟨_, rfl⟩)

mutual
theorem off_evalA (hk : TypedK F K K') : ∀ e t s, ty F Γ e = some t → LocTy Γ s →
    Off (fun x => t.Val x.1 ∧ LocTy Γ x.2) (evalA A K e s) (evalA A K' e s)
  | .num n, t, s, ht, hs => by simp only [ty, Option.some.injEq] at ht; subst ht; exact any_done hs
  | .intMax, t, s, ht, hs => by simp only [ty, Option.some.injEq] at ht; subst ht; exact any_done hs
  | .sizeMax, t, s, ht, hs => by simp only [ty, Option.some.injEq] at ht; subst ht; exact any_done hs
  | .null, t, s, ht, hs => by simp only [ty, Option.some.injEq] at ht; subst ht; exact .done ⟨.inr rfl, hs⟩
  | .str x, t, s, ht, hs => by simp only [ty, Option.some.injEq] at ht; subst ht; exact any_done hs
  | .glob g, t, s, ht, hs => by
    simp only [ty, Option.some.injEq] at ht
    subst ht
    refine .done ⟨?_, hs⟩
    cases g <;> first | trivial | exact .inr rfl | exact .inr (.inr ⟨0, rfl⟩)
  | .var i, t, s, ht, hs => by
    simp only [ty] at ht
    exact Off.bind (Off.lift (hs.get ht)) fun v hv => .done ⟨hv, hs⟩
  | .load p, t, s, ht, hs => by
    simp only [ty, Option.bind_eq_some_iff] at ht
    obtain ⟨u, h1, h2⟩ := ht
    exact Off.bind (off_evalA hk p u s h1 hs) fun x hx => Off.bind (off_load hx.1 h2) fun v hv => .done ⟨hv, hx.2⟩
  | .setv i e, t, s, ht, hs => by
    simp only [ty, Option.bind_eq_some_iff] at ht
    obtain ⟨u, h1, w, h2, h3⟩ := ht
    split at h3
    · rename_i hle
      obtain rfl := Option.some.inj h3
      refine Off.bind (off_evalA hk e u s h1 hs) fun x hx => .done ⟨hx.1, hx.2.set fun w' hw' => ?_⟩
      rw [h2] at hw'
      obtain rfl := Option.some.inj hw'
      exact Ty.le_val hle hx.1
    · cases h3
  | .store p e, t, s, ht, hs => by
    simp only [ty, Option.bind_eq_some_iff] at ht
    obtain ⟨u, h1, w, h2, h3⟩ := ht
    split at h3
    · rename_i hw
      obtain rfl := Option.some.inj h3
      exact Off.bind (Off.both (fun s hs => off_evalA hk p u s h1 hs) (fun s hs => off_evalA hk e w s h2 hs) hs) fun x hx =>
        Off.bind (off_store hx.1 hw) fun _ _ => .done ⟨hx.2.1, hx.2.2⟩
    · cases h3
  | .updv i o to post e, t, s, ht, hs => by
    simp only [ty, Option.bind_eq_some_iff] at ht
    obtain ⟨u, h1, h3⟩ := ht
    split at h3
    · rename_i hw
      simp only [Bool.and_eq_true, decide_eq_true_eq, Bool.not_eq_true', beq_iff_eq] at hw
      obtain rfl := Option.some.inj h3
      simp only [evalA, bind_eq]
      refine Off.bind (Off.both (a := fun s => (Act.lift (s.get i)).bind fun v => .done (v, s))
        (a' := fun s => (Act.lift (s.get i)).bind fun v => .done (v, s)) (Q := fun _ => True)
        (fun s hs => Off.bind (Off.lift (Q := fun _ => True) fun _ _ => trivial) fun _ _ => .done ⟨trivial, hs⟩)
        (fun s hs => off_evalA hk e u s h1 hs) hs) fun x hx => ?_
      refine Off.bind (off_op hw.2 _ _) fun r _ => Off.bind (Off.lift (Q := fun _ => True) fun _ _ => trivial) fun w _ =>
        .done ⟨trivial, hx.2.2.set fun t' ht' => ?_⟩
      rw [hw.1] at ht'
      obtain rfl := Option.some.inj ht'
      trivial
    · cases h3
  | .upd p o to post e, t, s, ht, hs => by
    simp only [ty, Option.bind_eq_some_iff] at ht
    obtain ⟨u, h1, w, h2, h3⟩ := ht
    split at h3
    · rename_i hw
      simp only [Bool.and_eq_true, Bool.not_eq_true'] at hw
      obtain rfl := Option.some.inj h3
      obtain ⟨r, hr⟩ := Option.isSome_iff_exists.1 hw.1.2
      refine Off.bind (Off.both (Q := fun y : CVal × CVal => u.Val y.1)
        (fun s hs => Off.bind (off_evalA hk p u s h1 hs) fun x hx => Off.bind (off_load hx.1 hr) fun _ _ => .done ⟨hx.1, hx.2⟩)
        (fun s hs => off_evalA hk e w s h2 hs) hs) fun x hx => ?_
      exact Off.bind (off_op hw.2 _ _) fun r _ => Off.bind (Off.lift (Q := fun _ => True) fun _ _ => trivial) fun w _ =>
        Off.bind (off_store hx.1 hw.1.1) fun _ _ => any_done hx.2.2
    · cases h3
  | .bin o a b, t, s, ht, hs => by
    simp only [ty, Option.bind_eq_some_iff] at ht
    obtain ⟨u, h1, w, h2, h3⟩ := ht
    refine Off.bind (Off.both (fun s hs => off_evalA hk a u s h1 hs) (fun s hs => off_evalA hk b w s h2 hs) hs) fun x hx => ?_
    cases o with
    | psub n => cases h3
    | padd n =>
      simp only at h3
      split at h3
      · rename_i ha
        obtain rfl := Option.some.inj h3
        exact Off.bind (Off.access (loc_padd hx.1 ha _)) fun r hr => .done ⟨hr, hx.2.2⟩
      · cases h3
    | _ =>
      obtain rfl := Option.some.inj h3
      exact Off.bind (off_op rfl _ _) fun r hr => .done ⟨hr, hx.2.2⟩
  | .neg ty e, t, s, ht, hs => by
    simp only [Isr.ty, Option.bind_eq_some_iff] at ht
    obtain ⟨u, h1, h2⟩ := ht
    obtain rfl := Option.some.inj h2
    refine Off.bind (off_evalA hk e u s h1 hs) fun ⟨v, s⟩ hx => ?_
    cases v <;> first | exact .fail | exact Off.bind (Off.lift (Q := fun _ => True) fun _ _ => trivial) fun _ _ => any_done hx.2
  | .lnot e, t, s, ht, hs => by
    simp only [ty, Option.bind_eq_some_iff] at ht
    obtain ⟨u, h1, h2⟩ := ht
    obtain rfl := Option.some.inj h2
    exact Off.bind (off_evalA hk e u s h1 hs) fun x hx => Off.bind (Off.lift (Q := fun _ => True) fun _ _ => trivial) fun _ _ => any_done hx.2
  | .cast c e, t, s, ht, hs => by
    simp only [ty, Option.bind_eq_some_iff] at ht
    obtain ⟨u, h1, h2⟩ := ht
    obtain rfl := Option.some.inj h2
    exact Off.bind (off_evalA hk e u s h1 hs) fun x hx => Off.bind (Off.lift (Q := fun _ => True) fun _ _ => trivial) fun _ _ => any_done hx.2
  | .tobool e, t, s, ht, hs => by
    simp only [ty, Option.bind_eq_some_iff] at ht
    obtain ⟨u, h1, h2⟩ := ht
    obtain rfl := Option.some.inj h2
    exact Off.bind (off_evalA hk e u s h1 hs) fun x hx => Off.bind (Off.lift (Q := fun _ => True) fun _ _ => trivial) fun _ _ => any_done hx.2
  | .dtoi c e, t, s, ht, hs => by
    simp only [ty, Option.bind_eq_some_iff] at ht
    obtain ⟨u, h1, h2⟩ := ht
    obtain rfl := Option.some.inj h2
    refine Off.bind (off_evalA hk e u s h1 hs) fun ⟨v, s⟩ hx => ?_
    cases v <;> cases c <;> first | exact .fail | exact Off.bind (Off.lift (Q := fun _ => True) fun _ _ => trivial) fun _ _ => any_done hx.2
  | .itod e, t, s, ht, hs => by
    simp only [ty, Option.bind_eq_some_iff] at ht
    obtain ⟨u, h1, h2⟩ := ht
    obtain rfl := Option.some.inj h2
    refine Off.bind (off_evalA hk e u s h1 hs) fun ⟨v, s⟩ hx => ?_
    cases v <;> first | exact .fail | exact any_done hx.2
  | .land a b, t, s, ht, hs => by
    simp only [ty, Option.bind_eq_some_iff] at ht
    obtain ⟨u, h1, w, h2, h3⟩ := ht
    obtain rfl := Option.some.inj h3
    refine Off.bind (off_evalA hk a u s h1 hs) fun x hx => Off.bind (Off.lift (Q := fun _ => True) fun _ _ => trivial) fun p _ => ?_
    cases p
    · exact any_done hx.2
    · exact Off.bind (off_evalA hk b w _ h2 hx.2) fun y hy => Off.bind (Off.lift (Q := fun _ => True) fun _ _ => trivial) fun _ _ => any_done hy.2
  | .lor a b, t, s, ht, hs => by
    simp only [ty, Option.bind_eq_some_iff] at ht
    obtain ⟨u, h1, w, h2, h3⟩ := ht
    obtain rfl := Option.some.inj h3
    refine Off.bind (off_evalA hk a u s h1 hs) fun x hx => Off.bind (Off.lift (Q := fun _ => True) fun _ _ => trivial) fun p _ => ?_
    cases p
    · exact Off.bind (off_evalA hk b w _ h2 hx.2) fun y hy => Off.bind (Off.lift (Q := fun _ => True) fun _ _ => trivial) fun _ _ => any_done hy.2
    · exact any_done hx.2
  | .cond a b c, t, s, ht, hs => by
    simp only [ty, Option.bind_eq_some_iff] at ht
    obtain ⟨u, h1, w, h2, w', h3, h4⟩ := ht
    obtain rfl := Option.some.inj h4
    refine Off.bind (off_evalA hk a u s h1 hs) fun x hx => Off.bind (Off.lift (Q := fun _ => True) fun _ _ => trivial) fun p _ => ?_
    cases p
    · exact (off_evalA hk c w' _ h3 hx.2).mono fun _ h => ⟨trivial, h.2⟩
    · exact (off_evalA hk b w _ h2 hx.2).mono fun _ h => ⟨trivial, h.2⟩
  | .fld p k, t, s, ht, hs => by
    simp only [ty, Option.bind_eq_some_iff] at ht
    obtain ⟨u, h1, h2⟩ := ht
    refine Off.bind (off_evalA hk p u s h1 hs) fun ⟨v, s⟩ hx => ?_
    cases v <;> first | exact .fail | exact .done ⟨Ty.fld_val hx.1 h2, hx.2⟩
  | .call f as, t, s, ht, hs => by
    simp only [ty, Option.bind_eq_some_iff] at ht
    obtain ⟨us, h1, h2⟩ := ht
    exact Off.bind (off_evalArgsA hk as us s h1 hs) fun x hx => Off.bind (hk f us t x.1 h2 hx.1) fun r hr => .done ⟨hr, hx.2⟩
  | .callp _ _, t, s, ht, hs => by cases ht
theorem off_evalArgsA (hk : TypedK F K K') : ∀ es ts s, tys F Γ es = some ts → LocTy Γ s →
    Off (fun x => Vals ts x.1 ∧ LocTy Γ x.2) (evalArgsA A K es s) (evalArgsA A K' es s)
  | [], ts, s, ht, hs => by
    simp only [tys, Option.some.injEq] at ht
    subst ht
    exact .done ⟨.nil, hs⟩
  | e :: es, ts, s, ht, hs => by
    simp only [tys, Option.bind_eq_some_iff] at ht
    obtain ⟨u, h1, us, h2, h3⟩ := ht
    obtain rfl := Option.some.inj h3
    exact Off.bind (Off.both (fun s hs => off_evalA hk e u s h1 hs) (fun s hs => off_evalArgsA hk es us s h2 hs) hs) fun x hx =>
      .done ⟨.cons hx.1 hx.2.1, hx.2.2⟩
end

theorem off_evalCondA (hk : TypedK F K K') {c : Expr} (hc : (ty F Γ c).isSome = true) (hs : LocTy Γ s) :
    Off (fun x => LocTy Γ x.2) (evalCondA A K c s) (evalCondA A K' c s) := by
  obtain ⟨t, ht⟩ := Option.isSome_iff_exists.1 hc
  exact Off.bind (off_evalA hk c t s ht hs) fun x hx => Off.bind (Off.lift (Q := fun _ => True) fun _ _ => trivial) fun _ _ => .done hx.2

/-- After a statement. -/
def FlowTy (Γ : List Ty) (R : Ty) (x : Flow × Locals) : Prop := LocTy Γ x.2 ∧ ∀ v, x.1 = .ret v → R.Val v

theorem off_runLoopA {R : Ty} {cond cond' : Locals → Act (Bool × Locals)} {body body' : Locals → Act (Flow × Locals)}
    {step step' : Locals → Act Locals} (hc : ∀ s, LocTy Γ s → Off (fun x => LocTy Γ x.2) (cond s) (cond' s))
    (hb : ∀ s, LocTy Γ s → Off (FlowTy Γ R) (body s) (body' s)) (ht : ∀ s, LocTy Γ s → Off (LocTy Γ) (step s) (step' s)) {n m : Nat}
    (hn : n ≤ m) (hs : LocTy Γ s) : Off (FlowTy Γ R) (runLoopA cond body step n s) (runLoopA cond' body' step' m s) := by
  induction n generalizing s m with
  | zero => exact .more
  | succ n ih =>
    obtain ⟨m, rfl⟩ : ∃ k, m = k + 1 := ⟨m - 1, by omega⟩
    refine Off.bind (hc s hs) fun ⟨p, s1⟩ h1 => ?_
    cases p
    · exact .done ⟨h1, fun _ h => by cases h⟩
    · refine Off.bind (hb s1 h1) fun ⟨f, s2⟩ h2 => ?_
      cases f
      · exact Off.bind (ht s2 h2.1) fun z hz => ih (by omega) hz
      · exact .done ⟨h2.1, fun _ h => by cases h⟩
      · exact .done ⟨h2.1, fun v h => by cases h; exact h2.2 _ rfl⟩

theorem off_execA (hk : TypedK F K K') {R : Ty} {n m : Nat} (hn : n ≤ m) : ∀ c s, tyS F Γ R c = true → LocTy Γ s →
    Off (FlowTy Γ R) (execA A K n c s) (execA A K' m c s)
  | .skip, s, ht, hs => .done ⟨hs, fun _ h => by cases h⟩
  | .expr e, s, ht, hs => by
    simp only [tyS] at ht
    obtain ⟨t, ht⟩ := Option.isSome_iff_exists.1 ht
    exact Off.bind (off_evalA hk e t s ht hs) fun x hx => .done ⟨hx.2, fun _ h => by cases h⟩
  | .undef i, s, ht, hs => .done ⟨hs.set fun t _ => t.val_undef, fun _ h => by cases h⟩
  | .seq a b, s, ht, hs => by
    simp only [tyS, Bool.and_eq_true] at ht
    refine Off.bind (off_execA hk hn a s ht.1 hs) fun ⟨f, s1⟩ h1 => ?_
    cases f
    · exact off_execA hk hn b s1 ht.2 h1.1
    · exact .done ⟨h1.1, fun _ h => by cases h⟩
    · exact .done ⟨h1.1, fun v h => by cases h; exact h1.2 _ rfl⟩
  | .ite c a b, s, ht, hs => by
    simp only [tyS, Bool.and_eq_true] at ht
    refine Off.bind (off_evalCondA hk ht.1.1 hs) fun ⟨p, s1⟩ h1 => ?_
    cases p
    · exact off_execA hk hn b s1 ht.2 h1
    · exact off_execA hk hn a s1 ht.1.2 h1
  | .loop c step body, s, ht, hs => by
    simp only [tyS, Bool.and_eq_true] at ht
    refine off_runLoopA (fun s hs => off_evalCondA hk ht.1.1 hs) (fun s hs => off_execA hk hn body s ht.2 hs) (fun s hs => ?_) hn hs
    cases step with
    | none => exact .done hs
    | some e =>
      obtain ⟨t, ht⟩ := Option.isSome_iff_exists.1 ht.1.2
      exact Off.bind (off_evalA hk e t s ht hs) fun x hx => .done hx.2
  | .brk, s, ht, hs => .done ⟨hs, fun _ h => by cases h⟩
  | .ret e, s, ht, hs => by
    simp only [tyS] at ht
    split at ht
    · rename_i t he
      exact Off.bind (off_evalA hk e t s he hs) fun x hx => .done ⟨hx.2, fun v h => by cases h; exact Ty.le_val ht hx.1⟩
    · cases ht
  | .retVoid, s, ht, hs => .done ⟨hs, fun v h => by cases h; exact R.val_undef⟩

theorem LocTy.start {ts us : List Ty} {vs : List CVal} (h : Vals ts vs) (k : Nat) :
    LocTy (ts ++ us) (vs ++ List.replicate k .undef) := by
  induction h with
  | nil =>
    intro i t v _ hv
    simp only [List.nil_append, List.getElem?_replicate] at hv
    split at hv
    · obtain rfl := Option.some.inj hv; exact t.val_undef
    · cases hv
  | cons h _ ih =>
    intro i t v ht hv
    cases i with
    | zero =>
      simp only [List.cons_append, List.getElem?_cons_zero, Option.some.injEq] at ht hv
      subst ht hv
      exact h
    | succ i => exact ih i t v ht hv

/-- What is needed of the platform: the clock is used only if it may be. -/
structure TypedX (clk : Bool) (X X' : AExt) : Prop where
  precedes : ∀ args, Loc (fun h => X.fn .mu_time_precedes h args) (fun h => X'.fn .mu_time_precedes h args) (Ty.Val .any)
  offset : ∀ args, Loc (fun h => X.fn .mu_time_offset h args) (fun h => X'.fn .mu_time_offset h args) (Ty.Val .any)
  now : clk = true → Loc (fun h => X.fn .mu_time_now h []) (fun h => X'.fn .mu_time_now h []) (Ty.Val .any)

/-- Functions that pass the check. -/
theorem off_semA {clk : Bool} {X X' : AExt} (hX : TypedX clk X X') {d n m : Nat} (hn : n ≤ m) :
    TypedK (tyFn clk d) ⟨semA A X prog n, X.cb (semA A X prog n)⟩ ⟨semA A X' prog m, X'.cb (semA A X' prog m)⟩ := by
  induction d generalizing n m with
  | zero => intro f ts t vs h; cases h
  | succ d ih =>
    intro f ts t vs h hv
    cases n with
    | zero => exact .more
    | succ n =>
      obtain ⟨m, rfl⟩ : ∃ k, m = k + 1 := ⟨m - 1, by omega⟩
      simp only [tyFn] at h
      show Off _ (semA A X prog (n + 1) f vs) (semA A X' prog (m + 1) f vs)
      simp only [semA]
      cases hd : prog f with
      | some fd =>
        simp only [hd] at h
        split at h
        · rename_i hc
          obtain rfl := Option.some.inj h
          simp only [Bool.and_eq_true] at hc
          have hif : (fd.mems.isEmpty && fd.va.isNone) = true := by simp only [Bool.and_eq_true]; exact hc.1
          simp only [FunDef.act, hif, if_true]
          refine Off.bind (off_execA (ih (by omega)) (by omega) fd.body _ hc.2 (LocTy.start hv _)) fun x hx => .done ?_
          cases hf : x.1 with
          | ret v => exact hx.2 v hf
          | _ => exact Ty.val_undef _
        · cases h
      | none =>
        simp only [hd] at h
        split at h
        · split at h
          · rename_i hc
            simp only [Bool.and_eq_true] at hc
            obtain rfl := Option.some.inj h
            cases hv with | cons h1 hv => cases hv with | cons h2 hv => cases hv with | cons h3 hv =>
            cases hv
            exact Off.access (loc_memmove h1 h2 hc.1 hc.2)
          · cases h
        · obtain rfl := Option.some.inj h
          exact Off.access (hX.precedes vs)
        · obtain rfl := Option.some.inj h
          exact Off.access (hX.offset vs)
        · split at h
          · rename_i hc
            obtain rfl := Option.some.inj h
            cases hv
            exact Off.access (hX.now hc)
          · cases h
        · cases h

end Mu.CS.Isr
