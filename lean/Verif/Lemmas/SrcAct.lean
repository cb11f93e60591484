import Verif.C.SrcAct

/-! # Execution access by access, with nothing in between, is execution at once -/

namespace Mu.CS

namespace Act

theorem bind_eq {α β : Type} (t : Act α) (k : α → Act β) : (t >>= k) = t.bind k := rfl

theorem run_bind {α β : Type} (t : Act α) (k : α → Act β) (h : Heap) :
    (t.bind k).run h = (t.run h).bind fun x => (k x.1).run x.2 := by
  induction t generalizing h with
  | done a => rfl
  | fail e => rfl
  | mem f c ih =>
    simp only [bind, run]
    cases hf : f h with
    | error e => rfl
    | ok x => exact ih _ _
  | pick c ih => exact ih _ _

theorem run_lift {α : Type} (c : C α) (h : Heap) : (lift c).run h = c.bind fun a => .ok (a, h) := by
  cases c <;> rfl

theorem run_access (f : Heap → C (CVal × Heap)) (h : Heap) : (access f).run h = f h := by
  simp only [access, run]
  cases f h <;> rfl

theorem run_load (p : CVal) (h : Heap) : (load p).run h = (h.load p).bind fun v => .ok (v, h) := run_access _ _

theorem run_store (p v : CVal) (h : Heap) : (store p v).run h = (h.store p v).bind fun h => .ok (v, h) := run_access _ _

theorem run_op (A : Arch) (o : Op) (x y : CVal) (h : Heap) : (op A o x y).run h = (o.run A h x y).bind fun v => .ok (v, h) := by
  cases o <;> simp only [op, run_access, run_lift] <;> (try rfl) <;> cases x <;> cases y <;> rfl

theorem run_both {σ α β : Type} (a : σ → Act (α × σ)) (b : σ → Act (β × σ)) (s : σ) (h : Heap) :
    (both a b s).run h = ((a s).run h).bind fun x => ((b x.1.2).run x.2).bind fun y => .ok ((x.1.1, y.1.1, y.1.2), y.2) := by
  simp only [both, run, run_bind]

end Act

/-- The calls do the same. -/
structure ACalls.Runs (K : ACalls) (L : Calls) : Prop where
  fn : ∀ f args h, (K.fn f args).run h = L.fn f h args
  cb : ∀ f args h, (K.cb f args).run h = L.cb f h args

/-- A result with the locals set apart from memory. -/
def St.split {α : Type} (x : α × St) : C ((α × Locals) × Heap) := .ok ((x.1, x.2.loc), x.2.h)

theorem Except.bind_bind {α β γ : Type} (x : C α) (f : α → C β) (g : β → C γ) :
    (x.bind f).bind g = x.bind fun a => (f a).bind g := by cases x <;> rfl

theorem Except.bind_ok {α β : Type} (x : α) (f : α → C β) : Except.bind (.ok x : C α) f = f x := rfl

theorem Except.bind_error {α β : Type} (x : Fault) (f : α → C β) : Except.bind (.error x : C α) f = .error x := rfl

variable {A : Arch} {K : ACalls} {L : Calls}

open Act

theorem get_eq (s : Locals) (h : Heap) (i : Nat) : St.get ⟨s, h⟩ i = s.get i := rfl

theorem cbind_eq {α β : Type} (x : C α) (k : α → C β) : (x >>= k) = x.bind k := rfl

mutual
theorem evalA_run (hk : K.Runs L) : ∀ e s h, (evalA A K e s).run h = (eval A L e ⟨s, h⟩).bind St.split
  | .num n, s, h => rfl
  | .intMax, s, h => rfl
  | .sizeMax, s, h => rfl
  | .null, s, h => rfl
  | .str t, s, h => rfl
  | .glob g, s, h => rfl
  | .var i, s, h => by
    simp only [evalA, eval, bind_eq, cbind_eq, run_bind, run_lift, get_eq, Except.bind_bind, Except.bind_ok, run, St.split]
  | .load p, s, h => by
    simp only [evalA, eval, bind_eq, cbind_eq, run_bind, run_load, evalA_run hk p, Except.bind_bind, Except.bind_ok, run, St.split]
  | .setv i e, s, h => by
    simp only [evalA, eval, bind_eq, cbind_eq, run_bind, evalA_run hk e, Except.bind_bind, Except.bind_ok, run, St.split]
  | .store p e, s, h => by
    simp only [evalA, eval, bind_eq, cbind_eq, run_bind, run_both, run_store, evalA_run hk p, evalA_run hk e, Except.bind_bind,
      Except.bind_ok, run, St.split]
  | .updv i op to post e, s, h => by
    simp only [evalA, eval, bind_eq, cbind_eq, run_bind, run_both, run_lift, run_op, get_eq, evalA_run hk e, Except.bind_bind,
      Except.bind_ok, run, St.split]
  | .upd p op to post e, s, h => by
    simp only [evalA, eval, bind_eq, cbind_eq, run_bind, run_both, run_lift, run_op, run_load, run_store, evalA_run hk p,
      evalA_run hk e, Except.bind_bind, Except.bind_ok, run, St.split]
  | .bin op a b, s, h => by
    simp only [evalA, eval, bind_eq, cbind_eq, run_bind, run_both, run_op, evalA_run hk a, evalA_run hk b, Except.bind_bind,
      Except.bind_ok, run, St.split]
  | .neg t e, s, h => by
    simp only [evalA, eval, bind_eq, cbind_eq, run_bind, evalA_run hk e, Except.bind_bind, Except.bind_ok, run, St.split]
    congr 1
    funext x
    obtain ⟨v, t⟩ := x
    cases v <;> simp only [run, run_bind, run_lift, Except.bind_bind, Except.bind_ok, Except.bind_error, St.split]
  | .lnot e, s, h => by
    simp only [evalA, eval, bind_eq, cbind_eq, run_bind, run_lift, evalA_run hk e, Except.bind_bind, Except.bind_ok, run, St.split]
  | .cast t e, s, h => by
    simp only [evalA, eval, bind_eq, cbind_eq, run_bind, run_lift, evalA_run hk e, Except.bind_bind, Except.bind_ok, run, St.split]
  | .tobool e, s, h => by
    simp only [evalA, eval, bind_eq, cbind_eq, run_bind, run_lift, evalA_run hk e, Except.bind_bind, Except.bind_ok, run, St.split]
  | .dtoi t e, s, h => by
    simp only [evalA, eval, bind_eq, cbind_eq, run_bind, evalA_run hk e, Except.bind_bind, Except.bind_ok, run, St.split]
    congr 1
    funext x
    obtain ⟨v, u⟩ := x
    cases v <;> (try rfl)
    cases t <;> (try rfl)
    simp only [run, run_bind, run_lift, Except.bind_bind, Except.bind_ok, St.split]
  | .itod e, s, h => by
    simp only [evalA, eval, bind_eq, cbind_eq, run_bind, evalA_run hk e, Except.bind_bind, Except.bind_ok, run, St.split]
    congr 1
    funext x
    obtain ⟨v, t⟩ := x
    cases v <;> rfl
  | .land a b, s, h => by
    simp only [evalA, eval, bind_eq, cbind_eq, run_bind, run_lift, evalA_run hk a, Except.bind_bind, Except.bind_ok, St.split]
    congr 1
    funext x
    congr 1
    funext p
    cases p <;> simp [run, run_bind, run_lift, evalA_run hk b, Except.bind_bind, Except.bind_ok, St.split]
  | .lor a b, s, h => by
    simp only [evalA, eval, bind_eq, cbind_eq, run_bind, run_lift, evalA_run hk a, Except.bind_bind, Except.bind_ok, St.split]
    congr 1
    funext x
    congr 1
    funext p
    cases p <;> simp [run, run_bind, run_lift, evalA_run hk b, Except.bind_bind, Except.bind_ok, St.split]
  | .cond c a b, s, h => by
    simp only [evalA, eval, bind_eq, cbind_eq, run_bind, run_lift, evalA_run hk c, Except.bind_bind, Except.bind_ok, St.split]
    congr 1
    funext x
    congr 1
    funext p
    cases p <;> simp [evalA_run hk a, evalA_run hk b] <;> rfl
  | .fld p k, s, h => by
    simp only [evalA, eval, bind_eq, cbind_eq, run_bind, evalA_run hk p, Except.bind_bind, Except.bind_ok, St.split]
    congr 1
    funext x
    obtain ⟨v, t⟩ := x
    cases v <;> rfl
  | .call f as, s, h => by
    simp only [evalA, eval, bind_eq, cbind_eq, run_bind, hk.fn, evalArgsA_run hk as, Except.bind_bind, Except.bind_ok, run, St.split]
  | .callp f as, s, h => by
    simp only [evalA, eval, bind_eq, cbind_eq, run_bind, run_both, evalA_run hk f, evalArgsA_run hk as, Except.bind_bind,
      Except.bind_ok, St.split]
    congr 1
    funext x
    congr 1
    funext y
    obtain ⟨v, t⟩ := x
    cases v <;> simp only [run, run_bind, hk.cb, Except.bind_bind, Except.bind_ok, Except.bind_error, St.split]
theorem evalArgsA_run (hk : K.Runs L) : ∀ es s h, (evalArgsA A K es s).run h = (evalArgs A L es ⟨s, h⟩).bind St.split
  | [], s, h => rfl
  | e :: es, s, h => by
    simp only [evalArgsA, evalArgs, bind_eq, cbind_eq, run_bind, run_both, evalA_run hk e, evalArgsA_run hk es, Except.bind_bind,
      Except.bind_ok, run, St.split]
end

theorem runLoopA_run {cond : Locals → Act (Bool × Locals)} {body : Locals → Act (Flow × Locals)} {step : Locals → Act Locals}
    {cond' : St → C (Bool × St)} {body' : St → C (Flow × St)} {step' : St → C St}
    (hc : ∀ s h, (cond s).run h = (cond' ⟨s, h⟩).bind St.split) (hb : ∀ s h, (body s).run h = (body' ⟨s, h⟩).bind St.split)
    (hs : ∀ s h, (step s).run h = (step' ⟨s, h⟩).bind fun t => .ok (t.loc, t.h)) (n : Nat) (s : Locals) (h : Heap) :
    (runLoopA cond body step n s).run h = (runLoop cond' body' step' n ⟨s, h⟩).bind St.split := by
  induction n generalizing s h with
  | zero => rfl
  | succ n ih =>
    simp only [runLoopA, runLoop, bind_eq, cbind_eq, run_bind, hc, Except.bind_bind, Except.bind_ok, St.split]
    congr 1
    funext x
    obtain ⟨p, t⟩ := x
    cases p
    · rfl
    · simp only [if_true, run_bind, hb, Except.bind_bind, Except.bind_ok, St.split]
      congr 1
      funext y
      obtain ⟨f, u⟩ := y
      cases f with
      | next =>
        simp only [run_bind, hs, ih, Except.bind_bind, Except.bind_ok]
        try rfl
      | brk => rfl
      | ret v => rfl

theorem evalCondA_run (hk : K.Runs L) (c : Expr) (s : Locals) (h : Heap) :
    (evalCondA A K c s).run h = (evalCond A L c ⟨s, h⟩).bind St.split := by
  simp only [evalCondA, evalCond, bind_eq, cbind_eq, run_bind, run_lift, evalA_run hk c, Except.bind_bind, Except.bind_ok, run, St.split]

theorem evalStepA_run (hk : K.Runs L) (c : Option Expr) (s : Locals) (h : Heap) :
    (evalStepA A K c s).run h = (evalStep A L c ⟨s, h⟩).bind fun t => .ok (t.loc, t.h) := by
  cases c with
  | none => rfl
  | some e => simp only [evalStepA, evalStep, bind_eq, cbind_eq, run_bind, evalA_run hk e, Except.bind_bind, Except.bind_ok, run, St.split]

theorem execA_run (hk : K.Runs L) (n : Nat) : ∀ c s h, (execA A K n c s).run h = (exec A L n c ⟨s, h⟩).bind St.split
  | .skip, s, h => rfl
  | .expr e, s, h => by
    simp only [execA, exec, bind_eq, cbind_eq, run_bind, evalA_run hk e, Except.bind_bind, Except.bind_ok, run, St.split]
  | .undef i, s, h => rfl
  | .seq a b, s, h => by
    simp only [execA, exec, bind_eq, cbind_eq, run_bind, execA_run hk n a, Except.bind_bind, Except.bind_ok, St.split]
    congr 1
    funext x
    obtain ⟨f, t⟩ := x
    cases f
    · exact execA_run hk n b _ _
    · rfl
    · rfl
  | .ite c a b, s, h => by
    simp only [execA, exec, bind_eq, cbind_eq, run_bind, evalCondA_run hk c, Except.bind_bind, Except.bind_ok, St.split]
    congr 1
    funext x
    obtain ⟨p, t⟩ := x
    cases p
    · exact execA_run hk n b _ _
    · exact execA_run hk n a _ _
  | .loop c step body, s, h =>
    runLoopA_run (evalCondA_run hk c) (fun s h => execA_run hk n body s h) (evalStepA_run hk step) n s h
  | .brk, s, h => rfl
  | .ret e, s, h => by
    simp only [execA, exec, bind_eq, cbind_eq, run_bind, evalA_run hk e, Except.bind_bind, Except.bind_ok, run, St.split]
  | .retVoid, s, h => rfl

theorem allocs_loc {l : List (Nat × Nat)} {s : Locals} {h h' : Heap} (e : h.next = h'.next) :
    (allocs l ⟨s, h⟩).loc = (allocs l ⟨s, h'⟩).loc ∧ (allocs l ⟨s, h⟩).h.next = (allocs l ⟨s, h'⟩).h.next := by
  induction l generalizing s h h' with
  | nil => exact ⟨rfl, e⟩
  | cons x l ih =>
    simp only [allocs, e]
    exact ih rfl

theorem start_loc (d : FunDef) (args : List CVal) {h h' : Heap} (e : h.next = h'.next) :
    (d.start args h).loc = (d.start args h').loc := by
  obtain ⟨h1, h2⟩ := allocs_loc (l := d.mems) (s := args.take d.params ++ List.replicate d.locals .undef) e
  unfold FunDef.start
  cases d.va with
  | none => exact h1
  | some i => simp only [allocVa, h1, h2]

theorem act_run (hk : K.Runs L) (n : Nat) (d : FunDef) (args : List CVal) (h : Heap) :
    (d.act A K n args).run h = d.run A L n h args := by
  unfold FunDef.act FunDef.run
  split
  · simp only [bind_eq, cbind_eq, run_bind, execA_run hk n, Except.bind_bind, Except.bind_ok, run, St.split]
  · have : (d.start args ⟨fun _ => [], (h.next : Int).toNat⟩).loc = (d.start args h).loc := start_loc d args (by simp)
    simp only [bind_eq, cbind_eq, run, run_bind, run_access, execA_run hk n, Except.bind_bind, Except.bind_ok, St.split, this]
    simp only [Int.toNat_natCast]
    rfl

/-- The same functions of the platform and of the user. -/
structure AExt.Runs (Y : AExt) (X : Ext) : Prop where
  fn : Y.fn = X.fn
  cb : ∀ (S : Fn → List CVal → Act CVal) (S' : Fn → SemFn), (∀ f args h, (S f args).run h = S' f h args) →
    ∀ k args h, (Y.cb S k args).run h = X.cb S' k h args

theorem semA_run {Y : AExt} {X : Ext} (hY : Y.Runs X) (prog : Fn → Option FunDef) (n : Nat) (f : Fn) (args : List CVal) (h : Heap) :
    (semA A Y prog n f args).run h = sem A X prog n f h args := by
  induction n generalizing f args h with
  | zero => rfl
  | succ n ih =>
    unfold semA sem
    cases prog f with
    | some d => exact act_run ⟨ih, hY.cb _ _ ih⟩ n d args h
    | none =>
      simp only [run_access, hY.fn]
      cases f <;> rfl

end Mu.CS
