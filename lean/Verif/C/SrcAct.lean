import Verif.C.Src

/-!
# The parsed C source, one memory access at a time

This file models no mulib code.  C/Src.lean gives a call of a function its whole effect at once; here the same syntax
trees are executed access by access, so that something else can happen in between, and with the operands of an operator, the
two sides of an assignment and the arguments of a call evaluated in either order, since C leaves that open (C11 6.5p3; an
order that mixes the accesses of two operands is not modelled).  `Act.run`, which lets nothing happen in between and
evaluates from left to right, is proved to give what C/Src.lean gives (Props/SrcSpscConc.lean).
-/

namespace Mu.CS

open Jems (Dbl)

/-- What remains to be done: nothing, with result `a`; a fault; one access to memory, after which the value read decides how to
go on; or a choice of the compiler's. -/
inductive Act (α : Type) where
  | done (a : α)
  | fail (e : Fault)
  | mem (f : Heap → C (CVal × Heap)) (k : CVal → Act α)
  | pick (k : Bool → Act α)

namespace Act

/-- First this, then that. -/
def bind {α β : Type} : Act α → (α → Act β) → Act β
  | .done a, k => k a
  | .fail e, _ => .fail e
  | .mem f c, k => .mem f fun v => bind (c v) k
  | .pick c, k => .pick fun b => bind (c b) k

instance : Monad Act where
  pure := .done
  bind := bind

/-- A computation that does not touch memory. -/
def lift {α : Type} : C α → Act α
  | .ok a => .done a
  | .error e => .fail e

/-- One access. -/
def access (f : Heap → C (CVal × Heap)) : Act CVal := .mem f .done

/-- Read a cell. -/
def load (p : CVal) : Act CVal := access fun h => do
  let v ← h.load p
  .ok (v, h)

/-- Write a cell. -/
def store (p v : CVal) : Act CVal := access fun h => do
  let h ← h.store p v
  .ok (v, h)

/-- A binary operation: pointer arithmetic asks for the size of the object. -/
def op (A : Arch) (o : Op) (x y : CVal) : Act CVal :=
  match o with
  | .padd _ | .psub _ => access fun h => do
    let r ← o.run A h x y
    .ok (r, h)
  | _ => lift (o.run A ⟨fun _ => [], 0⟩ x y)

/-- Both, in either order; the locals `s` are passed from one to the other. -/
def both {σ α β : Type} (a : σ → Act (α × σ)) (b : σ → Act (β × σ)) (s : σ) : Act (α × β × σ) :=
  .pick fun
    | true => (a s).bind fun x => (b x.2).bind fun y => .done (x.1, y.1, y.2)
    | false => (b s).bind fun y => (a y.2).bind fun x => .done (x.1, y.1, x.2)

/-- Nothing happens in between, and the order is from left to right. -/
def run {α : Type} : Act α → Heap → C (α × Heap)
  | .done a, h => .ok (a, h)
  | .fail e, _ => .error e
  | .mem f k, h => do
    let (v, h) ← f h
    (k v).run h
  | .pick k, h => (k true).run h

end Act

/-- The slots of the current function. -/
abbrev Locals := List CVal

/-- The value of a local. -/
def Locals.get (s : Locals) (i : Nat) : C CVal :=
  match s[i]? with
  | some v => v.use
  | none => .error .uninit

/-- The functions that can be called by name and through pointers. -/
structure ACalls where
  fn : Fn → List CVal → Act CVal
  cb : Nat → List CVal → Act CVal

mutual
/-- Evaluation of an expression. -/
def evalA (A : Arch) (K : ACalls) : Expr → Locals → Act (CVal × Locals)
  | .num n, s => .done (.int n, s)
  | .intMax, s => .done (.int A.intMax, s)
  | .sizeMax, s => .done (.int (A.szMod - 1), s)
  | .null, s => .done (.null, s)
  | .str t, s => .done (.ptr (.lit t) 0, s)
  | .glob g, s => .done (.ptr (.glob g) 0, s)
  | .var i, s => do
    let v ← Act.lift (s.get i)
    .done (v, s)
  | .load p, s => do
    let (a, s) ← evalA A K p s
    let v ← Act.load a
    .done (v, s)
  | .setv i e, s => do
    let (v, s) ← evalA A K e s
    .done (v, s.set i v)
  | .store p e, s => do
    let (a, v, s) ← Act.both (evalA A K p) (evalA A K e) s
    let _ ← Act.store a v
    .done (v, s)
  | .updv i op to post e, s => do
    let (old, x, s) ← Act.both (fun s => do let v ← Act.lift (s.get i); .done (v, s)) (evalA A K e) s
    let r ← Act.op A op old x
    let new ← Act.lift (convTo A to r)
    .done (if post then old else new, s.set i new)
  | .upd p op to post e, s => do
    let ((a, old), x, s) ← Act.both (fun s => do
      let (a, s) ← evalA A K p s
      let old ← Act.load a
      .done ((a, old), s)) (evalA A K e) s
    let r ← Act.op A op old x
    let new ← Act.lift (convTo A to r)
    let _ ← Act.store a new
    .done (if post then old else new, s)
  | .bin op a b, s => do
    let (x, y, s) ← Act.both (evalA A K a) (evalA A K b) s
    let r ← Act.op A op x y
    .done (r, s)
  | .neg t e, s => do
    let (v, s) ← evalA A K e s
    match v with
    | .int n => do
      let r ← Act.lift ((A.it t).arith (-(A.it t).conv n))
      .done (.int r, s)
    | _ => .fail .ptr
  | .lnot e, s => do
    let (v, s) ← evalA A K e s
    let b ← Act.lift v.truth
    .done (.ofBool !b, s)
  | .cast t e, s => do
    let (v, s) ← evalA A K e s
    let r ← Act.lift (convTo A (some t) v)
    .done (r, s)
  | .tobool e, s => do
    let (v, s) ← evalA A K e s
    let b ← Act.lift v.truth
    .done (.ofBool b, s)
  | .dtoi t e, s => do
    let (v, s) ← evalA A K e s
    match v, t with
    | .dbl d, .i64 => do
      let n ← Act.lift (Jems.toI64 d)
      .done (.int n, s)
    | _, _ => .fail .ptr
  | .itod e, s => do
    let (v, s) ← evalA A K e s
    match v with
    | .int n => .done (.dbl (.fin (decide (n < 0)) (Jems.i64ToDbl n).natAbs 0), s)
    | _ => .fail .ptr
  | .land a b, s => do
    let (x, s) ← evalA A K a s
    let p ← Act.lift x.truth
    if p then do
      let (y, s) ← evalA A K b s
      let q ← Act.lift y.truth
      .done (.ofBool q, s)
    else .done (.ofBool false, s)
  | .lor a b, s => do
    let (x, s) ← evalA A K a s
    let p ← Act.lift x.truth
    if p then .done (.ofBool true, s)
    else do
      let (y, s) ← evalA A K b s
      let q ← Act.lift y.truth
      .done (.ofBool q, s)
  | .cond c a b, s => do
    let (x, s) ← evalA A K c s
    let p ← Act.lift x.truth
    if p then evalA A K a s else evalA A K b s
  | .fld p k, s => do
    let (a, s) ← evalA A K p s
    match a with
    | .ptr b o => .done (.ptr b (o + k), s)
    | .null => .fail .null
    | _ => .fail .ptr
  | .call f as, s => do
    let (vs, s) ← evalArgsA A K as s
    let r ← K.fn f vs
    .done (r, s)
  | .callp f as, s => do
    let (fv, vs, s) ← Act.both (evalA A K f) (evalArgsA A K as) s
    match fv with
    | .fn n => do
      let r ← K.cb n vs
      .done (r, s)
    | .null => .fail .null
    | _ => .fail .ptr
/-- Evaluation of the arguments of a call. -/
def evalArgsA (A : Arch) (K : ACalls) : List Expr → Locals → Act (List CVal × Locals)
  | [], s => .done ([], s)
  | e :: es, s => do
    let (v, vs, s) ← Act.both (evalA A K e) (evalArgsA A K es) s
    .done (v :: vs, s)
end

/-- `while`/`for`: at most `fuel` rounds. -/
def runLoopA (cond : Locals → Act (Bool × Locals)) (body : Locals → Act (Flow × Locals)) (step : Locals → Act Locals) :
    Nat → Locals → Act (Flow × Locals)
  | 0, _ => .fail .diverge
  | fuel + 1, s => do
    let (b, s) ← cond s
    if b then do
      let (f, s) ← body s
      match f with
      | .next => do
        let s ← step s
        runLoopA cond body step fuel s
      | .brk => .done (.next, s)
      | .ret v => .done (.ret v, s)
    else .done (.next, s)

/-- Evaluation of a condition. -/
def evalCondA (A : Arch) (K : ACalls) (c : Expr) (s : Locals) : Act (Bool × Locals) := do
  let (v, s) ← evalA A K c s
  let b ← Act.lift v.truth
  .done (b, s)

/-- The third expression of a `for`. -/
def evalStepA (A : Arch) (K : ACalls) : Option Expr → Locals → Act Locals
  | none, s => .done s
  | some e, s => do
    let (_, s) ← evalA A K e s
    .done s

/-- Execution of a statement. -/
def execA (A : Arch) (K : ACalls) (fuel : Nat) : Stmt → Locals → Act (Flow × Locals)
  | .skip, s => .done (.next, s)
  | .expr e, s => do
    let (_, s) ← evalA A K e s
    .done (.next, s)
  | .undef i, s => .done (.next, s.set i .undef)
  | .seq a b, s => do
    let (f, s) ← execA A K fuel a s
    match f with
    | .next => execA A K fuel b s
    | .brk => .done (.brk, s)
    | .ret v => .done (.ret v, s)
  | .ite c a b, s => do
    let (p, s) ← evalCondA A K c s
    if p then execA A K fuel a s else execA A K fuel b s
  | .loop c step body, s =>
    runLoopA (evalCondA A K c) (execA A K fuel body) (evalStepA A K step) fuel s
  | .brk, s => .done (.brk, s)
  | .ret e, s => do
    let (v, s) ← evalA A K e s
    .done (.ret v, s)
  | .retVoid, s => .done (.ret .undef, s)

/-- The locals once the objects for those that live in memory have been created from object `n` on. -/
def FunDef.start (d : FunDef) (args : List CVal) (h : Heap) : St :=
  allocVa (args.drop d.params) d.va (allocs d.mems ⟨args.take d.params ++ List.replicate d.locals .undef, h⟩)

/-- A call of a defined function. -/
def FunDef.act (A : Arch) (K : ACalls) (fuel : Nat) (d : FunDef) (args : List CVal) : Act CVal :=
  if d.mems.isEmpty && d.va.isNone then do
    let (f, _) ← execA A K fuel d.body (args ++ List.replicate d.locals .undef)
    .done f.result
  else .mem (fun h => .ok (.int h.next, (d.start args h).h)) fun
    | .int n => do
      let (f, _) ← execA A K fuel d.body (d.start args ⟨fun _ => [], n.toNat⟩).loc
      let _ ← Act.access fun h => .ok (.undef, h.release n.toNat)
      .done f.result
    | _ => .fail .ptr

/-- The functions of the platform, each one access, and of the user. -/
structure AExt where
  fn : Fn → SemFn
  cb : (Fn → List CVal → Act CVal) → Nat → List CVal → Act CVal

/-- The meaning of every function of a program, for `fuel` nested calls.  The functions of the C library are one access. -/
def semA (A : Arch) (X : AExt) (prog : Fn → Option FunDef) : Nat → Fn → List CVal → Act CVal
  | 0, _ => fun _ => .fail .diverge
  | n + 1, f => fun args =>
    match prog f with
    | some d => d.act A ⟨semA A X prog n, X.cb (semA A X prog n)⟩ n args
    | none => .access fun h =>
      match f with
      | .memmove => Lib.memmove h args
      | .memset => Lib.memset h args
      | .strlen => Lib.strlen h args
      | .snprintf => Lib.snprintf h args
      | .sprintf => Lib.sprintf h args
      | f => X.fn f h args

end Mu.CS
