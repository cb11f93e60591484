import Verif.Src.Names
import Verif.Model.Jems

/-!
# A deep embedding of the part of C in which mulib is written

This file models no mulib code: it gives a meaning to the syntax trees that `tools/csrc.py` reads
off `/repo/mulib/*.c` (the modules `Verif/Src/*.lean`).  The hand-written models of
`Verif/Model/*.lean` are proved against those trees in `Verif/Props/Src*.lean`.

* Integer types keep their names; widths come from `Arch` (the platform of `Verif/C/Basic.lean`
  and the two implementation-defined signs).  Unsigned arithmetic wraps, signed overflow is a fault,
  conversions to a signed type wrap.
* Memory is a family of objects, each a list of scalar cells.  A struct occupies one cell for each
  scalar field, members of a union share cells, and sizes are counted in cells.
* Scalar locals whose address is not taken live in numbered slots; the others, and the arrays and
  structs, are objects that exist from the call of their function to its return.
* Operands are evaluated from left to right and the address stored to before the value stored.  C
  leaves the order open; no expression of mulib has two operands of which one changes what the other
  uses.
* Loops and calls consume fuel; running out of it is the fault `diverge`.
-/

namespace Mu.CS

open Jems (Dbl)

/-! ## Syntax -/

/-- Integer types; `common` is the type of an arithmetic expression on two operands (C11 6.3.1.8). -/
inductive ITy where
  | bool | char | i8 | u8 | i16 | u16 | i32 | u32 | i64 | u64 | int | uint | size | uptr | enum
  | common (a b : ITy)
  deriving DecidableEq

/-- `+ - * / % & | <<`. -/
inductive AOp where
  | add | sub | mul | div | mod | band | bor | shl

/-- `== != < <= > >=`. -/
inductive COp where
  | eq | ne | lt | le | gt | ge

/-- Binary operations.  `t` is the type to which both operands are converted; the number given to
`padd`, `psub` is the size of the element pointed to. -/
inductive Op where
  | arith (o : AOp) (t : ITy)
  | cmp (o : COp) (t : ITy)
  | pcmp (o : COp)
  | padd (n : Nat)
  | psub (n : Nat)
  | deq

/-- Expressions.  An lvalue in memory is represented by the expression for its address. -/
inductive Expr where
  /-- integer constant -/
  | num (n : Int)
  /-- `INT_MAX` -/
  | intMax
  /-- `SIZE_MAX` -/
  | sizeMax
  /-- `NULL` -/
  | null
  /-- string literal -/
  | str (s : List UInt8)
  /-- address of a file-scope variable -/
  | glob (g : Glob)
  /-- value of a local in a slot; for a local in memory, its address -/
  | var (i : Nat)
  /-- value at an address -/
  | load (p : Expr)
  /-- `local = e` -/
  | setv (i : Nat) (e : Expr)
  /-- `*p = e` -/
  | store (p e : Expr)
  /-- `local op= e`; the value is the new one, or the old one if `post` (`local++`) -/
  | updv (i : Nat) (op : Op) (to : Option ITy) (post : Bool) (e : Expr)
  /-- `*p op= e` -/
  | upd (p : Expr) (op : Op) (to : Option ITy) (post : Bool) (e : Expr)
  | bin (op : Op) (a b : Expr)
  /-- `-e` -/
  | neg (t : ITy) (e : Expr)
  /-- `!e` -/
  | lnot (e : Expr)
  /-- conversion to an integer type other than `bool` -/
  | cast (t : ITy) (e : Expr)
  /-- conversion of a scalar to `bool` -/
  | tobool (e : Expr)
  /-- conversion of a `double` to an integer type -/
  | dtoi (t : ITy) (e : Expr)
  /-- conversion of an integer to `double` -/
  | itod (e : Expr)
  /-- `a && b` -/
  | land (a b : Expr)
  /-- `a || b` -/
  | lor (a b : Expr)
  /-- `c ? a : b` -/
  | cond (c a b : Expr)
  /-- `&p->field`, `k` cells from the start of the struct -/
  | fld (p : Expr) (k : Nat)
  /-- call of a named function -/
  | call (f : Fn) (as : List Expr)
  /-- call through a function pointer -/
  | callp (f : Expr) (as : List Expr)

/-- Statements. -/
inductive Stmt where
  | skip
  | expr (e : Expr)
  /-- declaration of a local without initialiser -/
  | undef (i : Nat)
  | seq (a b : Stmt)
  | ite (c : Expr) (a b : Stmt)
  /-- `while (c) body`, `for (; c; step) body` -/
  | loop (c : Expr) (step : Option Expr) (body : Stmt)
  | brk
  | ret (e : Expr)
  | retVoid

/-- A function: number of parameters, number of further slots, the locals that are objects in
memory with their sizes, the slot for the variable arguments if they are used, and the body. -/
structure FunDef where
  params : Nat
  locals : Nat
  mems : List (Nat × Nat) := []
  va : Option Nat := none
  body : Stmt

/-! ## Values and memory -/

/-- What a pointer points into: an object of the caller or a local, a file-scope variable, or a
string literal. -/
inductive Base where
  | obj (n : Nat)
  | glob (g : Glob)
  | lit (s : List UInt8)
  deriving DecidableEq

/-- Whether the object is a string literal (which may not be modified). -/
def Base.isLit : Base → Bool
  | .lit _ => true
  | _ => false

/-- Scalar values. -/
inductive CVal where
  | int (n : Int)
  | null
  | ptr (b : Base) (off : Int)
  /-- a function supplied by the user of the library -/
  | fn (n : Nat)
  | dbl (d : Dbl)
  /-- indeterminate -/
  | undef
  deriving DecidableEq

/-- Using a value: an indeterminate one is a fault. -/
def CVal.use : CVal → C CVal
  | .undef => .error .uninit
  | v => .ok v

/-- Memory: the cells of every object; objects from `next` on are not in use. -/
structure Heap where
  mem : Base → List CVal
  next : Nat

/-- The cells of a string literal. -/
def litCells (s : List UInt8) : List CVal := s.map (fun c => .int c.toNat) ++ [.int 0]

/-- The cells of an object. -/
def Heap.cells (h : Heap) : Base → List CVal
  | .lit s => litCells s
  | b => h.mem b

/-- The cell at offset `o` of object `b`, if there is one. -/
def Heap.at (h : Heap) (b : Base) (o : Int) : Option CVal :=
  if 0 ≤ o then (h.cells b)[o.toNat]? else none

/-- Replace the cells of an object. -/
def Heap.put (h : Heap) (b : Base) (l : List CVal) : Heap :=
  { h with mem := fun x => if x = b then l else h.mem x }

/-- Replace one cell. -/
def Heap.upd (h : Heap) (b : Base) (o : Int) (v : CVal) : Heap :=
  if 0 ≤ o then h.put b ((h.mem b).set o.toNat v) else h

/-- Load a scalar: reading outside an object, through a null pointer or an indeterminate value is
a fault. -/
def Heap.load (h : Heap) : CVal → C CVal
  | .ptr b o =>
    match h.at b o with
    | some v => v.use
    | none => .error .oob
  | .null => .error .null
  | _ => .error .ptr

/-- Store a scalar; string literals are read-only. -/
def Heap.store (h : Heap) : CVal → CVal → C Heap
  | .ptr (.lit _) _, _ => .error .oob
  | .ptr b o, v =>
    match h.at b o with
    | some _ => .ok (h.upd b o v)
    | none => .error .oob
  | .null, _ => .error .null
  | _, _ => .error .ptr

/-- `p + i` for elements of `n` cells: the result must lie inside the object or just past it
(C11 6.5.6p8). -/
def Heap.padd (h : Heap) (n : Nat) : CVal → Int → C CVal
  | .ptr b o, i =>
    if 0 ≤ o + n * i ∧ o + n * i ≤ (h.cells b).length then .ok (.ptr b (o + n * i)) else .error .ptr
  | .null, _ => .error .null
  | _, _ => .error .ptr

/-! ## Arithmetic -/

/-- A platform, and whether `char` and the enumeration types without negative constants are
signed. -/
structure Arch extends Plat where
  charSigned : Bool
  enumSigned : Bool

/-- Width and signedness of an integer type. -/
structure IT where
  w : Nat
  s : Bool
  deriving DecidableEq

/-- Integer promotion (C11 6.3.1.1p2). -/
def Arch.promote (A : Arch) (t : IT) : IT :=
  if t.w < A.ib ∨ (t.w = A.ib ∧ t.s = true) then ⟨A.ib, true⟩ else t

/-- Width and signedness of the named types and of the usual arithmetic conversions. -/
def Arch.it (A : Arch) : ITy → IT
  | .bool => ⟨8, false⟩
  | .char => ⟨8, A.charSigned⟩
  | .i8 => ⟨8, true⟩
  | .u8 => ⟨8, false⟩
  | .i16 => ⟨16, true⟩
  | .u16 => ⟨16, false⟩
  | .i32 => ⟨32, true⟩
  | .u32 => ⟨32, false⟩
  | .i64 => ⟨64, true⟩
  | .u64 => ⟨64, false⟩
  | .int => ⟨A.ib, true⟩
  | .uint => ⟨A.ib, false⟩
  | .size => ⟨A.sb, false⟩
  | .uptr => ⟨A.sb, false⟩
  | .enum => ⟨A.ib, A.enumSigned⟩
  | .common a b =>
    let x := A.promote (A.it a)
    let y := A.promote (A.it b)
    if x.w = y.w then ⟨x.w, x.s && y.s⟩ else if y.w < x.w then x else y

/-- Conversion of a value to an integer type (C11 6.3.1.3; to a signed type: reduction, as gcc and
clang define it). -/
def IT.conv (t : IT) (n : Int) : Int := if t.s then n.bmod (2 ^ t.w) else n % 2 ^ t.w

/-- The result of an arithmetic operation: reduced if unsigned, a fault if signed and not
representable. -/
def IT.arith (t : IT) (n : Int) : C Int :=
  if t.s then
    if -(2 ^ (t.w - 1)) ≤ n ∧ n ≤ 2 ^ (t.w - 1) - 1 then .ok n else .error .overflow
  else .ok (n % 2 ^ t.w)

/-- Arithmetic on converted operands.  `&` and `|` are defined here for operands that are not
negative, the only ones mulib has. -/
def AOp.run (t : IT) : AOp → Int → Int → C Int
  | .add, x, y => t.arith (x + y)
  | .sub, x, y => t.arith (x - y)
  | .mul, x, y => t.arith (x * y)
  | .div, x, y => if y = 0 then .error .divZero else t.arith (x.tdiv y)
  | .mod, x, y => if y = 0 then .error .divZero else t.arith (x.tmod y)
  | .band, x, y => if 0 ≤ x ∧ 0 ≤ y then .ok (x.toNat &&& y.toNat : Nat) else .error .overflow
  | .bor, x, y => if 0 ≤ x ∧ 0 ≤ y then .ok (x.toNat ||| y.toNat : Nat) else .error .overflow
  | .shl, x, y => if 0 ≤ x ∧ 0 ≤ y ∧ y < t.w then t.arith (x * 2 ^ y.toNat) else .error .overflow

/-- Comparison of integers. -/
def COp.run : COp → Int → Int → Bool
  | .eq, x, y => decide (x = y)
  | .ne, x, y => decide (x ≠ y)
  | .lt, x, y => decide (x < y)
  | .le, x, y => decide (x ≤ y)
  | .gt, x, y => decide (x > y)
  | .ge, x, y => decide (x ≥ y)

/-- The `int` (or `bool`) for a truth value. -/
def CVal.ofBool (b : Bool) : CVal := .int (if b then 1 else 0)

/-- Comparison of pointers: `==` and `!=` on any two, the order only inside one object
(C11 6.5.8p5). -/
def COp.runPtr (o : COp) : CVal → CVal → C Bool
  | .ptr b x, .ptr c y =>
    if b = c then .ok (o.run x y)
    else match o with
      | .eq => .ok false
      | .ne => .ok true
      | _ => .error .ptr
  | .undef, _ => .error .uninit
  | _, .undef => .error .uninit
  | x, y =>
    match o with
    | .eq => .ok (decide (x = y))
    | .ne => .ok (decide (x ≠ y))
    | _ => .error .ptr

/-- Comparison of two doubles for equality. -/
def dblEqual : Dbl → Dbl → Bool
  | .fin a m e, .fin b n f =>
    decide (Jems.sgn a * (m * 2 ^ (e - min e f).toNat : Nat) =
      Jems.sgn b * (n * 2 ^ (f - min e f).toNat : Nat))
  | .inf a, .inf b => a == b
  | _, _ => false

/-- A binary operation. -/
def Op.run (A : Arch) (h : Heap) : Op → CVal → CVal → C CVal
  | .arith o t, .int x, .int y => do
    let r ← o.run (A.it t) ((A.it t).conv x) ((A.it t).conv y)
    .ok (.int r)
  | .cmp o t, .int x, .int y => .ok (.ofBool (o.run ((A.it t).conv x) ((A.it t).conv y)))
  | .pcmp o, x, y => do
    let r ← o.runPtr x y
    .ok (.ofBool r)
  | .padd n, p, .int i => h.padd n p i
  | .psub n, p, .int i => h.padd n p (-i)
  | .deq, .dbl x, .dbl y => .ok (.ofBool (dblEqual x y))
  | _, _, _ => .error .ptr

/-- Conversion of the result of an assignment operator to the type of its left side. -/
def convTo (A : Arch) : Option ITy → CVal → C CVal
  | none, v => .ok v
  | some t, .int n => .ok (.int ((A.it t).conv n))
  | some _, _ => .error .ptr

/-- The truth value of a scalar used as a condition. -/
def CVal.truth : CVal → C Bool
  | .int n => .ok (decide (n ≠ 0))
  | .null => .ok false
  | .ptr _ _ => .ok true
  | .fn _ => .ok true
  | .dbl _ => .error .ptr
  | .undef => .error .uninit

/-! ## Execution -/

/-- The slots of the current function, and memory. -/
structure St where
  loc : List CVal
  h : Heap

/-- What a function does: memory and arguments to result and memory. -/
abbrev SemFn := Heap → List CVal → C (CVal × Heap)

/-- The value of a local. -/
def St.get (s : St) (i : Nat) : C CVal :=
  match s.loc[i]? with
  | some v => v.use
  | none => .error .uninit

/-- The functions that can be called by name and through pointers. -/
structure Calls where
  fn : Fn → SemFn
  cb : Nat → SemFn

mutual
/-- Evaluation of an expression. -/
def eval (A : Arch) (K : Calls) : Expr → St → C (CVal × St)
  | .num n, s => .ok (.int n, s)
  | .intMax, s => .ok (.int A.intMax, s)
  | .sizeMax, s => .ok (.int (A.szMod - 1), s)
  | .null, s => .ok (.null, s)
  | .str t, s => .ok (.ptr (.lit t) 0, s)
  | .glob g, s => .ok (.ptr (.glob g) 0, s)
  | .var i, s => do
    let v ← s.get i
    .ok (v, s)
  | .load p, s => do
    let (a, s) ← eval A K p s
    let v ← s.h.load a
    .ok (v, s)
  | .setv i e, s => do
    let (v, s) ← eval A K e s
    .ok (v, { s with loc := s.loc.set i v })
  | .store p e, s => do
    let (a, s) ← eval A K p s
    let (v, s) ← eval A K e s
    let h ← s.h.store a v
    .ok (v, { s with h := h })
  | .updv i op to post e, s => do
    let old ← s.get i
    let (x, s) ← eval A K e s
    let r ← op.run A s.h old x
    let new ← convTo A to r
    .ok (if post then old else new, { s with loc := s.loc.set i new })
  | .upd p op to post e, s => do
    let (a, s) ← eval A K p s
    let old ← s.h.load a
    let (x, s) ← eval A K e s
    let r ← op.run A s.h old x
    let new ← convTo A to r
    let h ← s.h.store a new
    .ok (if post then old else new, { s with h := h })
  | .bin op a b, s => do
    let (x, s) ← eval A K a s
    let (y, s) ← eval A K b s
    let r ← op.run A s.h x y
    .ok (r, s)
  | .neg t e, s => do
    let (v, s) ← eval A K e s
    match v with
    | .int n => do
      let r ← (A.it t).arith (-(A.it t).conv n)
      .ok (.int r, s)
    | _ => .error .ptr
  | .lnot e, s => do
    let (v, s) ← eval A K e s
    let b ← v.truth
    .ok (.ofBool !b, s)
  | .cast t e, s => do
    let (v, s) ← eval A K e s
    let r ← convTo A (some t) v
    .ok (r, s)
  | .tobool e, s => do
    let (v, s) ← eval A K e s
    let b ← v.truth
    .ok (.ofBool b, s)
  | .dtoi t e, s => do
    let (v, s) ← eval A K e s
    match v, t with
    | .dbl d, .i64 => do
      let n ← Jems.toI64 d
      .ok (.int n, s)
    | _, _ => .error .ptr
  | .itod e, s => do
    let (v, s) ← eval A K e s
    match v with
    | .int n => .ok (.dbl (.fin (decide (n < 0)) (Jems.i64ToDbl n).natAbs 0), s)
    | _ => .error .ptr
  | .land a b, s => do
    let (x, s) ← eval A K a s
    let p ← x.truth
    if p then do
      let (y, s) ← eval A K b s
      let q ← y.truth
      .ok (.ofBool q, s)
    else .ok (.ofBool false, s)
  | .lor a b, s => do
    let (x, s) ← eval A K a s
    let p ← x.truth
    if p then .ok (.ofBool true, s)
    else do
      let (y, s) ← eval A K b s
      let q ← y.truth
      .ok (.ofBool q, s)
  | .cond c a b, s => do
    let (x, s) ← eval A K c s
    let p ← x.truth
    if p then eval A K a s else eval A K b s
  | .fld p k, s => do
    let (a, s) ← eval A K p s
    match a with
    | .ptr b o => .ok (.ptr b (o + k), s)
    | .null => .error .null
    | _ => .error .ptr
  | .call f as, s => do
    let (vs, s) ← evalArgs A K as s
    let (r, h) ← K.fn f s.h vs
    .ok (r, { s with h := h })
  | .callp f as, s => do
    let (fv, s) ← eval A K f s
    let (vs, s) ← evalArgs A K as s
    match fv with
    | .fn n => do
      let (r, h) ← K.cb n s.h vs
      .ok (r, { s with h := h })
    | .null => .error .null
    | _ => .error .ptr
/-- Evaluation of the arguments of a call. -/
def evalArgs (A : Arch) (K : Calls) : List Expr → St → C (List CVal × St)
  | [], s => .ok ([], s)
  | e :: es, s => do
    let (v, s) ← eval A K e s
    let (vs, s) ← evalArgs A K es s
    .ok (v :: vs, s)
end

/-- How a statement ends. -/
inductive Flow where
  | next
  | brk
  | ret (v : CVal)

/-- The value a function returns. -/
def Flow.result : Flow → CVal
  | .ret v => v
  | _ => .undef

/-- `while`/`for`: at most `fuel` rounds. -/
def runLoop (cond : St → C (Bool × St)) (body : St → C (Flow × St)) (step : St → C St) :
    Nat → St → C (Flow × St)
  | 0, _ => .error .diverge
  | fuel + 1, s => do
    let (b, s) ← cond s
    if b then do
      let (f, s) ← body s
      match f with
      | .next => do
        let s ← step s
        runLoop cond body step fuel s
      | .brk => .ok (.next, s)
      | .ret v => .ok (.ret v, s)
    else .ok (.next, s)

/-- Evaluation of a condition. -/
def evalCond (A : Arch) (K : Calls) (c : Expr) (s : St) : C (Bool × St) := do
  let (v, s) ← eval A K c s
  let b ← v.truth
  .ok (b, s)

/-- The third expression of a `for`. -/
def evalStep (A : Arch) (K : Calls) : Option Expr → St → C St
  | none, s => .ok s
  | some e, s => do
    let (_, s) ← eval A K e s
    .ok s

/-- Execution of a statement. -/
def exec (A : Arch) (K : Calls) (fuel : Nat) : Stmt → St → C (Flow × St)
  | .skip, s => .ok (.next, s)
  | .expr e, s => do
    let (_, s) ← eval A K e s
    .ok (.next, s)
  | .undef i, s => .ok (.next, { s with loc := s.loc.set i .undef })
  | .seq a b, s => do
    let (f, s) ← exec A K fuel a s
    match f with
    | .next => exec A K fuel b s
    | .brk => .ok (.brk, s)
    | .ret v => .ok (.ret v, s)
  | .ite c a b, s => do
    let (p, s) ← evalCond A K c s
    if p then exec A K fuel a s else exec A K fuel b s
  | .loop c step body, s =>
    runLoop (evalCond A K c) (exec A K fuel body) (evalStep A K step) fuel s
  | .brk, s => .ok (.brk, s)
  | .ret e, s => do
    let (v, s) ← eval A K e s
    .ok (.ret v, s)
  | .retVoid, s => .ok (.ret .undef, s)

/-- Create the objects for the locals that live in memory. -/
def allocs : List (Nat × Nat) → St → St
  | [], s => s
  | (i, n) :: l, s =>
    allocs l ⟨s.loc.set i (.ptr (.obj s.h.next) 0),
      { (s.h.put (.obj s.h.next) (List.replicate n .undef)) with next := s.h.next + 1 }⟩

/-- Create the object that holds the variable arguments. -/
def allocVa (extra : List CVal) : Option Nat → St → St
  | none, s => s
  | some i, s =>
    ⟨s.loc.set i (.ptr (.obj s.h.next) 0),
      { (s.h.put (.obj s.h.next) extra) with next := s.h.next + 1 }⟩

/-- Remove the objects from `n` on. -/
def Heap.release (h : Heap) (n : Nat) : Heap where
  mem
    | .obj k => if n ≤ k then [] else h.mem (.obj k)
    | b => h.mem b
  next := n

/-- A call of a defined function. -/
def FunDef.run (A : Arch) (K : Calls) (fuel : Nat) (d : FunDef) : SemFn := fun h args => do
  if d.mems.isEmpty && d.va.isNone then do
    let (f, s) ← exec A K fuel d.body ⟨args ++ List.replicate d.locals .undef, h⟩
    .ok (f.result, s.h)
  else do
    let s0 : St := ⟨args.take d.params ++ List.replicate d.locals .undef, h⟩
    let (f, s) ← exec A K fuel d.body (allocVa (args.drop d.params) d.va (allocs d.mems s0))
    .ok (f.result, s.h.release h.next)

/-! ## The C library -/

/-- Replace the cells of `b` from offset `o` on by `l`. -/
def Heap.putN (h : Heap) : CVal → List CVal → C Heap
  | .ptr (.lit _) _, _ => .error .oob
  | .ptr b o, l =>
    if 0 ≤ o ∧ o + l.length ≤ (h.mem b).length then
      .ok (h.put b ((h.mem b).take o.toNat ++ l ++ (h.mem b).drop (o.toNat + l.length)))
    else .error .oob
  | .null, _ => .error .null
  | _, _ => .error .ptr

/-- The `n` cells at a pointer. -/
def Heap.getN (h : Heap) : CVal → Nat → C (List CVal)
  | .ptr b o, n =>
    if 0 ≤ o ∧ o + n ≤ (h.cells b).length then .ok (((h.cells b).drop o.toNat).take n)
    else .error .oob
  | .null, _ => .error .null
  | _, _ => .error .ptr

/-- `memmove` (sizes in cells). -/
def Lib.memmove : SemFn := fun h args =>
  match args with
  | [dst, src, .int n] => do
    let l ← h.getN src n.toNat
    let h ← h.putN dst l
    .ok (dst, h)
  | _ => .error .ptr

/-- `memset` (sizes in cells). -/
def Lib.memset : SemFn := fun h args =>
  match args with
  | [dst, v, .int n] => do
    let h ← h.putN dst (List.replicate n.toNat v)
    .ok (dst, h)
  | _ => .error .ptr

/-- `strlen`: the distance to the first zero cell. -/
def Lib.strlenAux : List CVal → Nat → C Nat
  | [], _ => .error .oob
  | .int 0 :: _, n => .ok n
  | .int _ :: l, n => Lib.strlenAux l (n + 1)
  | _ :: _, _ => .error .ptr

/-- `strlen`. -/
def Lib.strlen : SemFn := fun h args =>
  match args with
  | [.ptr b o] =>
    if 0 ≤ o then do
      let n ← Lib.strlenAux ((h.cells b).drop o.toNat) 0
      .ok (.int n, h)
    else .error .oob
  | [.null] => .error .null
  | _ => .error .ptr

/-- The text `printf` produces for the three formats of mu_jems.c:105-107, 116, 262: `%lld` (for
`"%" PRId64`), `%lf` and `\\u%04x`; what the conversions print is defined in Model/Jems.lean. -/
def Lib.format : CVal → List CVal → C (List UInt8)
  | .ptr (.lit f) 0, [.int n] =>
    if f = [37, 108, 108, 100] then .ok (Jems.fmtI64 n)
    else if f = [92, 117, 37, 48, 52, 120] ∧ 0 ≤ n ∧ n < 256 then
      .ok (Jems.sprintfU (UInt8.ofNat n.toNat)).dropLast
    else .error .ptr
  | .ptr (.lit f) 0, [.dbl d] =>
    if f = [37, 108, 102] then .ok (Jems.fmtLf d) else .error .ptr
  | _, _ => .error .ptr

/-- `snprintf`: at most `n - 1` characters and a NUL (C11 7.21.6.5). -/
def Lib.snprintf : SemFn := fun h args =>
  match args with
  | buf :: .int n :: fmt :: as => do
    let text ← Lib.format fmt as
    let h ← h.putN buf (litCells (text.take (n.toNat - 1)))
    .ok (.int text.length, h)
  | _ => .error .ptr

/-- `sprintf`. -/
def Lib.sprintf : SemFn := fun h args =>
  match args with
  | buf :: fmt :: as => do
    let text ← Lib.format fmt as
    let h ← h.putN buf (litCells text)
    .ok (.int text.length, h)
  | _ => .error .ptr

/-! ## Programs -/

/-- What the library does not define: the functions of the platform, and the functions of its
user.  The latter may call back into the library. -/
structure Ext where
  fn : Fn → SemFn
  cb : (Fn → SemFn) → Nat → SemFn

/-- The meaning of every function of a program, for `fuel` nested calls. -/
def sem (A : Arch) (X : Ext) (prog : Fn → Option FunDef) : Nat → Fn → SemFn
  | 0, _ => fun _ _ => .error .diverge
  | n + 1, f =>
    match prog f with
    | some d => d.run A ⟨sem A X prog n, X.cb (sem A X prog n)⟩ n
    | none =>
      match f with
      | .memmove => Lib.memmove
      | .memset => Lib.memset
      | .strlen => Lib.strlen
      | .snprintf => Lib.snprintf
      | .sprintf => Lib.sprintf
      | f => X.fn f

end Mu.CS
