import Verif.Spec.SrcBBuf
import Verif.Spec.SrcQueue

/-! # What a user of mu_bvec relies on, for the parsed source

`VCall.run` performs a call with the functions of the parsed source; `VCall.spec` says what it must do
to a list of bytes and a position. -/

namespace Mu.CS

/-- One call on a `mu_bvec_t`; `read` is given the address of a variable of the caller. -/
inductive VCall where
  | setCount (n : Nat)
  | reset
  | read (eb : Base) (eo : Int)
  | write (c : UInt8)
  | available
  | count
  | capacity
  | refRo (i : Nat)
  | refRw (i : Nat)
  | bbuf

/-- Make the call on the vector at offset `o` of object `b` with the functions `S`.  What the caller
sees is the result, and the content of its variable if `mu_bvec_read_byte` returned true. -/
def VCall.run (S : Fn → SemFn) (b : Base) (o : Int) (h : Heap) : VCall → C (QOut × Heap)
  | .setCount n => do
    let (r, h) ← S .mu_bvec_set_count h [.ptr b o, .int n]
    .ok (⟨r, none⟩, h)
  | .reset => do
    let (r, h) ← S .mu_bvec_reset h [.ptr b o]
    .ok (⟨r, none⟩, h)
  | .read eb eo => do
    let (r, h) ← S .mu_bvec_read_byte h [.ptr b o, .ptr eb eo]
    .ok (⟨r, if r = .int 1 then h.at eb eo else none⟩, h)
  | .write c => do
    let (r, h) ← S .mu_bvec_write_byte h [.ptr b o, .int c.toNat]
    .ok (⟨r, none⟩, h)
  | .available => do
    let (r, h) ← S .mu_bvec_get_available h [.ptr b o]
    .ok (⟨r, none⟩, h)
  | .count => do
    let (r, h) ← S .mu_bvec_get_count h [.ptr b o]
    .ok (⟨r, none⟩, h)
  | .capacity => do
    let (r, h) ← S .mu_bvec_get_capacity h [.ptr b o]
    .ok (⟨r, none⟩, h)
  | .refRo i => do
    let (r, h) ← S .mu_bvec_ref_ro h [.ptr b o, .int i]
    .ok (⟨r, none⟩, h)
  | .refRw i => do
    let (r, h) ← S .mu_bvec_ref_rw h [.ptr b o, .int i]
    .ok (⟨r, none⟩, h)
  | .bbuf => do
    let (r, h) ← S .mu_bvec_get_bbuf h [.ptr b o]
    .ok (⟨r, none⟩, h)

/-- A history of calls. -/
def VCall.runAll (S : Fn → SemFn) (b : Base) (o : Int) : Heap → List VCall → C (List QOut × Heap)
  | h, [] => .ok ([], h)
  | h, c :: cs => do
    let (r, h) ← VCall.run S b o h c
    let (rs, h) ← VCall.runAll S b o h cs
    .ok (r :: rs, h)

/-- The same call on the bytes `l` and the position `c`, which counts modulo `M = SIZE_MAX + 1`.  The
bytes are at `(bb, ob)`, the `mu_bvec_t` at `(b, o)`; `mu_bvec_set_count` returns nothing. -/
def VCall.spec (b : Base) (o : Int) (bb : Base) (ob : Int) (M : Nat) (l : List UInt8) (c : Nat) :
    VCall → QOut × List UInt8 × Nat
  | .setCount n => (⟨.undef, none⟩, l, n)
  | .reset => (⟨.ptr b o, none⟩, l, 0)
  | .read _ _ =>
    (match l[c]? with
      | some x => ⟨.int 1, some (.int x.toNat)⟩
      | none => ⟨.int 0, none⟩, l, (c + 1) % M)
  | .write x => (⟨.int (if c < l.length then 1 else 0), none⟩, l.set c x, (c + 1) % M)
  | .available => (⟨.int (l.length - c : Nat), none⟩, l, c)
  | .count => (⟨.int c, none⟩, l, c)
  | .capacity => (⟨.int l.length, none⟩, l, c)
  | .refRo i => (⟨if i < l.length then .ptr bb (ob + i) else .null, none⟩, l, c)
  | .refRw i => (⟨if i < l.length then .ptr bb (ob + i) else .null, none⟩, l, c)
  | .bbuf => (⟨.ptr b o, none⟩, l, c)

/-- The answers to a history, the final bytes and the final position. -/
def VCall.specAll (b : Base) (o : Int) (bb : Base) (ob : Int) (M : Nat) :
    List UInt8 → Nat → List VCall → List QOut × List UInt8 × Nat
  | l, c, [] => ([], l, c)
  | l, c, k :: ks =>
    let r := VCall.spec b o bb ob M l c k
    let rs := VCall.specAll b o bb ob M r.2.1 r.2.2 ks
    (r.1 :: rs.1, rs.2)

/-- The cells of the `mu_bvec_t` (a `mu_bbuf_t` and a count) and of its bytes. -/
def vecCells (b : Base) (o : Int) (bb : Base) (ob : Int) (cap : Nat) (b' : Base) (o' : Int) : Prop :=
  span b o 3 b' o' ∨ span bb ob cap b' o'

/-- The caller's obligations: counts and indices are values of `size_t`; the variable read into exists
and is no part of the vector; only vectors whose bytes may be modified are written to. -/
def VCall.Legal (M : Nat) (wr : Bool) (own : Base → Int → Prop) (h : Heap) : VCall → Prop
  | .setCount n => n < M
  | .read eb eo => eb.isLit = false ∧ (h.at eb eo).isSome = true ∧ ¬ own eb eo
  | .write _ => wr = true
  | .refRo i => i < M
  | .refRw i => i < M
  | _ => True

/-- The cells a call may change besides those of the vector. -/
def VCall.writes : VCall → Base → Int → Prop
  | .read eb eo, b', o' => b' = eb ∧ o' = eo
  | _, _, _ => False

end Mu.CS
