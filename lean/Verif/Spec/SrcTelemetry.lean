import Verif.Spec.SrcJems
import Verif.Spec.SrcBVec
import Verif.Spec.Bisync

/-! # JSON through a byte vector and a frame, for the parsed source

A program that emits a document with mu_jems into a mu_bvec, frames it with mu_bisync_encode, decodes the frame and looks at
the text. -/

namespace Mu.CS.Tele

open Mu.Jems (Call)

/-- The user's writer function, number `w`: `void put(char ch, uintptr_t arg) { mu_bvec_write_byte((mu_bvec_t *)arg, (uint8_t)ch); }`.
`X` is arbitrary otherwise. -/
def VecWriter (X : Ext) (w : Nat) : Prop := ∀ S h (v : Int) b o, X.cb S w h [.int v, .ptr b o] = (do
  let (_, h) ← S .mu_bvec_write_byte h [.ptr b o, .int (v % 256)]
  .ok (.undef, h))

/-- Where things are: the `mu_bvec_t` and its `cap` bytes; the `mu_jems_t` and its array of `len` levels; the writer function; room
for a frame of at most `dlen` bytes; room for `rlen` bytes that are received; a `mu_bbuf_t` for the text that was received. -/
structure Spot where
  vb : Base
  vo : Int
  bb : Base
  bo : Int
  cap : Nat
  jb : Base
  jo : Int
  lb : Base
  lo : Int
  len : Nat
  w : Nat
  db : Base
  dof : Int
  dlen : Nat
  rb : Base
  ro : Int
  rlen : Nat
  tb : Base
  tof : Int

/-- All of these, with their sizes. -/
def Spot.regions (T : Spot) : List (Base × Int × Nat) :=
  [(T.vb, T.vo, 3), (T.bb, T.bo, T.cap), (T.jb, T.jo, 5), (T.lb, T.lo, 2 * T.len), (T.db, T.dof, T.dlen), (T.rb, T.ro, T.rlen), (T.tb, T.tof, 2)]

/-- What emitting changes: vector, bytes, `mu_jems_t`, levels. -/
def Spot.Sends (T : Spot) (b : Base) (o : Int) : Prop :=
  span T.vb T.vo 3 b o ∨ span T.bb T.bo T.cap b o ∨ span T.jb T.jo 5 b o ∨ span T.lb T.lo (2 * T.len) b o

/-- Objects that exist, may be written and do not overlap; byte arrays hold bytes. -/
structure Spot.Ok (T : Spot) (A : Arch) (h : Heap) (l d r : List UInt8) : Prop where
  fresh : h.Fresh
  wr : ∀ x ∈ T.regions, x.1.isLit = false
  room : ∀ x ∈ T.regions, ∀ i : Nat, i < x.2.2 → (h.at x.1 (x.2.1 + i)).isSome = true
  apart : T.regions.Pairwise fun x y => x.1 ≠ y.1 ∨ x.2.1 + (x.2.2 : Int) ≤ y.2.1 ∨ y.2.1 + (y.2.2 : Int) ≤ x.2.1
  buf : h.Bytes T.bb T.bo l
  frame : h.Bytes T.db T.dof d
  recv : h.Bytes T.rb T.ro r
  lenl : l.length = T.cap
  lend : d.length = T.dlen
  lenr : r.length = T.rlen
  cap : 0 < T.cap ∧ T.cap < A.szMod
  len : T.len < A.szMod

/-- The texts `m` are in memory, where emitting does not change them; they are made of bytes of type `uint8_t`. -/
def Spot.Texts (T : Spot) (β : Place) (h : Heap) (m : Mem) : Prop :=
  ∀ k i c, (m k)[i]? = some c → ¬ T.Sends (β k).1 ((β k).2 + (i : Nat)) ∧ h.at (β k).1 ((β k).2 + (i : Nat)) = some (.int (UInt8.toNat c))

/-- Emit: `mu_bvec_init_rw`, `mu_jems_init` with `D` levels, the calls. -/
def Spot.emit (T : Spot) (S : Fn → SemFn) (β : Place) (h : Heap) (D : Nat) (cs : List Call) : C Heap := do
  let (_, h) ← S .mu_bvec_init_rw h [.ptr T.vb T.vo, .ptr T.bb T.bo, .int T.cap]
  let (j, h) ← S .mu_jems_init h [.ptr T.jb T.jo, .ptr T.lb T.lo, .int D, .fn T.w, .ptr T.vb T.vo]
  let (_, h) ← callsRun S β h j cs
  .ok h

/-- Emit and frame: `mu_bisync_encode(frame, dlen, bytes, mu_bvec_get_count(vec))`. -/
def Spot.send (T : Spot) (S : Fn → SemFn) (β : Place) (h : Heap) (D : Nat) (cs : List Call) : C (CVal × Heap) := do
  let h ← T.emit S β h D cs
  let (n, h) ← S .mu_bvec_get_count h [.ptr T.vb T.vo]
  S .mu_bisync_encode h [.ptr T.db T.dof, .int T.dlen, .ptr T.bb T.bo, n]

/-- Receive a frame of `n` bytes and make a `mu_bbuf_t` of what is after the SOH that `mu_bisync_decode` leaves in place. -/
def Spot.receive (T : Spot) (S : Fn → SemFn) (h : Heap) (n : CVal) : C (CVal × Heap) := do
  let (r, h) ← S .mu_bisync_decode h [.ptr T.rb T.ro, .int T.rlen, .ptr T.db T.dof, n]
  match r with
  | .int r =>
    let (_, h) ← S .mu_bbuf_init_ro h [.ptr T.tb T.tof, .ptr T.rb (T.ro + 1), .int (r - 1)]
    .ok (.int r, h)
  | _ => .error .ptr

end Mu.CS.Tele
