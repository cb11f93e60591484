import Verif.Model.BBuf

/-! # Model of /repo/mulib/mu_bvec.c -/

namespace Mu.BVec
open BBuf

/-- `mu_bvec_t`, mu_bvec.h:50-53. -/
structure BVec where
  bbuf : BBuf
  count : Nat
  deriving DecidableEq

/-- `mu_bvec_reset`, mu_bvec.c:62-65. -/
def reset (v : BVec) : BVec := { v with count := 0 }

/-- `mu_bvec_init`, mu_bvec.c:47-50.  The old contents `v` of the object are overwritten. -/
def initB (v : BVec) (b : BBuf) : BVec := reset { v with bbuf := b }

/-- `mu_bvec_init_ro`, `mu_bvec_init_rw`, mu_bvec.c:52-60. -/
def init (v : BVec) (bytes : Ptr) (capacity : Nat) : BVec := reset { v with bbuf := ⟨bytes, capacity⟩ }

/-- What `mu_bvec_get_bbuf`, mu_bvec.c:67-69, points to. -/
def getBbuf (v : BVec) : BBuf := v.bbuf

/-- `mu_bvec_get_capacity`, mu_bvec.c:71-73. -/
def getCapacity (v : BVec) : Nat := BBuf.capacity v.bbuf

/-- `mu_bvec_get_count`, mu_bvec.c:75-77. -/
def getCount (v : BVec) : Nat := v.count

/-- `mu_bvec_set_count`, mu_bvec.c:79-81. -/
def setCount (v : BVec) (count : Nat) : BVec := { v with count := count }

/-- `mu_bvec_get_available`, mu_bvec.c:83-90. -/
def getAvailable (P : Plat) (v : BVec) : Nat :=
  if v.count > v.bbuf.cap then 0 else P.szSub v.bbuf.cap v.count

/-- `mu_bvec_ref_ro`, `mu_bvec_ref_rw`, mu_bvec.c:92-98. -/
def refAt (m : Mem) (v : BVec) (index : Nat) : C (Option Ptr) := BBuf.ref m v.bbuf index

/-- `mu_bvec_read_byte`, mu_bvec.c:100-108: the count is advanced (modulo the width of `size_t`)
whether or not the read succeeds.  Result: the return value, `*byte` afterwards, and the vector. -/
def readByte (P : Plat) (m : Mem) (v : BVec) (byte : UInt8) : C (Bool × UInt8 × BVec) := do
  let p ← refAt m v v.count
  let v := { v with count := P.sz (v.count + 1) }
  match p with
  | none => .ok (false, byte, v)
  | some p => do
    let x ← m.ld p 0
    .ok (true, x, v)

/-- `mu_bvec_write_byte`, mu_bvec.c:110-118. -/
def writeByte (P : Plat) (m : Mem) (v : BVec) (byte : UInt8) : C (Bool × Mem × BVec) := do
  let p ← refAt m v v.count
  let v := { v with count := P.sz (v.count + 1) }
  match p with
  | none => .ok (false, m, v)
  | some p => do
    let m ← m.st p 0 byte
    .ok (true, m, v)

/-! ## Histories of calls -/

/-- A call on one `mu_bvec_t`. -/
inductive Call where
  | setCount (n : Nat)
  | reset
  | read (byte : UInt8)
  | write (byte : UInt8)
  | available
  | count
  | capacity
  | ref (index : Nat)

/-- What a call returned: nothing, a flag with the byte, a flag, a number, a pointer (`none`: NULL). -/
inductive Ret where
  | unit
  | read (ok : Bool) (byte : UInt8)
  | write (ok : Bool)
  | num (n : Nat)
  | ptr (p : Option Ptr)
  deriving DecidableEq

/-- One call. -/
def call (P : Plat) (m : Mem) (v : BVec) : Call → C (Ret × Mem × BVec)
  | .setCount n => .ok (.unit, m, setCount v n)
  | .reset => .ok (.unit, m, BVec.reset v)
  | .read b => do
    let (f, x, v) ← readByte P m v b
    .ok (.read f x, m, v)
  | .write b => do
    let (f, m, v) ← writeByte P m v b
    .ok (.write f, m, v)
  | .available => .ok (.num (getAvailable P v), m, v)
  | .count => .ok (.num (getCount v), m, v)
  | .capacity => .ok (.num (getCapacity v), m, v)
  | .ref i => do
    let p ← refAt m v i
    .ok (.ptr p, m, v)

/-- A sequence of calls, with everything they returned. -/
def calls (P : Plat) : Mem → BVec → List Call → C (List Ret × Mem × BVec)
  | m, v, [] => .ok ([], m, v)
  | m, v, c :: cs => do
    let (r, m, v) ← call P m v c
    let (rs, m, v) ← calls P m v cs
    .ok (r :: rs, m, v)

end Mu.BVec
