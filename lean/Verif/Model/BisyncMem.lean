import Verif.C.Mem
import Verif.Model.Bisync

/-! # Model of /repo/mulib/mu_bisync.c, source and destination anywhere in memory

The same functions as in `Verif.Model.Bisync`, but on pointers into a common memory, so that source and
destination may be parts of the same object and overlap. -/

namespace Mu.Bisync

/-- `buffer_t`, mu_bisync.c:43-50. -/
structure WriterM where
  wbuf : Ptr
  capacity : Int
  index : Int
  deriving DecidableEq

/-- `buffer_put`, mu_bisync.c:134-141. -/
def bufferPutM (P : Plat) (m : Mem) (w : WriterM) (byte : UInt8) : C (Bool × Mem × WriterM) :=
  if w.index ≥ w.capacity then .ok (false, m, w)
  else do
    let m ← m.st w.wbuf w.index byte
    let index ← P.int (w.index + 1)
    .ok (true, m, { w with index := index })

/-- The `for` loop of `mu_bisync_encode`, mu_bisync.c:78-89. -/
def encodeLoopM (P : Plat) (src : Ptr) (srcLen : Nat) :
    Nat → Int → Mem → WriterM → C (Bool × Mem × WriterM)
  | 0, _, _, _ => .error .diverge
  | fuel + 1, i, m, w =>
    if P.toSz i < srcLen then do
      let b ← m.ld src i
      let (ok, m, w) ←
        if b = EOT ∨ b = SOH ∨ b = DLE then bufferPutM P m w DLE else .ok (true, m, w)
      if ok = false then .ok (false, m, w) else do
      let (ok, m, w) ← bufferPutM P m w b
      if ok = false then .ok (false, m, w) else do
      let i ← P.int (i + 1)
      encodeLoopM P src srcLen fuel i m w
    else .ok (true, m, w)

/-- `mu_bisync_encode`, mu_bisync.c:70-94.  Returns the `int` result and the memory afterwards. -/
def encodeM (P : Plat) (m : Mem) (dst : Ptr) (cap : Nat) (src : Ptr) (srcLen : Nat) :
    C (Int × Mem) := do
  let w : WriterM := { wbuf := dst, capacity := P.toInt cap, index := 0 }
  let (ok, m, w) ← bufferPutM P m w SOH
  if ok = false then .ok (errOflow, m) else do
  let (ok, m, w) ← encodeLoopM P src srcLen (srcLen + 1) 0 m w
  if ok = false then .ok (errOflow, m) else do
  let (ok, m, w) ← bufferPutM P m w EOT
  if ok = false then .ok (errOflow, m) else
  .ok (w.index, m)

/-- The `for` loop of `mu_bisync_decode`, mu_bisync.c:106-122. -/
def decodeLoopM (P : Plat) (enc : Ptr) (encLen : Nat) :
    Nat → Int → Option UInt8 → Bool → Mem → WriterM → C (Bool × Option UInt8 × Mem × WriterM)
  | 0, _, _, _, _, _ => .error .diverge
  | fuel + 1, i, b, escaping, m, w =>
    if P.toSz i < encLen then do
      let b ← m.ld enc i
      if escaping then
        let (ok, m, w) ← bufferPutM P m w b
        if ok = false then .ok (false, some b, m, w) else do
        let i ← P.int (i + 1)
        decodeLoopM P enc encLen fuel i (some b) false m w
      else if b = DLE then do
        let i ← P.int (i + 1)
        decodeLoopM P enc encLen fuel i (some b) true m w
      else if b = EOT then .ok (true, some b, m, w)
      else do
        let (ok, m, w) ← bufferPutM P m w b
        if ok = false then .ok (false, some b, m, w) else do
        let i ← P.int (i + 1)
        decodeLoopM P enc encLen fuel i (some b) false m w
    else .ok (true, b, m, w)

/-- `mu_bisync_decode`, mu_bisync.c:96-129. -/
def decodeM (P : Plat) (m : Mem) (dst : Ptr) (cap : Nat) (enc : Ptr) (encLen : Nat) :
    C (Int × Mem) := do
  let w : WriterM := { wbuf := dst, capacity := P.toInt cap, index := 0 }
  let bad ← if encLen < 1 then .ok true else do let b0 ← m.ld enc 0; .ok (b0 ≠ SOH)
  if bad then .ok (errFormat, m) else do
  let (ok, b, m, w) ← decodeLoopM P enc encLen (encLen + 1) 0 none false m w
  if ok = false then .ok (errOflow, m) else
  match b with
  | none => .error .uninit
  | some b => if b ≠ EOT then .ok (errFormat, m) else .ok (w.index, m)

end Mu.Bisync
