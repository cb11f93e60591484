import Verif.C.Basic

/-! # Model of /repo/mulib/mu_bisync.c -/

namespace Mu.Bisync

/-- mu_bisync.h:56 -/
def SOH : UInt8 := 1
/-- mu_bisync.h:57 -/
def EOT : UInt8 := 4
/-- mu_bisync.h:58 -/
def DLE : UInt8 := 16

/-- MU_BISYNC_ERR_OFLOW, mu_bisync.h:61 -/
def errOflow : Int := -1
/-- MU_BISYNC_ERR_FORMAT, mu_bisync.h:62 -/
def errFormat : Int := -2

/-- `buffer_t`, mu_bisync.c:43-50.  `wbuf` is the memory object the pointer refers to (it may be
larger than `capacity`); the union with `rbuf` is not used by the code. -/
structure Writer where
  wbuf : List UInt8
  capacity : Int
  index : Int
  deriving DecidableEq

/-- `buffer_put`, mu_bisync.c:134-141. -/
def bufferPut (P : Plat) (w : Writer) (byte : UInt8) : C (Bool × Writer) :=
  if w.index ≥ w.capacity then .ok (false, w)
  else do
    let wbuf ← st w.wbuf w.index byte
    let index ← P.int (w.index + 1)
    .ok (true, { w with wbuf := wbuf, index := index })

/-- The `for` loop of `mu_bisync_encode`, mu_bisync.c:78-89.  Result `false` means that the
function returned MU_BISYNC_ERR_OFLOW from inside the loop. -/
def encodeLoop (P : Plat) (src : List UInt8) (srcLen : Nat) :
    Nat → Int → Writer → C (Bool × Writer)
  | 0, _, _ => .error .diverge
  | fuel + 1, i, w =>
    if P.toSz i < srcLen then do
      let b ← ld src i
      let (ok, w) ←
        if b = EOT ∨ b = SOH ∨ b = DLE then bufferPut P w DLE else .ok (true, w)
      if ok = false then .ok (false, w) else do
      let (ok, w) ← bufferPut P w b
      if ok = false then .ok (false, w) else do
      let i ← P.int (i + 1)
      encodeLoop P src srcLen fuel i w
    else .ok (true, w)

/-- `mu_bisync_encode`, mu_bisync.c:70-94.  Returns the `int` result and the final contents of
the destination object.  Source and destination are distinct objects. -/
def encode (P : Plat) (dst : List UInt8) (cap : Nat) (src : List UInt8) (srcLen : Nat) :
    C (Int × List UInt8) := do
  let w : Writer := { wbuf := dst, capacity := P.toInt cap, index := 0 }
  let (ok, w) ← bufferPut P w SOH
  if ok = false then .ok (errOflow, w.wbuf) else do
  let (ok, w) ← encodeLoop P src srcLen (srcLen + 1) 0 w
  if ok = false then .ok (errOflow, w.wbuf) else do
  let (ok, w) ← bufferPut P w EOT
  if ok = false then .ok (errOflow, w.wbuf) else
  .ok (w.index, w.wbuf)

/-- The `for` loop of `mu_bisync_decode`, mu_bisync.c:106-122.  `b` is the automatic variable `b`
(`none` while uninitialised). Result `false` means MU_BISYNC_ERR_OFLOW was returned. -/
def decodeLoop (P : Plat) (enc : List UInt8) (encLen : Nat) :
    Nat → Int → Option UInt8 → Bool → Writer → C (Bool × Option UInt8 × Writer)
  | 0, _, _, _, _ => .error .diverge
  | fuel + 1, i, b, escaping, w =>
    if P.toSz i < encLen then do
      let b ← ld enc i
      if escaping then
        let (ok, w) ← bufferPut P w b
        if ok = false then .ok (false, some b, w) else do
        let i ← P.int (i + 1)
        decodeLoop P enc encLen fuel i (some b) false w
      else if b = DLE then do
        let i ← P.int (i + 1)
        decodeLoop P enc encLen fuel i (some b) true w
      else if b = EOT then .ok (true, some b, w)
      else do
        let (ok, w) ← bufferPut P w b
        if ok = false then .ok (false, some b, w) else do
        let i ← P.int (i + 1)
        decodeLoop P enc encLen fuel i (some b) false w
    else .ok (true, b, w)

/-- `mu_bisync_decode`, mu_bisync.c:96-129. -/
def decode (P : Plat) (dst : List UInt8) (cap : Nat) (enc : List UInt8) (encLen : Nat) :
    C (Int × List UInt8) := do
  let w : Writer := { wbuf := dst, capacity := P.toInt cap, index := 0 }
  let bad ← if encLen < 1 then .ok true else do let b0 ← ld enc 0; .ok (b0 ≠ SOH)
  if bad then .ok (errFormat, w.wbuf) else do
  let (ok, b, w) ← decodeLoop P enc encLen (encLen + 1) 0 none false w
  if ok = false then .ok (errOflow, w.wbuf) else
  match b with
  | none => .error .uninit
  | some b => if b ≠ EOT then .ok (errFormat, w.wbuf) else .ok (w.index, w.wbuf)

end Mu.Bisync
