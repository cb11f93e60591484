import Verif.Model.BBuf

/-! # Specification vocabulary for byte buffers: everything is said about the list of bytes a buffer
covers. -/

namespace Mu.BBuf

/-- The buffer lies inside its object. -/
def Valid (m : Mem) (b : BBuf) : Prop := 0 ≤ b.p.off ∧ b.p.off + b.cap ≤ (m b.p.blk).length

/-- The contents of a buffer. -/
def view (m : Mem) (b : BBuf) : List UInt8 := ((m b.p.blk).drop b.p.off.toNat).take b.cap

/-- The capacity is representable as an `int` (every function converts it to one). -/
def Fits (P : Plat) (b : BBuf) : Prop := (b.cap : Int) ≤ P.intMax

/-- `p` points to the zero-terminated string `s`. -/
def IsCstr (m : Mem) (p : Ptr) (s : List UInt8) : Prop :=
  0 ≤ p.off ∧ 0 ∉ s ∧ ∃ rest, (m p.blk).drop p.off.toNat = s ++ 0 :: rest

/-- The memory after the bytes of `b`, and nothing else, have been replaced by `bs`. -/
def replaced (m : Mem) (b : BBuf) (bs : List UInt8) : Mem := fun k =>
  if k = b.p.blk then
    (m k).take b.p.off.toNat ++ bs ++ (m k).drop (b.p.off.toNat + b.cap)
  else m k

/-- `d` is a part of `s`: same object, inside the range of `s`. -/
def Within (d s : BBuf) : Prop :=
  d.p.blk = s.p.blk ∧ s.p.off ≤ d.p.off ∧ d.p.off + d.cap ≤ s.p.off + s.cap

/-- The position an index denotes in a buffer of `n` bytes: counted from the end if negative, limited
to the buffer. -/
def position (n : Nat) (i : Int) : Nat := if i < 0 then ((n : Int) + i).toNat else min i.toNat n

/-- `s` occurs in `l` at offset `i`. -/
def OccursAt (s l : List UInt8) (i : Nat) : Prop := ∃ a c, l = a ++ s ++ c ∧ a.length = i

/-- An ASCII decimal digit, and its value. -/
def isDigit (b : UInt8) : Bool := 48 ≤ b.toNat && b.toNat ≤ 57

/-- The number denoted by a list of ASCII digits. -/
def decValue (l : List UInt8) : Nat := l.foldl (fun v b => 10 * v + (b.toNat - 48)) 0

/-- The decimal number at the beginning. -/
def leadingNat (l : List UInt8) : Nat := decValue (l.takeWhile isDigit)

/-- The signed decimal number at the beginning: an optional `-`, then digits. -/
def leadingInt : List UInt8 → Int
  | b :: l => if b = 45 then -(leadingNat l : Int) else (leadingNat (b :: l) : Int)
  | [] => 0

/-- An ASCII hexadecimal digit, and the number denoted by a list of them. -/
def hexVal (b : UInt8) : Option Nat :=
  ("0123456789abcdef".toList.map (fun c => UInt8.ofNat c.toNat)).findIdx? (· == b) |>.or
  (("0123456789ABCDEF".toList.map (fun c => UInt8.ofNat c.toNat)).findIdx? (· == b))

def leadingHex (l : List UInt8) : Nat :=
  (l.takeWhile (fun b => (hexVal b).isSome)).foldl (fun v b => 16 * v + (hexVal b).getD 0) 0

/-- Integer types as found on real platforms: either at least as wide as `int`, or so much narrower
that ten times its values fit into `int` (e.g. 8 and 16 bit types with 32 bit `int`). -/
def Regular (P : Plat) (N : Nat) : Prop := P.ib ≤ N ∨ N + 5 ≤ P.ib

end Mu.BBuf
