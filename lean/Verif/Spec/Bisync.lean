/-! # Specification of the BISYNC framing, independent of the code -/

namespace Mu.Bisync.Spec

/-- The bytes that must be stuffed: SOH (1), EOT (4), DLE (16). -/
def isControl (b : UInt8) : Bool := b == 1 || b == 4 || b == 16

/-- Byte stuffing: one DLE before each control byte. -/
def stuff (p : List UInt8) : List UInt8 :=
  p.flatMap fun b => if isControl b then [16, b] else [b]

/-- The frame of a payload: SOH, stuffed payload, EOT. -/
def frame (p : List UInt8) : List UInt8 := 1 :: (stuff p ++ [4])

/-- `Body e p`: the byte string `e` is a sequence of complete tokens, each either a byte other
than DLE and EOT standing for itself or DLE followed by the byte it stands for; `p` is what they
stand for. -/
inductive Body : List UInt8 → List UInt8 → Prop where
  | nil : Body [] []
  | plain {b e p} : b ≠ 16 → b ≠ 4 → Body e p → Body (b :: e) (b :: p)
  | esc {b e p} : Body e p → Body (16 :: b :: e) (b :: p)

/-- A received byte string is a terminated frame for `p`: SOH, tokens for `p`, unescaped EOT,
then anything. -/
def Terminated (input p : List UInt8) : Prop :=
  ∃ e rest, Body e p ∧ input = 1 :: (e ++ 4 :: rest)

/-- A token sequence ends with an escaped EOT. -/
def EndsEscapedEot (e : List UInt8) : Prop := ∃ e' p', Body e' p' ∧ e = e' ++ [16, 4]

end Mu.Bisync.Spec
