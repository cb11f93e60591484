import Verif.Spec.JemsNumber
import Mathlib.Algebra.Order.Field.Rat
import Mathlib.Algebra.Order.AbsoluteValue.Basic

/-! # Specification: which number is printed for a `double` with a fraction -/

namespace Mu.Jems.Spec

/-- `n` is the natural number nearest to `q`, the even one of two. -/
def Nearest (n : Nat) (q : ℚ) : Prop := |(n : ℚ) - q| ≤ 1 / 2 ∧ (|(n : ℚ) - q| = 1 / 2 → n % 2 = 0)

/-- How many of the six digits after the point are written for `n` millionths: the sign, the integer
part, the point and these digits have to fit 21 characters. -/
def places (neg : Bool) (n : Nat) : Nat :=
  min (21 - ((if neg then 1 else 0) + (ascii (toString (n / 1000000))).length) - 1) 6

/-- `n` millionths, the digits that are not written dropped. -/
def printed (neg : Bool) (n : Nat) : ℚ :=
  (if neg then -1 else 1) * (((n / 10 ^ (6 - places neg n) : Nat) : ℚ) / 10 ^ places neg n)

/-- A document that is a number. -/
def Numeric : Doc → Prop
  | .int _ => True
  | .dec _ _ _ _ => True
  | _ => False

end Mu.Jems.Spec
