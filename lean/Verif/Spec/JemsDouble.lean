import Verif.Model.Jems
import Mathlib.Data.Rat.Defs
import Mathlib.Algebra.Order.Field.Rat

/-! # Doubles as rationals -/

namespace Mu.Jems.Spec

/-- The finite `double`s of IEEE 754 binary64: 53 significant bits. -/
def IsDouble : Dbl → Prop
  | .fin _ m e => m < 2 ^ 53 ∧ -1074 ≤ e ∧ e ≤ 971
  | _ => False

/-- The mathematical value of a finite `double`. -/
def dblVal : Dbl → ℚ
  | .fin neg m e => (if neg then -1 else 1) * m * (2 : ℚ) ^ e
  | _ => 0

end Mu.Jems.Spec
