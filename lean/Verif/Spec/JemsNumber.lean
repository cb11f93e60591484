import Verif.Spec.Jems

/-! # Specification of mu_jems_number: JSON numbers with a fraction -/

namespace Mu.Jems.Spec

/-- `t` is a JSON number (RFC 8259 section 6) with a fraction of `d` digits and no exponent, and its
value is `w`. -/
def IsDecimal (t : List UInt8) (d : Nat) (w : ℚ) : Prop :=
  ∃ (neg : Bool) (ip fp : List UInt8),
    t = (if neg then ascii "-" else []) ++ ip ++ ascii "." ++ fp ∧
    ip ≠ [] ∧ (∀ c ∈ ip, isDigit c = true) ∧ (ip.head? = some 48 → ip = [48]) ∧
    fp.length = d ∧ d ≠ 0 ∧ (∀ c ∈ fp, isDigit c = true) ∧
    w = (if neg then -1 else 1) * ((decVal ip : ℚ) + (decVal fp : ℚ) / 10 ^ d)

end Mu.Jems.Spec
