import Verif.C.Basic

/-! # Pointer-sized values

Containers of mulib store `void *` elements and never look inside them: an element is an
abstract value, and `NULL` is 0. -/

namespace Mu

/-- A pointer-sized element (`void *`). -/
abbrev Val := Nat

/-- `NULL`. -/
def NULL : Val := 0

end Mu
