import Verif.Lemmas.SrcMem
import Verif.Spec.SrcTask

/-! # Comparisons with NULL -/

namespace Mu.CS

@[csrc] theorem ne_null_null : COp.runPtr .ne .null .null = .ok false := rfl
@[csrc] theorem ne_ptr_null (b : Base) (o : Int) : COp.runPtr .ne (.ptr b o) .null = .ok true := rfl
@[csrc] theorem ne_fn_null (f : Nat) : COp.runPtr .ne (.fn f) .null = .ok true := rfl
@[csrc] theorem eq_null_null : COp.runPtr .eq .null .null = .ok true := rfl
@[csrc] theorem eq_ptr_null (b : Base) (o : Int) : COp.runPtr .eq (.ptr b o) .null = .ok false := rfl
@[csrc] theorem eq_fn_null (f : Nat) : COp.runPtr .eq (.fn f) .null = .ok false := rfl

end Mu.CS
