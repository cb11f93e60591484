import Verif.Lemmas.Src
import Verif.Spec.SrcArray

/-! # Comparison functions given to mu_array.c, for the parsed source -/

namespace Mu.CS

/-- `call` is a comparison function for the values that satisfy `P`: its `k`-th call returns the `int`
`cmp k x y`.  It may use and change memory (`S k` is what it relies on before the `k`-th call) but not the
cells `own`; and what it relies on does not depend on the cells `wr`. -/
structure Compares (A : Arch) (call : SemFn) (P : CVal → Prop) (own wr : Base → Int → Prop)
    (S : Nat → Heap → Prop) (cmp : Nat → CVal → CVal → Int) : Prop where
  answer : ∀ k h x y, S k h → P x → P y → ∃ h', call h [x, y] = .ok (.int (cmp k x y), h') ∧ S (k + 1) h' ∧
    Heap.Only (fun b o => ¬ own b o) h h'
  int : ∀ k x y, A.intMin ≤ cmp k x y ∧ cmp k x y ≤ A.intMax
  stable : ∀ k h h', S k h → Heap.Only wr h h' → S k h'

/-- `cmp` is the three-way comparison of a total preorder on the values that satisfy `P`. -/
structure Orders (P : CVal → Prop) (cmp : CVal → CVal → Int) : Prop where
  antisymm : ∀ a b, P a → P b → (cmp a b < 0 ↔ 0 < cmp b a)
  trans : ∀ a b c, P a → P b → P c → cmp a b ≤ 0 → cmp b c ≤ 0 → cmp a c ≤ 0

end Mu.CS
