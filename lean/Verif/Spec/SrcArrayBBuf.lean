import Verif.Spec.SrcArray
import Verif.Spec.SrcBBuf

/-! # Arrays of pointers to byte buffers, for the parsed source -/

namespace Mu.CS

/-- The user's comparison function, number `f`: `int cmp(const void *a, const void *b) { return mu_bbuf_compare(a, b); }`. -/
def BBufCmp (X : Ext) (f : Nat) : Prop := ∀ S h x y, X.cb S f h [x, y] = S .mu_bbuf_compare h [x, y]

/-- `v` is the address of a `mu_bbuf_t` with the bytes `s`; neither it nor the bytes are in `own`. -/
def Heap.Shows (h : Heap) (own : Base → Int → Prop) (v : CVal) (s : List UInt8) : Prop :=
  ∃ b o bb ob, v = .ptr b o ∧ h.BBuf b o bb ob s ∧ (∀ k : Nat, k < 2 → ¬ own b (o + k)) ∧ ∀ k : Nat, k < s.length → ¬ own bb (ob + k)

end Mu.CS
