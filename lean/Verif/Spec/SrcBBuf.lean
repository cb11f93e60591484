import Verif.Spec.SrcMem

/-! # Byte buffers, strings and predicates in the memory of the C semantics -/

namespace Mu.CS

/-- At `(b, o)` memory holds a `mu_bbuf_t` (mu_bbuf.h:44-48: a pointer and a capacity) whose bytes are
`l`, kept at `(bb, ob)`. -/
structure Heap.BBuf (h : Heap) (b : Base) (o : Int) (bb : Base) (ob : Int) (l : List UInt8) : Prop where
  ptr : h.at b o = some (.ptr bb ob)
  cap : h.at b (o + 1) = some (.int l.length)
  bytes : h.Bytes bb ob l

/-- At `(b, o)` memory holds the zero-terminated string `s`. -/
def Heap.Cstr (h : Heap) (b : Base) (o : Int) (s : List UInt8) : Prop :=
  0 ∉ s ∧ h.Bytes b o (s ++ [0])

/-- The function `call` of the user, called with a byte and `arg` in a memory that `S` relates to the
state `s`, answers as `pred` says and leaves a memory of the next state. -/
def Answers {σ : Type} (call : SemFn) (arg : CVal) (S : σ → Heap → Prop)
    (pred : σ → UInt8 → Bool × σ) : Prop :=
  ∀ s h (c : UInt8), S s h → ∃ h', call h [.int c.toNat, arg] = .ok (.ofBool (pred s c).1, h') ∧
    S (pred s c).2 h'

end Mu.CS
