import Verif.Model.BVec
import Verif.Spec.BBuf

/-! # Specification of mu_bvec: a list of bytes of fixed length and a position -/

namespace Mu.BVec.Spec

/-- Contents, position, and what the call returns.  The position counts modulo `M = SIZE_MAX + 1`.
`base` is the address of the contents. -/
def step (M : Nat) (base : Ptr) (l : List UInt8) (c : Nat) : Call → Ret × List UInt8 × Nat
  | .setCount n => (.unit, l, n)
  | .reset => (.unit, l, 0)
  | .read b =>
    (match l[c]? with
      | some x => .read true x
      | none => .read false b, l, (c + 1) % M)
  | .write b => (.write (decide (c < l.length)), l.set c b, (c + 1) % M)
  | .available => (.num (l.length - c), l, c)
  | .count => (.num c, l, c)
  | .capacity => (.num l.length, l, c)
  | .ref i => (.ptr (if i < l.length then some ⟨base.blk, base.off + i⟩ else none), l, c)

def steps (M : Nat) (base : Ptr) : List UInt8 → Nat → List Call → List Ret × List UInt8 × Nat
  | l, c, [] => ([], l, c)
  | l, c, k :: ks =>
    let (r, l, c) := step M base l c k
    let (rs, l, c) := steps M base l c ks
    (r :: rs, l, c)

end Mu.BVec.Spec
