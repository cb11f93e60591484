import Verif.Src.Prog

/-! # Bytes in the memory of the C semantics -/

namespace Mu.CS

/-- From offset `o` on, object `b` holds the bytes `l`. -/
def Heap.Bytes (h : Heap) (b : Base) (o : Int) (l : List UInt8) : Prop :=
  0 ≤ o ∧ o + l.length ≤ (h.cells b).length ∧
    ∀ (i : Nat) (c : UInt8), l[i]? = some c → h.at b (o + i) = some (.int c.toNat)

/-- The numbers from `h.next` on are not in use: a function may take them for its locals. -/
def Heap.Fresh (h : Heap) : Prop := ∀ k, h.next ≤ k → h.mem (.obj k) = []

/-- The `n` cells from offset `o` of object `b` on. -/
def span (b : Base) (o : Int) (n : Nat) (b' : Base) (o' : Int) : Prop :=
  b' = b ∧ o ≤ o' ∧ o' < o + n

end Mu.CS
