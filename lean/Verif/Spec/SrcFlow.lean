import Verif.Spec.SrcConc
import Verif.Spec.SrcMem
import Verif.Props.SrcBisync

/-! # What flows through a mu_spsc, read off what the two threads see -/

namespace Mu.CS.Conc

/-- Read off a history: the items that were accepted (their `mu_spsc_put` returned `MU_SPSC_ERR_NONE`), the item of the
`mu_spsc_put` that is in progress, the items that were received (found in the variable when `mu_spsc_get` returned
`MU_SPSC_ERR_NONE`), and whether a `mu_spsc_get` is in progress. -/
structure Flow where
  accepted : List CVal
  offered : Option CVal
  received : List CVal
  getting : Bool

/-- What one event adds. -/
def Flow.see (φ : Flow) : Ev → Flow
  | .call .producer (.put v) => { φ with offered := some v }
  | .ret .producer r =>
    { φ with accepted := if r.ret = .int 0 then φ.accepted ++ φ.offered.toList else φ.accepted, offered := none }
  | .call .consumer (.get _ _) => { φ with getting := true }
  | .ret .consumer r =>
    { φ with received := if r.ret = .int 0 then φ.received ++ r.item.toList else φ.received, getting := false }
  | _ => φ

/-- What has flowed in a history. -/
def flow (l : List Ev) : Flow := l.foldl Flow.see ⟨[], none, [], false⟩

/-- A byte as the producer puts it, `(void *)(uintptr_t)c`. -/
def byteItem (c : UInt8) : CVal := .int c.toNat

/-- The producer sends the items `w`: it only ever puts the first of them that has not been accepted yet - and so puts the same one
again when the queue was full. -/
def Sends (w : List CVal) (l : List Ev) : Prop :=
  ∀ l1 v l2, l = l1 ++ .call .producer (.put v) :: l2 → (flow l1).accepted ++ [v] <+: w

/-- `f` is what some run of the parsed `mu_bisync_encode` wrote for the payload `p`: it returned the length of `f`, and
memory holds `f` where it wrote. -/
def Encoded (p f : List UInt8) : Prop :=
  ∃ (A : Arch) (X : Ext) (n : Nat) (h h' : Heap) (bd bs : Base) (od os : Int) (d : List UInt8),
    h.Fresh ∧ bd.isLit = false ∧ h.Bytes bd od d ∧ h.Bytes bs os p ∧ Apart bd od d.length bs os p.length ∧
    (d.length : Int) ≤ A.intMax ∧ p.length < A.szMod ∧ p.length + 2 ≤ n ∧
    sem A X prog n .mu_bisync_encode h [.ptr bd od, .int d.length, .ptr bs os, .int p.length] = .ok (.int f.length, h') ∧
    h'.Bytes bd od f

/-- One frame for each payload, in order. -/
inductive EncodedAll : List (List UInt8) → List (List UInt8) → Prop
  | nil : EncodedAll [] []
  | cons {p f ps fs} : Encoded p f → EncodedAll ps fs → EncodedAll (p :: ps) (f :: fs)

end Mu.CS.Conc
