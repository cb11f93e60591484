import Verif.Src.Prog

/-! # What a user of mu_spsc relies on, for calls of the parsed source one after the other -/

namespace Mu.CS

/-- One call; `get` is given the address of a variable of the caller. -/
inductive SCall where
  | put (v : CVal)
  | get (eb : Base) (eo : Int)
  | reset
  | capacity

/-- What the caller sees: the result, and for `get` the content of its variable. -/
structure SOut where
  ret : CVal
  item : Option CVal
  deriving DecidableEq

/-- Make the call on the queue at offset `o` of object `b` with the functions `S`. -/
def SCall.run (S : Fn → SemFn) (b : Base) (o : Int) (h : Heap) : SCall → C (SOut × Heap)
  | .put v => do
    let (r, h) ← S .mu_spsc_put h [.ptr b o, v]
    .ok (⟨r, none⟩, h)
  | .get eb eo => do
    let (r, h) ← S .mu_spsc_get h [.ptr b o, .ptr eb eo]
    .ok (⟨r, h.at eb eo⟩, h)
  | .reset => do
    let (r, h) ← S .mu_spsc_reset h [.ptr b o]
    .ok (⟨r, none⟩, h)
  | .capacity => do
    let (r, h) ← S .mu_spsc_capacity h [.ptr b o]
    .ok (⟨r, none⟩, h)

/-- A history of calls. -/
def SCall.runAll (S : Fn → SemFn) (b : Base) (o : Int) : Heap → List SCall → C (List SOut × Heap)
  | h, [] => .ok ([], h)
  | h, c :: cs => do
    let (r, h) ← SCall.run S b o h c
    let (rs, h) ← SCall.runAll S b o h cs
    .ok (r :: rs, h)

/-- The same call on a first-in first-out list of at most `N - 1` items; 0 is `MU_SPSC_ERR_NONE`,
1 `MU_SPSC_ERR_EMPTY`, 2 `MU_SPSC_ERR_FULL` (mu_spsc.h:48-53). -/
def SCall.spec (N : Nat) (l : List CVal) : SCall → SOut × List CVal
  | .put v => if l.length < N - 1 then (⟨.int 0, none⟩, l ++ [v]) else (⟨.int 2, none⟩, l)
  | .get _ _ =>
    match l with
    | [] => (⟨.int 1, some .null⟩, [])
    | x :: t => (⟨.int 0, some x⟩, t)
  | .reset => (⟨.int 0, none⟩, [])
  | .capacity => (⟨.int (N - 1 : Nat), none⟩, l)

/-- The answers to a history, and the final content. -/
def SCall.specAll (N : Nat) : List CVal → List SCall → List SOut × List CVal
  | l, [] => ([], l)
  | l, c :: cs =>
    let r := SCall.spec N l c
    let rs := SCall.specAll N r.2 cs
    (r.1 :: rs.1, rs.2)

/-- The cells of the `mu_spsc_t` at `b`, `o` (four scalar members) and of `N` storage slots. -/
def spscCells (b : Base) (o : Int) (sb : Base) (so : Int) (N : Nat) (b' : Base) (o' : Int) :
    Prop :=
  (b' = b ∧ o ≤ o' ∧ o' < o + 4) ∨ (b' = sb ∧ so ≤ o' ∧ o' < so + N)

/-- The caller's obligations for one call. -/
def SCall.Legal (own : Base → Int → Prop) (h : Heap) : SCall → Prop
  | .put v => v ≠ .undef
  | .get eb eo => eb.isLit = false ∧ (h.at eb eo).isSome = true ∧ ¬ own eb eo
  | _ => True

/-- The cells a call may change besides those of the queue. -/
def SCall.writes : SCall → Base → Int → Prop
  | .get eb eo, b', o' => b' = eb ∧ o' = eo
  | _, _, _ => False

end Mu.CS
