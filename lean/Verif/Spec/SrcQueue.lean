import Verif.Src.Prog

/-! # What a user of mu_queue relies on, for the parsed source

A history is a list of calls on one queue, made by a program that owns the variables the elements
are delivered to.  `QCall.run` performs a call with the functions of the parsed source; `QCall.spec`
says what it must do to a list of elements, oldest first. -/

namespace Mu.CS

/-- One call; `get` and `peek` are given the address of a variable of the caller. -/
inductive QCall where
  | put (v : CVal)
  | get (eb : Base) (eo : Int)
  | peek (eb : Base) (eo : Int)
  | reset
  | count
  | capacity
  | isEmpty
  | isFull

/-- What the caller sees: the result, and for `get` and `peek` the content of its variable. -/
structure QOut where
  ret : CVal
  elem : Option CVal
  deriving DecidableEq

/-- Make the call on the queue at offset `o` of object `b` with the functions `S`. -/
def QCall.run (S : Fn → SemFn) (b : Base) (o : Int) (h : Heap) : QCall → C (QOut × Heap)
  | .put v => do
    let (r, h) ← S .mu_queue_put h [.ptr b o, v]
    .ok (⟨r, none⟩, h)
  | .get eb eo => do
    let (r, h) ← S .mu_queue_get h [.ptr b o, .ptr eb eo]
    .ok (⟨r, h.at eb eo⟩, h)
  | .peek eb eo => do
    let (r, h) ← S .mu_queue_peek h [.ptr b o, .ptr eb eo]
    .ok (⟨r, h.at eb eo⟩, h)
  | .reset => do
    let (r, h) ← S .mu_queue_reset h [.ptr b o]
    .ok (⟨r, none⟩, h)
  | .count => do
    let (r, h) ← S .mu_queue_count h [.ptr b o]
    .ok (⟨r, none⟩, h)
  | .capacity => do
    let (r, h) ← S .mu_queue_capacity h [.ptr b o]
    .ok (⟨r, none⟩, h)
  | .isEmpty => do
    let (r, h) ← S .mu_queue_is_empty h [.ptr b o]
    .ok (⟨r, none⟩, h)
  | .isFull => do
    let (r, h) ← S .mu_queue_is_full h [.ptr b o]
    .ok (⟨r, none⟩, h)

/-- A history of calls. -/
def QCall.runAll (S : Fn → SemFn) (b : Base) (o : Int) : Heap → List QCall → C (List QOut × Heap)
  | h, [] => .ok ([], h)
  | h, c :: cs => do
    let (r, h) ← QCall.run S b o h c
    let (rs, h) ← QCall.runAll S b o h cs
    .ok (r :: rs, h)

/-- The same call on a first-in first-out list of at most `cap` elements.  `b`, `o` are needed only
because `mu_queue_reset` returns its argument. -/
def QCall.spec (b : Base) (o : Int) (cap : Nat) (l : List CVal) : QCall → QOut × List CVal
  | .put v => if l.length < cap then (⟨.int 1, none⟩, l ++ [v]) else (⟨.int 0, none⟩, l)
  | .get _ _ =>
    match l with
    | [] => (⟨.int 0, some .null⟩, [])
    | x :: t => (⟨.int 1, some x⟩, t)
  | .peek _ _ =>
    match l with
    | [] => (⟨.int 0, some .null⟩, [])
    | x :: t => (⟨.int 1, some x⟩, x :: t)
  | .reset => (⟨.ptr b o, none⟩, [])
  | .count => (⟨.int l.length, none⟩, l)
  | .capacity => (⟨.int cap, none⟩, l)
  | .isEmpty => (⟨.int (if l.length = 0 then 1 else 0), none⟩, l)
  | .isFull => (⟨.int (if l.length = cap then 1 else 0), none⟩, l)

/-- The answers to a history, and the final content. -/
def QCall.specAll (b : Base) (o : Int) (cap : Nat) : List CVal → List QCall →
    List QOut × List CVal
  | l, [] => ([], l)
  | l, c :: cs =>
    let r := QCall.spec b o cap l c
    let rs := QCall.specAll b o cap r.2 cs
    (r.1 :: rs.1, rs.2)

/-- The cells of the `mu_queue_t` at `b`, `o` (four scalar members) and of `cap` storage slots. -/
def queueCells (b : Base) (o : Int) (sb : Base) (so : Int) (cap : Nat) (b' : Base) (o' : Int) :
    Prop :=
  (b' = b ∧ o ≤ o' ∧ o' < o + 4) ∨ (b' = sb ∧ so ≤ o' ∧ o' < so + cap)

/-- The caller's obligations for one call: an element is a determinate value; `element` points to a
variable that exists and is no part of the queue. -/
def QCall.Legal (own : Base → Int → Prop) (h : Heap) : QCall → Prop
  | .put v => v ≠ .undef
  | .get eb eo => eb.isLit = false ∧ (h.at eb eo).isSome = true ∧ ¬ own eb eo
  | .peek eb eo => eb.isLit = false ∧ (h.at eb eo).isSome = true ∧ ¬ own eb eo
  | _ => True

/-- The cells a call may change besides those of the queue. -/
def QCall.writes : QCall → Base → Int → Prop
  | .get eb eo, b', o' => b' = eb ∧ o' = eo
  | .peek eb eo, b', o' => b' = eb ∧ o' = eo
  | _, _, _ => False

end Mu.CS
