import Verif.Spec.SrcMem
import Verif.Spec.SrcQueue

/-! # What a user of mu_array relies on, for the parsed source

`ACall.run` performs a call with the functions of the parsed source; `ACall.spec` says what it must do
to a list of items. -/

namespace Mu.CS

/-- At `(b, o)` memory holds a `mu_array_t` (three members) with `cap` slots at `(sb, so)`, the first of
which hold the items `l`. -/
structure Heap.Arr (h : Heap) (b : Base) (o : Int) (sb : Base) (so : Int) (cap : Nat) (l : List CVal) :
    Prop where
  wr : b.isLit = false
  swr : sb.isLit = false
  items : h.at b o = some (.ptr sb so)
  room : h.at b (o + 1) = some (.int cap)
  cnt : h.at b (o + 2) = some (.int l.length)
  cell : ∀ (i : Nat) v, l[i]? = some v → h.at sb (so + i) = some v
  slot : ∀ i : Nat, i < cap → (h.at sb (so + i)).isSome = true
  sep : ∀ i : Nat, i < cap → ∀ k : Nat, k < 3 → ¬(b = sb ∧ o + k = so + i)
  le : l.length ≤ cap
  defd : ∀ v ∈ l, v ≠ .undef

/-- The cells of the `mu_array_t` and of its slots. -/
def arrCells (b : Base) (o : Int) (sb : Base) (so : Int) (cap : Nat) (b' : Base) (o' : Int) : Prop :=
  span b o 3 b' o' ∨ span sb so cap b' o'

/-- One call on a `mu_array_t`; `pop`, `peek` and `ref` are given the address of a variable of the
caller. -/
inductive ACall where
  | reset
  | capacity
  | count
  | isEmpty
  | isFull
  | push (v : CVal)
  | pop (eb : Base) (eo : Int)
  | peek (eb : Base) (eo : Int)
  | ref (eb : Base) (eo : Int) (i : Nat)
  | insert (v : CVal) (i : Nat)
  | index (v : CVal)
  | rindex (v : CVal)

/-- Make the call on the array at offset `o` of object `b` with the functions `S`.  What the caller
sees is the result, and the content of its variable, if it gave one and the call returned true. -/
def ACall.run (S : Fn → SemFn) (b : Base) (o : Int) (h : Heap) : ACall → C (QOut × Heap)
  | .reset => do
    let (r, h) ← S .mu_array_reset h [.ptr b o]
    .ok (⟨r, none⟩, h)
  | .capacity => do
    let (r, h) ← S .mu_array_capacity h [.ptr b o]
    .ok (⟨r, none⟩, h)
  | .count => do
    let (r, h) ← S .mu_array_count h [.ptr b o]
    .ok (⟨r, none⟩, h)
  | .isEmpty => do
    let (r, h) ← S .mu_array_is_empty h [.ptr b o]
    .ok (⟨r, none⟩, h)
  | .isFull => do
    let (r, h) ← S .mu_array_is_full h [.ptr b o]
    .ok (⟨r, none⟩, h)
  | .push v => do
    let (r, h) ← S .mu_array_push h [.ptr b o, v]
    .ok (⟨r, none⟩, h)
  | .pop eb eo => do
    let (r, h) ← S .mu_array_pop h [.ptr b o, .ptr eb eo]
    .ok (⟨r, if r = .int 1 then h.at eb eo else none⟩, h)
  | .peek eb eo => do
    let (r, h) ← S .mu_array_peek h [.ptr b o, .ptr eb eo]
    .ok (⟨r, if r = .int 1 then h.at eb eo else none⟩, h)
  | .ref eb eo i => do
    let (r, h) ← S .mu_array_ref h [.ptr b o, .ptr eb eo, .int i]
    .ok (⟨r, if r = .int 1 then h.at eb eo else none⟩, h)
  | .insert v i => do
    let (r, h) ← S .mu_array_insert h [.ptr b o, v, .int i]
    .ok (⟨r, none⟩, h)
  | .index v => do
    let (r, h) ← S .mu_array_index h [.ptr b o, v]
    .ok (⟨r, none⟩, h)
  | .rindex v => do
    let (r, h) ← S .mu_array_rindex h [.ptr b o, v]
    .ok (⟨r, none⟩, h)

/-- A history of calls. -/
def ACall.runAll (S : Fn → SemFn) (b : Base) (o : Int) : Heap → List ACall → C (List QOut × Heap)
  | h, [] => .ok ([], h)
  | h, c :: cs => do
    let (r, h) ← ACall.run S b o h c
    let (rs, h) ← ACall.runAll S b o h cs
    .ok (r :: rs, h)

/-- The position of the first `v` in a list. -/
def firstAt (v : CVal) : List CVal → Option Nat
  | [] => none
  | x :: l => if x = v then some 0 else (firstAt v l).map (· + 1)

/-- The position of the last `v` in a list. -/
def lastAt (v : CVal) : List CVal → Option Nat
  | [] => none
  | x :: l =>
    match lastAt v l with
    | some i => some (i + 1)
    | none => if x = v then some 0 else none

/-- The same call on the items `l`, of which there are at most `cap`; `M - 1 = SIZE_MAX` stands for
"not found".  `b`, `o` are needed only because `mu_array_reset` returns its argument. -/
def ACall.spec (b : Base) (o : Int) (M cap : Nat) (l : List CVal) : ACall → QOut × List CVal
  | .reset => (⟨.ptr b o, none⟩, [])
  | .capacity => (⟨.int cap, none⟩, l)
  | .count => (⟨.int l.length, none⟩, l)
  | .isEmpty => (⟨.int (if l.length = 0 then 1 else 0), none⟩, l)
  | .isFull => (⟨.int (if l.length = cap then 1 else 0), none⟩, l)
  | .push v => if l.length < cap then (⟨.int 1, none⟩, l ++ [v]) else (⟨.int 0, none⟩, l)
  | .pop _ _ =>
    match l.getLast? with
    | some x => (⟨.int 1, some x⟩, l.dropLast)
    | none => (⟨.int 0, none⟩, l)
  | .peek _ _ =>
    match l.getLast? with
    | some x => (⟨.int 1, some x⟩, l)
    | none => (⟨.int 0, none⟩, l)
  | .ref _ _ i =>
    match l[i]? with
    | some x => (⟨.int 1, some x⟩, l)
    | none => (⟨.int 0, none⟩, l)
  | .insert v i =>
    if l.length < cap ∧ i ≤ l.length then (⟨.int 1, none⟩, l.take i ++ v :: l.drop i)
    else (⟨.int 0, none⟩, l)
  | .index v => (⟨.int ((firstAt v l).getD (M - 1) : Nat), none⟩, l)
  | .rindex v => (⟨.int ((lastAt v l).getD (M - 1) : Nat), none⟩, l)

/-- The answers to a history, and the final items. -/
def ACall.specAll (b : Base) (o : Int) (M cap : Nat) : List CVal → List ACall → List QOut × List CVal
  | l, [] => ([], l)
  | l, c :: cs =>
    let r := ACall.spec b o M cap l c
    let rs := ACall.specAll b o M cap r.2 cs
    (r.1 :: rs.1, rs.2)

/-- The caller's obligations: items are determinate values, indices are values of `size_t`, and the
variable written to exists and is no part of the array. -/
def ACall.Legal (M : Nat) (own : Base → Int → Prop) (h : Heap) : ACall → Prop
  | .push v => v ≠ .undef
  | .insert v i => v ≠ .undef ∧ i < M
  | .index v => v ≠ .undef
  | .rindex v => v ≠ .undef
  | .pop eb eo => eb.isLit = false ∧ (h.at eb eo).isSome = true ∧ ¬ own eb eo
  | .peek eb eo => eb.isLit = false ∧ (h.at eb eo).isSome = true ∧ ¬ own eb eo
  | .ref eb eo i => (eb.isLit = false ∧ (h.at eb eo).isSome = true ∧ ¬ own eb eo) ∧ i < M
  | _ => True

/-- The cells a call may change besides those of the array. -/
def ACall.writes : ACall → Base → Int → Prop
  | .pop eb eo, b', o' => b' = eb ∧ o' = eo
  | .peek eb eo, b', o' => b' = eb ∧ o' = eo
  | .ref eb eo _, b', o' => b' = eb ∧ o' = eo
  | _, _, _ => False

end Mu.CS
