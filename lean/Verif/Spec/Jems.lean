import Verif.Spec.JemsDouble
import Verif.Spec.BBuf

/-! # Specification of mu_jems: JSON documents, their compact text, a JSON reader

The documents, `render` and `read` do not mention the emitter.  Bytes are characters (a JSON string
denotes the sequence of its code points, all below 256). -/

namespace Mu.Jems.Spec

/-- JSON documents with byte strings and two kinds of numbers: integers, and numbers with a fraction,
`dec neg n f fs` for the number `n.f fs` (at least one digit after the point), negated if `neg`. -/
inductive Doc where
  | null
  | bool (b : Bool)
  | int (v : Int)
  | dec (neg : Bool) (n : Nat) (f : Fin 10) (fs : List (Fin 10))
  | str (s : List UInt8)
  | arr (items : List Doc)
  | obj (members : List (List UInt8 × Doc))

/-! ## Compact text -/

/-- The text of a character string literal. -/
def ascii (s : String) : List UInt8 := s.toList.map (fun c => UInt8.ofNat c.toNat)

/-- A hexadecimal digit. -/
def hexChar (n : Nat) : UInt8 := (ascii "0123456789abcdef").getD n 0

/-- A decimal digit. -/
def digitChar (d : Fin 10) : UInt8 := UInt8.ofNat (48 + d.val)

/-- One character of a JSON string literal. -/
def escape (b : UInt8) : List UInt8 :=
  if b = 34 then [92, 34] else if b = 92 then [92, 92]
  else if 32 ≤ b ∧ b ≤ 126 then [b]
  else [92, 117, 48, 48, hexChar (b.toNat / 16), hexChar (b.toNat % 16)]

/-- A JSON string literal. -/
def quote (s : List UInt8) : List UInt8 := 34 :: (s.flatMap escape ++ [34])

mutual
/-- The compact JSON text of a document. -/
def render : Doc → List UInt8
  | .null => ascii "null"
  | .bool true => ascii "true"
  | .bool false => ascii "false"
  | .int v => ascii (toString v)
  | .dec neg n f fs => (if neg then ascii "-" else []) ++ ascii (toString (n : Int)) ++
      ascii "." ++ (f :: fs).map digitChar
  | .str s => quote s
  | .arr l => 91 :: (renderItems true l ++ [93])
  | .obj l => 123 :: (renderMembers true l ++ [125])
/-- The items of an array, each but the very first one preceded by a comma. -/
def renderItems : Bool → List Doc → List UInt8
  | _, [] => []
  | first, x :: l => (if first then [] else [44]) ++ render x ++ renderItems false l
/-- The members of an object. -/
def renderMembers : Bool → List (List UInt8 × Doc) → List UInt8
  | _, [] => []
  | first, (k, x) :: l =>
    (if first then [] else [44]) ++ quote k ++ [58] ++ render x ++ renderMembers false l
end

mutual
/-- The number of containers around the innermost item, `0` for a scalar. -/
def depth : Doc → Nat
  | .arr l => depthItems l + 1
  | .obj l => depthMembers l + 1
  | _ => 0
def depthItems : List Doc → Nat
  | [] => 0
  | x :: l => max (depth x) (depthItems l)
def depthMembers : List (List UInt8 × Doc) → Nat
  | [] => 0
  | (_, x) :: l => max (depth x) (depthMembers l)
end

mutual
/-- No array has more than `M` items, no object more than `M` keys and values. -/
def Fits (M : Nat) : Doc → Prop
  | .arr l => l.length ≤ M ∧ FitsItems M l
  | .obj l => 2 * l.length ≤ M ∧ FitsMembers M l
  | _ => True
def FitsItems (M : Nat) : List Doc → Prop
  | [] => True
  | x :: l => Fits M x ∧ FitsItems M l
def FitsMembers (M : Nat) : List (List UInt8 × Doc) → Prop
  | [] => True
  | (_, x) :: l => Fits M x ∧ FitsMembers M l
end

/-- The state after the characters of `text` have been passed, in order, to the writer with its
argument; nothing else has changed. -/
def say (j : Jems) (text : List UInt8) : Jems :=
  { j with out := j.out ++ text.map (fun c => ⟨j.writer, c, j.arg⟩) }

/-! ## A reader (RFC 8259, numbers without exponent) -/

/-- Skip white space. -/
def ws : List UInt8 → List UInt8
  | [] => []
  | c :: t => if c = 32 ∨ c = 9 ∨ c = 10 ∨ c = 13 then ws t else c :: t

/-- The value of a hexadecimal digit. -/
def hexVal (c : UInt8) : Option Nat :=
  if 48 ≤ c ∧ c ≤ 57 then some (c.toNat - 48)
  else if 97 ≤ c ∧ c ≤ 102 then some (c.toNat - 87)
  else if 65 ≤ c ∧ c ≤ 70 then some (c.toNat - 55)
  else none

/-- What the character after a backslash stands for (other than `u`). -/
def unescape (c : UInt8) : Option UInt8 :=
  if c = 34 ∨ c = 92 ∨ c = 47 then some c
  else if c = 98 then some 8
  else if c = 102 then some 12
  else if c = 110 then some 10
  else if c = 114 then some 13
  else if c = 116 then some 9
  else none

/-- Four hexadecimal digits that denote a character below 256. -/
def hex4 (a b c d : UInt8) : Option UInt8 := do
  let w ← hexVal a
  let x ← hexVal b
  let y ← hexVal c
  let z ← hexVal d
  let n := ((w * 16 + x) * 16 + y) * 16 + z
  if n < 256 then some (UInt8.ofNat n) else none

/-- The characters of a string literal, after its opening quote, up to its closing quote. -/
def readChars : List UInt8 → Option (List UInt8 × List UInt8)
  | [] => none
  | c :: t =>
    if c = 34 then some ([], t)
    else if c = 92 then
      match t with
      | [] => none
      | e :: t =>
        if e = 117 then
          match t with
          | a :: b :: c :: d :: t => do
            let x ← hex4 a b c d
            let (s, r) ← readChars t
            some (x :: s, r)
          | _ => none
        else do
          let x ← unescape e
          let (s, r) ← readChars t
          some (x :: s, r)
    else if c < 32 then none
    else do
      let (s, r) ← readChars t
      some (c :: s, r)

/-- A decimal digit. -/
def isDigit (c : UInt8) : Bool := decide (48 ≤ c ∧ c ≤ 57)

/-- The value of a string of decimal digits. -/
def decVal (l : List UInt8) : Nat := l.foldl (fun n c => n * 10 + (c.toNat - 48)) 0

/-- The digit a character stands for. -/
def digitOf (c : UInt8) : Fin 10 := Fin.ofNat 10 (c.toNat - 48)

/-- The integer part of a number: `0`, or digits not starting with `0`. -/
def readNat (l : List UInt8) : Option (Nat × List UInt8) :=
  let d := l.takeWhile isDigit
  if d = [] then none
  else if d.head? = some 48 ∧ d ≠ [48] then none
  else some (decVal d, l.dropWhile isDigit)

/-- No exponent follows. -/
def noExp (l : List UInt8) : Bool := decide (l.head? ≠ some 101 ∧ l.head? ≠ some 69)

/-- A number: an optional minus sign, the integer part, and optionally a point followed by at least
one digit; not followed by an exponent. -/
def readNum (l : List UInt8) : Option (Doc × List UInt8) := do
  let neg := decide (l.head? = some 45)
  let (n, r) ← readNat (if neg then l.tail else l)
  if r.head? = some 46 then
    match r.tail.takeWhile isDigit with
    | [] => none
    | f :: fs =>
      let r := r.tail.dropWhile isDigit
      if noExp r then some (.dec neg n (digitOf f) (fs.map digitOf), r) else none
  else if noExp r then some (.int (if neg then -(n : Int) else n), r) else none

/-- The given word. -/
def readWord {α : Type} (w : List UInt8) (a : α) (l : List UInt8) : Option (α × List UInt8) :=
  if w.isPrefixOf l then some (a, l.drop w.length) else none

/-- The given character, possibly after white space. -/
def readChar (c : UInt8) (l : List UInt8) : Option (List UInt8) :=
  if (ws l).head? = some c then some (ws l).tail else none

mutual
/-- A JSON value; the remaining text is returned.  `fuel` bounds the number of nested calls. -/
def readDoc : Nat → List UInt8 → Option (Doc × List UInt8)
  | 0, _ => none
  | fuel + 1, l =>
    match ws l with
    | [] => none
    | c :: t =>
      if c = 34 then do
        let (s, r) ← readChars t
        some (.str s, r)
      else if c = 91 then
        if (ws t).head? = some 93 then some (.arr [], (ws t).tail)
        else do
          let (xs, r) ← readItems fuel t
          some (.arr xs, r)
      else if c = 123 then
        if (ws t).head? = some 125 then some (.obj [], (ws t).tail)
        else do
          let (xs, r) ← readMembers fuel t
          some (.obj xs, r)
      else if c = 110 then readWord (ascii "null") .null (c :: t)
      else if c = 116 then readWord (ascii "true") (.bool true) (c :: t)
      else if c = 102 then readWord (ascii "false") (.bool false) (c :: t)
      else readNum (c :: t)
/-- The items of a non-empty array and the closing bracket. -/
def readItems : Nat → List UInt8 → Option (List Doc × List UInt8)
  | 0, _ => none
  | fuel + 1, l => do
    let (x, r) ← readDoc fuel l
    match ws r with
    | [] => none
    | c :: r =>
      if c = 93 then some ([x], r)
      else if c = 44 then do
        let (xs, r) ← readItems fuel r
        some (x :: xs, r)
      else none
/-- The members of a non-empty object and the closing brace. -/
def readMembers : Nat → List UInt8 → Option (List (List UInt8 × Doc) × List UInt8)
  | 0, _ => none
  | fuel + 1, l => do
    let t ← readChar 34 l
    let (k, r) ← readChars t
    let r ← readChar 58 r
    let (x, r) ← readDoc fuel r
    match ws r with
    | [] => none
    | c :: r =>
      if c = 125 then some ([(k, x)], r)
      else if c = 44 then do
        let (xs, r) ← readMembers fuel r
        some ((k, x) :: xs, r)
      else none
end

/-- Read a complete JSON text: one value and nothing but white space after it. -/
def read (l : List UInt8) : Option Doc :=
  match readDoc (l.length + 1) l with
  | some (x, r) => if ws r = [] then some x else none
  | none => none

/-! ## Which calls emit which document -/

/-- The `n` bytes at `p` are `s`, and an `int` can count them. -/
def IsBytes (P : Plat) (m : Mem) (p : Ptr) (n : Nat) (s : List UInt8) : Prop :=
  0 ≤ p.off ∧ ((m p.blk).drop p.off.toNat).take n = s ∧ s.length = n ∧ (n : Int) ≤ P.intMax

/-- The number denoted by a document that is a number. -/
def docVal : Doc → ℚ
  | .int v => v
  | .dec neg n f fs => (if neg then -1 else 1) *
      ((n : ℚ) + (((f :: fs).foldl (fun a d => a * 10 + d.val) 0 : Nat) : ℚ) / 10 ^ (fs.length + 1))
  | _ => 0

/-- `mu_jems_number(v)` emits `x`: a whole number in the range of `int64_t` as that integer; any number
with a fraction as what `"%lf"` prints, cut off after 21 characters. -/
def IsNumber (v : Dbl) (x : Doc) : Prop :=
  IsDouble v ∧
  ((∃ k : Int, dblVal v = k ∧ -(2 ^ 63) ≤ k ∧ k < 2 ^ 63 ∧ x = .int k) ∨
   ((∀ k : Int, dblVal v ≠ k) ∧ (∃ neg n f fs, x = .dec neg n f fs) ∧
      render x = (fmtLf v).take 21))

mutual
/-- The calls `cs` emit the document `x`. -/
inductive Writes (P : Plat) (m : Mem) : Doc → List Call → Prop
  | null : Writes P m .null [.item .null]
  | true : Writes P m (.bool true) [.item .true]
  | false : Writes P m (.bool false) [.item .false]
  | bool (b : Bool) : Writes P m (.bool b) [.item (.bool b)]
  | int (v : Int) : -(2 ^ 63) ≤ v → v < 2 ^ 63 → Writes P m (.int v) [.item (.integer v)]
  | number {v : Dbl} {x : Doc} : IsNumber v x → Writes P m x [.item (.number v)]
  | string {s : List UInt8} {p : Ptr} : BBuf.IsCstr m p s → Writes P m (.str s) [.item (.string p)]
  | bytes {s : List UInt8} {p : Ptr} {n : Nat} : IsBytes P m p n s →
      Writes P m (.str s) [.item (.bytes p n)]
  | literal {x : Doc} {p : Ptr} {n : Nat} : IsBytes P m p n (render x) →
      Writes P m x [.item (.literal p n)]
  | arr {l : List Doc} {cs : List Call} : WritesItems P m l cs →
      Writes P m (.arr l) (.item .arrayOpen :: (cs ++ [.arrayClose]))
  | obj {l : List (List UInt8 × Doc)} {cs : List Call} : WritesMembers P m l cs →
      Writes P m (.obj l) (.item .objectOpen :: (cs ++ [.objectClose]))
/-- The calls emit the items of an array one after the other. -/
inductive WritesItems (P : Plat) (m : Mem) : List Doc → List Call → Prop
  | nil : WritesItems P m [] []
  | cons {x : Doc} {l : List Doc} {cs ds : List Call} : Writes P m x cs → WritesItems P m l ds →
      WritesItems P m (x :: l) (cs ++ ds)
/-- The calls emit the members of an object one after the other: for each a call that emits the key
as a string, then calls for the value; or the first of the calls for the value takes the key. -/
inductive WritesMembers (P : Plat) (m : Mem) : List (List UInt8 × Doc) → List Call → Prop
  | nil : WritesMembers P m [] []
  | split {k : List UInt8} {x : Doc} {l : List (List UInt8 × Doc)} {ks cs ds : List Call} :
      Writes P m (.str k) ks → Writes P m x cs → WritesMembers P m l ds →
      WritesMembers P m ((k, x) :: l) (ks ++ cs ++ ds)
  | key {k : List UInt8} {p : Ptr} {x : Doc} {i : Item} {l : List (List UInt8 × Doc)}
      {cs ds : List Call} :
      BBuf.IsCstr m p k → Writes P m x (.item i :: cs) → WritesMembers P m l ds →
      WritesMembers P m ((k, x) :: l) (.key p i :: (cs ++ ds))
end

/-! ## Positions in an emission -/

/-- The number of items emitted so far in each container that is open, innermost first; the last
entry is the top level.  `none` when a container is closed that was not opened. -/
def track : List Nat → Call → Option (List Nat)
  | _, .reset => some [0]
  | _ :: c :: s, .objectClose => some (c :: s)
  | _ :: c :: s, .arrayClose => some (c :: s)
  | c :: s, .item .objectOpen => some (0 :: (c + 1) :: s)
  | c :: s, .item .arrayOpen => some (0 :: (c + 1) :: s)
  | c :: s, .item _ => some ((c + 1) :: s)
  | c :: s, .key _ .objectOpen => some (0 :: (c + 2) :: s)
  | c :: s, .key _ .arrayOpen => some (0 :: (c + 2) :: s)
  | c :: s, .key _ _ => some ((c + 2) :: s)
  | _, _ => none

/-- Every container that is closed was open, and never `D` or more are open at once; the result are
the counts at the end. -/
def tracks (D : Nat) : List Nat → List Call → Option (List Nat)
  | s, [] => some s
  | s, c :: cs => do
    let s ← track s c
    if s.length ≤ D then tracks D s cs else none

/-- The pointers and lengths passed to the call are valid. -/
def ItemOk (P : Plat) (m : Mem) : Item → Prop
  | .number v => ∃ i, toI64 v = .ok i
  | .integer v => -(2 ^ 63) ≤ v ∧ v < 2 ^ 63
  | .string p => ∃ s, BBuf.IsCstr m p s
  | .bytes p n => ∃ s, IsBytes P m p n s
  | .literal p n => ∃ s, IsBytes P m p n s
  | _ => True

/-- The pointers and lengths passed to the call are valid. -/
def CallOk (P : Plat) (m : Mem) : Call → Prop
  | .item x => ItemOk P m x
  | .key p x => (∃ s, BBuf.IsCstr m p s) ∧ ItemOk P m x
  | _ => True

end Mu.Jems.Spec
