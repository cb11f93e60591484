import Verif.C.Mem
import Verif.C.Val

/-! # Model of /repo/mulib/mu_jems.c

The writer passed to `mu_jems_init` is arbitrary user code; the model records the calls made to it,
in order, as a log.  A writer that calls back into the same `mu_jems_t`, or that changes the strings
being emitted, is not modelled. -/

namespace Mu.Jems

/-- `mu_jems_level_t`, mu_jems.h:51-54. -/
structure Level where
  itemCount : Nat
  isObject : Bool
  deriving DecidableEq

/-- One call `writer(ch, arg)`, mu_jems.h:57. -/
structure Emit where
  writer : Val
  ch : UInt8
  arg : Nat
  deriving DecidableEq

/-- `mu_jems_t`, mu_jems.h:59-65, together with the array that `levels` points to and (last field)
the log of all calls of writers so far. -/
structure Jems where
  levels : List Level
  maxLevel : Nat
  curr : Nat
  writer : Val
  arg : Nat
  out : List Emit
  deriving DecidableEq

/-- `emit_char`, mu_jems.c:241-244. -/
def emitChar (j : Jems) (ch : UInt8) : C Jems :=
  if j.writer = NULL then .error .null
  else .ok { j with out := j.out ++ [⟨j.writer, ch, j.arg⟩] }

/-- `*level_ref(jems)`, mu_jems.c:306-308, read. -/
def level (j : Jems) : C Level := ldN j.levels j.curr

/-- `*level_ref(jems) = l`, mu_jems.c:306-308, written. -/
def setLevel (j : Jems) (l : Level) : C Jems := do
  let ls ← stN j.levels j.curr l
  .ok { j with levels := ls }

/-- `mu_jems_reset`, mu_jems.c:72-77. -/
def reset (j : Jems) : C Jems := do
  let j := { j with curr := 0 }
  let l ← level j
  let j ← setLevel j { l with itemCount := 0 }
  let l ← level j
  setLevel j { l with isObject := false }

/-- `mu_jems_init`, mu_jems.c:62-70.  `j` is the object to initialise (only its log matters),
`levels` the contents, indeterminate in C, of the array passed in. -/
def init (j : Jems) (levels : List Level) (maxLevel : Nat) (writer : Val) (arg : Nat) : C Jems :=
  reset { j with levels := levels, maxLevel := maxLevel, writer := writer, arg := arg }

/-- `push_level`, mu_jems.c:225-232; `max_level - 1` wraps. -/
def pushLevel (P : Plat) (j : Jems) (isObject : Bool) : C Jems :=
  if j.curr < P.szSub j.maxLevel 1 then do
    let j := { j with curr := P.sz (j.curr + 1) }
    let l ← level j
    let j ← setLevel j { l with itemCount := 0 }
    let l ← level j
    setLevel j { l with isObject := isObject }
  else .ok j

/-- `pop_level`, mu_jems.c:234-239. -/
def popLevel (P : Plat) (j : Jems) : Jems :=
  if j.curr > 0 then { j with curr := P.szSub j.curr 1 } else j

/-- `commify`, mu_jems.c:283-304. -/
def commify (P : Plat) (j : Jems) : C Jems := do
  let l ← level j
  let count := l.itemCount
  let j ←
    if l.isObject then
      if count > 0 then emitChar j (if count % 2 = 1 then 58 /- ':' -/ else 44 /- ',' -/)
      else .ok j
    else
      if count > 0 then emitChar j 44 /- ',' -/
      else .ok j
  -- `level` still points to the same element; `emit_char` does not write to it
  setLevel j { l with itemCount := P.sz (count + 1) }

/-- `emit_string`, mu_jems.c:260-265: `while (*s) emit_char(jems, *s++);`. -/
def emitStringAux (m : Mem) : Nat → Ptr → Jems → C Jems
  | 0, _, _ => .error .diverge
  | fuel + 1, s, j => do
    let c ← m.ld s 0
    if c = 0 then .ok j
    else do
      let s ← m.add s 1
      let j ← emitChar j c
      emitStringAux m fuel s j

/-- `emit_string`, mu_jems.c:260-265.  The fuel exceeds the length of any string in the object. -/
def emitString (j : Jems) (m : Mem) (s : Ptr) : C Jems :=
  emitStringAux m ((m s.blk).length + 1) s j

/-- A lower case hexadecimal digit, as `%x` prints it. -/
def hexDigit (n : Nat) : UInt8 := UInt8.ofNat (if n < 10 then 48 + n else 87 + n)

/-- `sprintf(buf, "\\u%04x", byte)`, mu_jems.c:249, with its terminating NUL. -/
def sprintfU (byte : UInt8) : List UInt8 :=
  let n := byte.toNat
  [92, 117, hexDigit (n / 4096 % 16), hexDigit (n / 256 % 16), hexDigit (n / 16 % 16),
    hexDigit (n % 16), 0]

/-- Emit a string held in a local array, here object 0 of a memory of its own. -/
def emitLocal (j : Jems) (buf : List UInt8) : C Jems := emitString j (fun _ => buf) ⟨0, 0⟩

/-- `emit_quoted_byte`, mu_jems.c:246-258; `char buf[7]`. -/
def emitQuotedByte (j : Jems) (byte : UInt8) : C Jems :=
  if byte < 0x20 ∨ byte ≥ 127 then
    if (sprintfU byte).length ≤ 7 then emitLocal j (sprintfU byte) else .error .oob
  else if byte = 92 ∨ byte = 34 then do
    let j ← emitChar j 92
    emitChar j byte
  else emitChar j byte

/-- `emit_quoted_string`, mu_jems.c:267-272. -/
def emitQuotedStringAux (m : Mem) : Nat → Ptr → Jems → C Jems
  | 0, _, _ => .error .diverge
  | fuel + 1, s, j => do
    let c ← m.ld s 0
    if c = 0 then .ok j
    else do
      let s ← m.add s 1
      let j ← emitQuotedByte j c
      emitQuotedStringAux m fuel s j

/-- `emit_quoted_string`, mu_jems.c:267-272. -/
def emitQuotedString (j : Jems) (m : Mem) (s : Ptr) : C Jems :=
  emitQuotedStringAux m ((m s.blk).length + 1) s j

/-- `for (int i = 0; i < n; i++) f(p[i])` with `size_t n`: `i` is converted to `size_t` in the
comparison and incremented as `int` (mu_jems.c:158 and 276). -/
def forBytes (P : Plat) (m : Mem) (p : Ptr) (n : Nat) (f : Jems → UInt8 → C Jems) :
    Nat → Int → Jems → C Jems
  | 0, _, _ => .error .diverge
  | fuel + 1, i, j =>
    if P.toSz i < n then do
      let b ← m.ld p i
      let j ← f j b
      let i ← P.int (i + 1)
      forBytes P m p n f fuel i j
    else .ok j

/-- `emit_quoted_bytes`, mu_jems.c:274-281. -/
def emitQuotedBytes (P : Plat) (j : Jems) (m : Mem) (p : Ptr) (len : Nat) : C Jems :=
  forBytes P m p len emitQuotedByte (len + 1) 0 j

/-- `mu_jems_object_open`, mu_jems.c:79-83. -/
def objectOpen (P : Plat) (j : Jems) : C Jems := do
  let j ← commify P j
  let j ← emitChar j 123
  pushLevel P j true

/-- `mu_jems_object_close`, mu_jems.c:85-88. -/
def objectClose (P : Plat) (j : Jems) : C Jems := do
  let j ← emitChar j 125
  .ok (popLevel P j)

/-- `mu_jems_array_open`, mu_jems.c:90-94. -/
def arrayOpen (P : Plat) (j : Jems) : C Jems := do
  let j ← commify P j
  let j ← emitChar j 91
  pushLevel P j false

/-- `mu_jems_array_close`, mu_jems.c:96-99. -/
def arrayClose (P : Plat) (j : Jems) : C Jems := do
  let j ← emitChar j 93
  .ok (popLevel P j)

/-- The decimal digits of `n`, most significant first (`fuel` only needs to exceed the number of
digits). -/
def digitsAux : Nat → Nat → List UInt8 → List UInt8
  | 0, _, acc => acc
  | fuel + 1, n, acc =>
    if n < 10 then UInt8.ofNat (48 + n) :: acc
    else digitsAux fuel (n / 10) (UInt8.ofNat (48 + n % 10) :: acc)

/-- The decimal digits of `n`. -/
def digits (n : Nat) : List UInt8 := digitsAux (n + 1) n []

/-- What the conversion `%" PRId64 "` prints. -/
def fmtI64 (v : Int) : List UInt8 :=
  if v < 0 then 45 :: digits v.natAbs else digits v.natAbs

/-- `snprintf(buf, n, ...)` where `text` is the complete formatted text: at most `n - 1` characters
and a NUL (C11 7.21.6.5). -/
def snprintf (n : Nat) (text : List UInt8) : List UInt8 := text.take (n - 1) ++ [0]

/-- `mu_jems_integer`, mu_jems.c:114-119; `char buf[22]`. -/
def integer (P : Plat) (j : Jems) (v : Int) : C Jems := do
  let buf := snprintf 22 (fmtI64 v)
  let j ← commify P j
  emitLocal j buf

/-- A `double`: not a number, an infinity, or `± m * 2 ^ e` (the sign is kept for zeros).  Which
`m` and `e` occur is `Spec.IsDouble`. -/
inductive Dbl where
  | nan
  | inf (neg : Bool)
  | fin (neg : Bool) (m : Nat) (e : Int)
  deriving DecidableEq

/-- Sign of a `double` as a factor. -/
def sgn (neg : Bool) : Int := if neg then -1 else 1

/-- `int64_t i = value;`, mu_jems.c:103: truncation towards zero, undefined if the result is not
representable (C11 6.3.1.4p1). -/
def toI64 : Dbl → C Int
  | .nan => .error .overflow
  | .inf _ => .error .overflow
  | .fin neg m e =>
    let t := sgn neg * (if 0 ≤ e then m * 2 ^ e.toNat else m / 2 ^ (-e).toNat : Nat)
    if -(2 ^ 63) ≤ t ∧ t < 2 ^ 63 then .ok t else .error .overflow

/-- `n / d` rounded to nearest, ties to even. -/
def roundEven (n d : Nat) : Nat :=
  let q := n / d
  let r := n % d
  if 2 * r < d then q else if d < 2 * r then q + 1 else if q % 2 = 0 then q else q + 1

/-- `(double)i`, mu_jems.c:104: round to 53 significant bits, to nearest, ties to even (IEEE 754
binary64 in the default rounding mode; implementation-defined in C).  The result is an integer. -/
def i64ToDbl (i : Int) : Int :=
  let a := i.natAbs
  let s := 2 ^ (Nat.log2 a - 52)
  i.sign * (roundEven a s * s : Nat)

/-- `(double)i == value` for a finite `value`: comparison of the mathematical values, so that
`0 == -0`. -/
def dblEq (k : Int) : Dbl → Bool
  | .fin neg m e =>
    if 0 ≤ e then decide (k = sgn neg * (m * 2 ^ e.toNat : Nat))
    else decide (k * (2 ^ (-e).toNat : Nat) = sgn neg * (m : Int))
  | _ => false

/-- `n` as exactly six decimal digits (`n < 10^6`). -/
def sixDigits (n : Nat) : List UInt8 :=
  [n / 100000 % 10, n / 10000 % 10, n / 1000 % 10, n / 100 % 10, n / 10 % 10, n % 10].map
    (fun d => UInt8.ofNat (48 + d))

/-- What the conversion `%lf` prints: six digits after the point, correctly rounded (ties to even;
C11 7.21.6.1p13 recommends, glibc and newlib implement it). -/
def fmtLf : Dbl → List UInt8
  | .nan => [110, 97, 110]
  | .inf false => [105, 110, 102]
  | .inf true => [45, 105, 110, 102]
  | .fin neg m e =>
    let n := if 0 ≤ e then m * 2 ^ e.toNat * 1000000 else roundEven (m * 1000000) (2 ^ (-e).toNat)
    (if neg then [45] else []) ++ digits (n / 1000000) ++ 46 :: sixDigits (n % 1000000)

/-- `mu_jems_number`, mu_jems.c:101-112. -/
def number (P : Plat) (j : Jems) (value : Dbl) : C Jems := do
  let i ← toI64 value
  let buf :=
    if dblEq (i64ToDbl i) value then snprintf 22 (fmtI64 i) else snprintf 22 (fmtLf value)
  let j ← commify P j
  emitLocal j buf

/-- `mu_jems_string`, mu_jems.c:121-126. -/
def string (P : Plat) (j : Jems) (m : Mem) (s : Ptr) : C Jems := do
  let j ← commify P j
  let j ← emitChar j 34
  let j ← emitQuotedString j m s
  emitChar j 34

/-- `mu_jems_bytes`, mu_jems.c:128-133. -/
def bytes (P : Plat) (j : Jems) (m : Mem) (p : Ptr) (length : Nat) : C Jems := do
  let j ← commify P j
  let j ← emitChar j 34
  let j ← emitQuotedBytes P j m p length
  emitChar j 34

/-- The string constants of mu_jems.c:137-153, with their terminating NUL. -/
def sTrue : List UInt8 := [116, 114, 117, 101, 0]
/-- `"false"`, mu_jems.c:137, 147. -/
def sFalse : List UInt8 := [102, 97, 108, 115, 101, 0]
/-- `"null"`, mu_jems.c:152. -/
def sNull : List UInt8 := [110, 117, 108, 108, 0]

/-- `mu_jems_bool`, mu_jems.c:135-138. -/
def bool (P : Plat) (j : Jems) (b : Bool) : C Jems := do
  let j ← commify P j
  emitLocal j (if b then sTrue else sFalse)

/-- `mu_jems_true`, mu_jems.c:140-143. -/
def jtrue (P : Plat) (j : Jems) : C Jems := do
  let j ← commify P j
  emitLocal j sTrue

/-- `mu_jems_false`, mu_jems.c:145-148. -/
def jfalse (P : Plat) (j : Jems) : C Jems := do
  let j ← commify P j
  emitLocal j sFalse

/-- `mu_jems_null`, mu_jems.c:150-153. -/
def jnull (P : Plat) (j : Jems) : C Jems := do
  let j ← commify P j
  emitLocal j sNull

/-- `mu_jems_literal`, mu_jems.c:155-163. -/
def literal (P : Plat) (j : Jems) (m : Mem) (p : Ptr) (nBytes : Nat) : C Jems := do
  let j ← commify P j
  forBytes P m p nBytes emitChar (nBytes + 1) 0 j

/-- `mu_jems_curr_level`, mu_jems.c:216. -/
def currLevel (j : Jems) : Nat := j.curr

/-- `mu_jems_item_count`, mu_jems.c:218-220. -/
def itemCount (j : Jems) : C Nat := do
  let l ← level j
  .ok l.itemCount

/-! ## Key and value -/

/-- `mu_jems_key_object_open`, mu_jems.c:168-170. -/
def keyObjectOpen (P : Plat) (j : Jems) (m : Mem) (k : Ptr) : C Jems := do
  let j ← string P j m k
  objectOpen P j

/-- `mu_jems_key_array_open`, mu_jems.c:172-174. -/
def keyArrayOpen (P : Plat) (j : Jems) (m : Mem) (k : Ptr) : C Jems := do
  let j ← string P j m k
  arrayOpen P j

/-- `mu_jems_key_number`, mu_jems.c:176-178. -/
def keyNumber (P : Plat) (j : Jems) (m : Mem) (k : Ptr) (v : Dbl) : C Jems := do
  let j ← string P j m k
  number P j v

/-- `mu_jems_key_integer`, mu_jems.c:180-183. -/
def keyInteger (P : Plat) (j : Jems) (m : Mem) (k : Ptr) (v : Int) : C Jems := do
  let j ← string P j m k
  integer P j v

/-- `mu_jems_key_string`, mu_jems.c:185-188. -/
def keyString (P : Plat) (j : Jems) (m : Mem) (k : Ptr) (s : Ptr) : C Jems := do
  let j ← string P j m k
  string P j m s

/-- `mu_jems_key_bytes`, mu_jems.c:190-193. -/
def keyBytes (P : Plat) (j : Jems) (m : Mem) (k : Ptr) (p : Ptr) (n : Nat) : C Jems := do
  let j ← string P j m k
  bytes P j m p n

/-- `mu_jems_key_bool`, mu_jems.c:195-197. -/
def keyBool (P : Plat) (j : Jems) (m : Mem) (k : Ptr) (b : Bool) : C Jems := do
  let j ← string P j m k
  bool P j b

/-- `mu_jems_key_true`, mu_jems.c:199-201. -/
def keyTrue (P : Plat) (j : Jems) (m : Mem) (k : Ptr) : C Jems := do
  let j ← string P j m k
  jtrue P j

/-- `mu_jems_key_false`, mu_jems.c:203-205. -/
def keyFalse (P : Plat) (j : Jems) (m : Mem) (k : Ptr) : C Jems := do
  let j ← string P j m k
  jfalse P j

/-- `mu_jems_key_null`, mu_jems.c:207-209. -/
def keyNull (P : Plat) (j : Jems) (m : Mem) (k : Ptr) : C Jems := do
  let j ← string P j m k
  jnull P j

/-- `mu_jems_key_literal`, mu_jems.c:211-214. -/
def keyLiteral (P : Plat) (j : Jems) (m : Mem) (k : Ptr) (p : Ptr) (n : Nat) : C Jems := do
  let j ← string P j m k
  literal P j m p n

/-! ## Calls -/

/-- The calls that emit an item and that also exist with a key (mu_jems.c:168-214). -/
inductive Item where
  | objectOpen
  | arrayOpen
  | number (v : Dbl)
  | integer (v : Int)
  | string (s : Ptr)
  | bytes (p : Ptr) (length : Nat)
  | bool (b : Bool)
  | true
  | false
  | null
  | literal (p : Ptr) (n : Nat)

/-- A call on one `mu_jems_t`; `key k x` is `mu_jems_key_x(jems, k, ...)`. -/
inductive Call where
  | reset
  | objectClose
  | arrayClose
  | item (x : Item)
  | key (k : Ptr) (x : Item)

/-- A call that emits an item; each case names the function it calls. -/
def item (P : Plat) (m : Mem) (j : Jems) : Item → C Jems
  | .objectOpen => objectOpen P j
  | .arrayOpen => arrayOpen P j
  | .number v => number P j v
  | .integer v => integer P j v
  | .string s => string P j m s
  | .bytes p n => bytes P j m p n
  | .bool b => bool P j b
  | .true => jtrue P j
  | .false => jfalse P j
  | .null => jnull P j
  | .literal p n => literal P j m p n

/-- A call that emits a key and an item; each case names the function it calls. -/
def keyItem (P : Plat) (m : Mem) (j : Jems) (k : Ptr) : Item → C Jems
  | .objectOpen => keyObjectOpen P j m k
  | .arrayOpen => keyArrayOpen P j m k
  | .number v => keyNumber P j m k v
  | .integer v => keyInteger P j m k v
  | .string s => keyString P j m k s
  | .bytes p n => keyBytes P j m k p n
  | .bool b => keyBool P j m k b
  | .true => keyTrue P j m k
  | .false => keyFalse P j m k
  | .null => keyNull P j m k
  | .literal p n => keyLiteral P j m k p n

/-- One call. -/
def call (P : Plat) (m : Mem) (j : Jems) : Call → C Jems
  | .reset => reset j
  | .objectClose => objectClose P j
  | .arrayClose => arrayClose P j
  | .item x => item P m j x
  | .key k x => keyItem P m j k x

/-- A sequence of calls. -/
def calls (P : Plat) (m : Mem) : Jems → List Call → C Jems
  | j, [] => .ok j
  | j, c :: cs => do
    let j ← call P m j c
    calls P m j cs

end Mu.Jems
