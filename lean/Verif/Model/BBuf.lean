import Verif.C.Mem
import Verif.C.Val

/-! # Model of /repo/mulib/mu_bbuf.c -/

namespace Mu.BBuf

/-- `mu_bbuf_t`, mu_bbuf.h:53-59 (the two union members are the same pointer). -/
structure BBuf where
  p : Ptr
  cap : Nat
  deriving DecidableEq

/-- The `mu_bbuf_t` objects, by address (NULL is 0).  Used where an argument may alias another. -/
abbrev Objs := Val → BBuf

def set (O : Objs) (k : Val) (b : BBuf) : Objs := fun j => if j = k then b else O j

/-- MU_BBUF_END, mu_bbuf.h:50 -/
def END (P : Plat) : Int := P.intMax
/-- MU_BBUF_NOT_FOUND, mu_bbuf.h:51 -/
def NOT_FOUND (P : Plat) : Int := P.intMax

/-- `mu_bbuf_init_ro`, `mu_bbuf_init_rw`, mu_bbuf.c:61-71. -/
def init (O : Objs) (b : Val) (bytes : Ptr) (capacity : Nat) : Objs := set O b ⟨bytes, capacity⟩

/-- `mu_bbuf_init_cstr`, mu_bbuf.c:74-78. -/
def initCstr (m : Mem) (O : Objs) (b : Val) (cstr : Ptr) : C Objs := do
  let n ← m.strlen cstr
  .ok (set O b ⟨cstr, n⟩)

/-- `mu_bbuf_copy`, mu_bbuf.c:80-84. -/
def copy (O : Objs) (dst src : Val) : Objs := set O dst (O src)

/-- `mu_bbuf_bytes_ro`, `mu_bbuf_bytes_rw`, mu_bbuf.c:86-92. -/
def bytes (b : BBuf) : Ptr := b.p

/-- `mu_bbuf_capacity`, mu_bbuf.c:94. -/
def capacity (b : BBuf) : Nat := b.cap

/-- `mu_bbuf_ref_ro`, `mu_bbuf_ref_rw`, mu_bbuf.c:96-110; `none` is NULL. -/
def ref (m : Mem) (b : BBuf) (index : Nat) : C (Option Ptr) :=
  if index < b.cap then do
    let p ← m.add b.p index
    .ok (some p)
  else .ok none

/-- `str_compare_aux`, mu_bbuf.c:482-495. -/
def strCompareAux (P : Plat) (m : Mem) (b : BBuf) (b2 : Ptr) (len2 : Int) : C Int := do
  let len1 := P.toInt b.cap
  let len := if len1 < len2 then len1 else len2
  let (r, _) ← forLoop P (fun i => decide (i < len)) 1
    (fun i => do
      let x ← m.ld b.p i
      let y ← m.ld b2 i
      let d := (x.toNat : Int) - (y.toNat : Int)
      if d ≠ 0 then .ok (some d) else .ok none) (len.toNat + 1) 0
  match r with
  | some d => .ok d
  | none => P.int (len1 - len2)

/-- `mu_bbuf_compare`, mu_bbuf.c:112-114. -/
def compare (P : Plat) (m : Mem) (b1 b2 : BBuf) : C Int :=
  strCompareAux P m b1 b2.p (P.toInt b2.cap)

/-- `mu_bbuf_compare_cstr`, mu_bbuf.c:116-118. -/
def compareCstr (P : Plat) (m : Mem) (b1 : BBuf) (cstr : Ptr) : C Int := do
  let n ← m.strlen cstr
  strCompareAux P m b1 cstr (P.toInt n)

/-- `mu_bbuf_matches`, mu_bbuf.c:166-168. -/
def bmatches (P : Plat) (m : Mem) (b1 b2 : BBuf) : C Bool := do
  let d ← strCompareAux P m b1 b2.p (P.toInt b2.cap)
  .ok (decide (d = 0))

/-- `mu_bbuf_matches_cstr`, mu_bbuf.c:170-172. -/
def bmatchesCstr (P : Plat) (m : Mem) (b1 : BBuf) (cstr : Ptr) : C Bool := do
  let n ← m.strlen cstr
  let d ← strCompareAux P m b1 cstr (P.toInt n)
  .ok (decide (d = 0))

/-- The `start` computation of `mu_bbuf_slice`, mu_bbuf.c:121-127.  `capacity + start` is computed in
`size_t` and converted back. -/
def sliceStart (P : Plat) (cap : Nat) (start : Int) : Int :=
  if start < 0 then P.toInt (P.sz (cap + P.toSz start))
  else if P.toSz start > cap ∨ start = END P then P.toInt cap
  else start

/-- The `end` computation of `mu_bbuf_slice`, mu_bbuf.c:129-135. -/
def sliceEnd (P : Plat) (cap : Nat) (stop : Int) : Int :=
  if stop < 0 then P.toInt (P.sz (cap + P.toSz stop))
  else if P.toSz stop ≥ cap ∨ stop = END P then P.toInt cap
  else stop

/-- `mu_bbuf_slice`, mu_bbuf.c:120-143. -/
def slice (P : Plat) (m : Mem) (O : Objs) (dst src : Val) (start stop : Int) : C Objs := do
  let s := O src
  let start := sliceStart P s.cap start
  let stop := sliceEnd P s.cap stop
  let stop := if stop < start then start else stop
  let p ← m.add s.p start
  let n ← P.int (stop - start)
  .ok (init O dst p (P.toSz n))

/-- `mu_bbuf_bisect`, mu_bbuf.c:145-164. -/
def bisect (P : Plat) (m : Mem) (O : Objs) (left right src : Val) (index : Int) : C Objs := do
  let srcCap := P.toInt (O src).cap
  let index ←
    if index < 0 then P.int (srcCap + index)
    else if index > srcCap ∨ index = END P then .ok srcCap
    else .ok index
  let O := if left ≠ NULL then init O left (O src).p (P.toSz index) else O
  if right ≠ NULL then do
    let p ← m.add (O src).p index
    let n ← P.int (srcCap - index)
    .ok (init O right p (P.toSz n))
  else .ok O

/-- `has_prefix`, mu_bbuf.c:497-514.  The pointers `b1`, `b2` are `idx` bytes past their start in
round `idx`. -/
def hasPrefixAux (P : Plat) (m : Mem) (b : BBuf) (b2 : Ptr) (len2 : Int) : C Bool := do
  let len1 := P.toInt b.cap
  if len2 = 0 then .ok true
  else if len2 > len1 then .ok false
  else do
    let (_, idx) ← forLoop P (fun idx => decide (idx < len1 ∧ idx < len2)) 1
      (fun idx => do
        let x ← m.ld b.p idx
        let y ← m.ld b2 idx
        if x ≠ y then .ok (some ()) else .ok none) (len2.toNat + 1) 0
    .ok (decide (idx = len2))

/-- `has_suffix`, mu_bbuf.c:516-537.  The pointers are pre-decremented: `idx + 1` bytes before the
end in round `idx`. -/
def hasSuffixAux (P : Plat) (m : Mem) (b : BBuf) (b2 : Ptr) (len2 : Int) : C Bool := do
  let len1 := P.toInt b.cap
  if len2 = 0 then .ok true
  else if len2 > len1 then .ok false
  else do
    let p1 ← m.add b.p len1
    let p2 ← m.add b2 len2
    let (_, idx) ← forLoop P (fun idx => decide (idx < len1 ∧ idx < len2)) 1
      (fun idx => do
        let x ← m.ld p1 (-(idx + 1))
        let y ← m.ld p2 (-(idx + 1))
        if x ≠ y then .ok (some ()) else .ok none) (len2.toNat + 1) 0
    .ok (decide (idx = len2))

/-- `mu_bbuf_has_prefix`, mu_bbuf.c:174-176. -/
def hasPrefix (P : Plat) (m : Mem) (b1 b2 : BBuf) : C Bool := hasPrefixAux P m b1 b2.p (P.toInt b2.cap)
/-- `mu_bbuf_has_prefix_cstr`, mu_bbuf.c:178-180. -/
def hasPrefixCstr (P : Plat) (m : Mem) (b1 : BBuf) (cstr : Ptr) : C Bool := do
  let n ← m.strlen cstr
  hasPrefixAux P m b1 cstr (P.toInt n)
/-- `mu_bbuf_has_suffix`, mu_bbuf.c:182-184. -/
def hasSuffix (P : Plat) (m : Mem) (b1 b2 : BBuf) : C Bool := hasSuffixAux P m b1 b2.p (P.toInt b2.cap)
/-- `mu_bbuf_has_suffix_cstr`, mu_bbuf.c:186-188. -/
def hasSuffixCstr (P : Plat) (m : Mem) (b1 : BBuf) (cstr : Ptr) : C Bool := do
  let n ← m.strlen cstr
  hasSuffixAux P m b1 cstr (P.toInt n)

/-- The body of the search loops, mu_bbuf.c:555-568 and 591-604: does `substr` occur at `i`?  If so
the value to return. -/
def findBody (P : Plat) (m : Mem) (hay substr : Ptr) (len : Int) (skip : Bool) (i : Int) :
    C (Option Int) := do
  let h2 ← m.add hay i
  let x ← m.ld h2 0
  let y ← m.ld substr 0
  if x = y then do
    let (_, j) ← forLoop P (fun j => decide (j < len)) 1
      (fun j => do
        let x ← m.ld h2 j
        let y ← m.ld substr j
        if x ≠ y then .ok (some ()) else .ok none) len.toNat 1
    if j = len then do
      if skip then do
        let r ← P.int (i + len)
        .ok (some r)
      else .ok (some i)
    else .ok none
  else .ok none

/-- `mu_bbuf_find_aux`, mu_bbuf.c:539-573. -/
def findAux (P : Plat) (m : Mem) (b : BBuf) (substr : Ptr) (len : Int) (skip : Bool) : C Int := do
  let hayLen := P.toInt b.cap
  if len = 0 then .ok 0
  else do
    let lim ← P.int (hayLen - len)
    let (r, _) ← forLoop P (fun i => decide (i ≤ lim)) 1 (findBody P m b.p substr len skip)
      ((lim + 1).toNat + 1) 0
    match r with
    | some x => .ok x
    | none => .ok (NOT_FOUND P)

/-- `mu_bbuf_rfind_aux`, mu_bbuf.c:575-609. -/
def rfindAux (P : Plat) (m : Mem) (b : BBuf) (substr : Ptr) (len : Int) (skip : Bool) : C Int := do
  let hayLen := P.toInt b.cap
  if len = 0 then .ok hayLen
  else do
    let lim ← P.int (hayLen - len)
    let (r, _) ← forLoop P (fun i => decide (i ≥ 0)) (-1) (findBody P m b.p substr len skip)
      ((lim + 1).toNat + 1) lim
    match r with
    | some x => .ok x
    | none => .ok (NOT_FOUND P)

/-- `mu_bbuf_find_substr`, mu_bbuf.c:190-193. -/
def findSubstr (P : Plat) (m : Mem) (b s : BBuf) (skip : Bool) : C Int :=
  findAux P m b s.p (P.toInt s.cap) skip
/-- `mu_bbuf_find_subcstr`, mu_bbuf.c:195-199. -/
def findSubcstr (P : Plat) (m : Mem) (b : BBuf) (cstr : Ptr) (skip : Bool) : C Int := do
  let n ← m.strlen cstr
  findAux P m b cstr (P.toInt n) skip
/-- `mu_bbuf_rfind_substr`, mu_bbuf.c:201-204. -/
def rfindSubstr (P : Plat) (m : Mem) (b s : BBuf) (skip : Bool) : C Int :=
  rfindAux P m b s.p (P.toInt s.cap) skip
/-- `mu_bbuf_rfind_subcstr`, mu_bbuf.c:206-210. -/
def rfindSubcstr (P : Plat) (m : Mem) (b : BBuf) (cstr : Ptr) (skip : Bool) : C Int := do
  let n ← m.strlen cstr
  rfindAux P m b cstr (P.toInt n) skip

/-- `mu_bbuf_find_byte`, mu_bbuf.c:212-219. -/
def findByte (P : Plat) (m : Mem) (b : BBuf) (byte : UInt8) : C Int := do
  let (r, _) ← forLoop P (fun i => decide (P.toSz i < b.cap)) 1
    (fun i => do
      let x ← m.ld b.p i
      if x = byte then .ok (some i) else .ok none) (b.cap + 1) 0
  match r with
  | some i => .ok i
  | none => .ok (NOT_FOUND P)

/-- `mu_bbuf_rfind_byte`, mu_bbuf.c:221-228.  (`capacity - 1` is computed in `size_t`.) -/
def rfindByte (P : Plat) (m : Mem) (b : BBuf) (byte : UInt8) : C Int := do
  let (r, _) ← forLoop P (fun i => decide (i ≥ 0)) (-1)
    (fun i => do
      let x ← m.ld b.p i
      if x = byte then .ok (some i) else .ok none) (b.cap + 1) (P.toInt (P.szSub b.cap 1))
  match r with
  | some i => .ok i
  | none => .ok (NOT_FOUND P)

/-- `mu_bbuf_find_predicate`, mu_bbuf.c:230-240.  The predicate (with its argument) is a function of
the byte. -/
def findPredicate (P : Plat) (m : Mem) (b : BBuf) (pred : UInt8 → Bool) : C Int := do
  let cap := P.toInt b.cap
  let (r, _) ← forLoop P (fun i => decide (i < cap)) 1
    (fun i => do
      let x ← m.ld b.p i
      if pred x = false then .ok (some i) else .ok none) (cap.toNat + 1) 0
  match r with
  | some i => .ok i
  | none => .ok (NOT_FOUND P)

/-- `mu_bbuf_rfind_predicate`, mu_bbuf.c:242-252. -/
def rfindPredicate (P : Plat) (m : Mem) (b : BBuf) (pred : UInt8 → Bool) : C Int := do
  let cap := P.toInt b.cap
  let p ← m.add b.p cap
  let (r, _) ← forLoop P (fun i => decide (i > 0)) (-1)
    (fun i => do
      let x ← m.ld p (i - 1 - cap)
      if pred x = false then .ok (some (i - 1)) else .ok none) (cap.toNat + 1) cap
  match r with
  | some i => .ok i
  | none => .ok (NOT_FOUND P)

/-- `mu_bbuf_ltrim`, mu_bbuf.c:260-269. -/
def ltrim (P : Plat) (m : Mem) (O : Objs) (dst src : Val) (pred : UInt8 → Bool) : C Objs := do
  let idx ← findPredicate P m (O src) pred
  if idx = NOT_FOUND P then .ok (copy O dst src)
  else slice P m O dst src idx (END P)

/-- `mu_bbuf_rtrim`, mu_bbuf.c:271-280. -/
def rtrim (P : Plat) (m : Mem) (O : Objs) (dst src : Val) (pred : UInt8 → Bool) : C Objs := do
  let idx ← rfindPredicate P m (O src) pred
  if idx = NOT_FOUND P then .ok (copy O dst src)
  else slice P m O dst src 0 idx

/-- `mu_bbuf_trim`, mu_bbuf.c:254-258. -/
def trim (P : Plat) (m : Mem) (O : Objs) (dst src : Val) (pred : UInt8 → Bool) : C Objs := do
  let O ← ltrim P m O dst src pred
  rtrim P m O dst dst pred

/-- `is_decimal`, mu_bbuf.c:611-616. -/
def isDecimal (b : UInt8) : Bool := decide (48 ≤ b.toNat ∧ b.toNat ≤ 57)

/-- `v = (v * 10) + (*buf++ - '0')` in an unsigned type of `N` bits, mu_bbuf.c:307: a type narrower
than `int` is promoted to `int`, a wider one is unsigned. -/
def uintStep (P : Plat) (N : Nat) (v : Nat) (b : UInt8) : C Nat :=
  if N < P.ib then do
    let x ← P.int ((v : Int) * 10)
    let x ← P.int (x + ((b.toNat : Int) - 48))
    .ok (x % 2 ^ N).toNat
  else .ok ((((v : Int) * 10) % 2 ^ N + ((b.toNat : Int) - 48)) % 2 ^ N).toNat

/-- The loop of DEFINE_UINT_PARSER, mu_bbuf.c:306-308. -/
def uintLoop (P : Plat) (N : Nat) (m : Mem) (p : Ptr) : Nat → Int → Int → Nat → C Nat
  | 0, _, _, _ => .error .diverge
  | fuel + 1, len, i, v => do
    let len' ← P.int (len - 1)
    if len > 0 then do
      let b ← m.ld p i
      if isDecimal b then do
        let v ← uintStep P N v b
        uintLoop P N m p fuel len' (i + 1) v
      else .ok v
    else .ok v

/-- DEFINE_UINT_PARSER, mu_bbuf.c:300-310, for a type of `N` bits: `mu_bbuf_parse_uint8`,
`mu_bbuf_parse_uint16`, `mu_bbuf_parse_uint32`, `mu_bbuf_parse_uint64` and
`mu_bbuf_parse_unsigned_int` (`N = ib`), mu_bbuf.c:313-321. -/
def parseUint (P : Plat) (N : Nat) (m : Mem) (b : BBuf) : C Nat :=
  let len := P.toInt b.cap
  uintLoop P N m b.p (len.toNat + 1) len 0 0

/-- Signed arithmetic in a type of `N` bits. -/
def intN (N : Nat) (x : Int) : C Int :=
  if -(2 ^ (N - 1)) ≤ x ∧ x ≤ 2 ^ (N - 1) - 1 then .ok x else .error .overflow

/-- Assignment of an `int` to a narrower signed type of `N` bits: implementation-defined, modelled
as reduction modulo 2^N. -/
def narrow (N : Nat) (x : Int) : Int := Int.bmod x (2 ^ N)

/-- `v = (v * 10) + (*buf++ - '0')` in a signed type of `N` bits, mu_bbuf.c:295. -/
def sintStep (P : Plat) (N : Nat) (v : Int) (b : UInt8) : C Int :=
  if N < P.ib then do
    let x ← P.int (v * 10)
    let x ← P.int (x + ((b.toNat : Int) - 48))
    .ok (narrow N x)
  else do
    let x ← intN N (v * 10)
    intN N (x + ((b.toNat : Int) - 48))

/-- The loop of DEFINE_INT_PARSER, mu_bbuf.c:294-296. -/
def sintLoop (P : Plat) (N : Nat) (m : Mem) (p : Ptr) : Nat → Int → Int → Int → C Int
  | 0, _, _, _ => .error .diverge
  | fuel + 1, len, i, v => do
    let len' ← P.int (len - 1)
    if len > 0 then do
      let b ← m.ld p i
      if isDecimal b then do
        let v ← sintStep P N v b
        sintLoop P N m p fuel len' (i + 1) v
      else .ok v
    else .ok v

/-- `return is_negative ? -v : v`, mu_bbuf.c:297. -/
def sintRet (P : Plat) (N : Nat) (neg : Bool) (v : Int) : C Int :=
  if neg then
    if N < P.ib then do
      let x ← P.int (-v)
      .ok (narrow N x)
    else intN N (-v)
  else .ok v

/-- DEFINE_INT_PARSER, mu_bbuf.c:282-298, for a type of `N` bits: `mu_bbuf_parse_int8`,
`mu_bbuf_parse_int16`, `mu_bbuf_parse_int32`, `mu_bbuf_parse_int64` and `mu_bbuf_parse_int`
(`N = ib`), mu_bbuf.c:312-320. -/
def parseInt (P : Plat) (N : Nat) (m : Mem) (b : BBuf) : C Int := do
  let len := P.toInt b.cap
  let neg ←
    if len ≥ 1 then do
      let x ← m.ld b.p 0
      .ok (decide (x.toNat = 45))
    else .ok false
  let len' := if neg then len - 1 else len
  let v ← sintLoop P N m b.p (len'.toNat + 1) len' (if neg then 1 else 0) 0
  sintRet P N neg v

/-- Value of a hexadecimal digit, mu_bbuf.c:330-338.  (`ch` is a `char`; whether that is signed makes
no difference, bytes above 127 are in none of the three ranges.) -/
def hexDigit (b : UInt8) : Option Nat :=
  let c := b.toNat
  if 48 ≤ c ∧ c ≤ 57 then some (c - 48)
  else if 97 ≤ c ∧ c ≤ 102 then some (c - 97 + 10)
  else if 65 ≤ c ∧ c ≤ 70 then some (c - 65 + 10)
  else none

/-- The loop of `mu_bbuf_parse_hex`, mu_bbuf.c:328-342. -/
def hexLoop (P : Plat) (m : Mem) (p : Ptr) : Nat → Int → Int → Nat → C Nat
  | 0, _, _, _ => .error .diverge
  | fuel + 1, len, i, v => do
    let len' ← P.int (len - 1)
    if len > 0 then do
      let b ← m.ld p i
      match hexDigit b with
      | some d => hexLoop P m p fuel len' (i + 1) ((v * 16 % 2 ^ P.ib + d) % 2 ^ P.ib)
      | none => .ok v
    else .ok v

/-- `mu_bbuf_parse_hex`, mu_bbuf.c:323-344. -/
def parseHex (P : Plat) (m : Mem) (b : BBuf) : C Nat :=
  let len := P.toInt b.cap
  hexLoop P m b.p (len.toNat + 1) len 0 0

/-- `mu_bbuf_get_byte`, mu_bbuf.c:349-355.  Second component: `*byte` afterwards. -/
def getByte (m : Mem) (b : BBuf) (index : Nat) (byte : UInt8) : C (Bool × UInt8) :=
  if index ≥ b.cap then .ok (false, byte)
  else do
    let x ← m.ld b.p index
    .ok (true, x)

/-- `mu_bbuf_put_byte`, mu_bbuf.c:357-363. -/
def putByte (m : Mem) (b : BBuf) (index : Nat) (byte : UInt8) : C (Bool × Mem) :=
  if index ≥ b.cap then .ok (false, m)
  else do
    let m ← m.st b.p index byte
    .ok (true, m)

/-- `mu_bbuf_clear`, mu_bbuf.c:365-368. -/
def clear (m : Mem) (b : BBuf) : C Mem := m.memset b.p 0 b.cap

/-- Reading an automatic variable. -/
def rdVar {α : Type} : Option α → C α
  | some a => .ok a
  | none => .error .uninit

/-- The copying loop of `mu_bbuf_copy_into`, mu_bbuf.c:400-402. -/
def copyLoop (m : Mem) (dst src : BBuf) (dstIdx srcIdx : Nat) : Nat → Nat → C Mem
  | 0, _ => .ok m
  | n + 1, i => do
    let x ← m.ld src.p (srcIdx + i : Nat)
    let m ← m.st dst.p (dstIdx + i : Nat) x
    copyLoop m dst src dstIdx srcIdx n (i + 1)

/-- `mu_bbuf_copy_into`, mu_bbuf.c:370-406.  `src_avail` and `dst_avail` are declared without a
value, and each is assigned on one path only; `srcAvail0` and `dstAvail0` are what they hold before. -/
def copyIntoFrom (P : Plat) (m : Mem) (dst src : BBuf) (offset : Int)
    (srcAvail0 dstAvail0 : Option Nat) : C (Int × Mem) := do
  let srcLen := src.cap
  let dstLen := dst.cap
  let finish (srcIdx dstIdx : Nat) (srcAvail dstAvail : Option Nat) : C (Int × Mem) := do
    let sa ← rdVar srcAvail
    if sa ≠ 0 then do
      let da ← rdVar dstAvail
      if da ≠ 0 then do
        let count := P.toInt (if sa < da then sa else da)
        let m ← copyLoop m dst src dstIdx srcIdx count.toNat 0
        .ok (count, m)
      else .ok (0, m)
    else .ok (0, m)
  if offset > 0 then
    let dstIdx := P.toSz offset
    if dstIdx ≥ dstLen then .ok (0, m)
    else finish 0 dstIdx srcAvail0 (some (dstLen - dstIdx))
  else if offset < 0 then do
    let k ← P.int (-offset)
    let srcIdx := P.toSz k
    if srcIdx ≥ srcLen then .ok (0, m)
    else finish srcIdx 0 (some (srcLen - srcIdx)) dstAvail0
  else finish 0 0 srcAvail0 dstAvail0

/-- `mu_bbuf_copy_into`, mu_bbuf.c:370-406, in C: the two variables hold no value, and reading one of
them is undefined. -/
def copyInto (P : Plat) (m : Mem) (dst src : BBuf) (offset : Int) : C (Int × Mem) :=
  copyIntoFrom P m dst src offset none none

/-- The loop of `mu_bbuf_reverse`, mu_bbuf.c:412-416; `front` and `back` point into the same
object. -/
def reverseLoop (m : Mem) (blk : Nat) : Nat → Int → Int → C Mem
  | 0, _, _ => .error .diverge
  | fuel + 1, front, back =>
    if front < back then do
      let temp ← m.ld ⟨blk, 0⟩ front
      let x ← m.ld ⟨blk, 0⟩ back
      let m ← m.st ⟨blk, 0⟩ front x
      let f ← m.add ⟨blk, 0⟩ (front + 1)
      let m ← m.st ⟨blk, 0⟩ back temp
      let b ← m.add ⟨blk, 0⟩ (back - 1)
      reverseLoop m blk fuel f.off b.off
    else .ok m

/-- `mu_bbuf_reverse`, mu_bbuf.c:408-418. -/
def reverse (P : Plat) (m : Mem) (b : BBuf) : C Mem := do
  let front ← m.add b.p 0
  let back ← m.add b.p (P.szSub b.cap 1)
  reverseLoop m b.p.blk (b.cap + 1) front.off back.off

/-- `while (shift >= capacity) shift -= capacity;`, mu_bbuf.c:424-426. -/
def reduceDown (P : Plat) (cap : Int) : Nat → Int → C Int
  | 0, _ => .error .diverge
  | fuel + 1, shift =>
    if shift ≥ cap then do
      let s ← P.int (shift - cap)
      reduceDown P cap fuel s
    else .ok shift

/-- `while (shift < 0) shift += capacity;`, mu_bbuf.c:427-429. -/
def reduceUp (P : Plat) (cap : Int) : Nat → Int → C Int
  | 0, _ => .error .diverge
  | fuel + 1, shift =>
    if shift < 0 then do
      let s ← P.int (shift + cap)
      reduceUp P cap fuel s
    else .ok shift

/-- `mu_bbuf_rrotate`, mu_bbuf.c:420-447; the two loops are given `fuel` rounds. -/
def rrotate (P : Plat) (fuel : Nat) (m : Mem) (b : BBuf) (shift : Int) : C Mem := do
  let cap := P.toInt b.cap
  let shift ← reduceDown P cap fuel shift
  let shift ← reduceUp P cap fuel shift
  if shift > 0 then do
    let m ← reverse P m b
    -- objects 1: *bbuf_rw, 2: left, 3: right
    let O ← bisect P m (set (fun _ => b) 1 b) 2 3 1 shift
    let m ← reverse P m (O 2)
    reverse P m (O 3)
  else .ok m

/-- `mu_bbuf_rshift`, mu_bbuf.c:449-477. -/
def rshift (P : Plat) (m : Mem) (b : BBuf) (shift : Int) : C Mem := do
  let cap := b.cap
  let left := decide (shift < 0)
  let shift ← if left then P.int (-shift) else .ok shift
  if shift = 0 then .ok m
  else if P.toSz shift ≥ cap then clear m b
  else do
    let k := P.toSz shift
    if left then do
      let q ← m.add b.p shift
      let m ← m.memmove b.p q (P.szSub cap k)
      let q ← m.add b.p (P.szSub cap k)
      m.memset q 0 k
    else do
      let q ← m.add b.p shift
      let m ← m.memmove q b.p (P.szSub cap k)
      m.memset b.p 0 k

/-! ## Predicates with state

`mu_bbuf_predicate_t` (mu_bbuf.h:71) receives `void *arg`, so a predicate may keep state there: `pred s x`
is its answer for the byte `x` when the state is `s`, and the new state. -/

/-- The loop of `mu_bbuf_find_predicate`, mu_bbuf.c:234-238. -/
def findPredLoop {σ : Type} (P : Plat) (m : Mem) (p : Ptr) (cap : Int)
    (pred : σ → UInt8 → Bool × σ) : Nat → Int → σ → C (Int × σ)
  | 0, _, _ => .error .diverge
  | fuel + 1, idx, s =>
    if idx < cap then do
      let x ← m.ld p idx
      let (b, s) := pred s x
      if b = false then .ok (idx, s)
      else do
        let j ← P.int (idx + 1)
        findPredLoop P m p cap pred fuel j s
    else .ok (NOT_FOUND P, s)

/-- `mu_bbuf_find_predicate`, mu_bbuf.c:230-240. -/
def findPredicateS {σ : Type} (P : Plat) (m : Mem) (b : BBuf) (pred : σ → UInt8 → Bool × σ) (s : σ) :
    C (Int × σ) :=
  let cap := P.toInt b.cap
  findPredLoop P m b.p cap pred (cap.toNat + 1) 0 s

/-- The loop of `mu_bbuf_rfind_predicate`, mu_bbuf.c:246-250; `p` is the end of the buffer. -/
def rfindPredLoop {σ : Type} (P : Plat) (m : Mem) (p : Ptr) (cap : Int)
    (pred : σ → UInt8 → Bool × σ) : Nat → Int → σ → C (Int × σ)
  | 0, _, _ => .error .diverge
  | fuel + 1, idx, s =>
    if idx > 0 then do
      let x ← m.ld p (idx - 1 - cap)
      let (b, s) := pred s x
      if b = false then .ok (idx - 1, s)
      else do
        let j ← P.int (idx - 1)
        rfindPredLoop P m p cap pred fuel j s
    else .ok (NOT_FOUND P, s)

/-- `mu_bbuf_rfind_predicate`, mu_bbuf.c:242-252. -/
def rfindPredicateS {σ : Type} (P : Plat) (m : Mem) (b : BBuf) (pred : σ → UInt8 → Bool × σ) (s : σ) :
    C (Int × σ) := do
  let cap := P.toInt b.cap
  let p ← m.add b.p cap
  rfindPredLoop P m p cap pred (cap.toNat + 1) cap s

/-- `mu_bbuf_ltrim`, mu_bbuf.c:260-269. -/
def ltrimS {σ : Type} (P : Plat) (m : Mem) (O : Objs) (dst src : Val) (pred : σ → UInt8 → Bool × σ)
    (s : σ) : C (Objs × σ) := do
  let (idx, s) ← findPredicateS P m (O src) pred s
  if idx = NOT_FOUND P then .ok (copy O dst src, s)
  else do
    let O ← slice P m O dst src idx (END P)
    .ok (O, s)

/-- `mu_bbuf_rtrim`, mu_bbuf.c:271-280. -/
def rtrimS {σ : Type} (P : Plat) (m : Mem) (O : Objs) (dst src : Val) (pred : σ → UInt8 → Bool × σ)
    (s : σ) : C (Objs × σ) := do
  let (idx, s) ← rfindPredicateS P m (O src) pred s
  if idx = NOT_FOUND P then .ok (copy O dst src, s)
  else do
    let O ← slice P m O dst src 0 idx
    .ok (O, s)

/-- `mu_bbuf_trim`, mu_bbuf.c:254-258: the same argument is passed to both. -/
def trimS {σ : Type} (P : Plat) (m : Mem) (O : Objs) (dst src : Val) (pred : σ → UInt8 → Bool × σ)
    (s : σ) : C (Objs × σ) := do
  let (O, s) ← ltrimS P m O dst src pred s
  rtrimS P m O dst dst pred s

end Mu.BBuf
