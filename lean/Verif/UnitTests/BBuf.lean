import Verif.UnitTests.Basic
import Verif.Model.BBuf

/-! # Unit tests of mu_bbuf (test/test_mu_bbuf/test_mu_bbuf.c), run on the model

Memory: block 1 and block 2 hold the two strings (or arrays) a test works on; the `mu_bbuf_t` objects `b1`/`src`/`left`
are object 1, `b2`/`dst`/`right` object 2. -/

namespace Mu.UnitTests
open BBuf

/-- The bytes of a C string literal, with its NUL. -/
def cs (s : String) : List UInt8 := s.toList.map (fun c => c.toNat.toUInt8) ++ [0]

/-- Two memory blocks. -/
def mem (x y : List UInt8) : Mem := fun k => if k = 1 then x else if k = 2 then y else []

/-- `mu_bbuf_init_cstr` of object `k` on block `k`; the other object is on the other block. -/
def objs (m : Mem) : C Objs := do
  let O ← initCstr m (fun _ => ⟨⟨0, 0⟩, 0⟩) 1 ⟨1, 0⟩
  initCstr m O 2 ⟨2, 0⟩

/-- Two buffers, made from two C strings. -/
def two (x y : String) : C (Mem × Objs) := do
  let m := mem (cs x) (cs y)
  .ok (m, ← objs m)

/-- `local_strncmp(b1, b2, n) == 0`, lines 14-29. -/
def strncmpEq (m : Mem) (p : Ptr) : Nat → Int → List UInt8 → C Bool
  | _, _, [] => .ok true
  | 0, _, _ => .ok true
  | n + 1, i, u2 :: rest => do
    let u1 ← m.ld p i
    if u1 ≠ u2 then .ok false else if u1 = 0 then .ok true else strncmpEq m p n (i + 1) rest

/-- `cstr_eq(bbuf, cstr)`, lines 32-35: compares at most `capacity` bytes (converted to `int`), so a buffer that
holds only the first part of `cstr` counts as equal. -/
def cstrEq (m : Mem) (b : BBuf) (s : String) : C Bool := strncmpEq m b.p (host.toInt b.cap).toNat 0 (cs s)

/-- `buf_eq(bbuf, expect, len)`, lines 37-43. -/
def bufEq (m : Mem) (b : BBuf) (x : List UInt8) : C Bool := do
  if b.cap ≠ x.length then .ok false else .ok ((← m.readN b.p x.length) == x)

/-- test_mu_bbuf_init, lines 112-132 -/
example : (do
    let O := init (fun _ => ⟨⟨0, 0⟩, 0⟩) 1 ⟨1, 0⟩ 10
    assertEq (bytes (O 1)) ⟨1, 0⟩; assertEq (capacity (O 1)) 10
    let O ← initCstr (mem (List.replicate 10 77) (cs "asdf")) O 2 ⟨2, 0⟩
    assertEq (bytes (O 2)) ⟨2, 0⟩; assertEq (capacity (O 2)) 4 : C Unit) = .ok () := by decide +kernel

/-- test_mu_bbuf_copy, lines 134-142 -/
example : (do
    let O := init (fun _ => ⟨⟨0, 0⟩, 0⟩) 1 ⟨1, 0⟩ 10
    let O := copy O 2 1
    assertEq (bytes (O 2)) (bytes (O 1)); assertEq (capacity (O 2)) (capacity (O 1)) : C Unit) = .ok () := by
  decide +kernel

/-- test_mu_buf_ref, lines 144-156 -/
example : (do
    let m := mem (List.replicate 10 77) []
    assertEq (← ref m ⟨⟨1, 0⟩, 10⟩ 0) (some ⟨1, 0⟩)
    assertEq (← ref m ⟨⟨1, 0⟩, 10⟩ 10) none : C Unit) = .ok () := by decide +kernel

/-- `mu_bbuf_compare` of buffers made from two strings, and `mu_bbuf_compare_cstr`. -/
def cmp (x y : String) : C (Int × Int) := do
  let (m, O) ← two x y
  .ok (← compare host m (O 1) (O 2), ← compareCstr host m (O 1) ⟨2, 0⟩)

/-- `TEST_ASSERT(cmp == 0)`, `> 0`, `< 0`, for both functions -/
def cmpIs (x y : String) (o : Ordering) : C Unit := do
  let (a, b) ← cmp x y
  assertEq (compareOfLessAndEq a 0) o
  assertEq (compareOfLessAndEq b 0) o

/-- test_mu_bbuf_compare, lines 158-183, and test_mu_bbuf_compare_cstr, lines 185-206 -/
example : (do
    cmpIs "abcd" "abcd" .eq; cmpIs "abcd" "abcc" .gt; cmpIs "abcd" "abce" .lt; cmpIs "abcd" "abc" .gt
    cmpIs "abcd" "abcde" .lt; cmpIs "" "" .eq; cmpIs "abcd" "" .gt; cmpIs "" "abcd" .lt : C Unit) = .ok () := by
  decide +kernel

/-- `TEST_ASSERT(&b2 == mu_bbuf_slice(&b2, &b1, s, e)); TEST_ASSERT(cstr_eq(&b2, x))` -/
def sliceIs (s e : Int) (x : String) : C Unit := do
  let (m, O) ← two "ABCDEFGHIJ" ""
  let O ← slice host m O 2 1 s e
  assert (← cstrEq m (O 2) x)

/-- test_mu_bbuf_slice, lines 208-252 -/
example : (do
    sliceIs 0 (END host) "ABCDEFGHIJ"; sliceIs 0 10 "ABCDEFGHIJ"
    sliceIs 1 (END host) "BCDEFGHIJ"; sliceIs (-9) (END host) "BCDEFGHIJ"
    sliceIs 0 9 "ABCDEFGHI"; sliceIs 0 (-1) "ABCDEFGHI"
    sliceIs 3 7 "DEFG"; sliceIs (-7) (-3) "DEFG"
    sliceIs 5 5 ""; sliceIs 6 5 ""; sliceIs 20 10 ""; sliceIs 0 (-20) "" : C Unit) = .ok () := by decide +kernel

/-- `mu_bbuf_bisect(&left, &right, &src, i)` with the two results; `src` is object 3. -/
def bisectIs (i : Int) (l r : String) : C Unit := do
  let (m, O) ← two "ABCDEFGHIJ" ""
  let O := copy O 3 1
  let O ← bisect host m O 1 2 3 i
  assert (← cstrEq m (O 1) l); assert (← cstrEq m (O 2) r)

/-- test_mu_bbuf_bisect, lines 254-301; the last two cases: left, or right, is `src` itself -/
example : (do
    bisectIs 0 "" "ABCDEFGHIJ"; bisectIs 1 "A" "BCDEFGHIJ"; bisectIs 9 "ABCDEFGHI" "J"
    bisectIs 10 "ABCDEFGHIJ" ""; bisectIs (END host) "ABCDEFGHIJ" ""; bisectIs (-1) "ABCDEFGHI" "J"
    bisectIs (-9) "A" "BCDEFGHIJ"; bisectIs (-10) "" "ABCDEFGHIJ"
    let (m, O) ← two "ABCDEFGHIJ" ""
    let O' ← bisect host m O 1 2 1 1
    assert (← cstrEq m (O' 1) "A"); assert (← cstrEq m (O' 2) "BCDEFGHIJ")
    let O' ← bisect host m O 2 1 1 1
    assert (← cstrEq m (O' 2) "A"); assert (← cstrEq m (O' 1) "BCDEFGHIJ") : C Unit) = .ok () := by decide +kernel

/-- One of the boolean tests on "abcd", both variants of the function. -/
def boolIs (f : Mem → BBuf → BBuf → C Bool) (g : Mem → BBuf → Ptr → C Bool) (s : String) (r : Bool) : C Unit := do
  let (m, O) ← two "abcd" s
  assertEq (← f m (O 1) (O 2)) r
  assertEq (← g m (O 1) ⟨2, 0⟩) r

/-- test_mu_bbuf_matches, lines 303-320 -/
example : (do
    for (s, r) in [("", false), ("a", false), ("ab", false), ("abc", false), ("abcd", true), ("abcde", false)] do
      boolIs (bmatches host) (bmatchesCstr host) s r : C Unit) = .ok () := by decide +kernel

/-- test_mu_bbuf_has_suffix_prefix, lines 322-348 -/
example : (do
    for (s, r) in [("", true), ("ab", true), ("cd", false), ("abcd", true), ("abcde", false)] do
      boolIs (hasPrefix host) (hasPrefixCstr host) s r
    for (s, r) in [("", true), ("ab", false), ("cd", true), ("abcd", true), ("abcde", false)] do
      boolIs (hasSuffix host) (hasSuffixCstr host) s r : C Unit) = .ok () := by decide +kernel

/-- The find functions on "abXcdabYcd": forward and backward result, each in both variants. -/
def findIs (s : String) (skip : Bool) (f r : Int) : C Unit := do
  let (m, O) ← two "abXcdabYcd" s
  assertEq (← findSubstr host m (O 1) (O 2) skip) f
  assertEq (← findSubcstr host m (O 1) ⟨2, 0⟩ skip) f
  assertEq (← rfindSubstr host m (O 1) (O 2) skip) r
  assertEq (← rfindSubcstr host m (O 1) ⟨2, 0⟩ skip) r

/-- test_mu_bbuf_find_substr, lines 350-404 -/
example : (do
    findIs "" false 0 10; findIs "" true 0 10; findIs "ab" false 0 5; findIs "ab" true 2 7
    findIs "cd" false 3 8; findIs "cd" true 5 10
    findIs "cdX" false (NOT_FOUND host) (NOT_FOUND host)
    findIs "cdX" true (NOT_FOUND host) (NOT_FOUND host) : C Unit) = .ok () := by decide +kernel

/-- test_mu_bbuf_find_byte, lines 406-419 -/
example : (do
    let (m, O) ← two "abac" "caba"
    assertEq (← findByte host m (O 1) 97) 0; assertEq (← findByte host m (O 1) 99) 3
    assertEq (← findByte host m (O 1) 122) (NOT_FOUND host)
    assertEq (← rfindByte host m (O 2) 97) 3; assertEq (← rfindByte host m (O 2) 99) 0
    assertEq (← rfindByte host m (O 2) 122) (NOT_FOUND host) : C Unit) = .ok () := by decide +kernel

/-- `is_numeric`, `is_hexadecimal`, `is_whitespace`, lines 45-78. -/
def isNumeric (b : UInt8) : Bool := decide (b ∈ (cs "0123456789").dropLast)
def isHex (b : UInt8) : Bool := decide (b ∈ (cs "0123456789abcdefABCDEF").dropLast)
def isSpace (b : UInt8) : Bool := decide (b ∈ ([32, 9, 13, 10, 12, 11] : List UInt8))
def isX (b : UInt8) : Bool := decide (b = 120)

/-- Both predicate searches on one string. -/
def predIs (x : List UInt8) (p : UInt8 → Bool) (f r : Int) : C Unit := do
  let m := mem x [0]
  let O ← objs m
  assertEq (← findPredicate host m (O 1) p) f
  assertEq (← rfindPredicate host m (O 1) p) r

/-- test_mu_bbuf_find_predicate, lines 421-463 (`is_not_always` calls itself for ever, but is not called) -/
example : (do
    predIs (cs "0123") (fun b => !isNumeric b) 0 3
    predIs (cs "0123") isNumeric (NOT_FOUND host) (NOT_FOUND host)
    let x := (cs "0123456789abcDEF").dropLast ++ [32, 13, 10, 9, 11, 12, 0]
    predIs x (fun b => !isNumeric b) 0 9; predIs x isNumeric 10 21
    predIs x (fun b => !isHex b) 0 15; predIs x isHex 16 21
    predIs x (fun b => !isSpace b) 16 21; predIs x isSpace 0 15
    predIs x (fun b => !isX b) (NOT_FOUND host) (NOT_FOUND host); predIs x isX 0 21
    predIs (cs "") (fun _ => true) (NOT_FOUND host) (NOT_FOUND host)
    predIs (cs "") (fun _ => false) (NOT_FOUND host) (NOT_FOUND host) : C Unit) = .ok () := by decide +kernel

/-- One trim function, with `dst` another object and with `dst == src`. -/
def trimIs (f : Mem → Objs → Val → Val → (UInt8 → Bool) → C Objs) (x y : String) : C Unit := do
  let (m, O) ← two x ""
  let O' ← f m O 2 1 isSpace
  assert (← cstrEq m (O' 2) y)
  let O' ← f m O 1 1 isSpace
  assert (← cstrEq m (O' 1) y)

/-- test_mu_bbuf_trim, lines 465-501 -/
example : (do
    trimIs (ltrim host) "  abcde  " "abcde  "; trimIs (rtrim host) "  abcde  " "  abcde"
    trimIs (trim host) "  abcde  " "abcde"
    trimIs (ltrim host) "" ""; trimIs (rtrim host) "" "" : C Unit) = .ok () := by decide +kernel

/-- … but the assertions on `mu_bbuf_rtrim` and `mu_bbuf_trim` hold only because `cstr_eq` accepts a buffer that is
too short: the results really are "  abcd" and "abcd" (finding 8 of DESIGN.md). -/
example : (do
    let (m, O) ← two "  abcde  " ""
    let O' ← rtrim host m O 2 1 isSpace
    assert (← bufEq m (O' 2) (cs "  abcd").dropLast)
    let O' ← trim host m O 2 1 isSpace
    assert (← bufEq m (O' 2) (cs "abcd").dropLast) : C Unit) = .ok () := by decide +kernel

/-- All ten integer parsers on one string: int, unsigned int, int8, uint8, int16, uint16, int32, uint32, int64, uint64. -/
def parsesTo (x : String) (i u i8 u8 i16 u16 i32 u32 i64 u64 : Int) : C Unit := do
  let (m, O) ← two x ""
  let b := O 1
  assertEq (← parseInt host 32 m b) i; assertEq (← parseUint host 32 m b : Int) u
  assertEq (← parseInt host 8 m b) i8; assertEq (← parseUint host 8 m b : Int) u8
  assertEq (← parseInt host 16 m b) i16; assertEq (← parseUint host 16 m b : Int) u16
  assertEq (← parseInt host 32 m b) i32; assertEq (← parseUint host 32 m b : Int) u32
  assertEq (← parseInt host 64 m b) i64; assertEq (← parseUint host 64 m b : Int) u64

/-- test_mu_bbuf_parse_int, lines 503-696 -/
example : (do
    parsesTo "" 0 0 0 0 0 0 0 0 0 0
    parsesTo "z123" 0 0 0 0 0 0 0 0 0 0
    parsesTo "0" 0 0 0 0 0 0 0 0 0 0
    parsesTo "-0" 0 0 0 0 0 0 0 0 0 0
    parsesTo "1" 1 1 1 1 1 1 1 1 1 1
    parsesTo "-1" (-1) 0 (-1) 0 (-1) 0 (-1) 0 (-1) 0
    parsesTo "255" 255 255 (-1) 255 255 255 255 255 255 255
    parsesTo "65535" 65535 65535 (-1) 255 (-1) 65535 65535 65535 65535 65535 : C Unit) = .ok () := by decide +kernel

/-- test_mu_bbuf_parse_int, "4294967295", lines 698-718: the parsers narrower and wider than `int` … -/
example : (do
    let (m, O) ← two "4294967295" ""
    let b := O 1
    assertEq (← parseUint host 32 m b) 4294967295
    assertEq (← parseInt host 8 m b) (-1); assertEq (← parseUint host 8 m b) 255
    assertEq (← parseInt host 16 m b) (-1); assertEq (← parseUint host 16 m b) 65535
    assertEq (← parseInt host 64 m b) 4294967295; assertEq (← parseUint host 64 m b) 4294967295 : C Unit) = .ok () := by
  decide +kernel

/-- … while for `int` and `int32_t` the -1 that the test expects ("truncation") is the accidental result of a signed
overflow, which has no defined value: the model reports it. -/
example : (do let (m, O) ← two "4294967295" ""; parseInt host 32 m (O 1)) = .error .overflow := by decide +kernel

/-- test_mu_bbuf_parse_hex, lines 722-746 -/
example : (do
    for (s, v) in [("", 0), ("-1", 0), ("-0", 0), ("1", 1), ("f", 15), ("F", 15), ("aa", 170), ("AA", 170),
        ("xyzzy", 0)] do
      let (m, O) ← two s ""
      assertEq (← parseHex host m (O 1)) v : C Unit) = .ok () := by decide +kernel

/-- test_mu_bbuf_get_put_byte, lines 748-773 (-1 is SIZE_MAX as a `size_t`) -/
example : (do
    let (m, O) ← two "abcd" ""
    assertEq (← getByte m (O 1) 0 77) (true, 97); assertEq (← getByte m (O 1) 3 97) (true, 100)
    assertEq (← getByte m (O 1) 4 100).1 false; assertEq (← getByte m (O 1) (host.toSz (-1)) 100).1 false
    let m := mem [119, 120, 121, 122] []
    let b : BBuf := ⟨⟨1, 0⟩, 4⟩
    let (r, m) ← putByte m b 0 97; assert r; assert (← cstrEq m b "axyz")
    let (r, m) ← putByte m b 3 100; assert r; assert (← cstrEq m b "axyd")
    let (r, m) ← putByte m b 4 42; assert (!r)
    let (r, m) ← putByte m b (host.toSz (-1)) 42; assert (!r)
    assert (← cstrEq m b "axyd") : C Unit) = .ok () := by decide +kernel

/-- test_mu_bbuf_clear, lines 775-783 -/
example : (do
    let m := mem [119, 120, 121, 122] []
    let b : BBuf := ⟨⟨1, 0⟩, 4⟩
    assert (← cstrEq m b "wxyz")
    let m ← clear m b
    assert (← bufEq m b [0, 0, 0, 0]) : C Unit) = .ok () := by decide +kernel

/-- `{1, 2, 3, 4}` in block 1, `{11, 12, 13, 14}` in block 2. -/
def m1234 : Mem := mem [1, 2, 3, 4] [11, 12, 13, 14]
def b1 : BBuf := ⟨⟨1, 0⟩, 4⟩
def b2 : BBuf := ⟨⟨2, 0⟩, 4⟩

/-- test_mu_bbuf_copy_into, lines 785-830: every case in which something is copied reads two uninitialised variables
(finding 10 of DESIGN.md), as the model reports … -/
example : ∀ k ∈ ([0, 1, 2, 3, -1, -2, -3] : List Int),
    (copyInto host m1234 b1 b2 k).map (·.1) = .error .uninit := by decide +kernel

/-- … and only the two cases that copy nothing are defined. -/
example : (do
    let (n, m) ← copyInto host m1234 b1 b2 4
    assertEq n 0; assert (← bufEq m b1 [1, 2, 3, 4])
    let (n, m) ← copyInto host m1234 b1 b2 (-4)
    assertEq n 0; assert (← bufEq m b1 [1, 2, 3, 4]) : C Unit) = .ok () := by decide +kernel

/-- A case of the test if the two uninitialised variables happen to hold 4. -/
def copyIs (k n : Int) (x : List UInt8) : C Unit := do
  let (r, m) ← copyIntoFrom host m1234 b1 b2 k (some 4) (some 4)
  assertEq r n; assert (← bufEq m b1 x)

/-- With that luck the test sees what it expects. -/
example : (do
    copyIs 0 4 [11, 12, 13, 14]; copyIs 1 3 [1, 11, 12, 13]; copyIs 2 2 [1, 2, 11, 12]; copyIs 3 1 [1, 2, 3, 11]
    copyIs 4 0 [1, 2, 3, 4]; copyIs (-1) 3 [12, 13, 14, 4]; copyIs (-2) 2 [13, 14, 3, 4]
    copyIs (-3) 1 [14, 2, 3, 4]; copyIs (-4) 0 [1, 2, 3, 4] : C Unit) = .ok () := by decide +kernel

/-- test_mu_bbuf_reverse, lines 832-840 -/
example : (do
    let m := mem (cs "rats").dropLast []
    assert (← cstrEq m b1 "rats")
    let m ← reverse host m b1
    assert (← cstrEq m b1 "star") : C Unit) = .ok () := by decide +kernel

/-- One rotation, or shift, of {1, 2, 3, 4}. -/
def rotIs (k : Int) (x : List UInt8) : C Unit := do assert (← bufEq (← rrotate host 10 m1234 b1 k) b1 x)
def shiftIs (k : Int) (x : List UInt8) : C Unit := do assert (← bufEq (← rshift host m1234 b1 k) b1 x)

/-- test_mu_bbuf_rrotate, lines 842-880 -/
example : (do
    rotIs 0 [1, 2, 3, 4]; rotIs 1 [4, 1, 2, 3]; rotIs 2 [3, 4, 1, 2]; rotIs 3 [2, 3, 4, 1]; rotIs 4 [1, 2, 3, 4]
    rotIs (-1) [2, 3, 4, 1]; rotIs (-2) [3, 4, 1, 2]; rotIs (-3) [4, 1, 2, 3]
    rotIs (-4) [1, 2, 3, 4] : C Unit) = .ok () := by decide +kernel

/-- test_mu_bbuf_rshift, lines 882-920 -/
example : (do
    shiftIs 0 [1, 2, 3, 4]; shiftIs 1 [0, 1, 2, 3]; shiftIs 2 [0, 0, 1, 2]; shiftIs 3 [0, 0, 0, 1]
    shiftIs 4 [0, 0, 0, 0]; shiftIs (-1) [2, 3, 4, 0]; shiftIs (-2) [3, 4, 0, 0]; shiftIs (-3) [4, 0, 0, 0]
    shiftIs (-4) [0, 0, 0, 0] : C Unit) = .ok () := by decide +kernel

end Mu.UnitTests
