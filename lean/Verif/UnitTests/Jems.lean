import Verif.UnitTests.BBuf
import Verif.Model.Jems

/-! # Unit tests of mu_jems (test/test_mu_jems/test_mu_jems.c), run on the model

The writer `test_writer` is at address 5.  Strings are in blocks 1 and 2. -/

namespace Mu.UnitTests
open Jems

/-- `mu_jems_init(&s_jems, s_levels, MAX_LEVEL, test_writer, 0)` on uninitialised memory. -/
def j0 : C Jems := init ⟨[], 81, 82, 83, 84, []⟩ (List.replicate 10 ⟨91, true⟩) 10 5 0

/-- The level and the number of items. -/
def at' (j : Jems) (lvl items : Nat) : C Unit := do
  assertEq (currLevel j) lvl
  assertEq (← itemCount j) items

/-- `TEST_ASSERT_EQUAL_STRING_LEN(s, s_test_string, s_test_idx)`; here the text must be complete, which is stronger,
and every character must have gone to `test_writer` with the argument 0. -/
def wrote (j : Jems) (s : String) : C Unit :=
  assertEq j.out ((cs s).dropLast.map fun c => ⟨5, c, 0⟩)

/-- A test of one item at the top level. -/
def itemIs (f : Jems → C Jems) (s : String) : C Unit := do
  let j ← f (← j0)
  at' j 0 1
  wrote j s

/-- A test of one member of an object. -/
def memberIs (f : Jems → C Jems) (s : String) : C Unit := do
  let j ← objectOpen host (← j0)
  let j ← f j
  let j ← objectClose host j
  wrote j s

/-- test_mu_jems_init, lines 51-56 -/
example : (do at' (← j0) 0 0; at' (← reset (← j0)) 0 0 : C Unit) = .ok () := by decide +kernel

/-- test_mu_jems_object, lines 58-68, and test_mu_jems_array, lines 70-80 -/
example : (do
    let j ← objectOpen host (← j0); at' j 1 0
    let j ← objectClose host j; at' j 0 1; wrote j "{}"
    let j ← arrayOpen host (← j0); at' j 1 0
    let j ← arrayClose host j; at' j 0 1; wrote j "[]" : C Unit) = .ok () := by decide +kernel

/-- test_mu_jems_number, …_representable_as_integer, …_negative_integer, lines 82-107; 1.5 = 3 * 2^-1 -/
example : (do
    itemIs (number host · (.fin false 3 (-1))) "1.500000"
    itemIs (number host · (.fin false 2 0)) "2"
    itemIs (integer host · (-2)) "-2" : C Unit) = .ok () := by decide +kernel

/-- test_mu_jems_string, lines 109-116 -/
example : itemIs (fun j => string host j (mem (cs "woof") []) ⟨1, 0⟩) "\"woof\"" = .ok () := by decide +kernel

/-- test_mu_jems_bool_true, …_bool_false, …_true, …_false, …_null, lines 118-164 -/
example : (do
    itemIs (bool host · true) "true"; itemIs (bool host · false) "false"
    itemIs (jtrue host ·) "true"; itemIs (jfalse host ·) "false"; itemIs (jnull host ·) "null" : C Unit) = .ok () := by
  decide +kernel

/-- `PI_100`, lines 13-23. -/
def pi100 : String := "3.1415926535897932384626433832795028841971693993751058209749445923078164062862089986280348253421170679"

/-- test_mu_jems_literal, lines 166-171 -/
example : itemIs (fun j => literal host j (mem (cs pi100) []) ⟨1, 0⟩ 102) pi100 = .ok () := by decide +kernel

/-- test_mu_jems_escaped_string, …_slashed_string, …_with_newline_and_return, …_uencoded_string, lines 173-203 -/
example : (do
    let str (x : List UInt8) (j : Jems) := string host j (mem x []) ⟨1, 0⟩
    itemIs (str (cs "say \"hey\"!")) "\"say \\\"hey\\\"!\""
    itemIs (str (cs "forward / and back \\ slash")) "\"forward / and back \\\\ slash\""
    itemIs (str (cs "newline \n and return \r oh my")) "\"newline \\u000a and return \\u000d oh my\""
    itemIs (str [0x01, 0x20, 0x7e, 0x7f, 0x80, 0x00]) "\"\\u0001 ~\\u007f\\u0080\"" : C Unit) = .ok () := by
  decide +kernel

/-- test_mu_jems_key_object and test_mu_jems_key_array, lines 205-226 -/
example : (do
    let m := mem (cs "key") []
    memberIs (fun j => do objectClose host (← keyObjectOpen host j m ⟨1, 0⟩)) "{\"key\":{}}"
    memberIs (fun j => do arrayClose host (← keyArrayOpen host j m ⟨1, 0⟩)) "{\"key\":[]}" : C Unit) = .ok () := by
  decide +kernel

/-- test_mu_jems_key_number … test_mu_jems_key_literal, lines 228-316; the `double` 1.234 is
694680242521899 * 2^-49 -/
example : (do
    let m := mem (cs "key") (cs "value")
    let k : Ptr := ⟨1, 0⟩
    memberIs (keyNumber host · m k (.fin false 694680242521899 (-49))) "{\"key\":1.234000}"
    memberIs (keyInteger host · m k 1234) "{\"key\":1234}"
    memberIs (keyString host · m k ⟨2, 0⟩) "{\"key\":\"value\"}"
    memberIs (keyBytes host · m k ⟨2, 0⟩ 5) "{\"key\":\"value\"}"
    memberIs (keyBool host · m k true) "{\"key\":true}"
    memberIs (keyTrue host · m k) "{\"key\":true}"
    memberIs (keyFalse host · m k) "{\"key\":false}"
    memberIs (keyNull host · m k) "{\"key\":null}"
    memberIs (keyLiteral host · (mem (cs "pi") (cs pi100)) ⟨1, 0⟩ ⟨2, 0⟩ 102) ("{\"pi\":" ++ pi100 ++ "}")
      : C Unit) = .ok () := by decide +kernel

/-- test_mu_jems_composite, lines 318-353 -/
example : (do
    let m := mem (cs "colors") (cs "valid")
    let j ← j0; at' j 0 0
    let j ← objectOpen host j; at' j 1 0
    let j ← string host j m ⟨1, 0⟩; at' j 1 1
    let j ← arrayOpen host j; at' j 2 0
    let j ← integer host j 1; at' j 2 1
    let j ← integer host j 2; at' j 2 2
    let j ← integer host j 3; at' j 2 3
    let j ← arrayClose host j; at' j 1 2
    let j ← string host j m ⟨2, 0⟩; at' j 1 3
    let j ← jtrue host j; at' j 1 4
    let j ← objectClose host j; at' j 0 1
    wrote j "{\"colors\":[1,2,3],\"valid\":true}" : C Unit) = .ok () := by decide +kernel

end Mu.UnitTests
