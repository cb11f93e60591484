import Verif.UnitTests.Basic
import Verif.Model.Array

/-! # Unit tests of mu_array (test/test_mu_array/test_mu_array.c), run on the model

`"a"`, …, `"d"` are the pointers 1, …, 4; `&one`, … are 11, …, 14.  Uninitialised memory holds 81, …, 91, …. -/

namespace Mu.UnitTests
open Arr

/-- `int_compare`, lines 22-29: the pointers are ordered as the integers they point to. -/
def intCompare : Cmp := fun _ a b => if a < b then -1 else if a > b then 1 else 0

/-- `mu_array_init(&a, storage, 3)` on uninitialised memory. -/
def fresh : Arr := init ⟨[], 81, 82⟩ [91, 92, 93] 3

/-- A sequence of pushes. -/
def pushAll (a : Arr) : List Val → C Arr
  | [] => .ok a
  | x :: xs => do let (_, a) ← push host a x; pushAll a xs

/-- test_mu_array_init, lines 31-37 -/
example : capacity fresh = 3 := by decide +kernel

/-- test_mu_array_push, lines 39-69 -/
example : (do
    let a := fresh
    assert (isEmpty a); assert (!isFull a); assertEq (count a) 0
    let (r, a) ← push host a 1
    assert r; assert (!isEmpty a); assert (!isFull a); assertEq (count a) 1
    let (r, a) ← push host a 2
    assert r; assert (!isEmpty a); assert (!isFull a); assertEq (count a) 2
    let (r, a) ← push host a 3
    assert r; assert (!isEmpty a); assert (isFull a); assertEq (count a) 3
    let (r, a) ← push host a 4
    assert (!r); assertEq (count a) 3 : C Unit) = .ok () := by decide +kernel

/-- test_mu_array_pop, lines 71-104 -/
example : (do
    let a ← pushAll fresh [1, 2, 3]
    assert (!isEmpty a); assert (isFull a)
    let (r, obj, a) ← pop host a
    assert r; assertEq obj (some 3); assert (!isEmpty a); assert (!isFull a)
    let (r, obj, a) ← pop host a
    assert r; assertEq obj (some 2); assert (!isEmpty a); assert (!isFull a)
    let (r, obj, a) ← pop host a
    assert r; assertEq obj (some 1); assert (isEmpty a); assert (!isFull a)
    let (r, _, _) ← pop host a
    assert (!r) : C Unit) = .ok () := by decide +kernel

/-- test_mu_array_peek, lines 106-136 -/
example : (do
    let a ← pushAll fresh [1, 2, 3]
    let (r, obj, a) ← peek host a; assert r; assertEq obj (some 3)
    let (r, obj, a) ← pop host a; assert r; assertEq obj (some 3)
    let (r, obj, a) ← peek host a; assert r; assertEq obj (some 2)
    let (r, obj, a) ← pop host a; assert r; assertEq obj (some 2)
    let (r, obj, a) ← peek host a; assert r; assertEq obj (some 1)
    let (r, obj, a) ← pop host a; assert r; assertEq obj (some 1)
    let (r, _, _) ← peek host a
    assert (!r) : C Unit) = .ok () := by decide +kernel

/-- test_mu_array_ref, lines 138-158 -/
example : (do
    let a ← pushAll fresh [1, 2]
    let (r, obj, a) ← ref a 0; assert r; assertEq obj (some 1)
    let (r, obj, a) ← ref a 1; assert r; assertEq obj (some 2)
    let (r, _, a) ← ref a 2; assert (!r)
    let (r, _, _) ← ref a 3; assert (!r) : C Unit) = .ok () := by decide +kernel

/-- test_mu_array_insert, lines 160-224 -/
example : (do
    let z := init ⟨[], 81, 82⟩ [0, 0, 0] 3
    let (r, a) ← insert host z 1 0
    assert r; assertEq (a.storage.take 1) [1]; assertEq (count a) 1
    let a ← pushAll z [1]
    let (r, a) ← insert host a 2 0
    assert r; assertEq (a.storage.take 2) [2, 1]; assertEq (count a) 2
    let a ← pushAll z [1, 2]
    let (r, a) ← insert host a 3 2
    assert r; assertEq a.storage [1, 2, 3]; assertEq (count a) 3
    let a ← pushAll z [1, 2, 3]
    let (r, a) ← insert host a 4 3
    assert (!r); assertEq a.storage [1, 2, 3]; assertEq (count a) 3
    let a ← pushAll z [1, 2, 3]
    let (r, a) ← insert host a 4 0
    assert (!r); assertEq a.storage [1, 2, 3]; assertEq (count a) 3
    let (r, a) ← insert host z 4 1
    assert (!r); assertEq (count a) 0 : C Unit) = .ok () := by decide +kernel

/-- test_mu_array_delete, lines 226-285, the cases "head" and "middle" (231-249): these calls read one item behind
the three-item array `storage` (finding 3 of DESIGN.md), which the test does not notice; the model reports it … -/
example : (do let a ← pushAll fresh [1, 2, 3]; delete host a 0) = .error .oob ∧
    (do let a ← pushAll fresh [1, 2, 3]; delete host a 1) = .error .oob := by decide +kernel

/-- … and with one more accessible item behind the array, as on the machine that runs the test, the assertions hold. -/
example : (do
    let z := init ⟨[], 81, 82⟩ [91, 92, 93, 94] 3
    let a ← pushAll z [1, 2, 3]
    let (r, obj, a) ← delete host a 0
    assert r; assertEq obj (some 1); assertEq (a.storage.take 2) [2, 3]
    let a ← pushAll z [1, 2, 3]
    let (r, obj, a) ← delete host a 1
    assert r; assertEq obj (some 2); assertEq (a.storage.take 2) [1, 3] : C Unit) = .ok () := by decide +kernel

/-- test_mu_array_delete, the other cases, lines 251-284 -/
example : (do
    let a ← pushAll fresh [1, 2, 3]
    let (r, obj, a) ← delete host a 2
    assert r; assertEq obj (some 3); assertEq (a.storage.take 2) [1, 2]
    let a ← pushAll fresh [1, 2, 3]
    let (r, _, a) ← delete host a 3
    assert (!r); assertEq a.storage [1, 2, 3]
    let a ← pushAll fresh [1, 2]
    let (r, _, a) ← delete host a 2
    assert (!r); assertEq (a.storage.take 2) [1, 2]
    let (r, _, _) ← delete host fresh 0
    assert (!r) : C Unit) = .ok () := by decide +kernel

/-- test_mu_array_index, lines 287-308, and test_mu_array_rindex, lines 310-331 -/
example : (do
    let a ← pushAll (init ⟨[], 81, 82⟩ [0, 0, 0, 0, 0] 5) [1, 2, 3, 2, 1]
    assertEq (← index host a 1) 0; assertEq (← index host a 2) 1; assertEq (← index host a 3) 2
    assertEq (← index host a 4) (notFound host)
    assertEq (← rindex host a 1) 4; assertEq (← rindex host a 2) 3; assertEq (← rindex host a 3) 2
    assertEq (← rindex host a 4) (notFound host) : C Unit) = .ok () := by decide +kernel

/-- test_mu_array_sort, lines 333-361 -/
example : (do
    let a ← sort host fresh intCompare
    assertEq (count a) 0
    let a ← pushAll (reset a) [13, 11, 12]
    let a ← sort host a intCompare
    assertEq a.storage [11, 12, 13]
    let a ← pushAll (reset a) [11, 12, 13]
    let a ← sort host a intCompare
    assertEq a.storage [11, 12, 13] : C Unit) = .ok () := by decide +kernel

/-- test_mu_array_insert_sorted, lines 363-401 -/
example : (do
    let z := init ⟨[], 81, 82⟩ [0, 0, 0] 3
    let (r, a) ← insertSorted host z 12 intCompare
    assert r; assertEq (a.storage.take 1) [12]; assertEq (count a) 1
    let (r, a) ← insertSorted host a 13 intCompare
    assert r; assertEq (a.storage.take 2) [12, 13]; assertEq (count a) 2
    let (r, a) ← insertSorted host a 11 intCompare
    assert r; assertEq a.storage [11, 12, 13]; assertEq (count a) 3
    let (r, _) ← insertSorted host a 14 intCompare
    assert (!r)
    let a ← pushAll z [11, 13]
    let (r, a) ← insertSorted host a 12 intCompare
    assert r; assertEq a.storage [11, 12, 13]; assertEq (count a) 3 : C Unit) = .ok () := by decide +kernel

end Mu.UnitTests
