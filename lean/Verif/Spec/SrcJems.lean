import Verif.Lemmas.SrcMem
import Verif.Spec.SrcMem
import Verif.Spec.Jems

/-! # What a user of mu_jems.c relies on, for the parsed source -/

namespace Mu.CS

open Mu.Jems (Call Item Level)

/-- Where a `mu_jems_t` is in memory, where its array of `len` levels is, its writer function and the argument for it,
the memory the writer uses (`cells`), and a property `inv` of the text written so far and that memory which the writer
maintains. -/
structure Emitter where
  b : Base
  o : Int
  lb : Base
  lo : Int
  len : Nat
  w : Nat
  arg : CVal
  cells : Base → Int → Prop
  inv : List UInt8 → Heap → Prop

/-- The struct (five members) and the levels (two members each). -/
def Emitter.Own (E : Emitter) (b : Base) (o : Int) : Prop := span E.b E.o 5 b o ∨ span E.lb E.lo (2 * E.len) b o

/-- What the emitter and the writer may change. -/
def Emitter.Uses (E : Emitter) (b : Base) (o : Int) : Prop := E.cells b o ∨ E.Own b o

/-- The writer, run by `cb`: passed a character (a `char`, signed or not) and the argument it returns, having changed
its own memory only and recorded the character; what it has recorded depends on its own memory only. -/
structure WriterOk (A : Arch) (cb : Nat → SemFn) (E : Emitter) : Prop where
  call : ∀ out h c, E.inv out h → ∃ v h', cb E.w h [.int ((A.it .char).conv (UInt8.toNat c)), E.arg] = .ok (v, h') ∧
    E.inv (out ++ [c]) h' ∧ Heap.Only E.cells h h'
  keep : ∀ out h h', E.inv out h → (∀ b o, E.cells b o → h'.at b o = h.at b o) → E.inv out h'

/-- The struct and the levels are memory of the caller's, apart from each other, from the writer's memory and from what
is not in use; the writer's memory holds no string constants; an `int`-sized count of levels is not needed, but a `size_t` must do. -/
structure Emitter.Placed (E : Emitter) (A : Arch) (h : Heap) : Prop where
  fresh : h.Fresh
  wr : E.b.isLit = false
  wrl : E.lb.isLit = false
  struct : ∀ i : Nat, i < 5 → (h.at E.b (E.o + i)).isSome = true
  levels : ∀ i : Nat, i < 2 * E.len → (h.at E.lb (E.lo + i)).isSome = true
  apart : ∀ i k : Nat, i < 5 → k < 2 * E.len → ¬ (E.b = E.lb ∧ E.o + i = E.lo + k)
  own : ∀ b o, E.cells b o → ¬ E.Own b o
  old : ∀ k o, E.cells (.obj k) o → k < h.next
  arg : E.arg ≠ .undef
  len : E.len < A.szMod
  lit : ∀ b o, E.cells b o → b.isLit = false

/-- A character in memory: as a `uint8_t` or as a signed `char`. -/
def CharCell (v : Int) (c : UInt8) : Prop := v = c.toNat ∨ (128 ≤ c.toNat ∧ v = (c.toNat : Int) - 256)

/-- The texts `m` (indexed by number) are in memory at the places `β`, outside what the emitter uses. -/
def Emitter.Texts (E : Emitter) (β : Place) (h : Heap) (m : Mem) : Prop :=
  ∀ k i c, (m k)[i]? = some c → ¬ E.Uses (β k).1 ((β k).2 + (i : Nat)) ∧
    ∃ v, h.at (β k).1 ((β k).2 + i) = some (.int v) ∧ CharCell v c

/-- Bytes passed to `mu_jems_bytes` are `uint8_t`. -/
def Unsigned (β : Place) (h : Heap) : Item → Prop
  | .bytes p n => ∀ i v, i < n → h.at (β p.blk).1 ((β p.blk).2 + p.off + (i : Nat)) = some (.int v) → 0 ≤ v
  | _ => True

/-- The same for a call. -/
def UnsignedCall (β : Place) (h : Heap) : Call → Prop
  | .item x => Unsigned β h x
  | .key _ x => Unsigned β h x
  | _ => True

/-- The call of the C function for an item. -/
def itemRun (S : Fn → SemFn) (β : Place) (h : Heap) (j : CVal) : Item → C (CVal × Heap)
  | .objectOpen => S .mu_jems_object_open h [j]
  | .arrayOpen => S .mu_jems_array_open h [j]
  | .number v => S .mu_jems_number h [j, .dbl v]
  | .integer v => S .mu_jems_integer h [j, .int v]
  | .string s => S .mu_jems_string h [j, pv β s]
  | .bytes p n => S .mu_jems_bytes h [j, pv β p, .int n]
  | .bool b => S .mu_jems_bool h [j, .ofBool b]
  | .true => S .mu_jems_true h [j]
  | .false => S .mu_jems_false h [j]
  | .null => S .mu_jems_null h [j]
  | .literal p n => S .mu_jems_literal h [j, pv β p, .int n]

/-- The call of the C function for a key and an item. -/
def keyRun (S : Fn → SemFn) (β : Place) (h : Heap) (j : CVal) (k : Ptr) : Item → C (CVal × Heap)
  | .objectOpen => S .mu_jems_key_object_open h [j, pv β k]
  | .arrayOpen => S .mu_jems_key_array_open h [j, pv β k]
  | .number v => S .mu_jems_key_number h [j, pv β k, .dbl v]
  | .integer v => S .mu_jems_key_integer h [j, pv β k, .int v]
  | .string s => S .mu_jems_key_string h [j, pv β k, pv β s]
  | .bytes p n => S .mu_jems_key_bytes h [j, pv β k, pv β p, .int n]
  | .bool b => S .mu_jems_key_bool h [j, pv β k, .ofBool b]
  | .true => S .mu_jems_key_true h [j, pv β k]
  | .false => S .mu_jems_key_false h [j, pv β k]
  | .null => S .mu_jems_key_null h [j, pv β k]
  | .literal p n => S .mu_jems_key_literal h [j, pv β k, pv β p, .int n]

/-- A call, on the `mu_jems_t` at `j`. -/
def callRun (S : Fn → SemFn) (β : Place) (h : Heap) (j : CVal) : Call → C (CVal × Heap)
  | .reset => S .mu_jems_reset h [j]
  | .objectClose => S .mu_jems_object_close h [j]
  | .arrayClose => S .mu_jems_array_close h [j]
  | .item x => itemRun S β h j x
  | .key k x => keyRun S β h j k x

/-- A sequence of calls, each on what the one before returned. -/
def callsRun (S : Fn → SemFn) (β : Place) : Heap → CVal → List Call → C (CVal × Heap)
  | h, j, [] => .ok (j, h)
  | h, j, c :: cs => do
    let (j, h) ← callRun S β h j c
    callsRun S β h j cs

/-- `mu_jems_init` with `D` levels, then the calls. -/
def Emitter.run (E : Emitter) (S : Fn → SemFn) (β : Place) (h : Heap) (D : Nat) (cs : List Call) : C (CVal × Heap) := do
  let (j, h) ← S .mu_jems_init h [.ptr E.b E.o, .ptr E.lb E.lo, .int D, .fn E.w, E.arg]
  callsRun S β h j cs

end Mu.CS
