import Verif.Lemmas.SrcOrder
import Verif.Props.SrcSpsc

/-! # C133: no result depends on the order in which operands and arguments are evaluated -/

namespace Mu.CS

open Act

/-- **C133, order of evaluation**: in whichever order the compiler has the operands of an operator, the two sides of an assignment
and the arguments of a call evaluated, and however it chooses anew each time, a call of any function of the library ends
with the result and the memory it has with evaluation from left to right, or with a fault if that ends with a
fault.  The functions of the user called on the way must have the same property. -/
theorem C133_order_of_evaluation (A : Arch) {X : Ext} {Y : AExt} (hY : Y.Runs X) (hC : Y.Confluent) (n : Nat) (f : Fn) (args : List CVal)
    (h : Heap) {r : C (CVal × Heap)} (o : (semA A Y prog n f args).Out h r) (x : CVal × Heap) :
    r = .ok x ↔ sem A X prog n f h args = .ok x := by
  rw [firm_semA hY hC n f args h r o x, semA_run hY]

/-- **C133, each pair of orders**: the same without reference to an order. -/
theorem C133_any_two_orders (A : Arch) {X : Ext} {Y : AExt} (hY : Y.Runs X) (hC : Y.Confluent) (n : Nat) (f : Fn) (args : List CVal) :
    (semA A Y prog n f args).Confluent :=
  (firm_semA hY hC n f args).confluent

/-- **C133, in every order there is a result**: the statement above is not about nothing. -/
theorem C133_some_outcome (A : Arch) {X : Ext} {Y : AExt} (hY : Y.Runs X) (n : Nat) (f : Fn) (args : List CVal) (h : Heap) :
    (semA A Y prog n f args).Out h (sem A X prog n f h args) := by
  rw [← semA_run hY]
  exact out_run _ _

/-! The library has expressions in which two operands have to do with each other, such as `array->items[array->count++]`; and there
are expressions that do not have the property. -/

/-- User functions that call the library: number 0 appends an item to an array. -/
def orderExt : Ext where
  fn := fun _ _ _ => .error .ptr
  cb := fun S k h args => if k = 0 then S .mu_array_push h args else .error .ptr

/-- The same, one access at a time. -/
def orderAExt : AExt where
  fn := fun _ _ _ => .error .ptr
  cb := fun S k args => if k = 0 then S .mu_array_push args else .fail .ptr

example : orderAExt.Runs orderExt ∧ orderAExt.Confluent := by
  refine ⟨⟨rfl, fun S S' hS k args h => ?_⟩, fun S hS k args => ?_⟩
  · simp only [orderAExt, orderExt]
    split
    · exact hS _ _ _
    · rfl
  · simp only [orderAExt]
    split
    · exact hS _ _
    · exact (firm_fail _).confluent

/-- An array with one of two items. -/
def orderDemo : Heap where
  mem
    | .obj 0 => [.ptr (.obj 1) 0, .int 2, .int 1]
    | .obj 1 => [.int 5, .undef]
    | _ => []
  next := 2

/-- Evaluation from right to left. -/
def Act.rtl {α : Type} : Act α → Heap → C (α × Heap)
  | .done a, h => .ok (a, h)
  | .fail e, _ => .error e
  | .mem f k, h => do
    let (v, h) ← f h
    (k v).rtl h
  | .pick k, h => (k false).rtl h

theorem Act.rtl_out {α : Type} (t : Act α) (h : Heap) : t.Out h (t.rtl h) := by
  induction t generalizing h with
  | done a => exact .done
  | fail e => exact .fail
  | mem f k ih =>
    simp only [rtl]
    cases e : f h with
    | error x => exact .fault e
    | ok x => exact .mem e (ih x.1 x.2)
  | pick k ih => exact .pick false (ih false h)

example : ((semA Arch.w16 orderAExt prog 5 .mu_array_push [.ptr (.obj 0) 0, .int 9]).rtl orderDemo).map
    (fun x => (x.1, x.2.mem (.obj 0), x.2.mem (.obj 1))) = .ok (.int 1, [.ptr (.obj 1) 0, .int 2, .int 2], [.int 5, .int 9]) := rfl

/-- `i++ + i` does not have the property. -/
example : ¬ (evalA Arch.w16 ⟨fun _ _ => .fail .ptr, fun _ _ => .fail .ptr⟩
    (.bin (.arith .add .int) (.updv 0 (.arith .add .int) (some .int) true (.num 1)) (.var 0)) [.int 3]).Confluent := by
  intro c
  have h1 := c orderDemo _ _ (out_run _ _) (rtl_out _ _) ((.int 7, [.int 4]), orderDemo) rfl
  cases h1

end Mu.CS
