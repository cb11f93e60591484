import Verif.C.Src

/-! # What a user of mu_task.c relies on, for the parsed source -/

namespace Mu.CS

/-- The call of a hook: nothing if none is installed (`c` is what the variable of the hook holds). -/
def told (cb : Nat → SemFn) (c : CVal) (h : Heap) (args : List CVal) : C Heap :=
  match c with
  | .fn f => do
    let (_, h) ← cb f h args
    .ok h
  | _ => .ok h

/-- A hook variable holds NULL or a function. -/
def Hook : CVal → Prop
  | .null => True
  | .fn _ => True
  | _ => False

/-- A `mu_task_t` (three members) at `(b, o)`. -/
structure Heap.Task (h : Heap) (b : Base) (o : Int) (fn st info : CVal) : Prop where
  wr : b.isLit = false
  fn : h.at b o = some fn
  st : h.at b (o + 1) = some st
  info : h.at b (o + 2) = some info

end Mu.CS
