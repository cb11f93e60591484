import Verif.C.Src

/-! # Results that need no more steps

The semantics of C/Src.lean is bounded: it gives up (`diverge`) when the bound on nested calls and loop rounds is used up. -/

namespace Mu.CS

/-- `b` is what `a` is, unless `a` has given up. -/
def Le {α : Type} (a b : C α) : Prop := a = .error .diverge ∨ b = a

/-- The same for functions. -/
def SemFn.Le (f g : SemFn) : Prop := ∀ h args, CS.Le (f h args) (g h args)

/-- User functions that see of the library only what its functions do: given more steps for the calls they make, they do the
same, unless they gave up. -/
def Ext.Monotone (X : Ext) : Prop :=
  ∀ S S' : Fn → SemFn, (∀ f, (S f).Le (S' f)) → ∀ k, (X.cb S k).Le (X.cb S' k)

end Mu.CS
