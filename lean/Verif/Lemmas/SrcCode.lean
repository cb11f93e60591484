import Verif.Lemmas.Src
import Mathlib.Tactic.DeriveCountable
import Mathlib.Data.Countable.Basic
import Mathlib.Logic.Equiv.List

/-! # Elements of containers

The container models of `Verif/Model` use natural numbers for the `void *` elements, 0 being
`NULL`.  Here every value of the C semantics gets such a number. -/

namespace Mu.CS

deriving instance Countable for Mu.Jems.Dbl
deriving instance Countable for Glob
instance : Countable UInt8 :=
  Function.Injective.countable (f := UInt8.toNat) (fun _ _ h => UInt8.toNat_inj.mp h)
deriving instance Countable for Base
deriving instance Countable for CVal

theorem exists_enc : ∃ f : CVal → Nat, Function.Injective f ∧ f .null = 0 := by
  obtain ⟨f, hf⟩ := Countable.exists_injective_nat CVal
  refine ⟨fun v => if v = .null then 0 else f v + 1, ?_, by simp⟩
  intro a b h
  simp only at h
  split at h <;> split at h <;> simp_all
  exact hf h

instance : Nonempty CVal := ⟨.null⟩

/-- The number of a value. -/
noncomputable def enc : CVal → Nat := exists_enc.choose

/-- The value with a number. -/
noncomputable def code : Nat → CVal := Function.invFun enc

theorem enc_inj {a b : CVal} : enc a = enc b ↔ a = b := exists_enc.choose_spec.1.eq_iff
@[simp] theorem enc_null : enc .null = 0 := exists_enc.choose_spec.2
@[simp] theorem code_enc (v : CVal) : code (enc v) = v :=
  Function.leftInverse_invFun exists_enc.choose_spec.1 v
@[simp] theorem code_zero : code 0 = .null := by rw [← enc_null, code_enc]

end Mu.CS
