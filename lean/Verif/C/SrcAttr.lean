import Lean.Meta.Tactic.Simp.RegisterCommand

/-! Registration of a simplification set; no content. -/

/-- Rules that execute a syntax tree of `Verif/C/Src.lean`. -/
register_simp_attr csrc
