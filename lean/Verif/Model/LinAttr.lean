import Lean.Meta.Tactic.Simp.RegisterCommand

/-!
# The simp set that unfolds the small linear algebra of `Verif.Model.Linear`
-/

/-- Component formulas of vectors, matrices and isometries. -/
register_simp_attr lin
