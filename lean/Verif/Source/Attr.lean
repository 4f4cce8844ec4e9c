import Lean.Meta.Tactic.Simp.RegisterCommand

/-- Equations of the interpreter of the source text. -/
register_simp_attr text
