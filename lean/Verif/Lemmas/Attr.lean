import Mathlib.Tactic.Attr.Register

/-! The simp set for exact arithmetic. -/

/-- Evaluates model operations on finite numbers in exact arithmetic. -/
register_simp_attr ideal
