import Mathlib.Analysis.SpecialFunctions.Exp
import Mathlib.Analysis.Complex.Trigonometric

/-! Elementary function facts. -/

namespace Stats

theorem tanh_eq' (x : ℝ) : Real.tanh x = 1 - 2 / (Real.exp (2 * x) + 1) := by
  have h : Real.exp (2 * x) = Real.exp x / Real.exp (-x) := by
    rw [← Real.exp_sub]; ring_nf
  have := Real.exp_pos x
  have := Real.exp_pos (-x)
  rw [Real.tanh_eq, h]
  field_simp
  ring

theorem monotone_tanh : Monotone Real.tanh := by
  intro x y h
  rw [tanh_eq', tanh_eq']
  have h1 : Real.exp (2 * x) ≤ Real.exp (2 * y) := Real.exp_le_exp.2 (by linarith)
  have := Real.exp_pos (2 * x)
  gcongr

end Stats
