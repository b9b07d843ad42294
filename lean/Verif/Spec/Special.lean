import Mathlib.Analysis.SpecialFunctions.Gamma.Basic
import Mathlib.MeasureTheory.Integral.IntervalIntegral.Basic

/-! # Special functions (textbook definitions) -/

namespace Stats.Spec
open Real

/-- error function -/
noncomputable def erf (x : ℝ) : ℝ := 2 / √π * ∫ t in (0 : ℝ)..x, Real.exp (-t ^ 2)

/-- regularised lower incomplete gamma function `P(a, z)` -/
noncomputable def gammaP (a z : ℝ) : ℝ :=
  (∫ t in (0 : ℝ)..z, t ^ (a - 1) * Real.exp (-t)) / Real.Gamma a

/-- beta function -/
noncomputable def beta (a b : ℝ) : ℝ := Real.Gamma a * Real.Gamma b / Real.Gamma (a + b)

/-- regularised incomplete beta function `I_z(a, b)` -/
noncomputable def betaI (a b z : ℝ) : ℝ :=
  (∫ t in (0 : ℝ)..z, t ^ (a - 1) * (1 - t) ^ (b - 1)) / beta a b

/-- multivariate gamma function `Γ_p(a)` -/
noncomputable def mgamma (a : ℝ) (p : ℕ) : ℝ :=
  π ^ ((p : ℝ) * (p - 1) / 4) * ∏ j ∈ Finset.range p, Real.Gamma (a - j / 2)

end Stats.Spec
