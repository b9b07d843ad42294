import Verif.Instances

/-! The exact instance, for examples: `open scoped Stats.Exact`. -/

namespace Stats.Exact
noncomputable scoped instance (priority := high) lib : Lib := exactLib
scoped instance (priority := high) ideal : Ideal := exactLib_ideal
theorem eps_le {r : ℝ} (h : 1 / 1024 ≤ r) : Lib.eps ≤ r := Lib.eps_le.trans h
end Stats.Exact
