import Verif.Num
import Verif.Spec.Special
import Mathlib.Analysis.SpecialFunctions.Pow.Real
import Mathlib.Analysis.SpecialFunctions.Trigonometric.Arctan

/-!
# Exact arithmetic

`Ideal` says that rounding is the identity and every library function is the mathematical one.
`eps` and `minpos` stay arbitrary positive numbers, so the cut-offs of the code remain visible.
-/

namespace Stats
open Real

/-- Exact arithmetic and exact library functions. -/
class Ideal [Lib] : Prop where
  rnd : ∀ r : ℝ, Lib.rnd r = (r : EReal)
  exp : ∀ r : ℝ, Lib.exp r = (Real.exp r : EReal)
  log : ∀ r : ℝ, 0 < r → Lib.log r = (Real.log r : EReal)
  expm1 : ∀ r : ℝ, Lib.expm1 r = ((Real.exp r - 1 : ℝ) : EReal)
  log1p : ∀ r : ℝ, -1 < r → Lib.log1p r = (Real.log (1 + r) : EReal)
  sqrt : ∀ r : ℝ, 0 ≤ r → Lib.sqrt r = (√r : EReal)
  tan : ∀ r : ℝ, Lib.tan r = (Real.tan r : EReal)
  atan : ∀ r : ℝ, Lib.atan r = (Real.arctan r : EReal)
  tanh : ∀ r : ℝ, Lib.tanh r = (Real.tanh r : EReal)
  pow : ∀ x y : ℝ, 0 < x → Lib.pow x y = ((x ^ y : ℝ) : EReal)
  powi : ∀ (x : ℝ) (n : ℕ), Lib.powi x n = ((x ^ n : ℝ) : EReal)
  lgamma : ∀ r : ℝ, 0 < r → Lib.lgamma r = (Real.log (Real.Gamma r) : EReal)
  /-- the log of the gamma function has a pole at 0 -/
  lgamma_zero : Lib.lgamma 0 = ⊤
  erf : ∀ r : ℝ, Lib.erf r = (Spec.erf r : EReal)
  erfInv : ∀ r : ℝ, Lib.erfInv (Spec.erf r) = (r : EReal)
  igamma : ∀ a z : ℝ, 0 < a → 0 ≤ z → Lib.igamma a z = (Spec.gammaP a z : EReal)
  igammaInv : ∀ a z : ℝ, 0 < a → 0 ≤ z → Lib.igammaInv a (Spec.gammaP a z) = (z : EReal)
  ibeta : ∀ a b z : ℝ, 0 < a → 0 < b → 0 ≤ z → z ≤ 1 → Lib.ibeta a b z = (Spec.betaI a b z : EReal)
  ibetaInv : ∀ a b z : ℝ, 0 < a → 0 < b → 0 ≤ z → z ≤ 1 →
    Lib.ibetaInv a b (Spec.betaI a b z) = (z : EReal)
  lbinom : ∀ n k : ℕ, k ≤ n → Lib.lbinom n k = (Real.log (n.choose k) : EReal)
  lmgamma : ∀ (a : ℝ) (p : ℕ), ((p : ℝ) - 1) / 2 < a →
    Lib.lmgamma a p = (Real.log (Spec.mgamma a p) : EReal)
  pi : Lib.pi = π
  log2 : Lib.log2 = Real.log 2
  log2pi : Lib.log2pi = Real.log (2 * π)
  logpi : Lib.logpi = Real.log π
  sqrt2 : Lib.sqrt2 = √2
  sqrtHalfPi : Lib.sqrtHalfPi = √(π / 2)

end Stats
