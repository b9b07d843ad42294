import Verif.Num
import Verif.Spec.Special
import Mathlib.Analysis.SpecialFunctions.Pow.Real
import Mathlib.MeasureTheory.Integral.Bochner.Set
import Mathlib.Analysis.SpecialFunctions.Gamma.Basic
import Mathlib.Analysis.SpecialFunctions.Trigonometric.Arctan

/-!
# Accuracy under rounding

`Rel u k x y`: the computed value `y` is `x` times a factor that `k` roundings of relative error `u` can produce.
`QuantAcc`: the same for a quantile, where the probability may be off as well. `Off u k m x y`: the computed value `y` is off by at most `gam u k * m`, where `gam u k = (1-u)^(-k) - 1` is
about `k u`.

`RelLib u` is the standard model of floating-point arithmetic: every operation, library function and constant
carries a relative error of at most `u` (logarithms: `u` times one plus the size of the result). Overflow and
underflow are left out of this model; `Verif/Lemmas/RoundInst.lean` gives a 53-bit instance and shows that it
is binary64 away from the ends of the exponent range.
-/

namespace Stats
open Real

namespace Spec

/-- accumulated error of `k` roundings of relative error `u` -/
noncomputable def gam (u k : ℝ) : ℝ := (1 - u) ^ (-k) - 1

/-- `y` is `x` after `k` roundings -/
def Rel (u k x y : ℝ) : Prop := ∃ t, (1 - u) ^ k ≤ t ∧ t ≤ (1 - u) ^ (-k) ∧ y = x * t

/-- `v` (log form first argument `true`) is `p > 0` up to `k` rounding errors of a logarithm of size `m`: the log form
is off by at most `e = gam u k * m`, the plain form by a factor between `exp (-e) (1-u)` and `exp e / (1-u)` -/
def LogAcc (u k m : ℝ) (v : Bool → Fl) (p : ℝ) : Prop :=
  0 < p ∧ (∃ y, v true = Fl.fin y ∧ |y - log p| ≤ gam u k * m) ∧
  ∃ y, v false = Fl.fin y ∧ p * exp (-(gam u k * m)) * (1 - u) ≤ y ∧ y ≤ p * exp (gam u k * m) / (1 - u)

/-- the value `f` is finite and is `x` up to `k` roundings -/
def RelAcc (u k : ℝ) (f : Fl) (x : ℝ) : Prop := ∃ y, f = Fl.fin y ∧ Rel u k x y

/-- the value `f` is finite and off `x` by at most `gam u k * m` -/
def AbsAcc (u k m : ℝ) (f : Fl) (x : ℝ) : Prop := ∃ y, f = Fl.fin y ∧ |y - x| ≤ gam u k * m

/-- the value `f` is, up to `gam u k * m q`, the quantile `q` of a probability at most `e` away from `p`, for the
density `d` -/
def QuantAcc (u k : ℝ) (m : ℝ → ℝ) (f : Fl) (d : ℝ → ℝ) (p e : ℝ) : Prop :=
  ∃ p' q, |p' - p| ≤ e ∧ (∫ t in Set.Iic q, d t) = p' ∧ AbsAcc u k (m q) f q

/-- `y` is off `x` by `k` rounding errors of a quantity of size `m` -/
def Off (u k m x y : ℝ) : Prop := |y - x| ≤ gam u k * m

end Spec

open Spec

/-- The standard model of floating-point arithmetic. -/
class RelLib [Lib] (u : outParam ℝ) : Prop where
  u_nonneg : 0 ≤ u
  u_lt : u < 1
  rnd : ∀ x, ∃ y : ℝ, Lib.rnd x = y ∧ Rel u 1 x y
  /-- halving is exact on representable numbers -/
  rnd_halve : ∀ x : ℝ, Lib.rnd x = x → Lib.rnd (1 / 2 * x) = ((1 / 2 * x : ℝ) : EReal)
  /-- so is doubling -/
  rnd_double : ∀ x : ℝ, Lib.rnd x = x → Lib.rnd (2 * x) = ((2 * x : ℝ) : EReal)
  exp : ∀ x, ∃ y : ℝ, Lib.exp x = y ∧ Rel u 1 (Real.exp x) y
  expm1 : ∀ x, ∃ y : ℝ, Lib.expm1 x = y ∧ Rel u 1 (Real.exp x - 1) y
  log : ∀ x, 0 < x → ∃ y : ℝ, Lib.log x = y ∧ |y - Real.log x| ≤ u * (|Real.log x| + 1)
  log1p : ∀ x, -1 < x → ∃ y : ℝ, Lib.log1p x = y ∧ Rel u 1 (Real.log (1 + x)) y
  sqrt : ∀ x, 0 ≤ x → ∃ y : ℝ, Lib.sqrt x = y ∧ Rel u 1 √x y
  tan : ∀ x, |x| < Real.pi / 2 → ∃ y : ℝ, Lib.tan x = y ∧ Rel u 1 (Real.tan x) y
  atan : ∀ x, ∃ y : ℝ, Lib.atan x = y ∧ Rel u 1 (Real.arctan x) y
  tanh : ∀ x, ∃ y : ℝ, Lib.tanh x = y ∧ Rel u 1 (Real.tanh x) y
  erf : ∀ x, ∃ y : ℝ, Lib.erf x = y ∧ Rel u 1 (Spec.erf x) y
  erfInv : ∀ x, -1 < x → x < 1 → ∃ z y : ℝ, Spec.erf z = x ∧ Lib.erfInv x = y ∧ Rel u 1 z y
  pow : ∀ x y, 0 < x → ∃ z : ℝ, Lib.pow x y = z ∧ Rel u 1 (x ^ y) z
  /-- integral powers by repeated multiplication -/
  powi : ∀ x n, 0 < x → ∃ y : ℝ, Lib.powi x n = y ∧ Rel u n (x ^ n) y
  lgamma : ∀ x, 0 < x → ∃ y : ℝ, Lib.lgamma x = y ∧
    |y - Real.log (Real.Gamma x)| ≤ u * (|Real.log (Real.Gamma x)| + 1)
  lbinom : ∀ n k : ℕ, k ≤ n → ∃ y : ℝ, Lib.lbinom n k = y ∧
    |y - Real.log (n.choose k)| ≤ u * (|Real.log (n.choose k)| + 1)
  igamma : ∀ a z, 0 < a → 0 < z → ∃ y : ℝ, Lib.igamma a z = y ∧ Rel u 1 (gammaP a z) y
  ibeta : ∀ a b z, 0 < a → 0 < b → 0 < z → z ≤ 1 → ∃ y : ℝ, Lib.ibeta a b z = y ∧ Rel u 1 (betaI a b z) y
  igammaInv : ∀ a p, 0 < a → 0 < p → p < 1 → ∃ z y : ℝ, 0 < z ∧ gammaP a z = p ∧ Lib.igammaInv a p = y ∧ Rel u 1 z y
  ibetaInv : ∀ a b p, 0 < a → 0 < b → 0 < p → p < 1 → ∃ z y : ℝ, 0 < z ∧ z < 1 ∧ betaI a b z = p ∧
    Lib.ibetaInv a b p = y ∧ Rel u 1 z y
  pi : Rel u 1 Real.pi Lib.pi
  sqrt2 : Rel u 1 √2 Lib.sqrt2
  log2 : Rel u 1 (Real.log 2) Lib.log2
  log2pi : Rel u 1 (Real.log (2 * Real.pi)) Lib.log2pi
  logpi : Rel u 1 (Real.log Real.pi) Lib.logpi

end Stats
