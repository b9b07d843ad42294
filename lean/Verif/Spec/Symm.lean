import Verif.Num
import Mathlib.Analysis.SpecialFunctions.Log.Basic

/-! # Symmetry about a centre and location-scale families -/

namespace Stats.Spec
open Fl

/-- The density `d` takes the same value at equal distances on both sides of `mu` (both forms). -/
def SymmDens (d : Fl → Bool → Fl) (mu : ℝ) : Prop :=
  ∀ (t : ℝ) (b : Bool), ∃ r : ℝ, d (fin (mu + t)) b = fin r ∧ d (fin (mu - t)) b = fin r

/-- The distribution function `p` satisfies `p(mu - t) = 1 - p(mu + t)`. -/
def SymmCdf (p : Fl → Bool → Fl) (mu : ℝ) : Prop :=
  ∀ t : ℝ, ∃ r : ℝ, p (fin (mu + t)) false = fin r ∧ p (fin (mu - t)) false = fin (1 - r)

/-- The quantiles of `u` and `1 - u` lie at equal distances on both sides of `mu`. -/
def SymmQuant (q : Fl → Fl) (mu : ℝ) : Prop :=
  ∀ u : ℝ, 0 < u → u < 1 → ∃ t : ℝ, q (fin u) = fin (mu + t) ∧ q (fin (1 - u)) = fin (mu - t)

/-- `d` is the density of `mu + sigma X` where `X` has density `d₀` (both forms). -/
def ScaledDens (d₀ d : Fl → Bool → Fl) (mu sigma : ℝ) : Prop :=
  ∀ x : ℝ, ∃ r : ℝ, 0 < r ∧ d₀ (fin x) false = fin r ∧ d (fin (mu + sigma * x)) false = fin (r / sigma) ∧
    d₀ (fin x) true = fin (Real.log r) ∧ d (fin (mu + sigma * x)) true = fin (Real.log r - Real.log sigma)

/-- `p` is the distribution function of `mu + sigma X` where `X` has distribution function `p₀`. -/
def ScaledCdf (p₀ p : Fl → Bool → Fl) (mu sigma : ℝ) : Prop :=
  ∀ x : ℝ, ∃ r : ℝ, p₀ (fin x) false = fin r ∧ p (fin (mu + sigma * x)) false = fin r

/-- `q` is the quantile function of `mu + sigma X` where `X` has quantile function `q₀`. -/
def ScaledQuant (q₀ q : Fl → Fl) (mu sigma : ℝ) : Prop :=
  ∀ u : ℝ, 0 < u → u < 1 → ∃ x : ℝ, q₀ (fin u) = fin x ∧ q (fin u) = fin (mu + sigma * x)

end Stats.Spec
