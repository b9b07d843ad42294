import Verif.Num
import Verif.Spec.Special
import Mathlib.Analysis.SpecialFunctions.Pow.Real
import Mathlib.Analysis.SpecialFunctions.Log.Basic

/-!
# Textbook densities

The formulas of `/repo/docs/source/api/*.rst` (density sections) on the interior of the support, 0 elsewhere.
-/

namespace Stats.Spec
open Real Fl

noncomputable def normPdf (μ σ x : ℝ) : ℝ := 1 / (√(2 * π) * σ) * exp (-((x - μ) ^ 2) / (2 * σ ^ 2))

noncomputable def lnormPdf (μ σ x : ℝ) : ℝ :=
  if 0 < x then 1 / x * (1 / (√(2 * π) * σ)) * exp (-((log x - μ) ^ 2) / (2 * σ ^ 2)) else 0

noncomputable def unifPdf (a b x : ℝ) : ℝ := if a ≤ x ∧ x ≤ b then 1 / (b - a) else 0

noncomputable def expPdf (rate x : ℝ) : ℝ := if 0 ≤ x then rate * exp (-rate * x) else 0

noncomputable def cauchyPdf (μ σ x : ℝ) : ℝ := 1 / (π * σ * (1 + ((x - μ) / σ) ^ 2))

noncomputable def laplacePdf (μ σ x : ℝ) : ℝ := 1 / (2 * σ) * exp (-|x - μ| / σ)

noncomputable def logisPdf (μ σ x : ℝ) : ℝ :=
  exp (-((x - μ) / σ)) / (σ * (1 + exp (-((x - μ) / σ))) ^ 2)

noncomputable def betaPdf (a b x : ℝ) : ℝ :=
  if 0 < x ∧ x < 1 then 1 / beta a b * x ^ (a - 1) * (1 - x) ^ (b - 1) else 0

noncomputable def gammaPdf (k θ x : ℝ) : ℝ :=
  if 0 < x then x ^ (k - 1) * exp (-x / θ) / (θ ^ k * Gamma k) else 0

noncomputable def invgammaPdf (α β x : ℝ) : ℝ :=
  if 0 < x then β ^ α / Gamma α * x ^ (-α - 1) * exp (-β / x) else 0

noncomputable def invgaussPdf (μ l x : ℝ) : ℝ :=
  if 0 < x then √(l / (2 * π * x ^ 3)) * exp (-(l * (x - μ) ^ 2) / (2 * μ ^ 2 * x)) else 0

noncomputable def chisqPdf (k x : ℝ) : ℝ :=
  if 0 < x then x ^ (k / 2 - 1) * exp (-x / 2) / (2 ^ (k / 2) * Gamma (k / 2)) else 0

noncomputable def fPdf (d₁ d₂ x : ℝ) : ℝ :=
  if 0 < x then 1 / beta (d₁ / 2) (d₂ / 2) * (d₁ / d₂) ^ (d₁ / 2) * x ^ (d₁ / 2 - 1) *
    (1 + d₁ / d₂ * x) ^ (-((d₁ + d₂) / 2)) else 0

noncomputable def tPdf (ν x : ℝ) : ℝ :=
  Gamma ((ν + 1) / 2) / (√(ν * π) * Gamma (ν / 2)) * (1 + x ^ 2 / ν) ^ (-((ν + 1) / 2))

noncomputable def weibullPdf (k θ x : ℝ) : ℝ :=
  if 0 < x then k / θ * (x / θ) ^ (k - 1) * exp (-(x / θ) ^ k) else 0

/-! Discrete distributions: probability of the integer `x`. -/

noncomputable def bernPmf (p : ℝ) (x : ℤ) : ℝ := if x = 1 then p else if x = 0 then 1 - p else 0

noncomputable def rademPmf (p : ℝ) (x : ℤ) : ℝ := if x = 1 then p else if x = -1 then 1 - p else 0

noncomputable def binomPmf (n : ℕ) (p : ℝ) (x : ℤ) : ℝ :=
  if 0 ≤ x ∧ x ≤ n then n.choose x.toNat * p ^ x.toNat * (1 - p) ^ (n - x.toNat) else 0

noncomputable def poisPmf (rate : ℝ) (x : ℤ) : ℝ :=
  if 0 ≤ x then rate ^ x.toNat * exp (-rate) / x.toNat.factorial else 0

/-- The coded density `d` is positive on `s` and equals `f` there, its log form the logarithm of `f`. -/
def IsDensityOn (d : Fl → Bool → Fl) (f : ℝ → ℝ) (s : Set ℝ) : Prop :=
  ∀ x ∈ s, 0 < f x ∧ d (fin x) false = fin (f x) ∧ d (fin x) true = fin (Real.log (f x))

/-- A value given by a non-negative real in plain form and its logarithm (`-inf` for 0) in log form. -/
def IsValue (v : Bool → Fl) (r : ℝ) : Prop :=
  0 ≤ r ∧ v false = fin r ∧ v true = if r = 0 then ninf else fin (Real.log r)

/-- `+inf` in both forms -/
def IsPole (v : Bool → Fl) : Prop := v false = pinf ∧ v true = pinf

end Stats.Spec
