import Verif.Spec.Special
import Verif.Spec.Law
import Mathlib.LinearAlgebra.Matrix.NonsingularInverse
import Mathlib.LinearAlgebra.Matrix.Trace
import Mathlib.Analysis.SpecialFunctions.Pow.Real

/-! Textbook multivariate densities, laws of random vectors. -/

open Matrix MeasureTheory
namespace Stats.Spec
variable {K : ℕ}

/-- multivariate normal density -/
noncomputable def mvnPdf (mu : Fin K → ℝ) (Sigma : Matrix (Fin K) (Fin K) ℝ) (x : Fin K → ℝ) : ℝ :=
  (2 * Real.pi) ^ (-(K : ℝ) / 2) * Sigma.det ^ (-(1 : ℝ) / 2) *
    Real.exp (-((x - mu) ⬝ᵥ Sigma⁻¹ *ᵥ (x - mu)) / 2)

/-- Wishart density -/
noncomputable def wishPdf (Psi : Matrix (Fin K) (Fin K) ℝ) (nu : ℝ) (X : Matrix (Fin K) (Fin K) ℝ) : ℝ :=
  X.det ^ ((nu - K - 1) / 2) * Real.exp (-(Psi⁻¹ * X).trace / 2) /
    (2 ^ (nu * K / 2) * Psi.det ^ (nu / 2) * mgamma (nu / 2) K)

/-- inverse Wishart density -/
noncomputable def invwishPdf (Psi : Matrix (Fin K) (Fin K) ℝ) (nu : ℝ) (X : Matrix (Fin K) (Fin K) ℝ) : ℝ :=
  Psi.det ^ (nu / 2) / (2 ^ (nu * K / 2) * mgamma (nu / 2) K) * X.det ^ (-(nu + K + 1) / 2) *
    Real.exp (-(Psi * X⁻¹).trace / 2)

/-- The law of a random vector with density `f`. -/
noncomputable def densLawV {ι : Type*} [Fintype ι] (f : (ι → ℝ) → ℝ) : Measure (ι → ℝ) :=
  volume.withDensity fun x => ENNReal.ofReal (f x)

/-- `HasLaw` for a generator of finite families of numbers. -/
def HasLawV {S ι : Type*} [MeasurableSpace S] (P : Measure S) (g : S → Option ((ι → Fl) × S)) (D : Measure (ι → ℝ)) :
    Prop :=
  ∃ (X : S → ι → ℝ) (N : S → S), Measurable X ∧ Measurable N ∧
    (∀ᵐ s ∂P, g s = some (fun i => Fl.fin (X s i), N s)) ∧ P.map (fun s => (X s, N s)) = D.prod P

/-- `HasLaw` for a generator of matrices, as families of rows. -/
def HasLawM {S ι κ : Type*} [MeasurableSpace S] (P : Measure S) (g : S → Option ((ι → κ → Fl) × S))
    (D : Measure (ι → κ → ℝ)) : Prop :=
  ∃ (X : S → ι → κ → ℝ) (N : S → S), Measurable X ∧ Measurable N ∧
    (∀ᵐ s ∂P, g s = some (fun i j => Fl.fin (X s i j), N s)) ∧ P.map (fun s => (X s, N s)) = D.prod P

/-- `NearLaw` for a generator of matrices: the law of the result differs from `D` by at most `ε` on every event. -/
def NearLawM {S ι κ : Type*} [MeasurableSpace S] (P : Measure S) (g : S → Option ((ι → κ → Fl) × S))
    (D : Measure (ι → κ → ℝ)) (ε : ℝ) : Prop :=
  ∃ D' : Measure (ι → κ → ℝ), IsProbabilityMeasure D' ∧ HasLawM P g D' ∧
    ∀ A, MeasurableSet A → |D'.real A - D.real A| ≤ ε

/-- The components of the generated family have the means `m` and the covariances `C`. -/
def HasMoments {S ι : Type*} [MeasurableSpace S] (P : Measure S) (g : S → Option ((ι → Fl) × S)) (m : ι → ℝ)
    (C : Matrix ι ι ℝ) : Prop :=
  ∃ (X : S → ι → ℝ) (N : S → S), (∀ᵐ s ∂P, g s = some (fun i => Fl.fin (X s i), N s)) ∧
    (∀ i, Integrable (fun s => X s i) P ∧ ∫ s, X s i ∂P = m i) ∧
    ∀ i j, Integrable (fun s => (X s i - m i) * (X s j - m j)) P ∧ ∫ s, (X s i - m i) * (X s j - m j) ∂P = C i j

end Stats.Spec
