import Verif.Spec.Multi
import Mathlib.LinearAlgebra.Matrix.PosDef

/-!
# Laws of symmetric matrices

A symmetric matrix is given by its lower triangle. A law with a density on symmetric matrices has this density with respect
to the product of the Lebesgue measures of the entries of the lower triangle.
-/

open Matrix MeasureTheory
namespace Stats.Spec
variable {K : ℕ}

/-- places in the lower triangle, diagonal included -/
abbrev Low (K : ℕ) : Type := {p : Fin K × Fin K // p.2 ≤ p.1}

/-- the symmetric matrix with a given lower triangle -/
def sym (x : Low K → ℝ) : Matrix (Fin K) (Fin K) ℝ :=
  of fun i j => if h : j ≤ i then x ⟨(i, j), h⟩ else x ⟨(j, i), (not_le.1 h).le⟩

open Classical in
/-- the law of a random positive definite matrix with density `f` -/
noncomputable def posDefLaw (f : Matrix (Fin K) (Fin K) ℝ → ℝ) : Measure (Fin K → Fin K → ℝ) :=
  (densLawV fun x : Low K → ℝ => if (sym x).PosDef then f (sym x) else 0).map fun x i j => sym x i j

/-- The entries of the generated matrix have the means `M`. -/
def HasMeanM {S ι κ : Type*} [MeasurableSpace S] (P : Measure S) (g : S → Option ((ι → κ → Fl) × S)) (M : Matrix ι κ ℝ) :
    Prop :=
  ∃ (X : S → ι → κ → ℝ) (N : S → S), (∀ᵐ s ∂P, g s = some (fun i j => Fl.fin (X s i j), N s)) ∧
    ∀ i j, Integrable (fun s => X s i j) P ∧ ∫ s, X s i j ∂P = M i j

end Stats.Spec
