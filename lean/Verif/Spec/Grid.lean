import Verif.Spec.Sample
import Verif.Spec.Densities

/-!
# Specification: engines that are only nearly fair

No engine with finitely many states has the laws of `FairEngine`. Here only the distribution functions of its variates
have to be close to the ideal ones; nothing is said about independence.
-/

open MeasureTheory

namespace Stats.Spec
open Fl
variable {S : Type*} [MeasurableSpace S]

/-- The distribution functions of the uniform variates are within `η` of the straight lines. -/
def UnifNear [Engine S] (P : Measure S) (η : ℝ) : Prop :=
  ∀ a b : ℝ, a < b → ∃ V : S → ℝ, Measurable V ∧ (∀ s, (Engine.unif (fin a) (fin b) s).1 = fin (V s)) ∧
    ∀ x, a ≤ x → x ≤ b → |P.real {s | V s ≤ x} - (x - a) / (b - a)| ≤ η

/-- The distribution function of the normal variates is within `η` of the normal distribution function. -/
def NormNear [Engine S] (P : Measure S) (η : ℝ) : Prop :=
  Measurable (fun s => (Engine.norm s : ℝ × S).1) ∧
    ∀ x, |P.real {s | (Engine.norm s : ℝ × S).1 ≤ x} - ∫ t in Set.Iic x, normPdf 0 1 t| ≤ η

/-- the shift that undoes an error of at most `g (M + |q - mu|)` -/
noncomputable def shift (g M mu x : ℝ) : ℝ := g / (1 - g) * (M + |x - mu|)

/-- The probability that a draw is at most `x` lies between `F (lo x) - κ` and `F (hi x) + κ`, where `F` is the
distribution function of the density `f`. -/
def Sandwich (P : Measure S) (g : S → Option (Fl × S)) (f : ℝ → ℝ) (lo hi : ℝ → ℝ) (κ : ℝ) : Prop :=
  ∀ x, (∫ t in Set.Iic (lo x), f t) - κ ≤ P.real {s | ∃ v s', g s = some (fin v, s') ∧ v ≤ x} ∧
    P.real {s | ∃ v s', g s = some (fin v, s') ∧ v ≤ x} ≤ (∫ t in Set.Iic (hi x), f t) + κ

/-- The probability of the value `k` is within `κ` of `f k`, for every integer `k`. -/
def MassNear (P : Measure S) (g : S → Option (Fl × S)) (f : ℤ → ℝ) (κ : ℝ) : Prop :=
  ∀ k : ℤ, |P.real {s | ∃ s', g s = some (fin k, s')} - f k| ≤ κ

end Stats.Spec
