import Verif.Model.Rand
import Verif.Spec.Densities
import Mathlib.MeasureTheory.Measure.WithDensity
import Mathlib.MeasureTheory.Measure.Lebesgue.Basic
import Mathlib.MeasureTheory.Measure.Prod

/-!
# Specification of the law of a generator

An ideal engine is a probability measure `P` on the engine states. A generator has the law `D` if, for almost every
state, it returns a number, the number has the law `D`, and the engine left behind is again distributed like `P`
and independent of the number. (So later draws are independent of it and have their own laws.)
-/

open MeasureTheory

namespace Stats.Spec
open Fl

/-- the law with density `f` -/
noncomputable def densLaw (f : ℝ → ℝ) : Measure ℝ := volume.withDensity fun x => ENNReal.ofReal (f x)

/-- the law of an integer with probabilities `p` -/
noncomputable def massLaw (p : ℤ → ℝ) : Measure ℝ := Measure.sum fun k : ℤ => ENNReal.ofReal (p k) • Measure.dirac (k : ℝ)

/-- The generator returns with probability one, the result has the law `D`, and the new state is independent of it
and has the law `P` of the old state. -/
def HasLaw {S : Type*} [MeasurableSpace S] (P : Measure S) (g : S → Option (Fl × S)) (D : Measure ℝ) : Prop :=
  ∃ (X : S → ℝ) (N : S → S), Measurable X ∧ Measurable N ∧ (∀ᵐ s ∂P, g s = some (fin (X s), N s)) ∧
    P.map (fun s => (X s, N s)) = D.prod P

/-- The generator returns with probability one, and the law of its result differs from `D` by at most `ε` on every
event. The new state is independent of the result and has the law `P` of the old state. -/
def NearLaw {S : Type*} [MeasurableSpace S] (P : Measure S) (g : S → Option (Fl × S)) (D : Measure ℝ) (ε : ℝ) : Prop :=
  ∃ D' : Measure ℝ, IsProbabilityMeasure D' ∧ HasLaw P g D' ∧ ∀ A, MeasurableSet A → |D'.real A - D.real A| ≤ ε

/-- `std::uniform_real_distribution` and `std::normal_distribution` do what the standard says, with an ideal source
of randomness. -/
structure FairEngine {S : Type*} [MeasurableSpace S] [Engine S] (P : Measure S) : Prop where
  prob : IsProbabilityMeasure P
  unif : ∀ a b : ℝ, a < b → HasLaw P (fun s => some (Engine.unif (fin a) (fin b) s)) (densLaw (unifPdf a b))
  norm : HasLaw P (fun s => some (fin (Engine.norm s).1, (Engine.norm s).2)) (densLaw (normPdf 0 1))

end Stats.Spec
