import Verif.Spec.Cdf
import Mathlib.Analysis.SpecialFunctions.Log.Basic

/-! # Relative entropy of two coded densities -/

open MeasureTheory

namespace Stats.Spec
open Fl

/-- The expected difference of the log forms under the first density is `k`; it is never negative and 0 only between densities that
agree almost everywhere. Where the first density is 0 the log forms do not count; elsewhere (up to a null set) both are finite. -/
def Divergence (d₁ d₂ : Fl → Bool → Fl) (k : ℝ) : Prop :=
  (∀ᵐ x : ℝ, ∃ a : ℝ, 0 ≤ a ∧ d₁ (fin x) false = fin a ∧
    (a = 0 ∨ ∃ l m : ℝ, d₁ (fin x) true = fin l ∧ d₂ (fin x) true = fin m)) ∧
  Integrable (fun x : ℝ => toR (d₁ (fin x) false) * (toR (d₁ (fin x) true) - toR (d₂ (fin x) true))) ∧
  ∫ x : ℝ, toR (d₁ (fin x) false) * (toR (d₁ (fin x) true) - toR (d₂ (fin x) true)) = k ∧
  0 ≤ k ∧ (k = 0 → ∀ᵐ x : ℝ, d₁ (fin x) false = d₂ (fin x) false)

/-- The same for probability functions of the integers. -/
def DivergenceInt (d₁ d₂ : ℤ → Bool → Fl) (k : ℝ) : Prop :=
  (∀ x : ℤ, ∃ a : ℝ, 0 ≤ a ∧ d₁ x false = fin a ∧ (a = 0 ∨ ∃ l m : ℝ, d₁ x true = fin l ∧ d₂ x true = fin m)) ∧
  HasSum (fun x : ℤ => toR (d₁ x false) * (toR (d₁ x true) - toR (d₂ x true))) k ∧
  0 ≤ k ∧ (k = 0 → ∀ x : ℤ, d₁ x false = d₂ x false)

end Stats.Spec
