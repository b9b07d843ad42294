import Verif.Num
import Mathlib.MeasureTheory.Integral.Bochner.Set
import Mathlib.MeasureTheory.Constructions.BorelSpace.Real
import Mathlib.MeasureTheory.Measure.Lebesgue.Basic

/-! # Densities and distribution functions as coded -/

open MeasureTheory

namespace Stats.Spec
open Fl

/-- The coded density `d` (plain form) is, up to a null set, a non-negative number, and its integral over
the real line is 1. (`toR` only strips the constructor: off a null set the value is a finite number.) -/
def IntegratesToOne (d : Fl → Bool → Fl) : Prop :=
  (∀ᵐ x : ℝ, ∃ r : ℝ, 0 ≤ r ∧ d (fin x) false = fin r) ∧
  Integrable (fun x : ℝ => toR (d (fin x) false)) ∧
  ∫ x : ℝ, toR (d (fin x) false) = 1

/-- The coded distribution function `p` (plain form) is the running integral of the coded density `d` at
every point of `s`. -/
def RunningIntegralOn (d p : Fl → Bool → Fl) (s : Set ℝ) : Prop :=
  ∀ x ∈ s, p (fin x) false = fin (∫ t in Set.Iic x, toR (d (fin t) false))

/-- The coded point probabilities `d` (plain form) are non-negative numbers with sum 1. -/
def SumsToOne (d : ℤ → Bool → Fl) : Prop :=
  (∀ k : ℤ, ∃ r : ℝ, 0 ≤ r ∧ d k false = fin r) ∧ HasSum (fun k : ℤ => toR (d k false)) 1

/-- The coded distribution function `p` (plain form) at `k` is the sum of the coded point probabilities
`d` up to `k`. -/
def RunningSum (d p : ℤ → Bool → Fl) : Prop :=
  ∀ k : ℤ, ∃ r : ℝ, p k false = fin r ∧ HasSum (fun j : ℤ => if j ≤ k then toR (d j false) else 0) r

end Stats.Spec
