import Verif.Spec.Law
import Mathlib.MeasureTheory.Integral.Bochner.Basic

/-! # Mean and variance of a density, of a mass function and of a generator -/

open MeasureTheory

namespace Stats.Spec
open Fl

/-- The plain form of `d` is, but for a null set of points, a density whose mean exists and is `m`. -/
def DensMean (d : Fl → Bool → Fl) (m : ℝ) : Prop :=
  ∃ f : ℝ → ℝ, (∀ᵐ x : ℝ, d (fin x) false = fin (f x)) ∧ Integrable (fun x => x * f x) ∧ ∫ x, x * f x = m

/-- The same for the mean `m` and the variance `v`. -/
def DensMoments (d : Fl → Bool → Fl) (m v : ℝ) : Prop :=
  ∃ f : ℝ → ℝ, (∀ᵐ x : ℝ, d (fin x) false = fin (f x)) ∧ Integrable (fun x => x * f x) ∧
    Integrable (fun x => x ^ 2 * f x) ∧ ∫ x, x * f x = m ∧ ∫ x, (x - m) ^ 2 * f x = v

/-- The density `d` has no mean. -/
def DensNoMean (d : Fl → Bool → Fl) : Prop :=
  ∃ f : ℝ → ℝ, (∀ᵐ x : ℝ, d (fin x) false = fin (f x)) ∧ ¬ Integrable (fun x => x * f x)

/-- The probabilities `d` have the mean `m` and the variance `v`. -/
def MassMoments (d : ℤ → Bool → Fl) (m v : ℝ) : Prop :=
  ∃ f : ℤ → ℝ, (∀ k, d k false = fin (f k)) ∧ HasSum (fun k : ℤ => k * f k) m ∧
    HasSum (fun k : ℤ => ((k : ℝ) - m) ^ 2 * f k) v

/-- Over the states of the engine the result of `g` has the expectation `m`. -/
def RandMean {S : Type*} [MeasurableSpace S] (P : Measure S) (g : S → Option (Fl × S)) (m : ℝ) : Prop :=
  ∃ X : S → ℝ, (∀ᵐ s ∂P, ∃ s', g s = some (fin (X s), s')) ∧ Integrable X P ∧ ∫ s, X s ∂P = m

/-- The same for the expectation `m` and the variance `v`. -/
def RandMoments {S : Type*} [MeasurableSpace S] (P : Measure S) (g : S → Option (Fl × S)) (m v : ℝ) : Prop :=
  ∃ X : S → ℝ, (∀ᵐ s ∂P, ∃ s', g s = some (fin (X s), s')) ∧ Integrable X P ∧ Integrable (fun s => X s ^ 2) P ∧
    ∫ s, X s ∂P = m ∧ ∫ s, (X s - m) ^ 2 ∂P = v

/-- The result of `g` has no expectation. -/
def RandNoMean {S : Type*} [MeasurableSpace S] (P : Measure S) (g : S → Option (Fl × S)) : Prop :=
  ∃ X : S → ℝ, (∀ᵐ s ∂P, ∃ s', g s = some (fin (X s), s')) ∧ ¬ Integrable X P

/-- A call that fills the first `num` elements of a buffer; the numbers found there are then passed to `stat`. Over the
states of the engine the result of `stat` has the expectation `m`. -/
def FillMean {S : Type*} [MeasurableSpace S] (P : Measure S) (call : S → S → (ℕ → Option Fl) → Prop) (num : ℕ)
    (stat : List Fl → Fl) (m : ℝ) : Prop :=
  ∃ M : S → ℝ, (∀ᵐ s ∂P, (∃ s' o, call s s' o) ∧ ∀ s' o, call s s' o →
      ∃ L : List Fl, L.length = num ∧ (∀ i < num, o i = L[i]?) ∧ stat L = fin (M s)) ∧
    Integrable M P ∧ ∫ s, M s ∂P = m

/-- The same, and the variance of the result is `v`. -/
def FillMoments {S : Type*} [MeasurableSpace S] (P : Measure S) (call : S → S → (ℕ → Option Fl) → Prop) (num : ℕ)
    (stat : List Fl → Fl) (m v : ℝ) : Prop :=
  ∃ M : S → ℝ, (∀ᵐ s ∂P, (∃ s' o, call s s' o) ∧ ∀ s' o, call s s' o →
      ∃ L : List Fl, L.length = num ∧ (∀ i < num, o i = L[i]?) ∧ stat L = fin (M s)) ∧
    Integrable M P ∧ Integrable (fun s => M s ^ 2) P ∧ ∫ s, M s ∂P = m ∧ ∫ s, (M s - m) ^ 2 ∂P = v

end Stats.Spec
