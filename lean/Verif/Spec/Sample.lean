import Verif.Spec.Law
import Mathlib.Analysis.SpecialFunctions.Exp

/-!
# Specification: draws and samples against the distribution function
-/

open MeasureTheory

namespace Stats.Spec
open Fl

/-- The probability that a draw is at most `x` is, up to `δ`, the number that the distribution function `F` returns,
for every `x` in `dom`. -/
def DrawCdf {S : Type*} [MeasurableSpace S] (P : Measure S) (g : S → Option (Fl × S)) (F : ℝ → Fl) (dom : Set ℝ)
    (δ : ℝ) : Prop :=
  ∀ x ∈ dom, ∃ y, F x = fin y ∧ |P.real {s | ∃ v s', g s = some (fin v, s') ∧ v ≤ x} - y| ≤ δ

open Classical in
/-- the share of the first `num` elements that are numbers and at most `x` -/
noncomputable def share (o : ℕ → Option Fl) (num : ℕ) (x : ℝ) : ℝ :=
  ((Finset.range num).filter fun i => ∃ v, o i = some (fin v) ∧ v ≤ x).card / num

/-- `call s s' o`: the call can turn the engine `s` into `s'` and the buffer into `o`. Except with the given probability
the call returns, and however it returns, the share of the elements up to `x` is closer than `ε` to the value of the
distribution function at `x`, for all `x` in `dom` at once. -/
def ShareNear {S : Type*} [MeasurableSpace S] (P : Measure S) (call : S → S → (ℕ → Option Fl) → Prop) (num : ℕ)
    (F : ℝ → Fl) (dom : Set ℝ) (ε prob : ℝ) : Prop :=
  P.real {s | ¬ ((∃ s' o, call s s' o) ∧ ∀ s' o, call s s' o → ∀ x ∈ dom, ∃ y, F x = fin y ∧ |share o num x - y| < ε)} ≤ prob

/-- The generator, its vector calls and the distribution function fit together: the draws have the distribution
function `F` up to `δ`. In a vector of `num` numbers the shares differ from `F` by `ε + δ` with a probability that
falls exponentially in `num`, at a given point and at all points at once. -/
structure Reproduces {S : Type*} [MeasurableSpace S] (P : Measure S) (g : S → Option (Fl × S))
    (call : ℕ → S → S → (ℕ → Option Fl) → Prop) (F : ℝ → Fl) (dom : Set ℝ) (δ : ℝ) : Prop where
  draw : DrawCdf P g F dom δ
  point : ∀ (num : ℕ) (ε : ℝ), 0 ≤ ε → ∀ x ∈ dom,
    ShareNear P (call num) num F {x} (ε + δ) (2 * Real.exp (-(2 * num * ε ^ 2)))
  all : ∀ (num : ℕ) (ε : ℝ), 0 ≤ ε → ∀ m : ℕ, 0 < m →
    ShareNear P (call num) num F dom (ε + 1 / m + δ) (4 * m * Real.exp (-(2 * num * ε ^ 2)))

/-- Except with the given probability the call returns, and however it returns, the statistic `stat` of the first `num`
elements is a number closer than `ε` to `m`. -/
def StatNear {S : Type*} [MeasurableSpace S] (P : Measure S) (call : S → S → (ℕ → Option Fl) → Prop) (num : ℕ)
    (stat : List Fl → Fl) (m ε prob : ℝ) : Prop :=
  P.real {s | ¬ ((∃ s' o, call s s' o) ∧ ∀ s' o, call s s' o →
    ∃ L : List Fl, L.length = num ∧ (∀ i < num, o i = L[i]?) ∧ ∃ y, stat L = fin y ∧ |y - m| < ε)} ≤ prob

end Stats.Spec
