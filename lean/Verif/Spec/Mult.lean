import Verif.Num
import Mathlib.Data.Nat.Factorial.Basic
import Mathlib.MeasureTheory.Measure.MeasureSpace

/-! # Specification of multinomial counts -/

open MeasureTheory

namespace Stats.Spec
open Fl

/-- the probability that `r` independent trials with outcome probabilities `p` give the counts `k` -/
noncomputable def multPmf {m : ℕ} (r : ℕ) (p : Fin m → ℝ) (k : Fin m → ℕ) : ℝ :=
  if ∑ i, k i = r then r.factorial / (∏ i, ((k i).factorial : ℝ)) * ∏ i, p i ^ k i else 0

/-- Almost surely the generator returns a vector whose first `n` entries are natural numbers; they are `k` with
probability `π k`, and the state left behind has the law `R` and is independent of them. -/
def HasCounts {Ω S : Type*} [MeasurableSpace Ω] [MeasurableSpace S] (P : Measure Ω) (R : Measure S)
    (g : Ω → Option ((ℕ → Fl) × S)) (n : ℕ) (π : (Fin n → ℕ) → ℝ) : Prop :=
  ∃ (X : Ω → Fin n → ℕ) (N : Ω → S), Measurable X ∧ Measurable N ∧
    (∀ᵐ ω ∂P, ∃ ret, g ω = some (ret, N ω) ∧ ∀ i : Fin n, ret i = fin (X ω i)) ∧
    ∀ (k : Fin n → ℕ) (A : Set S), MeasurableSet A → P {ω | X ω = k ∧ N ω ∈ A} = ENNReal.ofReal (π k) * R A

/-- The same with probabilities that differ from `π` by at most `ε` on every finite set of count vectors. -/
def NearCounts {Ω S : Type*} [MeasurableSpace Ω] [MeasurableSpace S] (P : Measure Ω) (R : Measure S)
    (g : Ω → Option ((ℕ → Fl) × S)) (n : ℕ) (π : (Fin n → ℕ) → ℝ) (ε : ℝ) : Prop :=
  ∃ π' : (Fin n → ℕ) → ℝ, HasCounts P R g n π' ∧ ∀ A : Finset (Fin n → ℕ), |∑ k ∈ A, π' k - ∑ k ∈ A, π k| ≤ ε

end Stats.Spec
