import Verif.Num
import Mathlib.MeasureTheory.Integral.Bochner.Set
import Mathlib.MeasureTheory.Measure.Lebesgue.Basic

/-! # Mixtures -/

namespace Stats.Spec
open Fl MeasureTheory

/-- The value `v` is the integral over the parameter `θ ∈ S` of the coded density `w θ` of the parameter times the coded
density `k θ` of the observation; both are positive numbers on `S`. -/
def Mixes [Lib] (S : Set ℝ) (w k : ℝ → Fl) (v : Fl) : Prop :=
  (∀ θ ∈ S, ∃ a b : ℝ, 0 < a ∧ 0 < b ∧ w θ = fin a ∧ k θ = fin b) ∧
  IntegrableOn (fun θ => toR (w θ) * toR (k θ)) S ∧ v = fin (∫ θ in S, toR (w θ) * toR (k θ))

/-- The same for a parameter with a discrete distribution. -/
def MixesSum [Lib] (w k : ℕ → Fl) (v : Fl) : Prop :=
  (∀ n, ∃ a b : ℝ, 0 ≤ a ∧ 0 ≤ b ∧ w n = fin a ∧ k n = fin b) ∧
  ∃ r : ℝ, HasSum (fun n => toR (w n) * toR (k n)) r ∧ v = fin r

end Stats.Spec
