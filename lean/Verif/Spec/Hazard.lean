import Verif.Num

/-! # Hazard rates: density divided by the remaining probability -/

namespace Stats.Spec
open Fl

/-- Of two distributions the second has the smaller hazard rate `d/(1-p)` and the larger reversed rate `d/p` at every point of `s`.
Written with products, so that it says something also where a denominator is 0. -/
def HazardOrder (d₁ p₁ d₂ p₂ : Fl → Bool → Fl) (s : Set ℝ) : Prop :=
  ∀ x ∈ s, ∃ a b F G : ℝ, d₁ (fin x) false = fin a ∧ d₂ (fin x) false = fin b ∧ p₁ (fin x) false = fin F ∧
    p₂ (fin x) false = fin G ∧ 0 < a ∧ 0 < b ∧ b * (1 - F) ≤ a * (1 - G) ∧ a * G ≤ b * F

/-- The hazard rate `d/(1-p)` does not decrease on `s`, the reversed rate `d/p` does not increase. -/
def MonoHazard (d p : Fl → Bool → Fl) (s : Set ℝ) : Prop :=
  ∀ x ∈ s, ∀ y ∈ s, x ≤ y → ∃ a b F G : ℝ, d (fin x) false = fin a ∧ d (fin y) false = fin b ∧ p (fin x) false = fin F ∧
    p (fin y) false = fin G ∧ 0 < a ∧ 0 < b ∧ a * (1 - G) ≤ b * (1 - F) ∧ b * F ≤ a * G

/-- The hazard rate on `s` is `h`. -/
def HazardIs (d p : Fl → Bool → Fl) (h : ℝ → ℝ) (s : Set ℝ) : Prop :=
  ∀ x ∈ s, ∃ a F : ℝ, d (fin x) false = fin a ∧ p (fin x) false = fin F ∧ F < 1 ∧ a / (1 - F) = h x

/-- `1 - p(x + y) = (1 - p(x)) (1 - p(y))` on `s` -/
def Memoryless (p : Fl → Bool → Fl) (s : Set ℝ) : Prop :=
  ∀ x ∈ s, ∀ y ∈ s, ∃ F G H : ℝ, p (fin x) false = fin F ∧ p (fin y) false = fin G ∧ p (fin (x + y)) false = fin H ∧
    H < 1 ∧ 1 - H = (1 - F) * (1 - G)

end Stats.Spec
