import Verif.Num
import Mathlib.Analysis.SpecialFunctions.Log.Basic

/-! # Monotone likelihood ratios and log-concave densities -/

namespace Stats.Spec
open Fl

/-- The value of a density in its two forms: `a > 0` and its logarithm. -/
def Both (v : Bool → Fl) (a : ℝ) : Prop := 0 < a ∧ v false = fin a ∧ v true = fin (Real.log a)

/-- The ratio `d₂/d₁` is defined and does not decrease on `s`, in both forms. -/
def MonoLR (d₁ d₂ : Fl → Bool → Fl) (s : Set ℝ) : Prop :=
  ∀ x ∈ s, ∀ y ∈ s, x ≤ y → ∃ a b a' b' : ℝ, Both (d₁ (fin x)) a ∧ Both (d₂ (fin x)) b ∧ Both (d₁ (fin y)) a' ∧
    Both (d₂ (fin y)) b' ∧ b / a ≤ b' / a'

/-- The density lies above the geometric means of its values on `s`, its logarithm above the chords. -/
def LogConcave (d : Fl → Bool → Fl) (s : Set ℝ) : Prop :=
  ∀ x ∈ s, ∀ y ∈ s, ∀ r t : ℝ, 0 ≤ r → 0 ≤ t → r + t = 1 → ∃ a b c : ℝ, Both (d (fin x)) a ∧ Both (d (fin y)) b ∧
    Both (d (fin (r * x + t * y))) c ∧ r * Real.log a + t * Real.log b ≤ Real.log c

/-- The ratio of two probability functions of the integers does not decrease: `p₂(x) p₁(y) ≤ p₁(x) p₂(y)` for `x ≤ y`. Where a
value is 0 the product decides. -/
def MonoLRInt (d₁ d₂ : ℤ → Bool → Fl) : Prop :=
  ∀ x y : ℤ, x ≤ y → ∃ a b a' b' : ℝ, d₁ x false = fin a ∧ d₂ x false = fin b ∧ d₁ y false = fin a' ∧ d₂ y false = fin b' ∧
    b * a' ≤ a * b'

/-- `p(x-1) p(x+1) ≤ p(x)^2` -/
def LogConcaveInt (d : ℤ → Bool → Fl) : Prop :=
  ∀ x : ℤ, ∃ a b c : ℝ, d (x - 1) false = fin a ∧ d x false = fin b ∧ d (x + 1) false = fin c ∧ a * c ≤ b ^ 2

end Stats.Spec
