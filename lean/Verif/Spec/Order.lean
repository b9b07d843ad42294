import Verif.Num

/-!
# How distribution functions, quantiles and draws should move with a parameter

`x ≤ y` on `Fl` is the C++ comparison: it also says that neither side is NaN.
-/

namespace Stats.Spec
open Fl

/-- `F` lies nowhere above `G`: every argument but NaN, plain and log form. -/
def Below (F G : Fl → Bool → Fl) : Prop := ∀ x, x ≠ nan → ∀ b, F x b ≤ G x b

/-- A larger parameter makes the variable larger: the distribution function falls everywhere. -/
def FallsWith (S : Set ℝ) (p : ℝ → Fl → Bool → Fl) : Prop :=
  ∀ s ∈ S, ∀ t ∈ S, s ≤ t → Below (p t) (p s)

/-- A larger parameter makes the variable smaller: the distribution function rises everywhere. -/
def RisesWith (S : Set ℝ) (p : ℝ → Fl → Bool → Fl) : Prop :=
  ∀ s ∈ S, ∀ t ∈ S, s ≤ t → Below (p s) (p t)

/-- `F` is spread about `m` at least as widely as `G`: lower to the right of `m`, higher to the left. -/
def WiderThan (m : ℝ) (F G : Fl → Bool → Fl) : Prop :=
  (∀ x, fin m ≤ x → ∀ b, F x b ≤ G x b) ∧ ∀ x, x ≤ fin m → ∀ b, G x b ≤ F x b

/-- A larger parameter spreads the distribution about `m`. -/
def SpreadsWith (S : Set ℝ) (m : ℝ) (p : ℝ → Fl → Bool → Fl) : Prop :=
  ∀ s ∈ S, ∀ t ∈ S, s ≤ t → WiderThan m (p t) (p s)

/-- A larger parameter concentrates the distribution about `m`. -/
def NarrowsWith (S : Set ℝ) (m : ℝ) (p : ℝ → Fl → Bool → Fl) : Prop :=
  ∀ s ∈ S, ∀ t ∈ S, s ≤ t → WiderThan m (p s) (p t)

/-- A larger parameter makes the integral variable larger. -/
def FallsWithZ {P : Type*} [LE P] (S : Set P) (p : P → ℤ → Bool → Fl) : Prop :=
  ∀ s ∈ S, ∀ t ∈ S, s ≤ t → ∀ k b, p t k b ≤ p s k b

/-- A larger parameter gives larger quantiles, at every probability of `[0, 1]`. -/
def QuantRises (S : Set ℝ) (q : ℝ → Fl → Fl) : Prop :=
  ∀ s ∈ S, ∀ t ∈ S, s ≤ t → ∀ u : ℝ, 0 ≤ u → u ≤ 1 → q s (fin u) ≤ q t (fin u)

/-- A larger parameter gives smaller quantiles, at every probability of `[0, 1]`. -/
def QuantFalls (S : Set ℝ) (q : ℝ → Fl → Fl) : Prop :=
  ∀ s ∈ S, ∀ t ∈ S, s ≤ t → ∀ u : ℝ, 0 ≤ u → u ≤ 1 → q t (fin u) ≤ q s (fin u)

/-- A larger parameter moves the quantiles away from the one at `u₀`. -/
def QuantSpreads (S : Set ℝ) (u₀ : ℝ) (q : ℝ → Fl → Fl) : Prop :=
  ∀ s ∈ S, ∀ t ∈ S, s ≤ t → (∀ u : ℝ, u₀ ≤ u → u ≤ 1 → q s (fin u) ≤ q t (fin u)) ∧
    ∀ u : ℝ, 0 ≤ u → u ≤ u₀ → q t (fin u) ≤ q s (fin u)

/-- A larger parameter moves the quantiles towards the one at `u₀`. -/
def QuantNarrows (S : Set ℝ) (u₀ : ℝ) (q : ℝ → Fl → Fl) : Prop :=
  ∀ s ∈ S, ∀ t ∈ S, s ≤ t → (∀ u : ℝ, u₀ ≤ u → u ≤ 1 → q t (fin u) ≤ q s (fin u)) ∧
    ∀ u : ℝ, 0 ≤ u → u ≤ u₀ → q s (fin u) ≤ q t (fin u)

/-- A larger parameter gives larger quantiles, for a search that need not return. -/
def QuantRisesO {P : Type*} [LE P] (S : Set P) (q : P → Fl → Option Fl) : Prop :=
  ∀ s ∈ S, ∀ t ∈ S, s ≤ t → ∀ u : ℝ, 0 ≤ u → u ≤ 1 → ∃ x y, q s (fin u) = some x ∧ q t (fin u) = some y ∧ x ≤ y

/-- From one engine state, a larger parameter gives a larger draw and leaves the engine in the same state. -/
def DrawRises {E : Type*} (S : Set ℝ) (g : ℝ → E → Fl × E) : Prop :=
  ∀ s ∈ S, ∀ t ∈ S, s ≤ t → ∀ e, (g s e).1 ≤ (g t e).1 ∧ (g s e).2 = (g t e).2

/-- From one engine state, a larger parameter gives a smaller draw and leaves the engine in the same state. -/
def DrawFalls {E : Type*} (S : Set ℝ) (g : ℝ → E → Fl × E) : Prop :=
  ∀ s ∈ S, ∀ t ∈ S, s ≤ t → ∀ e, (g t e).1 ≤ (g s e).1 ∧ (g s e).2 = (g t e).2

/-- The same for a generator that need not return: it returns for all parameters or for none. -/
def DrawRisesO {E : Type*} (S : Set ℝ) (g : ℝ → E → Option (Fl × E)) : Prop :=
  ∀ s ∈ S, ∀ t ∈ S, s ≤ t → ∀ e, (g s e = none ↔ g t e = none) ∧
    ∀ x y : Fl × E, g s e = some x → g t e = some y → x.1 ≤ y.1 ∧ x.2 = y.2

end Stats.Spec
