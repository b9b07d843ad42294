import Verif.Num
import Verif.Spec.Symm

/-! # Scaling and reflection on subsets of the line, and scaling of generators -/

namespace Stats.Spec
open Fl

/-- `d` is the density of `c X` where `X` has density `d₀`, at the points of `s` (both forms). -/
def ScaledDensOn (d₀ d : Fl → Bool → Fl) (c : ℝ) (s : Set ℝ) : Prop :=
  ∀ x ∈ s, ∃ r : ℝ, 0 < r ∧ d₀ (fin x) false = fin r ∧ d (fin (c * x)) false = fin (r / c) ∧
    d₀ (fin x) true = fin (Real.log r) ∧ d (fin (c * x)) true = fin (Real.log r - Real.log c)

/-- `p` is the distribution function of `c X` where `X` has distribution function `p₀`, at points such that the point
and its multiple lie in `s`. -/
def ScaledCdfOn (p₀ p : Fl → Bool → Fl) (c : ℝ) (s : Set ℝ) : Prop :=
  ∀ x ∈ s, c * x ∈ s → ∃ r : ℝ, p₀ (fin x) false = fin r ∧ p (fin (c * x)) false = fin r

/-- The generator `r` gives `mu + sigma` times what `r₀` gives and leaves the same state, from every state. -/
def ScaledRand {S : Type*} (r₀ r : S → Fl × S) (mu sigma : ℝ) : Prop :=
  ∀ s, ∃ (x : ℝ) (s' : S), r₀ s = (fin x, s') ∧ r s = (fin (mu + sigma * x), s')

/-- The same for a generator that need not return: `r` returns if and only if `r₀` does. -/
def ScaledRandO {S : Type*} (r₀ r : S → Option (Fl × S)) (sigma : ℝ) : Prop :=
  ∀ s, (r₀ s = none ∧ r s = none) ∨
    ∃ (x : ℝ) (s' : S), r₀ s = some (fin x, s') ∧ r s = some (fin (sigma * x), s')

/-- `p'` at the mirrored point `g x` is one minus `p` at `x`, for `x` in `s`. -/
def MirrorCdfOn (p p' : Fl → Bool → Fl) (g : ℝ → ℝ) (s : Set ℝ) : Prop :=
  ∀ x ∈ s, ∃ r : ℝ, p (fin x) false = fin r ∧ p' (fin (g x)) false = fin (1 - r)

/-- `d'` at the mirrored point `g x`, times the stretch `j x`, is `d` at `x`, for `x` in `s` (both forms). -/
def MirrorDensOn (d d' : Fl → Bool → Fl) (g j : ℝ → ℝ) (s : Set ℝ) : Prop :=
  ∀ x ∈ s, ∃ r : ℝ, 0 < r ∧ d (fin x) false = fin (r * j x) ∧ d' (fin (g x)) false = fin r ∧
    d (fin x) true = fin (Real.log r + Real.log (j x)) ∧ d' (fin (g x)) true = fin (Real.log r)

/-- The quantile `q'` of `1 - u` is the mirror image of the quantile `q` of `u`. -/
def MirrorQuant (q q' : Fl → Fl) (g : ℝ → ℝ) : Prop :=
  ∀ u : ℝ, 0 < u → u < 1 → ∃ x : ℝ, q (fin u) = fin x ∧ q' (fin (1 - u)) = fin (g x)

end Stats.Spec
