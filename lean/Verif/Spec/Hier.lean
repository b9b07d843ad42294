import Verif.Spec.Densities

/-!
# Specification: draws with a drawn parameter

A program that draws a number from one generator and passes it, as it is, to another generator with the engine left
behind.
-/

namespace Stats.Spec
open Fl
variable {S : Type*}

/-- `h` called with the result of `g`; `none` when one of them does not return -/
def hier (g : S → Option (Fl × S)) (h : Fl → S → Option (Fl × S)) (s : S) : Option (Fl × S) :=
  (g s).bind fun r => h r.1 r.2

/-- the beta-binomial probabilities -/
noncomputable def betabinomPmf (n : ℕ) (a b : ℝ) (x : ℤ) : ℝ :=
  if 0 ≤ x ∧ x ≤ n then n.choose x.toNat * beta (a + x) (b + (n - x)) / beta a b else 0

/-- A whole number as an integer. In C++ the conversion has a range; here it has none. -/
noncomputable def count (v : Fl) : ℤ := ⌊toR v⌋

end Stats.Spec
