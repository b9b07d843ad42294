import Verif.Num

/-! # Supports -/

namespace Stats.Spec
open Fl

/-- A number outside the set `s` of real numbers (an infinite number is outside every such set). -/
def Outside (s : Set ℝ) (x : Fl) : Prop := x ≠ nan ∧ ∀ r ∈ s, x ≠ fin r

/-- Density value 0: 0 in plain form, minus infinity in log form. -/
def VanishesAt (f : Bool → Fl) : Prop := f false = fin 0 ∧ f true = ninf

end Stats.Spec
