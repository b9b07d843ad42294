import Verif.Num

/-! # Distribution functions that cross -/

namespace Stats.Spec
open Fl

/-- Neither of the two distribution functions lies below the other: no order between the variables. -/
def Cross (F G : Fl → Bool → Fl) : Prop :=
  (∃ x : ℝ, G (fin x) false < F (fin x) false) ∧ ∃ y : ℝ, F (fin y) false < G (fin y) false

end Stats.Spec
