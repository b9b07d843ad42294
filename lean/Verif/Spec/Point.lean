import Verif.Spec.Densities
import Verif.Spec.Support

/-! # Point masses -/

namespace Stats.Spec
open Fl

/-- value 1: 1 in plain form, 0 in log form -/
def OneAt (f : Bool → Fl) : Prop := f false = fin 1 ∧ f true = fin 0

/-- distribution function of the point mass at `m`, at all points satisfying `P` -/
def IsStepOn (P : ℝ → Prop) (p : Fl → Bool → Fl) (m : ℝ) : Prop :=
  ∀ x : ℝ, P x → (x < m → VanishesAt (p (fin x))) ∧ (m ≤ x → OneAt (p (fin x)))

/-- distribution function of the point mass at `m` -/
def IsStep (p : Fl → Bool → Fl) (m : ℝ) : Prop :=
  IsStepOn (fun _ => True) p m ∧ VanishesAt (p ninf) ∧ OneAt (p pinf)

/-- "density" of the point mass at `m`: infinite at `m`, 0 elsewhere -/
def IsSpike (d : Fl → Bool → Fl) (m : ℝ) : Prop :=
  IsPole (d (fin m)) ∧ ∀ x : Fl, x ≠ nan → x ≠ fin m → VanishesAt (d x)

/-- quantile function of the point mass at `m`: the location, for every probability -/
def IsConstQuant (q : Fl → Fl) (m : ℝ) : Prop := ∀ u : ℝ, 0 ≤ u → u ≤ 1 → q (fin u) = fin m

end Stats.Spec
