import Verif.Spec.Limit

/-! # Limits of coded functions when several arguments run at once -/

open Filter Topology

namespace Stats.Spec
open Fl

/-- The path `u` runs to the argument `a`: past every bound for an infinity, standing still for a number. -/
def Goes (u : ℝ → ℝ) : Fl → Prop
  | nan => False
  | ninf => Tendsto u atTop atBot
  | fin r => ∀ t, u t = r
  | pinf => Tendsto u atTop atTop

/-- Along every path to `(x, m, s)` the values of `F`, in plain and in log form, approach the value at `(x, m, s)`. -/
def JointLim (F : Fl → Fl → Fl → Bool → Fl) (x m s : Fl) : Prop :=
  ∀ u v w : ℝ → ℝ, Goes u x → Goes v m → Goes w s →
    ∀ b, Approaches atTop (fun t => F (fin (u t)) (fin (v t)) (fin (w t)) b) (F x m s b)

/-- Two paths to `(x, m, s)` give `F` two different limits: no value at `(x, m, s)` is a limit. -/
def Undecided (F : Fl → Fl → Fl → Bool → Fl) (x m s : Fl) : Prop :=
  ∃ u v w u' v' w' : ℝ → ℝ, (Goes u x ∧ Goes v m ∧ Goes w s) ∧ (Goes u' x ∧ Goes v' m ∧ Goes w' s) ∧
    ∃ r r' : ℝ, r ≠ r' ∧ Approaches atTop (fun t => F (fin (u t)) (fin (v t)) (fin (w t)) false) (fin r) ∧
      Approaches atTop (fun t => F (fin (u' t)) (fin (v' t)) (fin (w' t)) false) (fin r')

/-- `NaN` in plain and in log form, where no limit exists -/
def NanUndecided (F : Fl → Fl → Fl → Bool → Fl) (x m s : Fl) : Prop :=
  (∀ b, F x m s b = nan) ∧ Undecided F x m s

/-- A density of a location-scale family at infinite arguments. -/
def DensInf (d : Fl → Fl → Fl → Bool → Fl) : Prop :=
  (∀ x m : Fl, x ≠ nan → m ≠ nan → JointLim d x m pinf) ∧
  ∀ (x m : Fl) (s : ℝ), x ≠ nan → m ≠ nan → 0 < s → isInf x ∨ isInf m →
    (x ≠ m ∧ JointLim d x m (fin s)) ∨ (x = m ∧ NanUndecided d x m (fin s))

/-- A distribution function of a location-scale family at infinite arguments. -/
def CdfInf (p : Fl → Fl → Fl → Bool → Fl) : Prop :=
  (∀ x m : ℝ, JointLim p (fin x) (fin m) pinf) ∧
  (∀ x m : Fl, x ≠ nan → m ≠ nan → isInf x ∨ isInf m → NanUndecided p x m pinf) ∧
  ∀ (x m : Fl) (s : ℝ), x ≠ nan → m ≠ nan → 0 < s → isInf x ∨ isInf m →
    (x ≠ m ∧ JointLim p x m (fin s)) ∨ (x = m ∧ NanUndecided p x m (fin s))

/-- The path runs to the probability `p` through `(0, 1)`. -/
def GoesProb (u : ℝ → ℝ) (p : ℝ) : Prop := (∀ t, 0 < u t ∧ u t < 1) ∧ Tendsto u atTop (𝓝 p)

/-- Along every path to `(p, m)` the values of the quantile function approach its value at `(p, m)`. -/
def QJointLim (q : Fl → Fl → Fl) (p : ℝ) (m : Fl) : Prop :=
  ∀ u v : ℝ → ℝ, GoesProb u p → Goes v m → Approaches atTop (fun t => q (fin (u t)) (fin (v t))) (q (fin p) m)

/-- Two paths to `(p, m)` give the quantile function two different limits. -/
def QUndecided (q : Fl → Fl → Fl) (p : ℝ) (m : Fl) : Prop :=
  ∃ u v u' v' : ℝ → ℝ, (GoesProb u p ∧ Goes v m) ∧ (GoesProb u' p ∧ Goes v' m) ∧
    ∃ r r' : ℝ, r ≠ r' ∧ Approaches atTop (fun t => q (fin (u t)) (fin (v t))) (fin r) ∧
      Approaches atTop (fun t => q (fin (u' t)) (fin (v' t))) (fin r')

/-- A quantile function of a location-scale family at the ends of the unit interval. -/
def QuantEnds (q : Fl → Fl → Fl → Fl) : Prop :=
  ∀ s : ℝ, 0 < s →
    (∀ m : Fl, m ≠ nan → m ≠ pinf → QJointLim (fun p m => q p m (fin s)) 0 m) ∧
    (q 0 pinf (fin s) = nan ∧ QUndecided (fun p m => q p m (fin s)) 0 pinf) ∧
    (∀ m : Fl, m ≠ nan → m ≠ ninf → QJointLim (fun p m => q p m (fin s)) 1 m) ∧
    q 1 ninf (fin s) = nan ∧ QUndecided (fun p m => q p m (fin s)) 1 ninf

end Stats.Spec
