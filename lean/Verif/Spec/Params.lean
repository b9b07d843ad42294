import Verif.Num

/-!
# Parameter domains

The usual domain of each parametrisation used in `/repo/docs/source/api`, including the degenerate ends
(scale 0, infinite values) for which the library documents limits. Written independently of the sanity
checks of the code: a parameter is described by the extended real number it stands for.
-/

namespace Stats.Spec
open Fl

/-- a number, possibly infinite -/
def Num (x : Fl) : Prop := x ≠ nan
/-- a number in `[0, ∞]` -/
def NonNeg (x : Fl) : Prop := ∃ e : EReal, 0 ≤ e ∧ x = ofE e
/-- a number in `(0, ∞]` -/
def Pos (x : Fl) : Prop := ∃ e : EReal, 0 < e ∧ x = ofE e
/-- a number in `[0, 1]` -/
def Prob (x : Fl) : Prop := ∃ r : ℝ, 0 ≤ r ∧ r ≤ 1 ∧ x = fin r

/-- normal, log-normal, Cauchy, Laplace, logistic: location and scale -/
def LocScale (mu sigma : Fl) : Prop := Num mu ∧ NonNeg sigma
/-- uniform: two ends, the left one smaller -/
def Ends (a b : Fl) : Prop := ∃ e f : EReal, e < f ∧ a = ofE e ∧ b = ofE f
/-- beta, inverse gamma, inverse Gaussian -/
def TwoNonNeg (a b : Fl) : Prop := NonNeg a ∧ NonNeg b
/-- F, Weibull -/
def TwoPos (a b : Fl) : Prop := Pos a ∧ Pos b
/-- gamma: shape may be zero (point mass), scale is positive -/
def ShapeScale (shape scale : Fl) : Prop := NonNeg shape ∧ Pos scale
/-- binomial -/
def Trials (n : ℤ) (prob : Fl) : Prop := 0 ≤ n ∧ Prob prob

end Stats.Spec
