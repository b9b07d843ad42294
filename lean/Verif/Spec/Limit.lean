import Verif.Num
import Mathlib.Topology.Instances.Real.Lemmas

/-! # Limits of coded functions along a real parameter -/

open Filter Topology

namespace Stats.Spec
open Fl

/-- `g t` approaches `v` as `t` runs along `l`: a number by convergence of eventually finite values, an infinity by
passing every bound. NaN is approached by nothing. -/
def Approaches (l : Filter ℝ) (g : ℝ → Fl) : Fl → Prop
  | nan => False
  | fin r => ∃ h : ℝ → ℝ, (∀ᶠ t in l, g t = fin (h t)) ∧ Tendsto h l (𝓝 r)
  | pinf => ∀ M : ℝ, ∀ᶠ t in l, fin M ≤ g t
  | ninf => ∀ M : ℝ, ∀ᶠ t in l, g t ≤ fin M

/-- The value of `F` at `+inf` is the limit of its values at finite arguments. -/
def LimTop (F : Fl → Fl) : Prop := Approaches atTop (fun t => F (fin t)) (F pinf)

/-- The value of `F` at `-inf` is the limit of its values at finite arguments. -/
def LimBot (F : Fl → Fl) : Prop := Approaches atBot (fun t => F (fin t)) (F ninf)

/-- `LimTop` in plain and in log form -/
def LimTop2 (F : Fl → Bool → Fl) : Prop := ∀ b, LimTop fun t => F t b

/-- `LimBot` in plain and in log form -/
def LimBot2 (F : Fl → Bool → Fl) : Prop := ∀ b, LimBot fun t => F t b

end Stats.Spec
