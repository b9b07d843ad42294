import Verif.Num
import Mathlib.Analysis.SpecialFunctions.Log.Basic

/-! # Maximum likelihood -/

namespace Stats.Spec
open Fl

/-- the likelihood of the sample `xs`: the product of the densities of the observations -/
noncomputable def likelihood {D Θ : Type*} [Lib] (lik : D → Θ → Bool → Fl) (xs : List D) (θ : Θ) : Fl :=
  xs.foldl (fun a x => a * lik x θ false) (fin 1)

/-- the log likelihood: the sum of the log forms -/
noncomputable def logLikelihood {D Θ : Type*} [Lib] (lik : D → Θ → Bool → Fl) (xs : List D) (θ : Θ) : Fl :=
  xs.foldl (fun a x => a + lik x θ true) (fin 0)

/-- `est` is a parameter in `S`, and both forms of the likelihood are numbers there that every other parameter in `S` misses
from below. -/
def Maximises {D Θ : Type*} [Lib] (S : Set Θ) (lik : D → Θ → Bool → Fl) (xs : List D) (est : Θ) : Prop :=
  est ∈ S ∧ ∃ L : ℝ, 0 < L ∧ likelihood lik xs est = fin L ∧ logLikelihood lik xs est = fin (Real.log L) ∧
    ∀ θ ∈ S, θ ≠ est → likelihood lik xs θ < fin L ∧ logLikelihood lik xs θ < fin (Real.log L)

end Stats.Spec
