import Verif.Num
import Mathlib.Analysis.SpecialFunctions.Log.Basic

/-! # Bayes' rule for coded densities -/

namespace Stats.Spec
open Fl

/-- Bayes' rule for a sample `xs`: as functions of the parameter `θ`, the prior times the likelihoods of the observations
is a constant (the marginal density of the sample) times the posterior; in log form they are sums. The posterior is a
positive number. -/
def Updates {D Θ : Type*} [Lib] (S : Set Θ) (prior : Θ → Bool → Fl) (lik : D → Θ → Bool → Fl) (xs : List D)
    (post : Θ → Bool → Fl) : Prop :=
  ∃ m : ℝ, 0 < m ∧ ∀ θ ∈ S, (∃ r : ℝ, 0 < r ∧ post θ false = fin r) ∧
    xs.foldl (fun a x => a * lik x θ false) (prior θ false) = fin m * post θ false ∧
    xs.foldl (fun a x => a + lik x θ true) (prior θ true) = fin (Real.log m) + post θ true

end Stats.Spec
