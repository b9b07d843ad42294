import Verif.Lemmas.QuantIdeal
import Verif.Lemmas.ExactInst
import Verif.Model.Rand
import Verif.Props.C08

/-!
# C22: overloads with omitted parameters

The library has one-argument overloads `dnorm(x)`, `pnorm(x)`, `qnorm(p)`, `dunif(x)` and the generators
`rnorm<T>()`, `runif<T>()`. The equality with the full call is stated for every library; next to it the value in
exact arithmetic, so that the defaults themselves (0 and 1) are pinned down by the standard distribution and not
by the text of the overload. `dnorm(x)` calls `pnorm`: violated.
-/

set_option linter.unusedSectionVars false
open Classical
namespace Stats
open Fl Spec
section
variable [Lib]

theorem C22_pnorm (x : Fl) (b : Bool) : pnorm1 x b = pnorm x (fin 0) (fin 1) b := by
  simp only [pnorm1, zero_eq, one_eq]

theorem C22_qnorm (p : Fl) : qnorm1 p = qnorm p (fin 0) (fin 1) := by
  simp only [qnorm1, zero_eq, one_eq]

theorem C22_dunif (x : Fl) : dunif1 x = dunif x (fin 0) (fin 1) false := by
  simp only [dunif1, zero_eq, one_eq]

variable {S : Type*} [Engine S]

theorem C22_runif (rd : ℕ) : runif0 S rd = (withSeed (runif (S := S) (fin 0) (fin 1)) rd).1 := by
  simp only [runif0, withSeed, zero_eq, one_eq]

theorem C22_rnorm (rd : ℕ) : rnorm0 S rd = (withSeed (rnorm (S := S) (fin 0) (fin 1)) rd).1 := by
  simp only [rnorm0, withSeed, zero_eq, one_eq]

/-- Whatever the random device returns, the short generator call gives a number in `[0, 1)`. -/
theorem C22_runif_value (rd : ℕ) (hn : Lib.next 0 1 < 1) :
    ∃ r : ℝ, runif0 S rd = fin r ∧ 0 ≤ r ∧ r < 1 := by
  obtain ⟨r, h, h0, h1⟩ := Engine.unif_mem (Lib.next 0 1) 1 (Engine.seed rd : S) hn
  refine ⟨r, ?_, (Lib.next_ge 0 1 one_pos).trans h0, h1⟩
  rw [C22_runif, withSeed, runif, if_neg (by simp [unif_ok])]
  exact h

/-- For every library, `dnorm(+inf)` is 1 where the three-argument call gives 0. -/
theorem C22_dnorm_violated :
    ∃ x : Fl, dnorm x (fin 0) (fin 1) false = fin 0 ∧ dnorm1 x false = fin 1 := by
  refine ⟨pinf, ?_, ?_⟩
  · simp [dnorm, norm_ok', norm_ok, dnorm_limit_vals]
  · simp [dnorm1, pnorm, norm_ok', norm_ok, pnorm_limit_vals]

end

variable [Lib] [Ideal]

theorem C22_pnorm_value (x : ℝ) :
    pnorm1 (fin x) false = fin (∫ t in Set.Iic x, normPdf 0 1 t) ∧
    pnorm1 (fin x) true = fin (Real.log (∫ t in Set.Iic x, normPdf 0 1 t)) := by
  have h := ((isCdf_norm 0 one_pos).running x).symm
  have hv := pnorm_fin 0 one_pos x
  have hp : 0 < ∫ t in Set.Iic x, normPdf 0 1 t := by rw [← h]; exact Phi_pos _
  rw [h] at hv
  refine ⟨by rw [C22_pnorm, hv], ?_⟩
  have : pnorm (fin x) (fin 0) (fin 1) true = log (pnorm (fin x) (fin 0) (fin 1) false) := by
    simp [pnorm, norm_ok', norm_ok]
  rw [C22_pnorm, this, hv, ilog hp]

/-- `qnorm(p)` is the point below which the standard normal has mass `p`. -/
theorem C22_qnorm_value (x : ℝ) : qnorm1 (fin (∫ t in Set.Iic x, normPdf 0 1 t)) = fin x := by
  have h := ((isCdf_norm 0 one_pos).running x).symm
  rw [← h, C22_qnorm]
  exact qnorm_inv 0 one_pos x (Phi_pos _) (Phi_lt_one _)

theorem C22_dunif_value (x : ℝ) : dunif1 (fin x) = fin (if 0 ≤ x ∧ x ≤ 1 then 1 else 0) := by
  rw [C22_dunif]
  by_cases h : 0 ≤ x ∧ x ≤ 1
  · have := (C08_dunif zero_lt_one x h).2.1
    simp only at this
    rw [if_pos h, this]; simp [unifPdf, h]
  · rw [if_neg h]
    have : x < 0 ∨ 1 < x := by by_contra hc; push Not at hc; exact h hc
    simp [dunif, unif_ok', unif_ok, this]

/-- At every finite point the short density call returns the distribution function and at the origin it differs from
the density. -/
theorem C22_dnorm_value_violated :
    (∀ x : ℝ, dnorm1 (fin x) false = fin (∫ t in Set.Iic x, normPdf 0 1 t)) ∧
    dnorm1 (fin 0) false ≠ dnorm (fin 0) (fin 0) (fin 1) false := by
  have hd (x : Fl) (b : Bool) : dnorm1 x b = pnorm1 x b := rfl
  refine ⟨fun x => by rw [hd]; exact (C22_pnorm_value x).1, ?_⟩
  have hv := (C08_dnorm 0 one_pos 0 trivial).2.1
  simp only at hv
  rw [hd, C22_pnorm, pnorm_fin 0 one_pos, hv]
  intro h
  injection h with h
  have h1 : Phi ((0 - 0) / 1) = 1 / 2 := by
    simp only [Phi, sub_zero, zero_div]
    rw [show Spec.erf 0 = 0 from by simp [Spec.erf]]
    norm_num
  rw [h1] at h
  have h2 : (normPdf 0 1 0) = 1 / √(2 * Real.pi) := by simp [normPdf]
  rw [h2] at h
  have hpos : 0 < 2 * Real.pi := by have := Real.pi_pos; positivity
  have h3 : √(2 * Real.pi) = 2 := by
    have : √(2 * Real.pi) ≠ 0 := (Real.sqrt_pos.2 hpos).ne'
    field_simp at h
    linarith
  have h4 := Real.sq_sqrt hpos.le
  rw [h3] at h4
  have := Real.pi_gt_three
  linarith

end Stats

namespace Stats.ExamplesC22
open Fl Spec
open scoped Stats.Exact

example : pnorm1 (fin 2) false = fin (∫ t in Set.Iic (2 : ℝ), normPdf 0 1 t) := (C22_pnorm_value 2).1
example : dunif1 (fin (1 / 4)) = fin 1 := by rw [C22_dunif_value, if_pos (by norm_num)]

end Stats.ExamplesC22
