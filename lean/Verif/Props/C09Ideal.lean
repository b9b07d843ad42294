import Verif.Props.C09
import Verif.Props.C17
import Verif.Lemmas.ProbIdeal
import Verif.Lemmas.ExactInst

/-!
# C09 for the functions that add rounded terms: exact arithmetic

The binomial, Poisson, inverse-Gaussian and t (two degrees of freedom) distribution functions, all arguments.
-/

set_option linter.unusedSectionVars false
open Classical
namespace Stats
open Fl Spec
variable [Lib] [Ideal]

theorem C09_pbinom (x n : ℤ) (prob : Fl) : InUnit (pbinom x n prob) := by
  by_cases h : binom_ok n prob
  · have h' := (binom_ok_iff n prob).1 h
    obtain ⟨hn, r, h0, h1, rfl⟩ := h'
    obtain ⟨m, rfl⟩ := Int.eq_ofNat_of_zero_le hn
    have hp : PN (pbinom x m (fin r) false) := by
      rw [pbinom_fin m h0 h1]
      exact Or.inr (btw_fin (cumZ_nonneg (binomPmf_nonneg h0 h1) x)
        (cumZ_le (binomPmf_nonneg h0 h1) (hasSum_binom m r) x))
    refine ⟨hp, ?_⟩
    rw [show pbinom x m (fin r) true = log (pbinom x m (fin r) false) by
      unfold pbinom pbern; split_ifs <;> simp]
    exact pn_log hp
  · exact inUnit_nan fun b => by simp [pbinom, h]

theorem C09_ppois (x : ℤ) (rate : Fl) : InUnit (ppois x rate) := by
  by_cases h : pois_ok rate
  · have h' := (pois_ok_iff rate).1 h
    obtain ⟨e, h0, rfl⟩ := h'
    induction e using EReal.rec with
    | bot => simp at h0
    | top =>
      refine inUnit_zero fun b => ?_
      simp at h
      simp [ppois, h]
    | coe r =>
      have h0 : 0 ≤ r := by simpa using h0
      have hp : PN (ppois x (fin r) false) := by
        rw [ppois_fin h0]
        exact Or.inr (btw_fin (cumZ_nonneg (poisPmf_nonneg h0) x)
          (cumZ_le (poisPmf_nonneg h0) (hasSum_pois r) x))
      rw [ofE_coe]
      refine ⟨hp, ?_⟩
      rw [show ppois x (fin r) true = log (ppois x (fin r) false) by
        unfold ppois; split_ifs <;> simp]
      exact pn_log hp
  · exact inUnit_nan fun b => by simp [ppois, h]

theorem C09_pinvgauss (x mu lambda : Fl) : InUnit (pinvgauss x mu lambda) := by
  have hl : pinvgauss x mu lambda true = log (pinvgauss x mu lambda false) := by
    unfold pinvgauss; split_ifs <;> simp
  suffices hp : PN (pinvgauss x mu lambda false) from ⟨hp, by rw [hl]; exact pn_log hp⟩
  by_cases hf : ∃ r m l, x = fin r ∧ mu = fin m ∧ lambda = fin l ∧ 0 < m ∧ 0 < l
  · obtain ⟨r, m, l, rfl, rfl, rfl, hm, hl⟩ := hf
    rw [pinvgauss_fin hm hl]
    exact Or.inr (btw_fin ((isCdf_invgauss hm hl).nonneg' r) ((isCdf_invgauss hm hl).le_one r))
  · unfold pinvgauss
    split_ifs with h1 h2 h3
    · simp
    · rw [log_if_false]; unfold pinvgauss_limit_vals; split_ifs <;> simp
    · exfalso; apply hf
      clear hl hf
      simp at h3
      obtain ⟨hx, hok⟩ := h1
      obtain ⟨⟨e, he, rfl⟩, ⟨f, hf, rfl⟩⟩ := (invgauss_ok_iff _ _).1 hok
      induction e using EReal.rec with
      | bot => simp at he
      | top => simp at h3
      | coe m =>
        induction f using EReal.rec with
        | bot => simp at hf
        | top => simp at h3
        | coe l =>
          cases x with
          | nan => simp at hx
          | ninf => simp at h3
          | pinf => simp at h3
          | fin r =>
            simp at he hf h3
            exact ⟨r, m, l, rfl, by simp, by simp, lt_of_le_of_ne he (Ne.symm h3.2.1),
              lt_of_le_of_ne hf (Ne.symm h3.2.2)⟩
    · simp

/-- All degrees of freedom; `C09_pt_partial` covers every rounding except for two degrees of freedom. -/
theorem C09_pt (x dof : Fl) : InUnit (pt x dof) := by
  by_cases h : dof = fin 2
  · subst h
    have he : Lib.eps ≤ 2 := Lib.eps_le.trans (by norm_num)
    have hl : pt x (fin 2) true = log (pt x (fin 2) false) := by
      unfold pt; split_ifs <;> simp_all
    suffices hp : PN (pt x (fin 2) false) from ⟨hp, by rw [hl]; exact pn_log hp⟩
    cases x with
    | nan => simp [pt, t_ok']
    | ninf => simp [pt, t_ok', t_ok, eps, not_lt.2 he]
    | pinf => simp [pt, t_ok', t_ok, eps, not_lt.2 he]
    | fin r =>
      rw [pt_fin he]
      exact Or.inr (btw_fin ((isCdf_t two_pos).nonneg' r) ((isCdf_t two_pos).le_one r))
  · exact C09_pt_partial x dof h

end Stats

namespace Stats.ExamplesC09
open Fl Spec
open scoped Stats.Exact

/-- a value strictly inside the unit interval -/
example : InUnit (ppois 2 (fin 1)) ∧ ∃ r, ppois 2 (fin 1) false = fin r ∧ 0 < r := by
  refine ⟨C09_ppois _ _, _, ppois_fin zero_le_one 2, ?_⟩
  rw [show (2 : ℤ) = ((2 : ℕ) : ℤ) by rfl, cumZ_nat]
  simp only [poisPmf_nat]
  positivity

end Stats.ExamplesC09
