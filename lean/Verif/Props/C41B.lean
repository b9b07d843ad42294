import Verif.Props.C41
import Verif.Lemmas.Meets

/-!
# C41 for the beta and F families

A beta parameter equal to 0 or infinite, or both F degrees of freedom infinite, leaves one or two atoms. For every
library. The beta distribution function gives 0 instead of the mass of the atom at 0 at the point 0, and the F
distribution function one half instead of 1 at the atom: `_violated`.
-/

set_option linter.unusedSectionVars false
open Classical
namespace Stats
open Fl Spec
variable [Lib]

/-! ### beta -/

/-- the parameters of which the limit is the point mass at 0 -/
def Spec.BetaAtZero (a b : Fl) : Prop :=
  (a = fin 0 ∧ ((∃ r : ℝ, 0 < r ∧ b = fin r) ∨ b = pinf)) ∨ ((∃ r : ℝ, 0 < r ∧ a = fin r) ∧ b = pinf)
/-- the parameters of which the limit is the point mass at 1 -/
def Spec.BetaAtOne (a b : Fl) : Prop := BetaAtZero b a

theorem dbeta_low {x a b : Fl} (hx : x ≠ nan) (h : beta_ok a b) (h0 : x < 0 ∨ x > 1) : VanishesAt (dbeta x a b) := by
  have hok : beta_ok' x a b := ⟨by simpa using hx, h⟩
  constructor <;> simp only [dbeta, hok, not_true_eq_false, if_false, h0, if_true] <;> simp

theorem C41_dbeta_zero {a b : Fl} (h : BetaAtZero a b) : IsSpike (fun x => dbeta x a b) 0 := by
  refine ⟨⟨?_, ?_⟩, fun x hx hm => ?_⟩
  · obtain ⟨rfl, ⟨r, hr, rfl⟩ | rfl⟩ | ⟨⟨r, hr, rfl⟩, rfl⟩ := h <;>
      simp_all [dbeta, beta_ok', beta_ok, dbeta_limit_vals, le_of_lt, ne_of_gt]
  · obtain ⟨rfl, ⟨r, hr, rfl⟩ | rfl⟩ | ⟨⟨r, hr, rfl⟩, rfl⟩ := h <;>
      simp_all [dbeta, beta_ok', beta_ok, dbeta_limit_vals, le_of_lt, ne_of_gt]
  · have hok : beta_ok a b := by
      obtain ⟨rfl, ⟨r, hr, rfl⟩ | rfl⟩ | ⟨⟨r, hr, rfl⟩, rfl⟩ := h <;> simp_all [beta_ok, le_of_lt]
    by_cases hx0 : x < 0 ∨ x > 1
    · exact dbeta_low hx hok hx0
    · have : dbeta x a b = log_if (fin 0) := by
        funext l
        obtain ⟨rfl, ⟨r, hr, rfl⟩ | rfl⟩ | ⟨⟨r, hr, rfl⟩, rfl⟩ := h <;> cases x <;>
          simp_all [dbeta, beta_ok', beta_ok, dbeta_limit_vals, le_of_lt, ne_of_gt]
      simp only [this]; exact vanishes_log_if

theorem C41_dbeta_one {a b : Fl} (h : BetaAtOne a b) : IsSpike (fun x => dbeta x a b) 1 := by
  refine ⟨⟨?_, ?_⟩, fun x hx hm => ?_⟩
  · obtain ⟨rfl, ⟨r, hr, rfl⟩ | rfl⟩ | ⟨⟨r, hr, rfl⟩, rfl⟩ := h <;>
      simp_all [dbeta, beta_ok', beta_ok, dbeta_limit_vals, le_of_lt, ne_of_gt]
  · obtain ⟨rfl, ⟨r, hr, rfl⟩ | rfl⟩ | ⟨⟨r, hr, rfl⟩, rfl⟩ := h <;>
      simp_all [dbeta, beta_ok', beta_ok, dbeta_limit_vals, le_of_lt, ne_of_gt]
  · have hok : beta_ok a b := by
      obtain ⟨rfl, ⟨r, hr, rfl⟩ | rfl⟩ | ⟨⟨r, hr, rfl⟩, rfl⟩ := h <;> simp_all [beta_ok, le_of_lt]
    by_cases hx0 : x < 0 ∨ x > 1
    · exact dbeta_low hx hok hx0
    · have : dbeta x a b = log_if (fin 0) := by
        funext l
        obtain ⟨rfl, ⟨r, hr, rfl⟩ | rfl⟩ | ⟨⟨r, hr, rfl⟩, rfl⟩ := h <;> cases x <;>
          simp_all [dbeta, beta_ok', beta_ok, dbeta_limit_vals, le_of_lt, ne_of_gt]
      simp only [this]; exact vanishes_log_if

/-- both infinite: the point mass at one half -/
theorem C41_dbeta_half : IsSpike (fun x => dbeta x pinf pinf) (1 / 2) := by
  refine ⟨⟨?_, ?_⟩, fun x hx hm => ?_⟩
  · simp [dbeta, beta_ok', beta_ok, dbeta_limit_vals]; norm_num
  · simp [dbeta, beta_ok', beta_ok, dbeta_limit_vals]; norm_num
  · by_cases hx0 : x < 0 ∨ x > 1
    · exact dbeta_low hx (by simp [beta_ok]) hx0
    · have : dbeta x pinf pinf = log_if (fin 0) := by
        funext l
        cases x <;> simp_all [dbeta, beta_ok', beta_ok, dbeta_limit_vals]
      simp only [this]; exact vanishes_log_if

/-- both 0: atoms at 0 and at 1 -/
theorem C41_dbeta_two : IsPole (dbeta (fin 0) (fin 0) (fin 0)) ∧ IsPole (dbeta (fin 1) (fin 0) (fin 0)) ∧
    ∀ x : Fl, x ≠ nan → x ≠ fin 0 → x ≠ fin 1 → VanishesAt (dbeta x (fin 0) (fin 0)) := by
  refine ⟨⟨?_, ?_⟩, ⟨?_, ?_⟩, fun x hx hm hm' => ?_⟩
  · simp [dbeta, beta_ok', beta_ok, dbeta_limit_vals]
  · simp [dbeta, beta_ok', beta_ok, dbeta_limit_vals]
  · simp [dbeta, beta_ok', beta_ok, dbeta_limit_vals]
  · simp [dbeta, beta_ok', beta_ok, dbeta_limit_vals]
  · by_cases hx0 : x < 0 ∨ x > 1
    · exact dbeta_low hx (by simp [beta_ok]) hx0
    · have : dbeta x (fin 0) (fin 0) = log_if (fin 0) := by
        funext l
        cases x <;> simp_all [dbeta, beta_ok', beta_ok, dbeta_limit_vals]
      simp only [this]; exact vanishes_log_if

theorem pbeta_low {x : ℝ} {a b : Fl} (h : beta_ok a b) (h0 : x ≤ 0) : VanishesAt (pbeta (fin x) a b) := by
  constructor <;> simp [pbeta, beta_ok', h, h0]
theorem pbeta_high {x : ℝ} {a b : Fl} (h : beta_ok a b) (h0 : 1 ≤ x) : OneAt (pbeta (fin x) a b) := by
  have : pbeta (fin x) a b = log_if (fin 1) := by
    funext l; simp [pbeta, beta_ok', h, h0, show ¬ x ≤ 0 by linarith]
  rw [this]; exact one_log_if

theorem betaAtZero_ok {a b : Fl} (h : BetaAtZero a b) : beta_ok a b := by
  obtain ⟨rfl, ⟨r, hr, rfl⟩ | rfl⟩ | ⟨⟨r, hr, rfl⟩, rfl⟩ := h <;> simp_all [beta_ok, le_of_lt]
theorem betaAtOne_ok {a b : Fl} (h : BetaAtOne a b) : beta_ok a b := by
  obtain ⟨rfl, ⟨r, hr, rfl⟩ | rfl⟩ | ⟨⟨r, hr, rfl⟩, rfl⟩ := h <;> simp_all [beta_ok, le_of_lt]

/-- missing: the atom itself, see `C41_pbeta_zero_violated` -/
theorem C41_pbeta_zero_partial {a b : Fl} (h : BetaAtZero a b) :
    IsStepOn (fun x => x ≠ 0) (fun x => pbeta x a b) 0 := by
  have hok := betaAtZero_ok h
  refine fun x hx => ⟨fun h0 => pbeta_low hok h0.le, fun h0 => ?_⟩
  by_cases h1 : 1 ≤ x
  · exact pbeta_high hok h1
  · have h0' : ¬ x ≤ 0 := not_le.2 (lt_of_le_of_ne h0 (Ne.symm hx))
    have : pbeta (fin x) a b = log_if (fin 1) := by
      funext l
      obtain ⟨rfl, ⟨r, hr, rfl⟩ | rfl⟩ | ⟨⟨r, hr, rfl⟩, rfl⟩ := h <;>
        simp_all [pbeta, beta_ok', beta_ok, pbeta_limit_vals, le_of_lt, ne_of_gt]
    simp only [this]; exact one_log_if

theorem C41_pbeta_zero_violated {a b : Fl} (h : BetaAtZero a b) : pbeta (fin 0) a b false = fin 0 :=
  (pbeta_low (betaAtZero_ok h) le_rfl).1

theorem C41_pbeta_one {a b : Fl} (h : BetaAtOne a b) : IsStep (fun x => pbeta x a b) 1 := by
  have hok := betaAtOne_ok h
  refine ⟨fun x _ => ⟨fun h0 => ?_, fun h0 => pbeta_high hok h0⟩, ?_, ?_⟩
  · by_cases h1 : x ≤ 0
    · exact pbeta_low hok h1
    · have h0' : ¬ 1 ≤ x := not_le.2 h0
      have : pbeta (fin x) a b = log_if (fin 0) := by
        funext l
        obtain ⟨rfl, ⟨r, hr, rfl⟩ | rfl⟩ | ⟨⟨r, hr, rfl⟩, rfl⟩ := h <;>
          simp [pbeta, beta_ok', hok, h1, h0', pbeta_limit_vals] <;> simp [hr.ne']
      simp only [this]; exact vanishes_log_if
  · constructor <;> simp [pbeta, beta_ok', hok]
  · have : pbeta pinf a b = log_if (fin 1) := by
      funext l; simp [pbeta, beta_ok', hok]
    simp only [this]; exact one_log_if

theorem C41_pbeta_half : IsStep (fun x => pbeta x pinf pinf) (1 / 2) := by
  have hok : beta_ok pinf pinf := by simp [beta_ok]
  refine ⟨fun x _ => ⟨fun h0 => ?_, fun h0 => ?_⟩, ?_, ?_⟩
  · by_cases h1 : x ≤ 0
    · exact pbeta_low hok h1
    · have h0' : ¬ 1 ≤ x := by linarith
      have : pbeta (fin x) pinf pinf = log_if (fin 0) := by
        funext l
        simp only [pbeta, beta_ok', hok, pbeta_limit_vals]
        simp [h1, h0', -one_div, h0]
      simp only [this]; exact vanishes_log_if
  · by_cases h1 : 1 ≤ x
    · exact pbeta_high hok h1
    · have h3 : ¬ x ≤ 0 := by linarith
      have h2 : ¬ x < 1 / 2 := not_lt.2 h0
      have : pbeta (fin x) pinf pinf = log_if (fin 1) := by
        funext l
        simp only [pbeta, beta_ok', hok, pbeta_limit_vals]
        simp [h1, h3, -one_div, h2]
      simp only [this]; exact one_log_if
  · constructor <;> simp [pbeta, beta_ok', hok]
  · have : pbeta pinf pinf pinf = log_if (fin 1) := by
      funext l; simp [pbeta, beta_ok', hok]
    simp only [this]; exact one_log_if

/-- between the two atoms; the value at the lower atom is `C41_pbeta_two_violated` -/
theorem C41_pbeta_two_partial (x : ℝ) : (x < 0 → VanishesAt (pbeta (fin x) (fin 0) (fin 0))) ∧
    (0 < x → x < 1 → pbeta (fin x) (fin 0) (fin 0) false = fin (1 / 2)) ∧
    (1 ≤ x → OneAt (pbeta (fin x) (fin 0) (fin 0))) := by
  have hok : beta_ok (fin 0) (fin 0) := by simp [beta_ok]
  refine ⟨fun h => pbeta_low hok h.le, fun h0 h1 => ?_, pbeta_high hok⟩
  simp [pbeta, beta_ok', hok, not_le.2 h0, not_le.2 h1, pbeta_limit_vals]

theorem C41_pbeta_two_violated : pbeta (fin 0) (fin 0) (fin 0) false = fin 0 :=
  (pbeta_low (by simp [beta_ok]) le_rfl).1

/-- the location, for every probability other than 0 and 1 (there the code gives the ends of the support) -/
def Spec.IsConstQuantIn (q : Fl → Fl) (m : ℝ) : Prop := ∀ u : ℝ, 0 < u → u < 1 → q (fin u) = fin m

theorem C41_qbeta_zero {a b : Fl} (h : BetaAtZero a b) : IsConstQuantIn (fun p => qbeta p a b) 0 := by
  intro u h0 h1
  have hok := betaAtZero_ok h
  have hp := prob_ok_fin h0.le h1.le
  obtain ⟨rfl, ⟨r, hr, rfl⟩ | rfl⟩ | ⟨⟨r, hr, rfl⟩, rfl⟩ := h <;>
    simp [qbeta, hok, hp, h0.ne', h1.ne, qbeta_limit_vals] <;> simp [hr.ne']

theorem C41_qbeta_one {a b : Fl} (h : BetaAtOne a b) : IsConstQuantIn (fun p => qbeta p a b) 1 := by
  intro u h0 h1
  have hok := betaAtOne_ok h
  have hp := prob_ok_fin h0.le h1.le
  obtain ⟨rfl, ⟨r, hr, rfl⟩ | rfl⟩ | ⟨⟨r, hr, rfl⟩, rfl⟩ := h <;>
    simp [qbeta, hok, hp, h0.ne', h1.ne, qbeta_limit_vals, one_eq] <;> simp [hr.ne']

theorem C41_qbeta_half : IsConstQuantIn (fun p => qbeta p pinf pinf) (1 / 2) := by
  intro u h0 h1
  simp [qbeta, beta_ok, prob_ok_fin h0.le h1.le, h0.ne', h1.ne, qbeta_limit_vals, half]

/-- the two atoms; at one half every value from 0 to 1 is a quantile, the code gives the middle one -/
theorem C41_qbeta_two {u : ℝ} (h0 : 0 ≤ u) (h1 : u ≤ 1) :
    (u < 1 / 2 → qbeta (fin u) (fin 0) (fin 0) = fin 0) ∧ (1 / 2 < u → qbeta (fin u) (fin 0) (fin 0) = fin 1) ∧
    (u = 1 / 2 → qbeta (fin u) (fin 0) (fin 0) = fin (1 / 2)) := by
  have hp := prob_ok_fin h0 h1
  have hok : beta_ok (fin 0) (fin 0) := by simp [beta_ok]
  refine ⟨fun h => ?_, fun h => ?_, fun h => ?_⟩
  · by_cases hu : u = 0
    · simp [qbeta, hok, hp, hu ▸ hp, hu]
    · simp [qbeta, hok, hp, hu, show u ≠ 1 by intro h'; linarith, qbeta_limit_vals, -one_div, h]
  · have hu : u ≠ 0 := by intro h'; linarith
    by_cases hu1 : u = 1
    · simp [qbeta, hok, hp, hu1 ▸ hp, hu1]
    · simp [qbeta, hok, hp, hu, hu1, qbeta_limit_vals, -one_div, h, not_lt.2 h.le]
  · have hu : u ≠ 0 := by intro h'; linarith
    have hu1 : u ≠ 1 := by intro h'; linarith
    simp [qbeta, hok, hp, hu, hu1, qbeta_limit_vals, -one_div, h.not_lt, h.not_gt]

/-! ### F, both degrees of freedom infinite: the point mass at 1 -/

theorem C41_df : IsSpike (fun x => df x pinf pinf) 1 := by
  have h2 : ¬ (pinf : Fl) < 2 := by simp
  refine ⟨⟨?_, ?_⟩, fun x hx hm => ?_⟩
  · simp [df, f_ok', f_ok, df_limit_vals_dof, eps, one_eq]
  · simp [df, f_ok', f_ok, df_limit_vals_dof, eps, one_eq]
  · have e0 : log_zero_if = log_if (fin 0) := by
      funext l; cases l <;> simp [log_zero_if, log_fin]
    have : df x pinf pinf = log_if (fin 0) := by
      funext l
      cases x <;> simp_all [df, f_ok', f_ok, df_limit_vals_dof, df_limit_vals_xinf, df_limit_vals_x0, eps, one_eq]
    simp only [this]; exact vanishes_log_if

/-- missing: the atom, see `C41_pf_violated`, and (because values below `eps` are cut) nothing else -/
theorem C41_pf_partial (he : Lib.eps ≤ 1) : IsStepOn (fun x => x ≠ 1) (fun x => pf x pinf pinf) 1 ∧
    VanishesAt (pf ninf pinf pinf) ∧ OneAt (pf pinf pinf pinf) := by
  refine ⟨fun x hx => ⟨fun h => ?_, fun h => ?_⟩, ?_, ?_⟩
  · by_cases h0 : x < Lib.eps
    · constructor <;> simp [pf, f_ok', f_ok, eps, h0]
    · constructor <;>
        simp [pf, f_ok', f_ok, eps, h0, pf_limit_vals_dof, not_lt.2 h.le, hx, one_eq]
  · have h0 : ¬ x < Lib.eps := by linarith
    have h1 : 1 < x := lt_of_le_of_ne h (Ne.symm hx)
    constructor <;> simp [pf, f_ok', f_ok, eps, h0, pf_limit_vals_dof, h1, one_eq]
  · constructor <;> simp [pf, f_ok', f_ok, eps]
  · constructor <;> simp [pf, f_ok', f_ok, eps]
example : IsStepOn (fun x => x ≠ 1) (fun x => pf x pinf pinf) 1 ∧
    VanishesAt (pf ninf pinf pinf) ∧ OneAt (pf pinf pinf pinf) :=
  C41_pf_partial (he := by meets)

theorem C41_pf_violated (he : Lib.eps ≤ 1) : pf (fin 1) pinf pinf false = fin (1 / 2) := by
  simp [pf, f_ok', f_ok, eps, not_lt.2 he, pf_limit_vals_dof, one_eq, half]
example : pf (fin 1) pinf pinf false = fin (1 / 2) := C41_pf_violated (he := by meets)

theorem C41_qf : IsConstQuantIn (fun p => qf p pinf pinf) 1 := by
  intro u h0 h1
  simp [qf, f_ok, eps, prob_ok_fin h0.le h1.le, h0.ne', h1.ne, qf_limit_vals_dof, one_eq]

end Stats

namespace Stats.ExamplesC41B
open Fl Spec
open scoped Stats.Exact
example : IsSpike (fun x => dbeta x pinf (fin 3)) 1 := C41_dbeta_one (Or.inr ⟨⟨3, by norm_num, rfl⟩, rfl⟩)
example : pbeta (fin (1 / 3)) (fin 0) (fin 2) false = fin 1 :=
  ((C41_pbeta_zero_partial (Or.inl ⟨rfl, Or.inl ⟨2, by norm_num, rfl⟩⟩) _ (by norm_num)).2 (by norm_num)).1
example : OneAt (pf (fin 2) pinf pinf) := (C41_pf_partial (by show (1 : ℝ) / 2 ^ 52 ≤ 1; norm_num)).1 2 (by norm_num) |>.2 (by norm_num)
end Stats.ExamplesC41B
