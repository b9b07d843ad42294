import Verif.Props.C06
import Verif.Props.C08
import Verif.Lemmas.ExactInst
import Verif.Lemmas.DoubleCalc

/-!
# C06 for the F density

The F density is a beta density times `ratio * (1 - x * ratio)` (dens/df.ipp:34-49). The factor is positive in
exact arithmetic; in binary64 `x * ratio` can round to a number above 1, and the density comes out negative.
-/

set_option linter.unusedSectionVars false
open Classical

namespace Stats
open Fl Spec

section
variable [Lib] [Ideal]

/-- Exact arithmetic, all arguments. Missing: arbitrary rounding (false, see `C06_df_violated`). -/
theorem C06_df_partial (x df1 df2 : Fl) : ¬ df x df1 df2 false < 0 := by
  by_cases hf : (∃ r, x = fin r ∧ 0 < r) ∧ (∃ a, df1 = fin a ∧ Lib.eps ≤ a) ∧ (∃ b, df2 = fin b ∧ Lib.eps ≤ b)
  · obtain ⟨⟨r, rfl, hr⟩, ⟨a, rfl, ha⟩, ⟨b, rfl, hb⟩⟩ := hf
    obtain ⟨hp, h1, h2⟩ := C08_df ha hb r hr
    simp only at h1 h2
    rw [h1]; simpa using hp.le
  · unfold df df_limit_vals_dof df_limit_vals_xinf df_limit_vals_x0
    split_ifs with h1 h2 h3 h4 h5 h6 <;> try simp
    · simpa using C06_dinvgamma _ _ _
    · simpa using C06_dgamma _ _ _
    · exfalso
      apply hf
      have e1 : ∃ r, x = fin r ∧ 0 < r := by
        cases x with
        | fin r =>
          refine ⟨r, rfl, ?_⟩
          simp at h2 h3
          exact lt_of_le_of_ne h2 (Ne.symm h3)
        | _ => simp_all [f_ok']
      refine ⟨e1, ?_, ?_⟩
      · cases df1 <;> simp_all [f_ok', f_ok, eps]
      · cases df2 <;> simp_all [f_ok', f_ok, eps]

end
end Stats

namespace Stats.ExamplesC06F
open Fl Spec DoubleArith

section
open scoped Stats.Exact
/-- the claim is about a genuine density value -/
example : ¬ df (fin 1) (fin 3) (fin 2) false < 0 ∧ ∃ r, 0 < r ∧ df (fin 1) (fin 3) (fin 2) false = fin r :=
  ⟨C06_df_partial _ _ _, _, (C08_df (Exact.eps_le (by norm_num)) (Exact.eps_le (by norm_num)) 1 (Set.mem_Ioi.2 one_pos)).1,
    (C08_df (Exact.eps_le (by norm_num)) (Exact.eps_le (by norm_num)) 1 (Set.mem_Ioi.2 one_pos)).2.1⟩
end

set_option warn.classDefReducibility false in
attribute [local instance] doubleLib

/-- The F density can be negative in IEEE 754 double precision: `df(7.95e20, 3, 2) < 0`. -/
theorem C06_df_violated : df (fin 795000000000000000000) (fin 3) (fin 2) false < 0 := by
  have e1 : (fin 3 : Fl) * fin 795000000000000000000 = fin 2384999999999999737856 := by
    rw [dmul, Double.R_tie 71 4549026489257812 (by norm_num) (by norm_num) (by norm_num) (by norm_num)
      (by decide) (by norm_num), ofE_coe]
    norm_num
  have e2 : (fin 2384999999999999737856 : Fl) / fin 2 = fin 1192499999999999868928 := by
    rw [ddiv _ (by norm_num), Double.R_near 70 4549026489257812 (by norm_num) (by norm_num) (by norm_num)
      (by norm_num) (by norm_num), ofE_coe]
    norm_num
  have e3 : (fin 1 : Fl) + fin 1192499999999999868928 = fin 1192499999999999868928 := by
    rw [dadd, Double.R_near 70 4549026489257812 (by norm_num) (by norm_num) (by norm_num)
      (by norm_num) (by norm_num), ofE_coe]
    norm_num
  have e4 : (fin 1192499999999999868928 : Fl) / fin 1192499999999999868928 = fin 1 := by
    rw [ddiv _ (by norm_num), Double.R_near 0 4503599627370496 (by norm_num) (by norm_num) (by norm_num)
      (by norm_num) (by norm_num), ofE_coe]
    norm_num
  have e5 : (fin 3 : Fl) / fin 2 = fin (3 / 2) := by
    rw [ddiv _ (by norm_num), Double.R_near 0 6755399441055744 (by norm_num) (by norm_num) (by norm_num)
      (by norm_num) (by norm_num), ofE_coe]
    norm_num
  have e6 : (fin 2 : Fl) / fin 2 = fin 1 := by
    rw [ddiv _ (by norm_num), Double.R_near 0 4503599627370496 (by norm_num) (by norm_num) (by norm_num)
      (by norm_num) (by norm_num), ofE_coe]
    norm_num
  have e7 : (fin (3 / 2) : Fl) / fin 1 = fin (3 / 2) := by
    rw [ddiv _ (by norm_num), Double.R_near 0 6755399441055744 (by norm_num) (by norm_num) (by norm_num)
      (by norm_num) (by norm_num), ofE_coe]
    norm_num
  have e8 : (fin (3 / 2) : Fl) / fin 1192499999999999868928 = fin (1671984900358385 / 2 ^ 120) := by
    rw [ddiv _ (by norm_num), Double.R_near (-70) 6687939601433540 (by norm_num) (by norm_num) (by norm_num)
      (by norm_num) (by norm_num [abs_lt]), ofE_coe]
    norm_num
  have e9 : (fin 795000000000000000000 : Fl) * fin (1671984900358385 / 2 ^ 120) = fin (1 + 1 / 2 ^ 52) := by
    rw [dmul, Double.R_near 0 4503599627370497 (by norm_num) (by norm_num) (by norm_num)
      (by norm_num) (by norm_num [abs_lt]), ofE_coe]
    norm_num
  have e10 : (fin 1 : Fl) - fin (1 + 1 / 2 ^ 52) = fin (-(1 / 2 ^ 52)) := by
    rw [dsub, show (1 : ℝ) - (1 + 1 / 2 ^ 52) = -(1 / 2 ^ 52) by ring, Double.R_neg,
      Double.R_near (-52) 4503599627370496 (by norm_num) (by norm_num) (by norm_num)
      (by norm_num) (by norm_num), ← EReal.coe_neg, ofE_coe]
    norm_num
  have e11 : (fin (1671984900358385 / 2 ^ 120) : Fl) * fin (-(1 / 2 ^ 52)) =
      fin (-(1671984900358385 / 2 ^ 172)) := by
    rw [dmul, show (1671984900358385 / 2 ^ 120 : ℝ) * -(1 / 2 ^ 52) = -(1671984900358385 / 2 ^ 172) by norm_num,
      Double.R_neg, Double.R_near (-122) 6687939601433540 (by norm_num) (by norm_num) (by norm_num)
      (by norm_num) (by norm_num), ← EReal.coe_neg, ofE_coe]
    norm_num
  have e12 : (fin (3 / 2) : Fl) * fin (-(1671984900358385 / 2 ^ 172)) =
      fin (-(5015954701075155 / 2 ^ 173)) := by
    rw [dmul, show (3 / 2 : ℝ) * -(1671984900358385 / 2 ^ 172) = -(5015954701075155 / 2 ^ 173) by norm_num,
      Double.R_neg, Double.R_near (-121) 5015954701075155 (by norm_num) (by norm_num) (by norm_num)
      (by norm_num) (by norm_num), ← EReal.coe_neg, ofE_coe]
    norm_num
  have hb : dbeta (fin 1) (fin (3 / 2)) (fin 1) false = fin (3 / 2) := by
    simp [dbeta, beta_ok', beta_ok]
    norm_num
  have hok : f_ok' (fin 795000000000000000000) (fin 3) (fin 2) := by
    simp [f_ok', f_ok, eps, deps]
    norm_num
  have h : df (fin 795000000000000000000) (fin 3) (fin 2) false = fin (-(5015954701075155 / 2 ^ 173)) := by
    have h0 : ¬ (795000000000000000000 : ℝ) < 0 := by norm_num
    have h1 : ¬ (795000000000000000000 : ℝ) = 0 := by norm_num
    simp only [df, hok, df_log_check, df_compute_adj, zero_eq, one_eq, ofNat_eq, fin_lt_fin, fin_feq_fin, h0, h1,
      isPosinf_iff, reduceCtorEq, not_true_eq_false, if_false, or_self, Bool.false_eq_true,
      e1, e2, e3, e4, e5, e6, e7, e8, e9, e10, e11, e12, hb]
  rw [h]
  simp only [zero_eq, fin_lt_fin]
  norm_num

end Stats.ExamplesC06F
