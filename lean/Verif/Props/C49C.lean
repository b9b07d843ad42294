import Verif.Props.C49B
import Verif.Props.C04F

/-!
# C49: where the relative error is total, in binary64

IEEE 754 double precision with correctly rounded library functions. `qexp`, `qnorm` and `qlaplace` lose every
probability below `2^-56`, and `plogis`, `plaplace`, `pnorm` and `pcauchy` lose the left tail, also in log form:
the small number is added to or subtracted from 1.
-/

open Classical
namespace Stats.ExamplesC49
open Fl Spec DoubleArith

set_option warn.classDefReducibility false in
attribute [local instance] doubleLib

theorem R_int (n : ℤ) (h : |n| ≤ 2 ^ 19) : Double.R n = ((n : ℝ) : EReal) := doubleRounding.int n h
theorem R_zero : Double.R 0 = ((0 : ℝ) : EReal) := by simpa using R_int 0 (by norm_num)
theorem R_int1 : Double.R 1 = ((1 : ℝ) : EReal) := by simpa using R_int 1 (by norm_num)

theorem R_between {x : ℝ} (a b : ℤ) (ha : |a| ≤ 2 ^ 19) (hb : |b| ≤ 2 ^ 19) (h1 : a ≤ x) (h2 : x ≤ b) :
    ∃ y : ℝ, ofE (Double.R x) = fin y ∧ a ≤ y ∧ y ≤ b := by
  have p := Double.R_mono h1
  have q := Double.R_mono h2
  rw [R_int a ha] at p
  rw [R_int b hb] at q
  have hne1 : Double.R x ≠ ⊤ := fun h => by rw [h] at q; exact absurd q (by simp)
  have hne2 : Double.R x ≠ ⊥ := fun h => by rw [h] at p; exact absurd p (by simp)
  rw [← EReal.coe_toReal hne1 hne2] at p q ⊢
  exact ⟨_, ofE_coe _, EReal.coe_le_coe_iff.1 p, EReal.coe_le_coe_iff.1 q⟩

theorem sqrt2_mem : (1 : ℝ) ≤ Lib.sqrt2 ∧ Lib.sqrt2 ≤ (2 : ℝ) := by
  obtain ⟨y, e, h1, h2⟩ := R_between (x := √2) 1 2 (by norm_num) (by norm_num)
    (by push_cast; exact Real.one_le_sqrt.2 (by norm_num))
    (by push_cast; exact Real.sqrt_le_iff.2 ⟨by norm_num, by norm_num⟩)
  have : Lib.sqrt2 = y := by
    show (Double.R √2).toReal = y
    revert e
    cases Double.R √2 <;> simp [ofE]
  rw [this]
  push_cast at h1 h2
  exact ⟨h1, h2⟩

theorem R_one {x : ℝ} (h1 : 1 - 1 / 2 ^ 54 < x) (h2 : x ≤ 1) : Double.R x = ((1 : ℝ) : EReal) := by
  rcases h2.eq_or_lt with rfl | h2
  · exact R_int1
  · have := Double.R_near (x := x) (-1) (2 ^ 53) (by norm_num at h1 ⊢; linarith) (by norm_num; exact h2) (by norm_num)
      (by norm_num) (by rw [abs_lt]; constructor <;> norm_num at h1 ⊢ <;> linarith)
    rw [this]; norm_num

theorem R_half {x : ℝ} (h1 : 1 / 2 - 1 / 2 ^ 55 < x) (h2 : x ≤ 1 / 2) : Double.R x = ((1 / 2 : ℝ) : EReal) := by
  rcases h2.eq_or_lt with rfl | h2
  · simpa using Double.R_half 1 (by norm_num)
  · have := Double.R_near (x := x) (-2) (2 ^ 53) (by norm_num at h1 ⊢; linarith) (by norm_num at h2 ⊢; exact h2) (by norm_num)
      (by norm_num) (by rw [abs_lt]; constructor <;> norm_num at h1 ⊢ <;> linarith)
    rw [this]; norm_num

theorem R_neg_one {x : ℝ} (h1 : -1 ≤ x) (h2 : x < -1 + 1 / 2 ^ 54) : Double.R x = ((-1 : ℝ) : EReal) := by
  have := R_one (x := -x) (by linarith) (by linarith)
  rw [← neg_neg x, Double.R_neg, this]; rfl

theorem R_neg_half {x : ℝ} (h1 : -(1 / 2) ≤ x) (h2 : x < -(1 / 2) + 1 / 2 ^ 55) : Double.R x = ((-(1 / 2) : ℝ) : EReal) := by
  have := R_half (x := -x) (by linarith) (by linarith)
  rw [← neg_neg x, Double.R_neg, this]; rfl

theorem exp_small : Real.exp (-100) < 1 / 2 ^ 60 := by
  rw [show (-100 : ℝ) = -(((100 : ℕ) : ℝ) * 1) by norm_num, Real.exp_neg, Real.exp_nat_mul, ← inv_pow]
  have h1 : (2 : ℝ) ≤ Real.exp 1 := by have := Real.add_one_le_exp (1 : ℝ); linarith
  calc (Real.exp 1)⁻¹ ^ 100 ≤ (2 : ℝ)⁻¹ ^ 100 := by gcongr
    _ < 1 / 2 ^ 60 := by norm_num

/-! ### quantiles of small probabilities -/

/-- `qexp(p, 1)` is 0 for every `p < 2^-54`: the exact quantile is positive, and more than `p` itself.
(`qweibull(p, 1, 1)`, the same quantile, is accurate: `C49_qweibull`.) -/
theorem C49_qexp_double_violated {p : ℝ} (h0 : 0 < p) (h : p < 1 / 2 ^ 54) :
    qexp (fin p) (fin 1) = fin 0 ∧ ∀ q, (∫ t in Set.Iic q, expPdf 1 t) = p → p ≤ q := by
  have h1 : p < 1 := h.trans (by norm_num)
  constructor
  · have hv : qexp (fin p) (fin 1) = -log (1 - fin p) / fin 1 := by
      have n2 : ¬ p < 0 := by linarith
      have n3 : ¬ 1 < p := by linarith
      have n4 : ¬ p = 1 := by linarith
      simp [qexp, qexp_compute, exp_ok, prob_val_ok, n2, n3, n4, h0.ne']
    rw [hv, one_eq, dsub, R_one (by linarith) (by linarith), ofE_coe, log_fin, if_neg (by norm_num), if_neg one_ne_zero,
      Lib.log_one]
    show (-fin 0 : Fl) / fin 1 = fin 0
    rw [show (-fin 0 : Fl) = fin (-0) from rfl, ddiv _ one_ne_zero, neg_zero, zero_div, R_zero, ofE_coe]
  · intro q hq
    rw [(isCdf_exp one_pos).running q] at hq
    split_ifs at hq with hq0
    · have := Real.add_one_le_exp (-1 * q); linarith
    · linarith

/-- `qlaplace(p, 0, 1)` is `-inf` for every `0 < p < 2^-55`; the exact quantile is `log(2p)`. -/
theorem C49_qlaplace_double_violated {p : ℝ} (h0 : 0 < p) (h : p < 1 / 2 ^ 55) :
    qlaplace (fin p) (fin 0) (fin 1) = ninf ∧ (∫ t in Set.Iic (Real.log (2 * p)), laplacePdf 0 1 t) = p := by
  have h1 : p < 1 / 2 := h.trans (by norm_num)
  constructor
  · have hv : qlaplace (fin p) (fin 0) (fin 1) = qlaplace_compute (fin p) (fin 0) (fin 1) := by
      have n2 : ¬ p < 0 := by linarith
      have n3 : ¬ 1 < p := by linarith
      have n4 : ¬ p = 1 := by linarith
      simp [qlaplace, laplace_ok, prob_val_ok, n2, n3, n4, h0.ne']
    have e1 : fin p - half = fin (-(1 / 2)) := by
      rw [show (half : Fl) = fin (1 / 2) from rfl, dsub, R_neg_half (by linarith) (by linarith), ofE_coe]
    have e2 : (2 : Fl) * abs (fin (-(1 / 2))) = fin 1 := by
      rw [ofNat_eq, show abs (fin (-(1 / 2))) = fin |-(1 / 2)| from rfl, dmul, abs_neg, abs_of_pos (by norm_num)]
      have := R_int 1 (by norm_num); norm_num at this ⊢; rw [this]; rfl
    have e3 : (1 : Fl) - fin 1 = fin 0 := by rw [one_eq, dsub, sub_self, R_zero, ofE_coe]
    have e4 : fin 1 * sgn (fin (-(1 / 2))) = fin (-1) := by
      rw [show sgn (fin (-(1 / 2))) = fin (-1) by rw [sgn, if_neg (by norm_num), if_pos (by norm_num)], dmul]
      have := R_int (-1) (by norm_num); norm_num at this ⊢; rw [this]; rfl
    rw [hv, qlaplace_compute, e1, e2, e3, e4, log_fin, if_neg (lt_irrefl _), if_pos rfl]
    show fin 0 - (fin (-1) * ninf) = ninf
    have : fin (-1) * ninf = pinf := by simp [fin_mul_ninf]
    rw [this]; rfl
  · rw [(isCdf_laplace 0 one_pos).running, laplaceCdf, if_pos (Real.log_neg (by linarith) (by linarith)), sub_zero,
      div_one, Real.exp_log (by linarith)]
    ring

/-- `qnorm(p, 0, 1)` is `-inf` for every `0 < p < 2^-56`; there is a finite quantile. -/
theorem C49_qnorm_double_violated {p : ℝ} (h0 : 0 < p) (h : p < 1 / 2 ^ 56) :
    qnorm (fin p) (fin 0) (fin 1) = ninf ∧ ∃ q, (∫ t in Set.Iic q, normPdf 0 1 t) = p := by
  have h1 : p < 1 / 2 := h.trans (by norm_num)
  constructor
  · have hv : qnorm (fin p) (fin 0) (fin 1) = qnorm_compute (fin p) (fin 0) (fin 1) := by
      have n2 : ¬ p < 0 := by linarith
      have n3 : ¬ 1 < p := by linarith
      have n4 : ¬ p = 1 := by linarith
      simp [qnorm, norm_ok, prob_val_ok, n2, n3, n4, h0.ne']
    have e1 : ∃ r, (2 : Fl) * fin p = fin r ∧ 0 ≤ r ∧ r ≤ 1 / 2 ^ 55 := by
      rw [ofNat_eq, dmul]
      have a : Double.R 0 ≤ Double.R (2 * p) := Double.R_mono (by linarith)
      have b : Double.R (2 * p) ≤ Double.R (1 / 2 ^ 55) := Double.R_mono (by linarith)
      rw [R_zero] at a
      rw [show Double.R (1 / 2 ^ 55) = ((1 / 2 ^ 55 : ℝ) : EReal) by
        rw [Double.R_near (-55) (2 ^ 52) (by norm_num) (by norm_num) (by norm_num) (by norm_num) (by norm_num)]
        norm_num] at b
      have hne1 : Double.R (2 * p) ≠ ⊤ := fun h => by rw [h] at b; exact absurd b (by simp)
      have hne2 : Double.R (2 * p) ≠ ⊥ := fun h => by rw [h] at a; exact absurd a (by simp)
      rw [← EReal.coe_toReal hne1 hne2] at a b ⊢
      exact ⟨_, ofE_coe _, EReal.coe_le_coe_iff.1 a, EReal.coe_le_coe_iff.1 b⟩
    obtain ⟨r, er, hr0, hr⟩ := e1
    have e2 : fin r - 1 = fin (-1) := by
      rw [one_eq, dsub, R_neg_one (by linarith) (by norm_num at hr ⊢; linarith), ofE_coe]
    have e3 : ∃ s, SQRT2 * fin 1 = fin s ∧ 0 < s := by
      rw [show (SQRT2 : Fl) = fin Lib.sqrt2 from rfl, dmul, mul_one]
      obtain ⟨y, e, h1, -⟩ := R_between (x := Lib.sqrt2) 1 2 (by norm_num) (by norm_num)
        (by exact_mod_cast sqrt2_mem.1) (by exact_mod_cast sqrt2_mem.2)
      exact ⟨y, e, by push_cast at h1; linarith⟩
    obtain ⟨s, es, hs⟩ := e3
    rw [hv, qnorm_compute, er, e2, es, erfInv, if_neg (by norm_num), if_pos rfl]
    show fin 0 + fin s * ninf = ninf
    rw [fin_mul_ninf, if_neg hs.ne', if_pos hs]; rfl
  · obtain ⟨y, hy⟩ := exists_erf (y := 2 * p - 1) (by linarith) (by linarith)
    refine ⟨√2 * y, ?_⟩
    rw [(isCdf_norm 0 one_pos).running, sub_zero, div_one, Phi, mul_div_cancel_left₀ _ (by positivity), hy]
    ring

/-! ### left tails -/

/-- `plogis(-200, 0, 1)` is 0 and its logarithm `-inf`; the exact logarithm is within 1 of -200 -/
theorem C49_plogis_double_violated :
    plogis (fin (-200)) (fin 0) (fin 1) false = fin 0 ∧ plogis (fin (-200)) (fin 0) (fin 1) true = ninf ∧
    |Real.log (∫ t in Set.Iic (-200), logisPdf 0 1 t) + 200| ≤ 1 := by
  have e1 : (fin (-200) - fin 0) / (2 * fin 1) = fin (-100) := by
    have h1 := R_int (-200) (by norm_num)
    have h2 := R_int 2 (by norm_num)
    have h3 := R_int (-100) (by norm_num)
    norm_num at h1 h2 h3
    rw [ofNat_eq, dsub, dmul]
    norm_num
    rw [h1, h2]
    show fin (-200) / fin 2 = _
    rw [ddiv _ two_ne_zero]
    norm_num
    rw [h3]; rfl
  have e2 : Fl.tanh (fin (-100)) = fin (-1) := by
    rw [Fl.tanh]
    show ofE (Double.R (Real.tanh (-100))) = _
    rw [R_neg_one (Real.neg_one_lt_tanh _).le, ofE_coe]
    have := logis_form 0 1 (-200)
    norm_num at this
    have h1 := Real.exp_pos 200
    have h2 : (1 + Real.exp 200)⁻¹ ≤ Real.exp (-200) := by
      rw [Real.exp_neg]; exact inv_anti₀ h1 (by linarith)
    have h3 := Real.exp_le_exp.2 (by norm_num : (-200 : ℝ) ≤ -100)
    have h4 := exp_small
    norm_num at h4 ⊢
    linarith
  have hc : plogis_compute (fin (-100)) = fin 0 := by
    rw [plogis_compute, e2, one_eq, dadd]
    norm_num
    rw [show Double.R 0 = _ from R_zero, ofE_coe]
    show fin (1 / 2) * fin 0 = fin 0
    rw [dmul, mul_zero, R_zero, ofE_coe]
  have hv : ∀ f, plogis (fin (-200)) (fin 0) (fin 1) f = log_if (fin 0) f := fun f => by
    have : plogis (fin (-200)) (fin 0) (fin 1) f = log_if (plogis_compute ((fin (-200) - fin 0) / (2 * fin 1))) f := by
      simp [plogis, logis_ok', logis_ok]
    rw [this, e1, hc]
  refine ⟨by rw [hv]; rfl, by rw [hv]; simp [log_if, log_fin], ?_⟩
  rw [(isCdf_logis 0 one_pos).running]
  norm_num
  have h0 := Real.exp_pos 200
  have h1 : 200 ≤ Real.log (1 + Real.exp 200) := by
    rw [Real.le_log_iff_exp_le (by linarith)]; linarith
  have h2 : Real.log (1 + Real.exp 200) ≤ 201 := by
    rw [Real.log_le_iff_le_exp (by linarith), show (201 : ℝ) = 200 + 1 by norm_num, Real.exp_add]
    have := Real.add_one_le_exp (1 : ℝ)
    have := Real.add_one_le_exp (200 : ℝ)
    nlinarith
  rw [abs_le]; constructor <;> linarith

/-- `plaplace(-100, 0, 1)` is 0 and its logarithm `-inf`; the exact value is `exp(-100)/2` -/
theorem C49_plaplace_double_violated :
    plaplace (fin (-100)) (fin 0) (fin 1) false = fin 0 ∧ plaplace (fin (-100)) (fin 0) (fin 1) true = ninf ∧
    Real.log (∫ t in Set.Iic (-100), laplacePdf 0 1 t) = -100 - Real.log 2 := by
  have h100 : Double.R (-100) = ((-100 : ℝ) : EReal) := by simpa using R_int (-100) (by norm_num)
  have hm1 : Double.R (-1) = ((-1 : ℝ) : EReal) := by simpa using R_int (-1) (by norm_num)
  have e1 : (fin (-100) - fin 0) = fin (-100) := by rw [dsub, sub_zero, h100, ofE_coe]
  have e2 : -abs (fin (-100)) / fin 1 = fin (-100) := by
    show fin (-|-100|) / fin 1 = _
    rw [abs_neg, abs_of_pos (by norm_num), ddiv _ one_ne_zero, div_one, h100, ofE_coe]
  have e3 : (1 : Fl) - Fl.exp (fin (-100)) = fin 1 := by
    have : ∃ y : ℝ, Fl.exp (fin (-100)) = fin y ∧ 0 ≤ y ∧ y ≤ 1 / 2 ^ 60 := by
      show ∃ y : ℝ, ofE (Double.R (Real.exp (-100))) = fin y ∧ 0 ≤ y ∧ y ≤ 1 / 2 ^ 60
      have a := Double.R_mono (Real.exp_pos (-100)).le
      have b := Double.R_mono exp_small.le
      rw [R_zero] at a
      rw [Double.R_pow 60 (by norm_num)] at b
      have hne1 : Double.R (Real.exp (-100)) ≠ ⊤ := fun h => by rw [h] at b; exact EReal.coe_ne_top _ (top_le_iff.1 b)
      have hne2 : Double.R (Real.exp (-100)) ≠ ⊥ := fun h => by rw [h] at a; exact EReal.coe_ne_bot _ (le_bot_iff.1 a)
      rw [← EReal.coe_toReal hne1 hne2] at a b ⊢
      exact ⟨_, ofE_coe _, EReal.coe_le_coe_iff.1 a, EReal.coe_le_coe_iff.1 b⟩
    obtain ⟨y, e, h0, h1⟩ := this
    rw [e, one_eq, dsub, R_one (by norm_num at h1 ⊢; linarith) (by linarith), ofE_coe]
  have e4 : sgn (fin (-100)) = fin (-1) := by rw [sgn, if_neg (by norm_num), if_pos (by norm_num)]
  have hc : plaplace_compute (fin (-100)) (fin 1) = fin 0 := by
    rw [plaplace_compute, e2, e3, e4]
    show fin (1 / 2) + fin (1 / 2) * fin (-1) * fin 1 = fin 0
    have hh : Double.R (-(1 / 2)) = ((-(1 / 2) : ℝ) : EReal) := R_neg_half le_rfl (by norm_num)
    rw [dmul, show (1 / 2 : ℝ) * -1 = -(1 / 2) by norm_num, hh, ofE_coe, dmul, mul_one, hh, ofE_coe, dadd,
      show (1 / 2 : ℝ) + -(1 / 2) = 0 by norm_num, R_zero, ofE_coe]
  have hv : ∀ f, plaplace (fin (-100)) (fin 0) (fin 1) f = log_if (fin 0) f := fun f => by
    have : plaplace (fin (-100)) (fin 0) (fin 1) f = log_if (plaplace_compute (fin (-100) - fin 0) (fin 1)) f := by
      simp [plaplace, laplace_ok', laplace_ok]
    rw [this, e1, hc]
  refine ⟨by rw [hv]; rfl, by rw [hv]; simp [log_if, log_fin], ?_⟩
  rw [(isCdf_laplace 0 one_pos).running, laplaceCdf, if_pos (by norm_num), sub_zero, div_one,
    Real.log_mul (by norm_num) (Real.exp_pos _).ne', Real.log_exp, one_div, Real.log_inv]
  ring

/-- `pnorm(-100, 0, 1)` is 0 and its logarithm `-inf` -/
theorem C49_pnorm_double_violated :
    pnorm (fin (-100)) (fin 0) (fin 1) false = fin 0 ∧ pnorm (fin (-100)) (fin 0) (fin 1) true = ninf ∧
    0 < ∫ t in Set.Iic (-100), normPdf 0 1 t := by
  have h100 : Double.R (-100) = ((-100 : ℝ) : EReal) := by simpa using R_int (-100) (by norm_num)
  have e1 : (fin (-100) - fin 0) / fin 1 = fin (-100) := by
    rw [dsub, sub_zero, h100, ofE_coe, ddiv _ one_ne_zero, div_one, h100, ofE_coe]
  obtain ⟨s1, s2⟩ := sqrt2_mem
  have e2 : ∃ y, fin (-100) / SQRT2 = fin y ∧ y ≤ -50 := by
    show ∃ y, fin (-100) / fin Lib.sqrt2 = fin y ∧ y ≤ -50
    rw [ddiv _ (by linarith)]
    obtain ⟨y, e, -, h⟩ := R_between (x := -100 / Lib.sqrt2) (-100) (-50) (by norm_num) (by norm_num)
      (by rw [le_div_iff₀ (by linarith)]; push_cast; linarith)
      (by rw [div_le_iff₀ (by linarith)]; push_cast; linarith)
    exact ⟨y, e, by push_cast at h; exact h⟩
  obtain ⟨y, ey, hy⟩ := e2
  have e3 : Fl.erf (fin y) = fin (-1) := by
    show ofE (Double.R (Spec.erf y)) = _
    rw [R_neg_one (neg_one_lt_erf y).le, ofE_coe]
    have h1 := erf_tail (y := -y) (by linarith)
    rw [erf_neg] at h1
    have h2 : Real.exp (-(-y) ^ 2) ≤ Real.exp (-100) := Real.exp_le_exp.2 (by nlinarith)
    have h3 := exp_small
    norm_num at h3 ⊢
    linarith
  have hc : pnorm_compute (fin (-100)) = fin 0 := by
    rw [pnorm_compute, ey, e3, one_eq, dadd]
    norm_num
    rw [show Double.R 0 = _ from R_zero, ofE_coe]
    show fin (1 / 2) * fin 0 = fin 0
    rw [dmul, mul_zero, R_zero, ofE_coe]
  have hv : ∀ f, pnorm (fin (-100)) (fin 0) (fin 1) f = log_if (fin 0) f := fun f => by
    have : pnorm (fin (-100)) (fin 0) (fin 1) f = log_if (pnorm_compute ((fin (-100) - fin 0) / fin 1)) f := by
      simp [pnorm, norm_ok', norm_ok]
    rw [this, e1, hc]
  refine ⟨by rw [hv]; rfl, by rw [hv]; simp [log_if, log_fin], ?_⟩
  rw [(isCdf_norm 0 one_pos).running]
  exact Phi_pos _

/-- `pcauchy(-2^60, 0, 1)` is 0 and its logarithm `-inf`; the exact value is more than `2^-62` -/
theorem C49_pcauchy_double_violated :
    pcauchy (fin (-2 ^ 60)) (fin 0) (fin 1) false = fin 0 ∧ pcauchy (fin (-2 ^ 60)) (fin 0) (fin 1) true = ninf ∧
    1 / 2 ^ 62 < ∫ t in Set.Iic (-2 ^ 60), cauchyPdf 0 1 t := by
  have p1 := Real.pi_gt_d20
  have p2 := Real.pi_lt_d20
  have h60 : Double.R (-2 ^ 60) = ((-2 ^ 60 : ℝ) : EReal) := by
    rw [Double.R_neg, Double.R_near 60 (2 ^ 52) (by norm_num) (by norm_num) (by norm_num) (by norm_num) (by norm_num)]
    norm_num
  have e1 : (fin (-2 ^ 60) - fin 0) / fin 1 = fin (-2 ^ 60) := by
    rw [dsub, sub_zero, h60, ofE_coe, ddiv _ one_ne_zero, div_one, h60, ofE_coe]
  have hpi : Lib.pi = (7074237752028440 / 2 ^ 51 : ℝ) := by
    show (Double.R Real.pi).toReal = _
    rw [Double.R_near 1 7074237752028440 (by norm_num; linarith) (by norm_num; linarith) (by norm_num) (by norm_num)
      (by rw [abs_lt]; constructor <;> norm_num at p1 p2 ⊢ <;> linarith), EReal.toReal_coe]
    norm_num
  have ha1 : 0 < Real.arctan (1 / 2 ^ 60) := Real.arctan_pos.2 (by norm_num)
  have ha2 : Real.arctan (1 / 2 ^ 60) ≤ 1 / 2 ^ 60 := by
    have := Real.lt_tan ha1 (Real.arctan_lt_pi_div_two _)
    rw [Real.tan_arctan] at this
    exact this.le
  have ha : Real.arctan (2 ^ 60) = Real.pi / 2 - Real.arctan (1 / 2 ^ 60) := by
    have := Real.arctan_inv_of_pos (x := 1 / 2 ^ 60) (by norm_num)
    rw [← this]; norm_num
  have hR : Double.R (Real.arctan (-2 ^ 60)) = ((-(7074237752028440 / 2 ^ 52) : ℝ) : EReal) := by
    rw [Real.arctan_neg, Double.R_neg, Double.R_near 0 7074237752028440 (by rw [ha]; norm_num at ha2 ⊢; linarith)
      (by rw [ha]; norm_num; linarith) (by norm_num) (by norm_num)
      (by rw [abs_lt, ha]; constructor <;> norm_num at p1 p2 ha2 ⊢ <;> linarith)]
    norm_num
  have e2 : Fl.atan (fin (-2 ^ 60)) = fin (-(7074237752028440 / 2 ^ 52)) := by
    show ofE (max (((-(Lib.pi / 2) : ℝ)) : EReal) (min (Double.R (Real.arctan (-2 ^ 60))) (((Lib.pi / 2 : ℝ)) : EReal))) = _
    rw [hR, hpi, show (7074237752028440 / 2 ^ 51 / 2 : ℝ) = 7074237752028440 / 2 ^ 52 by norm_num,
      min_eq_left (EReal.coe_le_coe_iff.2 (by norm_num)), max_self, ofE_coe]
  have hc : pcauchy_compute (fin (-2 ^ 60)) = fin 0 := by
    rw [pcauchy_compute, e2]
    show fin (1 / 2) + fin (-(7074237752028440 / 2 ^ 52)) / fin Lib.pi = fin 0
    have hh : Double.R (-(1 / 2)) = ((-(1 / 2) : ℝ) : EReal) := R_neg_half le_rfl (by norm_num)
    rw [hpi, ddiv _ (by norm_num), show -(7074237752028440 / 2 ^ 52) / (7074237752028440 / 2 ^ 51) = -(1 / 2 : ℝ) by norm_num,
      hh, ofE_coe, dadd, show (1 / 2 : ℝ) + -(1 / 2) = 0 by norm_num, R_zero, ofE_coe]
  have hv : ∀ f, pcauchy (fin (-2 ^ 60)) (fin 0) (fin 1) f = log_if (fin 0) f := fun f => by
    have : pcauchy (fin (-2 ^ 60)) (fin 0) (fin 1) f =
        log_if (pcauchy_compute ((fin (-2 ^ 60) - fin 0) / fin 1)) f := by
      simp [pcauchy, cauchy_ok', cauchy_ok]
    rw [this, e1, hc]
  refine ⟨by rw [hv]; rfl, by rw [hv]; simp [log_if, log_fin], ?_⟩
  rw [(isCdf_cauchy 0 one_pos).running, sub_zero, div_one, Real.arctan_neg, ha]
  have hs := Real.sin_le ha1.le
  rw [Real.sin_arctan] at hs
  have hq : √(1 + (1 / 2 ^ 60 : ℝ) ^ 2) ≤ 101 / 100 := Real.sqrt_le_iff.2 ⟨by norm_num, by norm_num⟩
  have hq0 : 0 < √(1 + (1 / 2 ^ 60 : ℝ) ^ 2) := by positivity
  rw [div_le_iff₀ hq0] at hs
  have h3 : 1 / 2 ^ 60 ≤ Real.arctan (1 / 2 ^ 60) * (101 / 100) := hs.trans (mul_le_mul_of_nonneg_left hq ha1.le)
  have : 1 / 2 + -(Real.pi / 2 - Real.arctan (1 / 2 ^ 60)) / Real.pi = Real.arctan (1 / 2 ^ 60) / Real.pi := by
    have := Real.pi_pos
    field_simp
    ring
  rw [this, lt_div_iff₀ Real.pi_pos]
  norm_num at p2 h3 ⊢
  linarith

end Stats.ExamplesC49
