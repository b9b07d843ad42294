import Verif.Props.C04
import Verif.Lemmas.ExactInst
import Verif.Lemmas.DoubleCalc
import Verif.Lemmas.Special

/-!
# C04 in binary64

Finite, valid arguments that produce NaN in IEEE 754 double precision with correctly rounded library functions,
because an intermediate quantity overflows. `pinvgauss(1, 1, 1024)` has ordinary arguments.
-/

open Classical Filter Topology
namespace Stats
open Spec

/-- Gaussian tail: `1 - erf y ≤ exp(-y²)` for `y ≥ 1`. -/
theorem erf_tail {y : ℝ} (hy : 1 ≤ y) : 1 - Spec.erf y ≤ Real.exp (-y ^ 2) := by
  have hd (x : ℝ) : HasDerivAt (fun x => Spec.erf x + Real.exp (-x ^ 2))
      (2 / √Real.pi * Real.exp (-x ^ 2) + Real.exp (-x ^ 2) * (-(2 * x))) x := by
    have h1 : HasDerivAt (fun x : ℝ => -x ^ 2) (-(2 * x)) x := by exact (by simpa using hasDerivAt_pow 2 x : HasDerivAt (fun x : ℝ => x ^ 2) (2 * x) x).neg
    exact (hasDerivAt_erf x).add h1.exp
  have hanti : AntitoneOn (fun x => Spec.erf x + Real.exp (-x ^ 2)) (Set.Ici 1) := by
    refine antitoneOn_of_deriv_nonpos (convex_Ici 1) (fun x _ => (hd x).continuousAt.continuousWithinAt)
      (fun x _ => (hd x).differentiableAt.differentiableWithinAt) ?_
    intro x hx
    rw [interior_Ici] at hx
    have hx' : 1 < x := hx
    rw [(hd x).deriv]
    have hpi : 1 ≤ √Real.pi := Real.one_le_sqrt.2 (by linarith [Real.pi_gt_three])
    have : 2 / √Real.pi ≤ 2 := by rw [div_le_iff₀ (by linarith)]; linarith
    nlinarith [Real.exp_pos (-x ^ 2)]
  have ht : Tendsto (fun x => Spec.erf x + Real.exp (-x ^ 2)) atTop (𝓝 (1 + 0)) := by
    refine tendsto_erf_atTop.add (Real.tendsto_exp_atBot.comp ?_)
    exact tendsto_neg_atBot_iff.2 (tendsto_pow_atTop two_ne_zero)
  have : 1 + 0 ≤ Spec.erf y + Real.exp (-y ^ 2) := by
    refine le_of_tendsto ht ?_
    filter_upwards [eventually_ge_atTop y] with z hz
    exact hanti hy (Set.mem_Ici.2 (hy.trans hz)) hz
  linarith

end Stats

namespace Stats.ExamplesC04
open Fl Spec DoubleArith

set_option warn.classDefReducibility false in
attribute [local instance] doubleLib

/-- the overflow threshold -/
noncomputable def Omega : ℝ := 2 ^ 1024

/-- the top binade: `B ≥ 2^1023` -/
theorem top_binade : Omega ≤ 2 * 2 ^ 1023 := by rw [Omega, ← pow_succ']

theorem omega_ge : 4 ≤ Omega :=
  calc (4 : ℝ) = 2 ^ 2 := by norm_num
    _ ≤ 2 ^ 1024 := pow_le_pow_right₀ (by norm_num) (by norm_num)

theorem big_pos {B : ℝ} (hB : Omega ≤ 2 * B) : 0 < B := by
  have := omega_ge
  linarith

theorem R_big {x : ℝ} (h : Omega ≤ x) : Double.R x = ⊤ := Double.R_big h

theorem sub_overflow {B : ℝ} (hB : Omega ≤ 2 * B) : fin B - fin (-B) = pinf := by
  rw [dsub, R_big (by linarith)]; rfl

/-- `punif(B, -B, 1.5*B)` for `B` in the top binade: `inf / inf`. The value should be 0.8. -/
theorem C04_punif_double_violated {B : ℝ} (hB : Omega ≤ 2 * B) (b : Bool) :
    punif (fin B) (fin (-B)) (fin (3 / 2 * B)) b = nan := by
  have h := big_pos hB
  have h2 : fin (3 / 2 * B) - fin (-B) = pinf := by
    rw [dsub, R_big (by linarith)]; rfl
  have c4 : -B < 3 / 2 * B := by linarith
  have hc : punif_compute (fin B) (fin (-B)) (fin (3 / 2 * B)) = nan := by
    rw [punif_compute, if_neg (by simp; linarith), if_neg (by simp; linarith), h2, sub_overflow hB]
    rfl
  rw [punif, if_neg (by simp [unif_ok', unif_ok, c4]), if_neg (by simp), hc]
  cases b <;> rfl

/-- `plogis(B, -B, B)`: both `x - mu` and `2 * sigma` overflow. The value should be `1/(1+exp(-2))`. -/
theorem C04_plogis_double_violated {B : ℝ} (hB : Omega ≤ 2 * B) (b : Bool) :
    plogis (fin B) (fin (-B)) (fin B) b = nan := by
  have h := big_pos hB
  have h2 : fin 2 * fin B = pinf := by rw [dmul, R_big hB]; rfl
  rw [plogis, if_neg (by simp [logis_ok', logis_ok, h.le]), if_neg (by simp [h.ne']), sub_overflow hB,
    ofNat_eq, h2]
  cases b <;> rfl

/-- `dlogis(-B, B, 1)`: `x - mu = -inf`, and `-z - log sigma - 2 log(1 + exp(-z)) = inf - inf`. -/
theorem C04_dlogis_double_violated {B : ℝ} (hB : Omega ≤ 2 * B) (b : Bool) :
    dlogis (fin (-B)) (fin B) (fin 1) b = nan := by
  have h2 : fin (-B) - fin B = ninf := by
    rw [dsub, show -B - B = -(2 * B) by ring, Double.R_neg, R_big hB]; rfl
  have h3 : (ninf : Fl) / fin 1 = ninf := by simp [ninf_div_fin]
  rw [dlogis, if_neg (by simp [logis_ok', logis_ok]), if_neg (by simp), h2, h3, dlogis_log_compute]
  have h4 : log (fin 1) = fin 0 := by
    rw [log_fin, if_neg (by norm_num), if_neg one_ne_zero, Lib.log_one]; rfl
  have h5 : (2 : Fl) * log (1 + exp (-ninf)) = pinf := by
    rw [ofNat_eq, neg_ninf, exp, one_eq, show fin 1 + pinf = pinf from rfl, log, fin_mul_pinf, if_neg (by norm_num), if_pos (by norm_num)]
  rw [h4, h5]
  cases b <;> rfl

/-- `pf(B/2, 4, 1)`: `df1 * x` overflows and `abx/(1+abx) = inf/inf`. The value should round to 1. -/
theorem C04_pf_double_violated {B : ℝ} (hB : Omega ≤ 2 * B) (b : Bool) :
    pf (fin (B / 2)) (fin 4) (fin 1) b = nan := by
  have h2 : fin 4 * fin (B / 2) = pinf := by
    rw [dmul, show 4 * (B / 2) = 2 * B by ring, R_big hB]; rfl
  have he : ¬ B / 2 < 1 / 2 ^ 52 := by
    have : (1 : ℝ) / 2 ^ 52 ≤ 1 := by norm_num
    have h1 := omega_ge
    linarith
  rw [pf, if_neg (by simp [f_ok', f_ok, eps, deps]; norm_num), if_neg (by simpa [eps, deps] using he), if_neg (by simp),
    if_neg (by simp), h2, pf_compute, show (pinf : Fl) / fin 1 = pinf by simp [pinf_div_fin]]
  cases b <;> simp [one_eq, ibeta]

/-- The same in the density. -/
theorem C04_df_double_violated {B : ℝ} (hB : Omega ≤ 2 * B) (b : Bool) :
    df (fin (B / 2)) (fin 4) (fin 1) b = nan := by
  have h := big_pos hB
  have h2 : fin 4 * fin (B / 2) = pinf := by
    rw [dmul, show 4 * (B / 2) = 2 * B by ring, R_big hB]; rfl
  rw [df, if_neg (by simp [f_ok', f_ok, eps, deps]; norm_num), if_neg (by simp; linarith), if_neg (by simp [h.ne']),
    if_neg (by simp), if_neg (by simp), h2, show (pinf : Fl) / fin 1 = pinf by simp [pinf_div_fin]]
  cases b <;> simp [one_eq, df_log_check, dbeta, beta_ok']

/-- `pinvgauss(1, 1, 1024)`: `exp(2*lambda/mu) = inf` times `pnorm(-64) = 0`. The value should be
`0.5 + ...`, about 0.506. -/
theorem C04_pinvgauss_double_violated (b : Bool) : pinvgauss (fin 1) (fin 1) (fin 1024) b = nan := by
  have i (n : ℤ) (h : |n| ≤ 2 ^ 19) : Double.R (n : ℝ) = ((n : ℝ) : EReal) := doubleRounding.int n h
  have e1 : (fin 1024 : Fl) / fin 1 = fin 1024 := by
    rw [ddiv _ one_ne_zero, div_one]; simpa using congrArg ofE (i 1024 (by norm_num))
  have e2 : sqrt (fin 1024) = fin 32 := by
    have : √(1024 : ℝ) = 32 := by rw [show (1024 : ℝ) = 32 ^ 2 by norm_num]; simp
    have h2 : Lib.sqrt (1024 : ℝ) = Double.R √1024 := rfl
    rw [sqrt, if_neg (by norm_num), h2, this]; simpa using congrArg ofE (i 32 (by norm_num))
  have e3 : (fin 1 : Fl) / fin 1 + 1 = fin 2 := by
    rw [ddiv _ one_ne_zero, div_one, one_eq]
    have := congrArg ofE (i 1 (by norm_num))
    simp only [Int.cast_one, ofE_coe] at this
    rw [this, dadd]
    have := congrArg ofE (i 2 (by norm_num))
    norm_num at this ⊢
    exact this
  have e4 : (fin (-32) : Fl) * fin 2 = fin (-64) := by
    rw [dmul]
    have := congrArg ofE (i (-64) (by norm_num))
    norm_num at this ⊢
    exact this
  have e5 : (2 : Fl) * fin 1024 / fin 1 = fin 2048 := by
    have := congrArg ofE (i 2048 (by norm_num))
    norm_num at this
    rw [ofNat_eq, dmul]
    norm_num
    rw [this, ddiv _ one_ne_zero, div_one, this]
  have e6 : exp (fin 2048) = pinf := by
    have h2 : Lib.exp (2048 : ℝ) = Double.R (Real.exp 2048) := rfl
    have h3 : (2 : ℝ) ^ 1024 ≤ Real.exp 2048 := by
      have : Real.exp 2048 = Real.exp 1 ^ 2048 := by rw [← Real.exp_nat_mul]; norm_num
      rw [this]
      have h1 : (2 : ℝ) ≤ Real.exp 1 := by linarith [Real.add_one_le_exp (1 : ℝ)]
      exact (pow_le_pow_right₀ (by norm_num) (by norm_num)).trans (pow_le_pow_left₀ (by norm_num) h1 2048)
    rw [exp, h2, Double.R_big h3]; rfl
  have e7 : pnorm1 (fin (-64)) false = fin 0 := by
    have hi (n : ℤ) (h : |n| ≤ 2 ^ 19) : Double.R (-(n : ℝ)) = ((-(n : ℝ) : ℝ) : EReal) := by
      rw [Double.R_neg, i n h]; rfl
    obtain ⟨s, hs, hs1, hs2⟩ : ∃ s : ℝ, SQRT2 = fin s ∧ 1 ≤ s ∧ s ≤ 3 / 2 := by
      refine ⟨_, rfl, doubleRounding.toReal_ge_one (Real.one_le_sqrt.2 (by norm_num)) ?_, ?_⟩
      · exact (Real.sqrt_le_sqrt (show (2 : ℝ) ≤ 4 ^ 2 by norm_num)).trans (by simp)
      · have h1 : Double.R √2 ≤ ((3 / 2 : ℝ) : EReal) := by
          have h2 : √2 ≤ ((3 : ℤ) : ℝ) / 2 := by
            rw [Real.sqrt_le_left (by norm_num)]; norm_num
          have := Double.R_mono h2
          rw [Double.R_half 3 (by norm_num)] at this
          simpa using this
        have h0 : (0 : EReal) ≤ Double.R √2 := doubleRounding.nonneg (Real.sqrt_nonneg _)
        change (Double.R √2).toReal ≤ 3 / 2
        generalize Double.R √2 = e at h0 h1
        induction e using EReal.rec with
        | bot => simp at h0
        | top => simp at h1
        | coe y => exact_mod_cast h1
    obtain ⟨y, hy, hy1⟩ : ∃ y : ℝ, fin (-64) / SQRT2 = fin (-y) ∧ 40 ≤ y := by
      rw [hs, ddiv _ (by linarith)]
      have h1 : Double.R (-64 / s) ≤ ((-(40 : ℤ) : ℝ) : EReal) := by
        rw [← hi 40 (by norm_num)]
        apply Double.R_mono
        rw [div_le_iff₀ (by linarith)]; push_cast; linarith
      have h2 : ((-(64 : ℤ) : ℝ) : EReal) ≤ Double.R (-64 / s) := by
        rw [← hi 64 (by norm_num)]
        apply Double.R_mono
        rw [le_div_iff₀ (by linarith)]; push_cast; linarith
      generalize Double.R (-64 / s) = e at h1 h2
      induction e using EReal.rec with
      | bot => exact absurd (le_bot_iff.1 h2) (EReal.coe_ne_bot _)
      | top => exact absurd (top_le_iff.1 h1) (EReal.coe_ne_top _)
      | coe w =>
        have h3 : w ≤ -((40 : ℤ) : ℝ) := by exact_mod_cast h1
        push_cast at h3
        exact ⟨-w, by rw [ofE_coe, neg_neg], by linarith⟩
    have ht := erf_tail (y := y) (by linarith)
    have hlt := erf_lt_one y
    have hsmall : Real.exp (-y ^ 2) < 1 / 2 ^ 54 := by
      have h1 : Real.exp (-y ^ 2) ≤ Real.exp (-(60 : ℕ)) := Real.exp_le_exp.2 (by push_cast; nlinarith)
      have h2 : (2 : ℝ) ^ 60 ≤ Real.exp (60 : ℕ) := by
        rw [← Real.exp_one_pow]
        exact pow_le_pow_left₀ (by norm_num) (by linarith [Real.add_one_le_exp (1 : ℝ)]) _
      rw [Real.exp_neg ((60 : ℕ) : ℝ)] at h1
      refine h1.trans_lt ?_
      rw [inv_lt_comm₀ (Real.exp_pos _) (by norm_num)]
      refine lt_of_lt_of_le ?_ h2
      norm_num
    have e8 : erf (fin (-y)) = fin (-1) := by
      have h2 : Lib.erf (-y) = Double.R (Spec.erf (-y)) := rfl
      rw [Fl.erf, h2, erf_neg, Double.R_neg, Double.R_near (-1) 9007199254740992 (by norm_num; linarith) (by norm_num; linarith)
        (by norm_num) (by norm_num) ?_]
      · norm_num; rfl
      · rw [abs_lt]
        constructor <;> norm_num <;> linarith
    have e9 : (1 : Fl) + fin (-1) = fin 0 := by
      rw [one_eq, dadd]; norm_num
      simpa using congrArg ofE (i 0 (by norm_num))
    have e10 : (fin (-64) - 0) / 1 = fin (-64) := by
      rw [zero_eq, one_eq, dsub, sub_zero]
      have := congrArg ofE (hi 64 (by norm_num))
      norm_num at this
      have h64 : ofE (Double.R (-64)) = fin (-64) := by rw [this]; rfl
      rw [h64, ddiv _ one_ne_zero, div_one, h64]
    rw [pnorm1, pnorm, if_neg (by simp [norm_ok', norm_ok]), if_neg (by simp), e10, pnorm_compute, hy, e8, e9]
    rw [half_eq, log_if_false, dmul, mul_zero]
    simpa using congrArg ofE (i 0 (by norm_num))
  have e11 : -fin 32 = fin (-32) := rfl
  have key : pinvgauss_compute (fin 1) (fin 1) (fin 1024) = nan := by
    rw [pinvgauss_compute, pinvgauss_compute_term_2, e1, e2, e11, e3, e4, e5, e6, e7]
    cases pinvgauss_compute_term_1 (fin 1) (fin 1) (fin 1024) <;> simp [pinf_mul_fin]
  rw [pinvgauss, if_neg (by simp [invgauss_ok', invgauss_ok]), if_neg (by simp), if_neg (by simp), key]
  cases b <;> rfl

/-! The hypothesis is met by `B = 2^1023`, a binary64 number, and the arguments are valid. -/
example (b : Bool) : punif (fin (2 ^ 1023)) (fin (-2 ^ 1023)) (fin (3 / 2 * 2 ^ 1023)) b = nan :=
  C04_punif_double_violated top_binade b

end Stats.ExamplesC04

namespace Stats.ExamplesC04Exact
open Fl Spec
open scoped Stats.Exact

/-! The hypotheses of the theorems of `C04.lean` at concrete arguments. -/
example : NoNan (dbeta (fin (1 / 3)) (fin 0) (fin 2)) ∧ NoNan (dbeta (fin 0) (fin 1) (fin 2)) :=
  ⟨C04_dbeta _ le_rfl (by norm_num), C04_dbeta _ (by norm_num) (by norm_num)⟩
example : NoNan (dinvgauss (fin 3) (fin 0) (fin 2)) := C04_dinvgauss _ le_rfl (by norm_num)
example : NoNan (pinvgauss (fin 1) (fin 1) (fin 1024)) := C04_pinvgauss _ (by norm_num) (by norm_num)
example : NoNan (dweibull (fin 0) (fin 2) (fin 3)) :=
  C04_dweibull_partial _ (Exact.eps_le (by norm_num)) (Exact.eps_le (by norm_num)) (Or.inr (by norm_num))
example : NoNan (df (fin 2) (fin 3) (fin 4)) :=
  C04_df_partial _ (Exact.eps_le (by norm_num)) (Exact.eps_le (by norm_num))
example : NoNan (ppois 30 (fin (5 / 2))) := C04_ppois _ (by norm_num)
example : ∃ r : ℝ, 0 < r ∧ ∀ b, pgamma (fin 1) (fin 1) (fin r) b = nan :=
  let ⟨r, h, h', _⟩ := C04_tiny_valid
  ⟨r, h, fun b => (C04_gamma_violated h' _ b).2.1⟩

end Stats.ExamplesC04Exact
