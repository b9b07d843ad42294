import Verif.Spec.Point
import Verif.Lemmas.Range
import Verif.Lemmas.IdealArith
import Verif.Lemmas.ExactInst
import Verif.Lemmas.NextInst
import Verif.Model.Rand
import Verif.Lemmas.Meets

/-!
# C41: scale 0 is a point mass

For every library unless said otherwise. The normal family is right everywhere. Laplace and logistic distribution
functions give one half instead of 1 at the location; Cauchy gives NaN there; the logistic and Cauchy densities are
NaN at *every* point; the log-normal density is 0 at the location: `_violated`.
-/

set_option linter.unusedSectionVars false
open Classical
namespace Stats
open Fl Spec
variable [Lib]

theorem vanishes_log_if : VanishesAt (log_if (fin 0)) := ⟨rfl, by simp [log_fin]⟩
theorem one_log_if : OneAt (log_if (fin 1)) := ⟨rfl, by simp [log_fin, Lib.log_one]⟩

/-! ### normal -/

theorem pnorm_zero_scale {x : Fl} (hx : x ≠ nan) (mu : ℝ) :
    pnorm x (fin mu) (fin 0) = log_if (if x ≥ fin mu then fin 1 else fin 0) := by
  funext b
  cases x <;> simp_all [pnorm, norm_ok', norm_ok, pnorm_limit_vals]

theorem C41_pnorm (mu : ℝ) : IsStep (fun x => pnorm x (fin mu) (fin 0)) mu := by
  refine ⟨fun x _ => ⟨fun h => ?_, fun h => ?_⟩, ?_, ?_⟩ <;> simp only <;> rw [pnorm_zero_scale (by simp)]
  · rw [if_neg (by simpa using h)]; exact vanishes_log_if
  · rw [if_pos (by simpa using h)]; exact one_log_if
  · rw [if_neg (by simp)]; exact vanishes_log_if
  · rw [if_pos (by simp)]; exact one_log_if

theorem C41_dnorm (mu : ℝ) : IsSpike (fun x => dnorm x (fin mu) (fin 0)) mu := by
  refine ⟨⟨?_, ?_⟩, fun x hx hm => ?_⟩
  · simp [dnorm, norm_ok', norm_ok, dnorm_limit_vals]
  · simp [dnorm, norm_ok', norm_ok, dnorm_limit_vals]
  · have : dnorm x (fin mu) (fin 0) = log_if (fin 0) := by
      funext b
      cases x <;> simp_all [dnorm, norm_ok', norm_ok, dnorm_limit_vals]
    simp only [this]; exact vanishes_log_if

theorem prob_ok_fin {u : ℝ} (h0 : 0 ≤ u) (h1 : u ≤ 1) : prob_val_ok (fin u) := by
  simp [prob_val_ok, h0, h1]

theorem C41_qnorm (mu : ℝ) : IsConstQuant (fun u => qnorm u (fin mu) (fin 0)) mu := by
  intro u h0 h1
  simp [qnorm, norm_ok, prob_ok_fin h0 h1]

/-- `mu` is a number of the floating type: rounding leaves it alone. -/
theorem C41_rnorm {S : Type*} [Engine S] {mu : ℝ} (hmu : Lib.rnd mu = (mu : EReal)) (s : S) :
    (rnorm (fin mu) (fin 0) s).1 = fin mu := by
  have h0 : Lib.rnd 0 = 0 := by simp
  simp [rnorm, norm_ok, fin_mul_fin, fin_add_fin, h0, hmu]

/-! ### Laplace, logistic -/

theorem plaplace_zero_scale {x : Fl} (hx : x ≠ nan) (mu : ℝ) :
    plaplace x (fin mu) (fin 0) = log_if (half + half * sgn (x - fin mu)) := by
  funext b
  cases x <;> simp_all [plaplace, laplace_ok', laplace_ok, plaplace_limit_vals]

theorem half_ops : (half + half * fin 1 = fin 1) ∧ (half + half * fin (-1) = fin 0) ∧
    (half + half * fin 0 = fin (1 / 2)) := by
  have a : Lib.rnd (1 / 2) = (((1 : ℝ) / 2 : ℝ) : EReal) := by simp
  have b : Lib.rnd (-(1 / 2)) = ((-((1 : ℝ) / 2) : ℝ) : EReal) := by rw [Lib.rnd_neg, a]; simp
  have c : Lib.rnd 0 = 0 := by simp
  have d : Lib.rnd 1 = ((1 : ℝ) : EReal) := by simp
  refine ⟨?_, ?_, ?_⟩
  · rw [half_eq, fin_mul_fin, mul_one, a, ofE_coe, fin_add_fin]; norm_num [d]
  · rw [half_eq, fin_mul_fin, mul_neg, mul_one, b, ofE_coe, fin_add_fin]; norm_num [c]
  · rw [half_eq, fin_mul_fin, mul_zero, c]
    rw [show ofE 0 = fin 0 by simp, fin_add_fin, add_zero, a, ofE_coe]

/-- Subtraction does not round a nonzero difference to zero (gradual underflow). -/
def SubExact (x y : ℝ) : Prop := x ≠ y → Lib.rnd (x - y) ≠ 0

theorem sgn_sub_lt {x m : ℝ} (hs : SubExact x m) (h : x < m) : sgn (fin x - fin m) = fin (-1) := by
  rw [fin_sub_fin]
  have h1 : Lib.rnd (x - m) < 0 := lt_of_le_of_ne (rnd_nonpos (by linarith)) (hs h.ne)
  induction hr : Lib.rnd (x - m) with
  | bot => simp [sgn]
  | top => simp [hr] at h1
  | coe r =>
    have : r < 0 := by rw [hr] at h1; exact_mod_cast h1
    simp [this, sgn_fin, this.le]

theorem sgn_sub_gt {x m : ℝ} (hs : SubExact x m) (h : m < x) : sgn (fin x - fin m) = fin 1 := by
  rw [fin_sub_fin]
  have h1 : 0 < Lib.rnd (x - m) := lt_of_le_of_ne (rnd_nonneg (by linarith)) (hs h.ne').symm
  induction hr : Lib.rnd (x - m) with
  | bot => simp [hr] at h1
  | top => simp [sgn]
  | coe r =>
    have : 0 < r := by rw [hr] at h1; exact_mod_cast h1
    simp [this, sgn_fin]

theorem sgn_sub_eq (m : ℝ) : sgn (fin m - fin m) = fin 0 := by
  have c : Lib.rnd 0 = 0 := by simp
  rw [fin_sub_fin, sub_self, c, show ofE 0 = fin 0 by simp, sgn_fin]; simp

/-- missing: the value at the location itself, see `C41_plaplace_violated` -/
theorem C41_plaplace_partial (mu : ℝ) :
    IsStepOn (fun x => x ≠ mu ∧ SubExact x mu) (fun x => plaplace x (fin mu) (fin 0)) mu := by
  intro x ⟨hne, hs⟩
  refine ⟨fun h => ?_, fun h => ?_⟩ <;> simp only <;> rw [plaplace_zero_scale (by simp)]
  · rw [sgn_sub_lt hs h, half_ops.2.1]; exact vanishes_log_if
  · rw [sgn_sub_gt hs (lt_of_le_of_ne h hne.symm), half_ops.1]; exact one_log_if

theorem C41_plaplace_violated (mu : ℝ) : plaplace (fin mu) (fin mu) (fin 0) false = fin (1 / 2) := by
  rw [plaplace_zero_scale (by simp), sgn_sub_eq, half_ops.2.2]; rfl

theorem C41_dlaplace (mu : ℝ) : IsSpike (fun x => dlaplace x (fin mu) (fin 0)) mu := by
  refine ⟨⟨?_, ?_⟩, fun x hx hm => ?_⟩
  · simp [dlaplace, laplace_ok', laplace_ok, dlaplace_limit_vals]
  · simp [dlaplace, laplace_ok', laplace_ok, dlaplace_limit_vals]
  · have : dlaplace x (fin mu) (fin 0) = log_if (fin 0) := by
      funext b
      cases x <;> simp_all [dlaplace, laplace_ok', laplace_ok, dlaplace_limit_vals]
    simp only [this]; exact vanishes_log_if

theorem C41_qlaplace (mu : ℝ) : IsConstQuant (fun u => qlaplace u (fin mu) (fin 0)) mu := by
  intro u h0 h1
  simp [qlaplace, laplace_ok, prob_ok_fin h0 h1]

theorem plogis_zero_scale (x mu : ℝ) :
    plogis (fin x) (fin mu) (fin 0) = log_if (half + half * sgn (fin x - fin mu)) := by
  funext b
  simp [plogis, logis_ok', logis_ok, plogis_limit_vals]

/-- missing: the value at the location itself, see `C41_plogis_violated` -/
theorem C41_plogis_partial (mu : ℝ) :
    IsStepOn (fun x => x ≠ mu ∧ SubExact x mu) (fun x => plogis x (fin mu) (fin 0)) mu := by
  intro x ⟨hne, hs⟩
  refine ⟨fun h => ?_, fun h => ?_⟩ <;> simp only <;> rw [plogis_zero_scale]
  · rw [sgn_sub_lt hs h, half_ops.2.1]; exact vanishes_log_if
  · rw [sgn_sub_gt hs (lt_of_le_of_ne h hne.symm), half_ops.1]; exact one_log_if

theorem C41_plogis_violated (mu : ℝ) : plogis (fin mu) (fin mu) (fin 0) false = fin (1 / 2) := by
  rw [plogis_zero_scale, sgn_sub_eq, half_ops.2.2]; rfl

theorem C41_qlogis (mu : ℝ) : IsConstQuant (fun u => qlogis u (fin mu) (fin 0)) mu := by
  intro u h0 h1
  simp [qlogis, logis_ok, prob_ok_fin h0 h1]

theorem sub_cases (x m : ℝ) : (∃ r, fin x - fin m = fin r) ∨ fin x - fin m = pinf ∨ fin x - fin m = ninf := by
  rw [fin_sub_fin]
  induction Lib.rnd (x - m) with
  | bot => simp
  | top => simp
  | coe r => left; exact ⟨r, by simp⟩

/-- With scale 0 the logistic density is NaN at every finite point, in both forms. -/
theorem C41_dlogis_violated (x mu : ℝ) (b : Bool) : dlogis (fin x) (fin mu) (fin 0) b = nan := by
  have : dlogis_log_compute ((fin x - fin mu) / fin 0) (fin 0) = nan := by
    rcases sub_cases x mu with ⟨r, h⟩ | h | h <;> rw [h]
    · rcases lt_trichotomy r 0 with hr | rfl | hr
      · simp [dlogis_log_compute, fin_div_fin, hr.ne, not_lt.2 hr.le, log_fin, sub_def, fin_mul_pinf]
      · simp [dlogis_log_compute, fin_div_fin, sub_def]
      · simp [dlogis_log_compute, fin_div_fin, hr.ne', hr, log_fin, sub_def]
    · simp [dlogis_log_compute, log_fin, sub_def, pinf_div_fin]
    · simp [dlogis_log_compute, log_fin, sub_def, ninf_div_fin, fin_mul_pinf]
  cases b <;> simp [dlogis, logis_ok', logis_ok, this]

/-! ### Cauchy -/

/-- With scale 0 the Cauchy density is NaN at every finite point, in both forms. -/
theorem C41_dcauchy_violated (x mu : ℝ) (b : Bool) : dcauchy (fin x) (fin mu) (fin 0) b = nan := by
  have c : Lib.rnd 0 = 0 := by simp
  have : dcauchy_compute ((fin x - fin mu) / fin 0) (fin 0) = nan := by
    rcases sub_cases x mu with ⟨r, h⟩ | h | h <;> rw [h]
    · rcases lt_trichotomy r 0 with hr | rfl | hr
      · simp [dcauchy_compute, fin_div_fin, hr.ne, not_lt.2 hr.le, PI, fin_mul_fin, c, fin_mul_pinf]
      · simp [dcauchy_compute, fin_div_fin]
      · simp [dcauchy_compute, fin_div_fin, hr.ne', hr, PI, fin_mul_fin, c, fin_mul_pinf]
    · simp [dcauchy_compute, pinf_div_fin, PI, fin_mul_fin, c, fin_mul_pinf]
    · simp [dcauchy_compute, ninf_div_fin, PI, fin_mul_fin, c, fin_mul_pinf]
  cases b <;> simp [dcauchy, cauchy_ok', cauchy_ok, this]

theorem atan_inf_half : half + atan pinf / PI = fin 1 ∧ half + atan ninf / PI = fin 0 := by
  have hp := Lib.pi_pos
  have a : Lib.rnd (1 / 2) = (((1 : ℝ) / 2 : ℝ) : EReal) := by simp
  have b : Lib.rnd (-(1 / 2)) = ((-((1 : ℝ) / 2) : ℝ) : EReal) := by rw [Lib.rnd_neg, a]; simp
  have c : Lib.rnd 0 = 0 := by simp
  have d : Lib.rnd 1 = ((1 : ℝ) : EReal) := by simp
  have e1 : Lib.pi / 2 / Lib.pi = 1 / 2 := by field_simp
  have e2 : -(Lib.pi / 2) / Lib.pi = -(1 / 2) := by field_simp
  constructor
  · rw [show atan pinf = fin (Lib.pi / 2) from rfl, PI, fin_div_fin, if_neg hp.ne', e1, a, ofE_coe, half_eq,
      fin_add_fin]; norm_num [d]
  · rw [show atan ninf = fin (-(Lib.pi / 2)) from rfl, PI, fin_div_fin, if_neg hp.ne', e2, b, ofE_coe, half_eq,
      fin_add_fin]; norm_num [c]

/-- missing: the value at the location itself, see `C41_pcauchy_violated` -/
theorem C41_pcauchy_partial (mu : ℝ) :
    IsStepOn (fun x => x ≠ mu ∧ SubExact x mu) (fun x => pcauchy x (fin mu) (fin 0)) mu := by
  intro x ⟨hne, hs⟩
  have key (b : Bool) : pcauchy (fin x) (fin mu) (fin 0) b =
      log_if (pcauchy_compute ((fin x - fin mu) / fin 0)) b := by
    simp [pcauchy, cauchy_ok', cauchy_ok]
  have key' : pcauchy (fin x) (fin mu) (fin 0) = log_if (pcauchy_compute ((fin x - fin mu) / fin 0)) := funext key
  refine ⟨fun h => ?_, fun h => ?_⟩ <;> simp only <;> rw [key']
  · have h1 : (fin x - fin mu) / fin 0 = ninf := by
      have hs' := sgn_sub_lt hs h
      rcases sub_cases x mu with ⟨r, hr⟩ | hr | hr <;> rw [hr] at hs' ⊢
      · rw [sgn_fin] at hs'
        split_ifs at hs' with h1 h2
        · injection hs' with hs'; norm_num at hs'
        · rw [fin_div_fin, if_pos rfl, if_neg h2.ne, if_neg h1]
        · injection hs' with hs'; norm_num at hs'
      · simp [sgn] at hs'; norm_num at hs'
      · simp [ninf_div_fin]
    rw [h1, pcauchy_compute, atan_inf_half.2]; exact vanishes_log_if
  · have h1 : (fin x - fin mu) / fin 0 = pinf := by
      have hs' := sgn_sub_gt hs (lt_of_le_of_ne h hne.symm)
      rcases sub_cases x mu with ⟨r, hr⟩ | hr | hr <;> rw [hr] at hs' ⊢
      · rw [sgn_fin] at hs'
        split_ifs at hs' with h1 h2
        · rw [fin_div_fin, if_pos rfl, if_neg h1.ne', if_pos h1]
        · injection hs' with hs'; norm_num at hs'
        · injection hs' with hs'; norm_num at hs'
      · simp [pinf_div_fin]
      · simp [sgn] at hs'; norm_num at hs'
    rw [h1, pcauchy_compute, atan_inf_half.1]; exact one_log_if

theorem C41_pcauchy_violated (mu : ℝ) (b : Bool) : pcauchy (fin mu) (fin mu) (fin 0) b = nan := by
  have c : Lib.rnd 0 = 0 := by simp
  have h : fin mu - fin mu = fin 0 := by rw [fin_sub_fin, sub_self, c]; simp
  cases b <;> simp [pcauchy, cauchy_ok', cauchy_ok, pcauchy_compute, h, fin_div_fin, atan]

theorem C41_qcauchy (mu : ℝ) : IsConstQuant (fun u => qcauchy u (fin mu) (fin 0)) mu := by
  intro u h0 h1
  simp [qcauchy, cauchy_ok, prob_ok_fin h0 h1]

/-! ### log-normal: point mass at `exp mu` -/

theorem C41_qlnorm (mu : ℝ) (u : ℝ) (h0 : 0 ≤ u) (h1 : u ≤ 1) :
    qlnorm (fin u) (fin mu) (fin 0) = exp (fin mu) := by
  have := C41_qnorm mu u h0 h1
  simp only at this
  rw [qlnorm, if_neg (by simp [lnorm_ok]), if_neg (not_not.2 (prob_ok_fin h0 h1)), qlnorm_compute, this]
example : qlnorm (fin (1 / 3)) (fin 3) (fin 0) = exp (fin 3) :=
  C41_qlnorm (mu := 3) (u := 1 / 3) (h0 := by meets) (h1 := by meets)

theorem C41_rlnorm {S : Type*} [Engine S] {mu : ℝ} (hmu : Lib.rnd mu = (mu : EReal)) (s : S) :
    (rlnorm (fin mu) (fin 0) s).1 = exp (fin mu) := by
  rw [rlnorm, if_neg (by simp [lnorm_ok])]
  simp only [C41_rnorm hmu]

/-- At no finite positive point is the coded log-normal density infinite: it is 0 everywhere, also at `exp mu`. -/
theorem C41_dlnorm_violated [Ideal] (mu : ℝ) {x : ℝ} (hx : 0 < x) :
    VanishesAt (dlnorm (fin x) (fin mu) (fin 0)) := by
  constructor <;> simp [dlnorm, lnorm_ok', lnorm_ok, ilog hx, not_lt.2 hx.le, dlnorm_limit_vals, log_fin]

theorem plnorm_zero_scale [Ideal] (mu : ℝ) {x : ℝ} (hx : Lib.eps ≤ x) :
    plnorm (fin x) (fin mu) (fin 0) = log_if (if Real.exp mu ≤ x then fin 1 else fin 0) := by
  have hx0 : 0 < x := Lib.eps_pos.trans_le hx
  funext b
  rw [plnorm, if_neg (by simp [lnorm_ok', lnorm_ok]), if_neg (by simpa [eps] using hx), ilog hx0,
    pnorm_zero_scale (by simp)]
  congr 1
  by_cases h : Real.exp mu ≤ x
  · rw [if_pos h, if_pos]; simpa using (Real.le_log_iff_exp_le hx0).2 h
  · rw [if_neg h, if_neg]; simpa using (not_congr (Real.le_log_iff_exp_le hx0)).2 h

/-- missing: the points `exp mu ≤ x < eps`, see `C41_plnorm_violated` -/
theorem C41_plnorm_partial [Ideal] (mu : ℝ) :
    IsStepOn (fun x => Lib.eps ≤ x ∨ x < Real.exp mu) (fun x => plnorm x (fin mu) (fin 0)) (Real.exp mu) := by
  intro x hx
  by_cases h : Lib.eps ≤ x
  · simp only [plnorm_zero_scale mu h]
    refine ⟨fun h' => ?_, fun h' => ?_⟩
    · rw [if_neg (not_le.2 h')]; exact vanishes_log_if
    · rw [if_pos h']; exact one_log_if
  · have hx' : x < Real.exp mu := by tauto
    refine ⟨fun _ => ?_, fun h' => absurd hx' (not_lt.2 h')⟩
    constructor <;> simp [plnorm, lnorm_ok', lnorm_ok, eps, not_le.1 h]

theorem C41_plnorm_violated {mu : ℝ} (h : Real.exp mu < Lib.eps) :
    plnorm (fin (Real.exp mu)) (fin mu) (fin 0) false = fin 0 := by
  simp [plnorm, lnorm_ok', lnorm_ok, eps, h]

/-! ### generators by inversion -/

theorem runif_mem {S : Type*} [Engine S] [NextLib] (s : S) :
    ∃ r : ℝ, (runif (fin 0) (fin 1) s).1 = fin r ∧ 0 < r ∧ r < 1 := by
  obtain ⟨r, h, h0, h1⟩ := Engine.unif_mem (Lib.next 0 1) 1 s NextLib.next_lt_one
  refine ⟨r, ?_, (NextLib.next_gt 0 1 one_pos).trans_le h0, h1⟩
  rw [runif, if_neg (by simp [unif_ok])]
  exact h

theorem C41_rlaplace {S : Type*} [Engine S] [NextLib] (mu : ℝ) (s : S) :
    (rlaplace (fin mu) (fin 0) s).1 = fin mu := by
  obtain ⟨r, h, h0, h1⟩ := runif_mem s
  rw [rlaplace, if_neg (by simp [laplace_ok])]
  simp only [zero_eq, one_eq, h]
  exact C41_qlaplace mu r h0.le h1.le

theorem C41_rlogis {S : Type*} [Engine S] [NextLib] (mu : ℝ) (s : S) :
    (rlogis (fin mu) (fin 0) s).1 = fin mu := by
  obtain ⟨r, h, h0, h1⟩ := runif_mem s
  rw [rlogis, if_neg (by simp [logis_ok])]
  simp only [zero_eq, one_eq, h]
  exact C41_qlogis mu r h0.le h1.le

theorem C41_rcauchy {S : Type*} [Engine S] [NextLib] (mu : ℝ) (s : S) :
    (rcauchy (fin mu) (fin 0) s).1 = fin mu := by
  obtain ⟨r, h, h0, h1⟩ := runif_mem s
  rw [rcauchy, if_neg (by simp [cauchy_ok])]
  simp only [zero_eq, one_eq, h]
  exact C41_qcauchy mu r h0.le h1.le

/-! ### inverse Gaussian with infinite `lambda`: point mass at `mu`; with `lambda = 0`: point mass at 0 -/

theorem C41_dinvgauss_inf {mu : ℝ} (h : 0 < mu) : IsSpike (fun x => dinvgauss x (fin mu) pinf) mu := by
  refine ⟨⟨?_, ?_⟩, fun x hx hm => ?_⟩
  · simp [dinvgauss, invgauss_ok', invgauss_ok, dinvgauss_limit_vals, not_lt.2 h.le, h.ne']
  · simp [dinvgauss, invgauss_ok', invgauss_ok, dinvgauss_limit_vals, not_lt.2 h.le, h.ne']
  · by_cases hx0 : x < 0
    · constructor <;> simp [dinvgauss, invgauss_ok', invgauss_ok, not_lt.2 h.le] <;> simp_all
    · have : dinvgauss x (fin mu) pinf = log_if (fin 0) := by
        funext b
        cases x <;> simp_all [dinvgauss, invgauss_ok', invgauss_ok, dinvgauss_limit_vals, not_lt.2 h.le, h.ne']
      simp only [this]; exact vanishes_log_if
example : IsSpike (fun x => dinvgauss x (fin 3) pinf) 3 := C41_dinvgauss_inf (mu := 3) (h := by meets)

theorem C41_pinvgauss_inf {mu : ℝ} (h : 0 < mu) : IsStep (fun x => pinvgauss x (fin mu) pinf) mu := by
  refine ⟨fun x _ => ⟨fun hx => ?_, fun hx => ?_⟩, ?_, ?_⟩
  · by_cases hx0 : x < 0
    · constructor <;> simp [pinvgauss, invgauss_ok', invgauss_ok, not_lt.2 h.le, hx0]
    · have : pinvgauss (fin x) (fin mu) pinf = log_if (fin 0) := by
        funext b
        simp [pinvgauss, invgauss_ok', invgauss_ok, pinvgauss_limit_vals, not_lt.2 h.le, h.ne', hx0, not_le.2 hx]
      simp only [this]; exact vanishes_log_if
  · have hx0 := h.trans_le hx
    have : pinvgauss (fin x) (fin mu) pinf = log_if (fin 1) := by
      funext b
      simp [pinvgauss, invgauss_ok', invgauss_ok, pinvgauss_limit_vals, not_lt.2 h.le, h.ne', not_lt.2 hx0.le, hx]
    simp only [this]; exact one_log_if
  · constructor <;> simp [pinvgauss, invgauss_ok', invgauss_ok, not_lt.2 h.le]
  · have : pinvgauss pinf (fin mu) pinf = log_if (fin 1) := by
      funext b
      simp [pinvgauss, invgauss_ok', invgauss_ok, pinvgauss_limit_vals, not_lt.2 h.le]
    simp only [this]; exact one_log_if
example : IsStep (fun x => pinvgauss x (fin 3) pinf) 3 := C41_pinvgauss_inf (mu := 3) (h := by meets)

/-! ### Gamma with shape 0: point mass at 0 -/

theorem C41_dgamma {scale : ℝ} (hs : Lib.eps ≤ scale) : IsSpike (fun x => dgamma x (fin 0) (fin scale)) 0 := by
  have hs' : ¬ scale < Lib.eps := not_lt.2 hs
  refine ⟨⟨?_, ?_⟩, fun x hx hm => ?_⟩
  · simp [dgamma, gamma_ok', gamma_ok, dgamma_limit_vals, hs, eps]
  · simp [dgamma, gamma_ok', gamma_ok, dgamma_limit_vals, hs, eps]
  · by_cases hx0 : x < 0
    · constructor <;> simp [dgamma, gamma_ok', gamma_ok, eps, hs] <;> simp_all
    · have : dgamma x (fin 0) (fin scale) = log_if (fin 0) := by
        funext b
        cases x <;> simp_all [dgamma, gamma_ok', gamma_ok, dgamma_limit_vals, eps]
      simp only [this]; exact vanishes_log_if
example : IsSpike (fun x => dgamma x (fin 0) (fin 2)) 0 := C41_dgamma (scale := 2) (hs := by meets)

/-- missing: `0 ≤ x < eps`, see `C41_pgamma_violated` -/
theorem C41_pgamma_partial {scale : ℝ} (hs : Lib.eps ≤ scale) :
    IsStepOn (fun x => x < 0 ∨ Lib.eps ≤ x) (fun x => pgamma x (fin 0) (fin scale)) 0 := by
  have he := Lib.eps_pos
  intro x hx
  refine ⟨fun h => ?_, fun h => ?_⟩
  · have : x < Lib.eps := by linarith
    constructor <;> simp [pgamma, gamma_ok', gamma_ok, eps, hs, this]
  · have hx' : Lib.eps ≤ x := hx.resolve_left (not_lt.2 h)
    have : pgamma (fin x) (fin 0) (fin scale) = log_if (fin 1) := by
      funext b
      simp [pgamma, gamma_ok', gamma_ok, pgamma_limit_vals, eps, hs, hx']
    simp only [this]; exact one_log_if
example : IsStepOn (fun x => x < 0 ∨ Lib.eps ≤ x) (fun x => pgamma x (fin 0) (fin 2)) 0 :=
  C41_pgamma_partial (scale := 2) (hs := by meets)

/-- the distribution function of the point mass at 0 is given as 0 at 0 -/
theorem C41_pgamma_violated {scale : ℝ} (hs : Lib.eps ≤ scale) :
    pgamma (fin 0) (fin 0) (fin scale) false = fin 0 := by
  have he := Lib.eps_pos
  simp [pgamma, gamma_ok', gamma_ok, eps, hs, he]
example : pgamma (fin 0) (fin 0) (fin 2) false = fin 0 := C41_pgamma_violated (scale := 2) (hs := by meets)

/-! ### Poisson with rate 0, binomial without trials: point mass at 0 -/

theorem C41_dpois (x : ℤ) : (x = 0 → OneAt (dpois x (fin 0))) ∧ (x ≠ 0 → VanishesAt (dpois x (fin 0))) := by
  refine ⟨?_, fun h => ?_⟩
  · rintro rfl; constructor <;> simp [dpois, pois_ok]
  · by_cases hx : x < 0
    · constructor <;> simp [dpois, pois_ok, hx]
    · constructor <;> simp [dpois, pois_ok, hx, h]

theorem C41_dbinom {p : ℝ} (h0 : 0 ≤ p) (h1 : p ≤ 1) (x : ℤ) :
    (x = 0 → OneAt (dbinom x 0 (fin p))) ∧ (x ≠ 0 → VanishesAt (dbinom x 0 (fin p))) := by
  refine ⟨?_, fun h => ?_⟩
  · rintro rfl
    have : dbinom 0 0 (fin p) = log_if (fin 1) := by
      funext b; simp [dbinom, binom_ok, h0, h1, dbinom_limit_vals]
    rw [this]; exact one_log_if
  · have : x < 0 ∨ 0 < x := by omega
    constructor <;> simp [dbinom, binom_ok, h0, h1, this]
example : ((-3) = 0 → OneAt (dbinom (-3) 0 (fin (1 / 3)))) ∧ ((-3) ≠ 0 → VanishesAt (dbinom (-3) 0 (fin (1 / 3)))) :=
  C41_dbinom (p := 1 / 3) (h0 := by meets) (h1 := by meets) (x := -3)

theorem C41_pbinom {p : ℝ} (h0 : 0 ≤ p) (h1 : p ≤ 1) (x : ℤ) :
    (x < 0 → VanishesAt (pbinom x 0 (fin p))) ∧ (0 ≤ x → OneAt (pbinom x 0 (fin p))) := by
  refine ⟨fun h => ?_, fun h => ?_⟩
  · constructor <;> simp [pbinom, binom_ok, h0, h1, h]
  · have : pbinom x 0 (fin p) = log_if (fin 1) := by
      funext b; simp [pbinom, binom_ok, h0, h1, not_lt.2 h, h]
    rw [this]; exact one_log_if
example : ((-3) < 0 → VanishesAt (pbinom (-3) 0 (fin (1 / 3)))) ∧ (0 ≤ (-3) → OneAt (pbinom (-3) 0 (fin (1 / 3)))) :=
  C41_pbinom (p := 1 / 3) (h0 := by meets) (h1 := by meets) (x := -3)

end Stats

namespace Stats.ExamplesC41
open Fl Spec

section
open scoped Stats.Exact
example : pnorm (fin 3) (fin 3) (fin 0) false = fin 1 := ((C41_pnorm 3).1 3 trivial).2 le_rfl |>.1
example : VanishesAt (plogis (fin 2) (fin 3) (fin 0)) :=
  (C41_plogis_partial 3 2 ⟨by norm_num, fun _ => by simp only [Ideal.rnd]; norm_num⟩).1 (by norm_num)
example (s : Stream) : (rcauchy (fin 3) (fin 0) s).1 = fin 3 := C41_rcauchy 3 s
example (s : Stream) : (rlnorm (fin 3) (fin 0) s).1 = exp (fin 3) := C41_rlnorm (Ideal.rnd 3) s
example : plnorm (fin (Real.exp (-100))) (fin (-100)) (fin 0) false = fin 0 := by
  refine C41_plnorm_violated ?_
  show Real.exp (-100) < 1 / 2 ^ 52
  rw [show (-100 : ℝ) = ((100 : ℕ) : ℝ) * (-1) by norm_num, Real.exp_nat_mul, Real.exp_neg]
  have h1 : (2 : ℝ) ≤ Real.exp 1 := by have := Real.add_one_le_exp (1 : ℝ); linarith
  calc (Real.exp 1)⁻¹ ^ 100 ≤ (2 : ℝ)⁻¹ ^ 100 := by gcongr
    _ < 1 / 2 ^ 52 := by norm_num
end

section
set_option warn.classDefReducibility false in
attribute [local instance] doubleLib
/-- binary64: the logistic distribution function with scale 0 -/
example : OneAt (plogis (fin 3) (fin 2) (fin 0)) :=
  (C41_plogis_partial 2 3 ⟨by norm_num, fun _ => by
    have : Lib.rnd ((3 : ℝ) - 2) = ((1 : ℝ) : EReal) := by norm_num
    rw [this]; norm_num⟩).2 (by norm_num)
end

end Stats.ExamplesC41
