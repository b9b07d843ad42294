import Verif.Spec.OddLib
import Verif.Props.C16E

/-!
# C40 with rounding: reflections that hold exactly in every arithmetic

`(x, mu) ↦ (-x, -mu)` leaves the normal, Cauchy, Laplace and t densities unchanged whatever the rounding, as long as rounding
is symmetric, and turns the quantiles around. The logistic density loses it to overflow.
-/

set_option linter.unusedSectionVars false
open Classical
namespace Stats
open Fl Spec

section
variable [Lib]

theorem Fl.neg_neg' (a : Fl) : - -a = a := by cases a <;> simp

theorem Fl.neg_add_neg (a b : Fl) : -a + -b = -(a + b) := by
  cases a <;> cases b <;> simp
  rw [fin_add_fin, fin_add_fin, ← ofE_neg, ← Lib.rnd_neg, neg_add]

theorem Fl.neg_sub_neg (a b : Fl) : -a - -b = -(a - b) := by rw [sub_def, sub_def, Fl.neg_add_neg]

theorem Fl.sub_swap (a b : Fl) : b - a = -(a - b) := by
  cases a <;> cases b <;> try simp
  rw [fin_sub_fin, fin_sub_fin, ← ofE_neg, ← Lib.rnd_neg, neg_sub]

theorem Fl.neg_div' (a b : Fl) : -a / b = -(a / b) := by
  cases a <;> cases b <;> simp [pinf_div_fin, ninf_div_fin]
  · split_ifs <;> simp
  · rename_i a b
    rw [show fin (-a) / fin b = if b = 0 then (if -a = 0 then nan else if 0 < -a then pinf else ninf)
      else ofE (Lib.rnd (-a / b)) from rfl, show fin a / fin b = if b = 0 then (if a = 0 then nan else if 0 < a then pinf
      else ninf) else ofE (Lib.rnd (a / b)) from rfl]
    split_ifs with h1 h2 h3 h4 h5 h6 h7 h8 <;> try rfl
    all_goals first
      | (rw [neg_div, Lib.rnd_neg, ofE_neg])
      | (exfalso; first | exact h3 (by linarith) | linarith | (apply h3; linarith) | (rcases lt_trichotomy a 0 with h | h | h <;> first | linarith | simp_all))
  · split_ifs <;> simp

theorem Fl.mul_neg' (a b : Fl) : a * -b = -(a * b) := by
  cases a with
  | nan => simp
  | ninf => cases b with
    | nan => simp
    | ninf => simp
    | pinf => simp
    | fin b =>
      rw [neg_fin, ninf_mul_fin, ninf_mul_fin]
      rcases lt_trichotomy b 0 with h | h | h
      · simp [h, h.ne, not_lt.2 h.le]
      · simp [h]
      · simp [h, h.ne', not_lt.2 h.le]
  | pinf => cases b with
    | nan => simp
    | ninf => simp
    | pinf => simp
    | fin b =>
      rw [neg_fin, pinf_mul_fin, pinf_mul_fin]
      rcases lt_trichotomy b 0 with h | h | h
      · simp [h, h.ne, not_lt.2 h.le]
      · simp [h]
      · simp [h, h.ne', not_lt.2 h.le]
  | fin a => cases b with
    | nan => simp
    | ninf => rw [neg_ninf, fin_mul_ninf, fin_mul_pinf]; split_ifs <;> simp
    | pinf => rw [neg_pinf, fin_mul_ninf, fin_mul_pinf]; split_ifs <;> simp
    | fin b => rw [neg_fin, fin_mul_fin, fin_mul_fin, mul_neg, Lib.rnd_neg, ofE_neg]

theorem Fl.mul_comm' (a b : Fl) : a * b = b * a := by
  cases a <;> cases b <;> first | rfl | simp [fin_mul_fin, mul_comm]

theorem Fl.neg_mul' (a b : Fl) : -a * b = -(a * b) := by rw [Fl.mul_comm', Fl.mul_neg', Fl.mul_comm']

theorem Fl.neg_mul_neg' (a b : Fl) : -a * -b = a * b := by rw [Fl.mul_neg', Fl.neg_mul', Fl.neg_neg']

theorem Fl.abs_neg' (a : Fl) : Fl.abs (-a) = Fl.abs a := by cases a <;> simp

theorem Fl.neg_feq_neg (a b : Fl) : (-a ==. -b) ↔ a ==. b := by cases a <;> cases b <;> simp
theorem Fl.feq_swap (a b : Fl) : (b ==. a) ↔ a ==. b := by cases a <;> cases b <;> simp [eq_comm]

theorem Fl.neg_eq_nan (a : Fl) : -a = nan ↔ a = nan := by cases a <;> simp
theorem Fl.neg_eq_pinf (a : Fl) : -a = pinf ↔ a = ninf := by cases a <;> simp
theorem Fl.neg_eq_ninf (a : Fl) : -a = ninf ↔ a = pinf := by cases a <;> simp

theorem Fl.sgn_neg' (a : Fl) : sgn (-a) = -sgn a := by
  cases a with
  | nan => simp
  | ninf => simp
  | pinf => simp
  | fin a =>
    rw [neg_fin, sgn_fin, sgn_fin]
    rcases lt_trichotomy a 0 with h | h | h
    · simp [h, not_lt.2 h.le]
    · simp [h]
    · simp [h, not_lt.2 h.le]

/-! ### densities: reflection at 0 -/

theorem C40_dnorm_reflect (x mu sigma : Fl) (b : Bool) : dnorm (-x) (-mu) sigma b = dnorm x mu sigma b := by
  have h : dnorm_limit_vals (-x) (-mu) sigma = dnorm_limit_vals x mu sigma := by
    simp only [dnorm_limit_vals, isPosinf_iff, isNeginf_iff, Fl.neg_eq_pinf, Fl.neg_eq_ninf, Fl.neg_feq_neg]
    congr 2
    rw [or_comm]
  simp only [dnorm, dnorm_log_compute, norm_ok', norm_ok, isNan_iff, Fl.neg_eq_nan, isInf_iff, Fl.neg_eq_pinf, Fl.neg_eq_ninf,
    Fl.neg_sub_neg, Fl.neg_div', Fl.neg_mul_neg', h, or_comm (a := x = ninf), or_comm (a := mu = ninf)]

theorem C40_dcauchy_reflect (x mu sigma : Fl) (b : Bool) : dcauchy (-x) (-mu) sigma b = dcauchy x mu sigma b := by
  have h : dcauchy_limit_vals (-x) (-mu) sigma = dcauchy_limit_vals x mu sigma := by
    simp only [dcauchy_limit_vals, isPosinf_iff, isNeginf_iff, isInf_iff, Fl.neg_eq_pinf, Fl.neg_eq_ninf, ite_self,
      or_comm (a := x = ninf), or_comm (a := mu = ninf)]
    congr 2
    rw [or_comm]
  simp only [dcauchy, dcauchy_compute, cauchy_ok', cauchy_ok, isNan_iff, Fl.neg_eq_nan, isInf_iff, Fl.neg_eq_pinf,
    Fl.neg_eq_ninf, Fl.neg_sub_neg, Fl.neg_div', Fl.neg_mul_neg', h, or_comm (a := x = ninf), or_comm (a := mu = ninf)]

theorem C40_dlaplace_reflect (x mu sigma : Fl) (b : Bool) : dlaplace (-x) (-mu) sigma b = dlaplace x mu sigma b := by
  have h : dlaplace_limit_vals (-x) (-mu) sigma = dlaplace_limit_vals x mu sigma := by
    simp only [dlaplace_limit_vals, isPosinf_iff, isNeginf_iff, Fl.neg_eq_pinf, Fl.neg_eq_ninf, Fl.neg_feq_neg]
    congr 2
    rw [or_comm]
  simp only [dlaplace, dlaplace_log_compute, laplace_ok', laplace_ok, isNan_iff, Fl.neg_eq_nan, isInf_iff, Fl.neg_eq_pinf,
    Fl.neg_eq_ninf, Fl.neg_sub_neg, Fl.abs_neg', h, or_comm (a := x = ninf), or_comm (a := mu = ninf)]

theorem C40_dt_reflect (x dof : Fl) (b : Bool) : dt (-x) dof b = dt x dof b := by
  have h := C40_dnorm_reflect x 0 1 b
  rw [show -(0 : Fl) = 0 by simp] at h
  simp only [dt, dt_log_compute, dt_log_mult_term, t_ok', isNan_iff, Fl.neg_eq_nan, isInf_iff, Fl.neg_eq_pinf,
    Fl.neg_eq_ninf, Fl.neg_div', Fl.neg_mul_neg', h, or_comm (a := x = ninf)]

/-! ### densities: the point and the location change places -/

theorem C40_dnorm_swap (x mu sigma : Fl) (b : Bool) : dnorm mu x sigma b = dnorm x mu sigma b := by
  have h : dnorm_limit_vals mu x sigma = dnorm_limit_vals x mu sigma := by
    simp only [dnorm_limit_vals, Fl.feq_swap x mu, and_comm (a := isPosinf mu), and_comm (a := isNeginf mu)]
  simp only [dnorm, dnorm_log_compute, norm_ok', norm_ok, isNan_iff, Fl.sub_swap x mu, Fl.neg_div', Fl.neg_mul_neg', h,
    or_left_comm (a := isInf mu)]
  congr 1
  simp only [eq_iff_iff, not_iff_not]
  tauto

theorem C40_dcauchy_swap (x mu sigma : Fl) (b : Bool) : dcauchy mu x sigma b = dcauchy x mu sigma b := by
  have h : dcauchy_limit_vals mu x sigma = dcauchy_limit_vals x mu sigma := by
    simp only [dcauchy_limit_vals, ite_self, or_comm (a := isInf mu), and_comm (a := isPosinf mu), and_comm (a := isNeginf mu)]
  simp only [dcauchy, dcauchy_compute, cauchy_ok', cauchy_ok, isNan_iff, Fl.sub_swap x mu, Fl.neg_div', Fl.neg_mul_neg', h,
    or_left_comm (a := isInf mu)]
  congr 1
  simp only [eq_iff_iff, not_iff_not]
  tauto

theorem C40_dlaplace_swap (x mu sigma : Fl) (b : Bool) : dlaplace mu x sigma b = dlaplace x mu sigma b := by
  have h : dlaplace_limit_vals mu x sigma = dlaplace_limit_vals x mu sigma := by
    simp only [dlaplace_limit_vals, Fl.feq_swap x mu, and_comm (a := isPosinf mu), and_comm (a := isNeginf mu)]
  simp only [dlaplace, dlaplace_log_compute, laplace_ok', laplace_ok, isNan_iff, Fl.sub_swap x mu, Fl.abs_neg', h,
    or_left_comm (a := isInf mu)]
  congr 1
  simp only [eq_iff_iff, not_iff_not]
  tauto

/-! ### distribution functions -/

/-- The upper half of the t distribution function is computed from the lower half (all degrees of freedom other than 1 and 2). -/
theorem C40_pt_reflect_partial {x : ℝ} (hx : 0 < x) {dof : ℝ} (h : Lib.eps ≤ dof) (h1 : dof ≠ 1) (h2 : dof ≠ 2) :
    pt (fin x) (fin dof) false = 1 - pt (fin (-x)) (fin dof) false := by
  have e : fin (-x) * fin (-x) = fin x * fin x := by rw [fin_mul_fin, fin_mul_fin, neg_mul_neg]
  have e2 : fin (-x) / fin dof * fin (-x) = fin x / fin dof * fin x := by
    rw [← neg_fin, Fl.neg_div', Fl.neg_mul_neg']
  have n : ¬ (fin (-x) > (0 : Fl)) := by simp [hx.le]
  have p : fin x > (0 : Fl) := by simp [hx]
  have ok : ∀ y : ℝ, t_ok' (fin y) (fin dof) := fun y => by simp [t_ok', t_ok, eps, h]
  rw [pt, pt, if_neg (not_not.2 (ok x)), if_neg (not_not.2 (ok (-x)))]
  simp only [isPosinf_iff, isNeginf_iff, reduceCtorEq, if_false]
  rw [show ∀ y, log_if y false = y from fun y => rfl, show ∀ y, log_if y false = y from fun y => rfl, pt_compute, pt_compute,
    one_eq, ofNat_eq, if_neg (by simpa using h1), if_neg (by simpa using h2), if_neg (by simpa using h1), if_neg (by simpa using h2),
    pt_compute_main, pt_compute_main, e, e2, if_pos p, if_pos p, if_neg n, if_neg n, one_eq]
  split_ifs <;> rfl

/-! ### quantiles -/

/-- A quantile function with the end-point conventions of the code turns around with its central part. -/
theorem reflect_quant {c c' : Prop} (hc : c' ↔ c) (f g : Fl) {p : ℝ} {mu sigma : Fl} (h : 0 < p → p < 1 → g = -f) :
    (if ¬ c' then nan
      else if ¬ prob_val_ok (fin (1 - p)) then nan
      else if isPosinf sigma then nan
      else if sigma ==. 0 then -mu
      else if fin (1 - p) ==. 0 then (if isPosinf (-mu) then nan else -pinf)
      else if fin (1 - p) ==. 1 then (if isNeginf (-mu) then nan else pinf)
      else g) =
    -(if ¬ c then nan
      else if ¬ prob_val_ok (fin p) then nan
      else if isPosinf sigma then nan
      else if sigma ==. 0 then mu
      else if fin p ==. 0 then (if isPosinf mu then nan else -pinf)
      else if fin p ==. 1 then (if isNeginf mu then nan else pinf)
      else f) := by
  have ok : prob_val_ok (fin (1 - p)) ↔ prob_val_ok (fin p) := by
    simp only [prob_val_ok, isNan_iff, reduceCtorEq, not_false_eq_true, true_and, zero_eq, one_eq, fin_lt_fin, gt_iff_lt]
    constructor <;> rintro h <;> constructor <;> (have h1 := h.1; have h2 := h.2; linarith)
  have e0 : (fin (1 - p) ==. 0) ↔ p = 1 := by
    rw [zero_eq, fin_feq_fin]; constructor <;> intro h <;> linarith
  have e1 : (fin (1 - p) ==. 1) ↔ p = 0 := by
    rw [one_eq, fin_feq_fin]; constructor <;> intro h <;> linarith
  have e2 : (fin p ==. 0) ↔ p = 0 := by rw [zero_eq, fin_feq_fin]
  have e3 : (fin p ==. 1) ↔ p = 1 := by rw [one_eq, fin_feq_fin]
  simp only [hc, ok, e0, e1, e2, e3, isPosinf_iff, isNeginf_iff, Fl.neg_eq_pinf, Fl.neg_eq_ninf]
  split_ifs with h1 h2 h3 h4 h5 h6 h7 h8 h9 <;> try simp
  all_goals first
    | (exfalso; linarith)
    | skip
  refine h ?_ ?_
  · have h2' := h2
    simp only [prob_val_ok, isNan_iff, reduceCtorEq, not_false_eq_true, true_and, zero_eq, one_eq, fin_lt_fin, gt_iff_lt] at h2'
    exact lt_of_le_of_ne (not_lt.1 fun hc => by simp [prob_val_ok, hc] at h2) (Ne.symm (by assumption))
  · exact lt_of_le_of_ne (not_lt.1 fun hc => by simp [prob_val_ok, hc] at h2) (by assumption)

theorem C40_qcauchy_reflect [OddLib] (p : ℝ) (mu sigma : Fl) :
    qcauchy (fin (1 - p)) (-mu) sigma = -qcauchy (fin p) mu sigma := by
  refine reflect_quant (by simp only [cauchy_ok, isNan_iff, Fl.neg_eq_nan]) _ _ fun h0 h1 => ?_
  have e : fin (1 - p) - half = -(fin p - half) := by
    rw [half_eq, fin_sub_fin, fin_sub_fin, ← ofE_neg, ← Lib.rnd_neg]
    congr 2; ring
  have t : ∀ y : Fl, tan (-y) = -tan y := fun y => by
    cases y <;> simp [tan]
    rw [OddLib.tan_neg, ofE_neg]
  rw [qcauchy_compute, qcauchy_compute, e, Fl.mul_neg', t, Fl.mul_neg', Fl.neg_add_neg]

theorem C40_qlaplace_reflect (p : ℝ) (mu sigma : Fl) :
    qlaplace (fin (1 - p)) (-mu) sigma = -qlaplace (fin p) mu sigma := by
  refine reflect_quant (by simp only [laplace_ok, isNan_iff, Fl.neg_eq_nan]) _ _ fun h0 h1 => ?_
  have e : fin (1 - p) - half = -(fin p - half) := by
    rw [half_eq, fin_sub_fin, fin_sub_fin, ← ofE_neg, ← Lib.rnd_neg]
    congr 2; ring
  rw [qlaplace_compute, qlaplace_compute, e, Fl.abs_neg', Fl.sgn_neg', Fl.mul_neg', Fl.neg_mul', Fl.neg_sub_neg]

/-- The argument and its complement must be doubled exactly. -/
theorem C40_qnorm_reflect [OddLib] {p : ℝ} (hp : Lib.rnd (2 * p) = ((2 * p : ℝ) : EReal))
    (hp' : Lib.rnd (2 * (1 - p)) = ((2 * (1 - p) : ℝ) : EReal)) (mu sigma : Fl) :
    qnorm (fin (1 - p)) (-mu) sigma = -qnorm (fin p) mu sigma := by
  refine reflect_quant (by simp only [norm_ok, isNan_iff, Fl.neg_eq_nan]) _ _ fun h0 h1 => ?_
  have e : 2 * fin (1 - p) - 1 = -(2 * fin p - 1) := by
    rw [ofNat_eq, one_eq, fin_mul_fin, fin_mul_fin, hp, hp', ofE_coe, ofE_coe, fin_sub_fin, fin_sub_fin, ← ofE_neg, ← Lib.rnd_neg]
    congr 2; ring
  have t : ∀ y : Fl, erfInv (-y) = -erfInv y := fun y => by
    cases y with
    | nan => simp [erfInv]
    | ninf => simp [erfInv]
    | pinf => simp [erfInv]
    | fin y =>
      rw [neg_fin, erfInv, erfInv]
      by_cases c1 : y < -1 ∨ 1 < y
      · rw [if_pos (by rcases c1 with c | c; exacts [Or.inr (by linarith), Or.inl (by linarith)]), if_pos c1, neg_nan]
      · rw [if_neg (by rintro (c | c); exacts [c1 (Or.inr (by linarith)), c1 (Or.inl (by linarith))]), if_neg c1]
        push Not at c1
        by_cases c2 : y = -1
        · subst c2; norm_num
        · by_cases c3 : y = 1
          · subst c3; norm_num
          · rw [if_neg (fun h => c3 (by linarith)), if_neg (fun h => c2 (by linarith)), if_neg c2, if_neg c3,
              OddLib.erfInv_neg y (lt_of_le_of_ne c1.1 (Ne.symm c2)) (lt_of_le_of_ne c1.2 c3), ofE_neg]
  rw [qnorm_compute, qnorm_compute, e, t, Fl.mul_neg', Fl.neg_add_neg]

/-! ### the median -/

theorem rnd_zero : Lib.rnd 0 = 0 := by
  have := Lib.rnd_half 0 (by norm_num)
  simpa using this

theorem rnd_two_inv : Lib.rnd (1 / 2) = ((1 / 2 : ℝ) : EReal) := by
  have := Lib.rnd_half 1 (by norm_num)
  simpa using this

theorem rnd_one : Lib.rnd 1 = ((1 : ℝ) : EReal) := by
  have := Lib.rnd_half 2 (by norm_num)
  simpa using this

theorem eq_zero_of_neg {e : EReal} (h : e = -e) : e = 0 := by
  induction e using EReal.rec with
  | bot => simp at h
  | top => simp at h
  | coe r =>
    rw [← EReal.coe_neg, EReal.coe_eq_coe_iff] at h
    rw [show r = 0 by linarith, EReal.coe_zero]

/-- `x - x` and its quotient by a positive number are 0 -/
theorem std_zero (mu : ℝ) {sigma : ℝ} (h : 0 < sigma) : (fin mu - fin mu) / fin sigma = fin 0 := by
  rw [fin_sub_fin, sub_self, rnd_zero, ofE_zero, fin_div_fin, if_neg h.ne', zero_div, rnd_zero, ofE_zero]

/-- The location is the median of the computed distribution functions. -/
theorem C40_pnorm_median [OddLib] (mu : ℝ) {sigma : ℝ} (h : 0 < sigma) : pnorm (fin mu) (fin mu) (fin sigma) false = fin (1 / 2) := by
  have e0 : Lib.erf 0 = 0 := eq_zero_of_neg (by have := OddLib.erf_neg 0; rwa [neg_zero] at this)
  rw [pnorm, if_neg (by simp [norm_ok', norm_ok, h.le]), if_neg (by simp [h.ne']), log_if_false, std_zero mu h, pnorm_compute,
    SQRT2, fin_div_fin, if_neg Lib.sqrt2_pos.ne', zero_div, rnd_zero, ofE_zero, Fl.erf, e0, ofE_zero, one_eq, fin_add_fin,
    add_zero, rnd_one, ofE_coe, half_eq, fin_mul_fin, mul_one, rnd_two_inv, ofE_coe]

theorem C40_pcauchy_median [OddLib] (mu : ℝ) {sigma : ℝ} (h : 0 < sigma) :
    pcauchy (fin mu) (fin mu) (fin sigma) false = fin (1 / 2) := by
  have e0 : Lib.atan 0 = 0 := eq_zero_of_neg (by have := OddLib.atan_neg 0; rwa [neg_zero] at this)
  rw [pcauchy, if_neg (by simp [cauchy_ok', cauchy_ok, h.le]), if_neg (by simp), log_if_false, std_zero mu h, pcauchy_compute,
    atan, e0, ofE_zero, PI, fin_div_fin, if_neg Lib.pi_pos.ne', zero_div, rnd_zero, ofE_zero, half_eq, fin_add_fin, add_zero,
    rnd_two_inv, ofE_coe]

theorem C40_plaplace_median (mu : ℝ) {sigma : ℝ} (h : 0 < sigma) :
    plaplace (fin mu) (fin mu) (fin sigma) false = fin (1 / 2) := by
  have hs : sgn (fin 0) = fin 0 := by simp [sgn_fin]
  obtain ⟨y, hy⟩ : ∃ y : ℝ, 1 - exp (-Fl.abs (fin 0) / fin sigma) = fin y := by
    rw [abs_fin, abs_zero, neg_fin, neg_zero, fin_div_fin, if_neg h.ne', zero_div, rnd_zero, ofE_zero, exp]
    have h0 := Lib.exp_nonneg 0
    have h1 := Lib.exp_le_one 0 le_rfl
    generalize Lib.exp 0 = e at h0 h1
    induction e using EReal.rec with
    | bot => simp at h0
    | top => exact absurd h1 (by rw [← EReal.coe_one]; exact not_le.2 (EReal.coe_lt_top 1))
    | coe r =>
      have r0 : (0 : ℝ) ≤ r := by exact_mod_cast h0
      have r1 : r ≤ 1 := by exact_mod_cast h1
      rw [ofE_coe, one_eq, fin_sub_fin]
      have a : (0 : EReal) ≤ Lib.rnd (1 - r) := by rw [← rnd_zero]; exact Lib.rnd_mono (by linarith)
      have b : Lib.rnd (1 - r) ≤ ((1 : ℝ) : EReal) := by rw [← rnd_one]; exact Lib.rnd_mono (by linarith)
      generalize Lib.rnd (1 - r) = e at a b
      induction e using EReal.rec with
      | bot => simp at a
      | top => exact absurd b (not_le.2 (EReal.coe_lt_top 1))
      | coe r => exact ⟨r, ofE_coe r⟩
  rw [plaplace, if_neg (by simp [laplace_ok', laplace_ok, h.le]), if_neg (by simp [h.ne']), log_if_false, plaplace_compute,
    fin_sub_fin, sub_self, rnd_zero, ofE_zero, hy, hs, half_eq, fin_mul_fin, mul_zero, rnd_zero, ofE_zero, fin_mul_fin, zero_mul,
    rnd_zero, ofE_zero, fin_add_fin, add_zero, rnd_two_inv, ofE_coe]

/-- The median of the quantile functions is the location, if that is representable. -/
theorem C40_qcauchy_median [OddLib] {mu sigma : ℝ} (hm : Lib.rnd mu = mu) (h : 0 < sigma) :
    qcauchy (fin (1 / 2)) (fin mu) (fin sigma) = fin mu := by
  have e0 : Lib.tan 0 = 0 := eq_zero_of_neg (by have := OddLib.tan_neg 0; rwa [neg_zero] at this)
  rw [qcauchy, if_neg (by simp [cauchy_ok, h.le]), if_neg (by simp [prob_val_ok]; norm_num), if_neg (by simp),
    if_neg (by simp [h.ne']), if_neg (by simp), if_neg (by simp), qcauchy_compute, half_eq, fin_sub_fin, sub_self, rnd_zero,
    ofE_zero, PI, fin_mul_fin, mul_zero, rnd_zero, ofE_zero, tan, e0, ofE_zero, fin_mul_fin, mul_zero, rnd_zero, ofE_zero,
    fin_add_fin, add_zero, hm, ofE_coe]

theorem C40_qlaplace_median {mu sigma : ℝ} (hm : Lib.rnd mu = mu) (h : 0 < sigma) :
    qlaplace (fin (1 / 2)) (fin mu) (fin sigma) = fin mu := by
  have h0 : sgn (fin 0) = fin 0 := by simp [sgn_fin]
  have hl : log (fin 1) = fin 0 := by
    rw [log_fin, if_neg (by norm_num), if_neg one_ne_zero, Lib.log_one]; rfl
  rw [qlaplace, if_neg (by simp [laplace_ok, h.le]), if_neg (by simp [prob_val_ok]; norm_num), if_neg (by simp),
    if_neg (by simp [h.ne']), if_neg (by simp), if_neg (by simp), qlaplace_compute, half_eq, fin_sub_fin, sub_self, rnd_zero,
    ofE_zero, h0, fin_mul_fin, mul_zero, rnd_zero, ofE_zero, abs_fin, abs_zero, ofNat_eq 2, fin_mul_fin, mul_zero, rnd_zero,
    ofE_zero, one_eq, fin_sub_fin, sub_zero, rnd_one, ofE_coe, hl, fin_mul_fin, mul_zero, rnd_zero, ofE_zero, fin_sub_fin,
    sub_zero, hm, ofE_coe]

end

/-! ### binary64 -/

namespace C40Double
open Double PoisDouble DoubleArith
set_option warn.classDefReducibility false in
attribute [local instance] doubleLib
local instance : OddLib := doubleLib_odd

theorem q_two_mul {a : ℝ} (h : 0 < a) : q (2 * a) ≤ q a + 1 := by
  have h1 : Int.log 2 (2 * a) ≤ Int.log 2 a + 1 := by
    have := (Int.lt_zpow_iff_log_lt (b := 2) (by norm_num) (by positivity : 0 < 2 * a) (x := Int.log 2 a + 2)).1 (by
      have := Int.lt_zpow_succ_log_self (b := 2) (by norm_num) a
      rw [show Int.log 2 a + 2 = (Int.log 2 a + 1) + 1 by ring, zpow_add_one₀ (by norm_num)]
      push_cast at this ⊢
      linarith)
    omega
  rw [q, q]; omega

/-- doubling is exact -/
theorem R_dbl {a : ℝ} (h : R a = (a : EReal)) (h0 : 0 ≤ a) (h1 : a ≤ 1) : R (2 * a) = ((2 * a : ℝ) : EReal) := by
  rcases h0.eq_or_lt with rfl | hp
  · simpa using h
  obtain ⟨e, -⟩ := R_coe h0 h
  obtain ⟨n, -, -, hm, -⟩ := mag_form hp
  refine R_of_mul (by positivity) (k := n) (j := q a + 1) ?_ (q_two_mul hp) (lt_big (by norm_num; linarith))
  rw [zpow_add_one₀ (by norm_num)]
  rw [e] at hm
  nlinarith

/-- Binary64: the normal quantiles of `p` and `1 - p`, both doubles. -/
theorem C40_qnorm_double {p : ℝ} (hp : R p = (p : EReal)) (hp' : R (1 - p) = ((1 - p : ℝ) : EReal)) (h0 : 0 ≤ p) (h1 : p ≤ 1)
    (mu sigma : Fl) : qnorm (fin (1 - p)) (-mu) sigma = -qnorm (fin p) mu sigma :=
  C40_qnorm_reflect (R_dbl hp h0 h1) (R_dbl hp' (by linarith) (by linarith)) mu sigma

example (x : ℝ) : dcauchy (fin (-x)) (fin (-(1 / 3))) (fin (1 / 10)) true = dcauchy (fin x) (fin (1 / 3)) (fin (1 / 10)) true := by
  simpa using C40_dcauchy_reflect (fin x) (fin (1 / 3)) (fin (1 / 10)) true

example : pt (fin 3) (fin 7) false = 1 - pt (fin (-3)) (fin 7) false :=
  C40_pt_reflect_partial (by norm_num) (by have := Lib.eps_le; norm_num at this ⊢; linarith) (by norm_num) (by norm_num)

example : pnorm (fin (1 / 3)) (fin (1 / 3)) (fin (1 / 10)) false = fin (1 / 2) := C40_pnorm_median _ (by norm_num)

example : qcauchy (fin (1 / 2)) (fin 3) (fin (1 / 10)) = fin 3 :=
  C40_qcauchy_median (R_odd 3 0 (by norm_num) (by norm_num) (by norm_num) (by norm_num) (by norm_num)) (by norm_num)

example (mu sigma : Fl) : qnorm (fin (3 / 4)) (-mu) sigma = -qnorm (fin (1 / 4)) mu sigma := by
  have := C40_qnorm_double (p := 1 / 4) (R_odd 1 (-2) (by norm_num) (by norm_num) (by norm_num) (by norm_num) (by norm_num))
    (R_odd 3 (-2) (by norm_num) (by norm_num) (by norm_num) (by norm_num) (by norm_num)) (by norm_num) (by norm_num) mu sigma
  norm_num at this
  exact this

/-- Binary64: the log form of the logistic density at `-800` is minus infinity, since `exp(800)` overflows, while at `800` it is
right. -/
theorem C40_dlogis_reflect_violated : dlogis (fin (-800)) 0 1 true = ninf ∧ dlogis (fin 800) 0 1 true = fin (-800) := by
  have e800 : R 800 = ((800 : ℝ) : EReal) := by have := doubleRounding.half 1600 (by norm_num); norm_num at this; exact this
  have n800 : R (-800) = ((-800 : ℝ) : EReal) := by rw [R_neg, e800]; rfl
  have R0 : R 0 = ((0 : ℝ) : EReal) := by rw [EReal.coe_zero]; exact doubleRounding.zero
  have z1 : (fin (-800) - fin 0) / fin 1 = fin (-800) := by
    rw [dsub, sub_zero, n800, ofE_coe, fin_div_fin, if_neg one_ne_zero, div_one]
    show ofE (R (-800)) = _
    rw [n800, ofE_coe]
  have z2 : (fin 800 - fin 0) / fin 1 = fin 800 := by
    rw [dsub, sub_zero, e800, ofE_coe, fin_div_fin, if_neg one_ne_zero, div_one]
    show ofE (R 800) = _
    rw [e800, ofE_coe]
  have hl : log (fin 1) = fin 0 := by
    rw [log_fin, if_neg (by norm_num), if_neg one_ne_zero, Lib.log_one]; rfl
  have two : (2 : ℝ) ≤ Real.exp 1 := by linarith [Real.add_one_le_exp (1 : ℝ)]
  constructor
  · have hb : exp (fin 800) = pinf := by
      show ofE (R (Real.exp 800)) = _
      rw [Double.R_big]
      · rfl
      · calc (2 : ℝ) ^ 1024 = ((2 : ℝ) ^ 64) ^ 16 := by rw [← pow_mul]
          _ ≤ (Real.exp 50) ^ 16 := by
            gcongr
            calc (2 : ℝ) ^ 64 ≤ (27 / 10) ^ 50 := by norm_num
              _ ≤ (Real.exp 1) ^ 50 := pow_le_pow_left₀ (by norm_num) (by linarith [Real.exp_one_gt_d9]) 50
              _ = Real.exp 50 := by rw [← Real.exp_nat_mul]; norm_num
          _ = Real.exp 800 := by rw [← Real.exp_nat_mul]; norm_num
    rw [dlogis, if_neg (by simp [logis_ok', logis_ok]), if_neg (by simp), zero_eq, one_eq, z1, dlogis_log_compute, hl, neg_fin,
      neg_neg, hb, one_eq, fin_add_pinf, log, ofNat_eq, fin_mul_pinf, if_neg (by norm_num), if_pos (by norm_num), dsub, sub_zero,
      e800, ofE_coe]
    rfl
  · have hb : 1 + exp (fin (-800)) = fin 1 := by
      have e1 : R 1 = ((1 : ℝ) : EReal) := by simpa using R_two_pow 0 (by norm_num)
      have small : Real.exp (-800) ≤ 1 / 2 ^ 60 := by
        rw [Real.exp_neg, ← one_div]
        apply one_div_le_one_div_of_le (by positivity)
        calc (2 : ℝ) ^ 60 ≤ Real.exp 1 ^ 60 := pow_le_pow_left₀ (by norm_num) two 60
          _ = Real.exp 60 := by rw [← Real.exp_nat_mul]; norm_num
          _ ≤ Real.exp 800 := Real.exp_le_exp.2 (by norm_num)
      obtain ⟨y, y0, y1, ey⟩ := R_fin (Real.exp_pos (-800)).le (R_pow 60 (by norm_num)) small
      have e : exp (fin (-800)) = fin y := by
        show ofE (R (Real.exp (-800))) = _
        rw [ey, ofE_coe]
      have near : R (1 + 1 / 2 ^ 60) = ((1 : ℝ) : EReal) := by
        have := R_near (x := 1 + 1 / 2 ^ 60) 0 (2 ^ 52) (by norm_num) (by norm_num) (by norm_num) (by norm_num) (by norm_num)
        rw [this]; norm_num
      have : R (1 + y) = ((1 : ℝ) : EReal) := le_antisymm (near ▸ R_mono (by linarith)) (e1 ▸ R_mono (by linarith))
      rw [e, one_eq, dadd, this, ofE_coe]
    rw [dlogis, if_neg (by simp [logis_ok', logis_ok]), if_neg (by simp), zero_eq, one_eq, z2, dlogis_log_compute, hl, neg_fin,
      hb, hl, ofNat_eq, dmul, mul_zero, R0, ofE_coe, dsub, sub_zero, n800, ofE_coe, dsub, sub_zero, n800, ofE_coe]
    rfl

end C40Double
end Stats
