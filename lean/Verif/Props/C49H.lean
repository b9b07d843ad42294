import Verif.Props.C49E
import Verif.Props.C18
import Verif.Lemmas.RoundInst
import Mathlib.Analysis.Complex.ExponentialBounds

/-!
# C49: quantiles that subtract the probability from a constant

`qnorm`, `qlnorm`, `qcauchy`, `qlaplace`, `qinvgamma` and `qt` with one degree of freedom form `2 p - 1`, `p - 1/2` or
`1 - p`. Close to the ends of the unit interval this loses the probability, and no bound on the error of the quantile
is possible (`C49_*_double_violated`). What holds is that the value is accurate for a probability within a few units of
rounding of the given one (`QuantAcc`), as long as that leaves it inside the unit interval. `qt` with two degrees of
freedom is accurate outright. `qbinom` and `qpois` return the quantile of a probability that close.
-/

set_option linter.unusedSectionVars false
open Classical Finset
namespace Stats
open Fl Spec
variable [Lib] {u : ℝ} [R : RelLib u]

theorem RelF.tan {k x : ℝ} {f : Fl} (h : RelF u k x f) (hx : ∀ y, Rel u k x y → |y| < Real.pi / 2) :
    ∃ y, Rel u k x y ∧ RelF u 1 (Real.tan y) (Fl.tan f) := by
  obtain ⟨hk, y, rfl, h⟩ := h
  obtain ⟨w, ew, hw⟩ := R.tan y (hx y h)
  exact ⟨y, h, zero_le_one, w, by rw [Fl.tan, ew, ofE_coe], hw⟩

theorem Spec.Rel.err {k x y : ℝ} (hu : u < 1) (h : Rel u k x y) : |y - x| ≤ gam u k * |x| := h.off hu

include R in
theorem two_mul_fin {x : ℝ} (h : Lib.rnd x = x) : 2 * fin x = fin (2 * x) := by
  have h2 : (2 : Fl) = fin 2 := by show fin ((2 : ℕ) : ℝ) = _; norm_num
  rw [h2]
  show ofE (Lib.rnd (2 * x)) = _
  rw [R.rnd_double x h, ofE_coe]

/-! ### normal and log-normal -/

theorem qnorm_offF (mu : ℝ) {sigma p : ℝ} (h : 0 < sigma) (hp : Lib.rnd p = p) (h0 : gam u 1 * |p - 1 / 2| < p)
    (h1 : gam u 1 * |p - 1 / 2| < 1 - p) :
    ∃ p' q, |p' - p| ≤ gam u 1 * |p - 1 / 2| ∧ Phi ((q - mu) / sigma) = p' ∧
      OffF u 5 (|mu| + |q - mu|) q (qnorm (fin p) (fin mu) (fin sigma)) := by
  have g := gam_nonneg R.u_nonneg R.u_lt (zero_le_one : (0 : ℝ) ≤ 1)
  have hpos : 0 < p := lt_of_le_of_lt (by positivity) h0
  have hlt : p < 1 := by
    have : 0 ≤ gam u 1 * |p - 1 / 2| := by positivity
    linarith
  obtain ⟨-, y, ey, hy⟩ := relF_sub_one (u := u) (2 * p)
  have hd : |y - (2 * p - 1)| ≤ 2 * (gam u 1 * |p - 1 / 2|) := by
    refine (hy.err R.u_lt).trans (le_of_eq ?_)
    rw [show 2 * p - 1 = 2 * (p - 1 / 2) by ring, abs_mul, abs_two]; ring
  obtain ⟨d1, d2⟩ := abs_le.1 hd
  have y0 : -1 < y := by linarith
  have y1 : y < 1 := by linarith
  obtain ⟨z, w, hz, ew, hw⟩ := R.erfInv y y0 y1
  refine ⟨(1 + y) / 2, mu + √2 * sigma * z, ?_, ?_, ?_⟩
  · rw [show (1 + y) / 2 - p = (y - (2 * p - 1)) / 2 by ring, abs_div, abs_two]
    linarith
  · rw [Phi, show (mu + √2 * sigma * z - mu) / sigma / √2 = z by field_simp; ring, hz]
    ring
  · have e1 : Fl.erfInv (2 * fin p - 1) = fin w := by
      rw [two_mul_fin hp, ey, Fl.erfInv, if_neg (by rw [not_or, not_lt, not_lt]; exact ⟨y0.le, y1.le⟩), if_neg y0.ne', if_neg y1.ne,
        ew, ofE_coe]
    have r : RelF u 1 z (fin w) := ⟨zero_le_one, w, rfl, hw⟩
    have c := (RelF.lift (u := u) mu).off.add (((relF_sqrt2 (u := u)).mul (RelF.lift sigma)).mul r).off
    have hv : qnorm (fin p) (fin mu) (fin sigma) = fin mu + SQRT2 * fin sigma * fin w := by
      have n1 : ¬ sigma < 0 := by linarith
      have n2 : ¬ p < 0 := by linarith
      have n3 : ¬ 1 < p := by linarith
      rw [← e1]
      simp [qnorm, qnorm_compute, norm_ok, prob_val_ok, n1, n2, n3, hpos.ne', hlt.ne, h.ne']
    rw [hv]
    refine c.mono (by norm_num) ?_
    rw [add_sub_cancel_left]

/-- `p` is a representable number that is not within rounding of 0 or 1 -/
theorem C49_qnorm (mu : ℝ) {sigma p : ℝ} (h : 0 < sigma) (hp : Lib.rnd p = p) (h0 : gam u 1 * |p - 1 / 2| < p)
    (h1 : gam u 1 * |p - 1 / 2| < 1 - p) :
    QuantAcc u 5 (fun q => |mu| + |q - mu|) (qnorm (fin p) (fin mu) (fin sigma)) (normPdf mu sigma) p
      (gam u 1 * |p - 1 / 2|) := by
  obtain ⟨p', q, a, b, c⟩ := qnorm_offF mu h hp h0 h1
  exact ⟨p', q, a, by rw [(isCdf_norm mu h).running, b], c.absAcc⟩

/-- the relative error of `qlnorm` is the absolute error of `qnorm` -/
theorem C49_qlnorm (mu : ℝ) {sigma p : ℝ} (h : 0 < sigma) (hp : Lib.rnd p = p) (h0 : gam u 1 * |p - 1 / 2| < p)
    (h1 : gam u 1 * |p - 1 / 2| < 1 - p) :
    ∃ p' q, |p' - p| ≤ gam u 1 * |p - 1 / 2| ∧ 0 < q ∧ (∫ t in Set.Iic q, lnormPdf mu sigma t) = p' ∧
      ∃ y, qlnorm (fin p) (fin mu) (fin sigma) = fin y ∧
        q * Real.exp (-(gam u 5 * (|mu| + |Real.log q - mu|))) * (1 - u) ≤ y ∧
        y ≤ q * Real.exp (gam u 5 * (|mu| + |Real.log q - mu|)) / (1 - u) := by
  obtain ⟨p', q, a, b, c⟩ := qnorm_offF (u := u) mu h hp h0 h1
  have g := gam_nonneg R.u_nonneg R.u_lt (zero_le_one : (0 : ℝ) ≤ 1)
  have hpos : 0 < p := lt_of_le_of_lt (by positivity) h0
  have hlt : p < 1 := by
    have : 0 ≤ gam u 1 * |p - 1 / 2| := by positivity
    linarith
  refine ⟨p', Real.exp q, a, Real.exp_pos q, ?_, ?_⟩
  · rw [(isCdf_lnorm mu h).running, if_pos (Real.exp_pos q), Real.log_exp, b]
  · obtain ⟨y, ey, l, r⟩ := c.exp
    refine ⟨y, ?_, by rwa [Real.log_exp], by rwa [Real.log_exp]⟩
    rw [← ey]
    have n1 : ¬ sigma < 0 := by linarith
    have n2 : ¬ p < 0 := by linarith
    have n3 : ¬ 1 < p := by linarith
    simp [qlnorm, qlnorm_compute, lnorm_ok, norm_ok, prob_val_ok, n1, n2, n3]

/-! ### Cauchy -/

theorem tan_offF {p : ℝ} (h0 : gam u 3 * |p - 1 / 2| < p) (h1 : gam u 3 * |p - 1 / 2| < 1 - p) :
    ∃ p', |p' - p| ≤ gam u 3 * |p - 1 / 2| ∧ 0 < p' ∧ p' < 1 ∧
      RelF u 1 (Real.tan (Real.pi * (p' - 1 / 2))) (Fl.tan (PI * (fin p - half))) := by
  have hb : 0 < 1 - u := by linarith [R.u_lt]
  have hpi := Real.pi_pos
  have c := ((relF_pi (u := u)).mul (relF_sub p (1 / 2))).mono (l := 3) (by norm_num)
  have key : ∀ y, Rel u 3 (Real.pi * (p - 1 / 2)) y → ∃ p', y = Real.pi * (p' - 1 / 2) ∧ |p' - p| ≤ gam u 3 * |p - 1 / 2| := by
    intro y hy
    refine ⟨1 / 2 + y / Real.pi, by field_simp; ring, ?_⟩
    have := hy.err R.u_lt
    rw [show 1 / 2 + y / Real.pi - p = (y - Real.pi * (p - 1 / 2)) / Real.pi by field_simp; ring, abs_div, abs_of_pos hpi,
      div_le_iff₀ hpi]
    refine this.trans (le_of_eq ?_)
    rw [abs_mul, abs_of_pos hpi]; ring
  have key2 : ∀ p', |p' - p| ≤ gam u 3 * |p - 1 / 2| → 0 < p' ∧ p' < 1 := fun p' h => by
    obtain ⟨a, b⟩ := abs_le.1 h
    exact ⟨by linarith, by linarith⟩
  obtain ⟨y, hy, hr⟩ := c.tan fun y hy => by
    obtain ⟨p', rfl, hp'⟩ := key y hy
    obtain ⟨a, b⟩ := key2 p' hp'
    rw [abs_mul, abs_of_pos hpi]
    have : |p' - 1 / 2| < 1 / 2 := abs_lt.2 ⟨by linarith, by linarith⟩
    nlinarith
  obtain ⟨p', rfl, hp'⟩ := key y hy
  exact ⟨p', hp', (key2 p' hp').1, (key2 p' hp').2, hr⟩

theorem arctan_tan_half {p : ℝ} (h0 : 0 < p) (h1 : p < 1) :
    1 / 2 + Real.arctan (Real.tan (Real.pi * (p - 1 / 2))) / Real.pi = p := by
  have hpi := Real.pi_pos
  rw [Real.arctan_tan (by nlinarith) (by nlinarith)]
  field_simp
  ring

theorem C49_qcauchy (mu : ℝ) {sigma p : ℝ} (h : 0 < sigma) (h0 : gam u 3 * |p - 1 / 2| < p)
    (h1 : gam u 3 * |p - 1 / 2| < 1 - p) :
    QuantAcc u 3 (fun q => |mu| + |q - mu|) (qcauchy (fin p) (fin mu) (fin sigma)) (cauchyPdf mu sigma) p
      (gam u 3 * |p - 1 / 2|) := by
  have g := gam_nonneg R.u_nonneg R.u_lt (by norm_num : (0 : ℝ) ≤ 3)
  have hpos : 0 < p := lt_of_le_of_lt (by positivity) h0
  have hlt : p < 1 := by
    have : 0 ≤ gam u 3 * |p - 1 / 2| := by positivity
    linarith
  obtain ⟨p', a, b0, b1, r⟩ := tan_offF (u := u) h0 h1
  refine ⟨p', mu + sigma * Real.tan (Real.pi * (p' - 1 / 2)), a, ?_, ?_⟩
  · rw [(isCdf_cauchy mu h).running, add_sub_cancel_left, mul_div_cancel_left₀ _ h.ne', arctan_tan_half b0 b1]
  · have c := (RelF.lift (u := u) mu).off.add ((RelF.lift (u := u) sigma).mul r).off
    have hv : qcauchy (fin p) (fin mu) (fin sigma) = fin mu + fin sigma * Fl.tan (PI * (fin p - half)) := by
      have n1 : ¬ sigma < 0 := by linarith
      have n2 : ¬ p < 0 := by linarith
      have n3 : ¬ 1 < p := by linarith
      simp [qcauchy, qcauchy_compute, cauchy_ok, prob_val_ok, n1, n2, n3, hpos.ne', hlt.ne, h.ne']
    rw [hv]
    refine (c.mono (by norm_num) ?_).absAcc
    show |mu| + |sigma * _| ≤ |mu| + |mu + sigma * _ - mu|
    rw [add_sub_cancel_left]

/-! ### Student-t with one and two degrees of freedom -/

theorem C49_qt_one {p : ℝ} (h0 : gam u 3 * |p - 1 / 2| < p) (h1 : gam u 3 * |p - 1 / 2| < 1 - p) :
    QuantAcc u 1 (fun q => |q|) (qt (fin p) (fin 1)) (tPdf 1) p (gam u 3 * |p - 1 / 2|) := by
  have g := gam_nonneg R.u_nonneg R.u_lt (by norm_num : (0 : ℝ) ≤ 3)
  have hpos : 0 < p := lt_of_le_of_lt (by positivity) h0
  have hlt : p < 1 := by
    have : 0 ≤ gam u 3 * |p - 1 / 2| := by positivity
    linarith
  obtain ⟨p', a, b0, b1, r⟩ := tan_offF (u := u) h0 h1
  refine ⟨p', Real.tan (Real.pi * (p' - 1 / 2)), a, ?_, ?_⟩
  · rw [isCdf_t_one.running, arctan_tan_half b0 b1]
  · have hv : qt (fin p) (fin 1) = Fl.tan (PI * (fin p - half)) := by
      have n2 : ¬ p < 0 := by linarith
      have n3 : ¬ 1 < p := by linarith
      have n4 : ¬ (1 : ℝ) < Lib.eps := not_lt.2 (Lib.eps_le.trans (by norm_num))
      simp [qt, t_ok, eps, prob_val_ok, n2, n3, n4, hpos.ne', hlt.ne]
    rw [hv]
    exact r.off.absAcc

/-- closed form, accurate for every representable probability -/
theorem C49_qt_two {p : ℝ} (hp : Lib.rnd p = p) (h0 : 0 < p) (h1 : p < 1) :
    ∃ q, (∫ t in Set.Iic q, tPdf 2 t) = p ∧ RelAcc u 5 (qt (fin p) (fin 2)) q := by
  have hq : 0 < 2 * p * (1 - p) := by have : 0 < 1 - p := by linarith
                                      positivity
  refine ⟨(2 * p - 1) / √(2 * p * (1 - p)), ?_, ?_⟩
  · rw [isCdf_t_two.running]
    have e : (2 * p - 1) / √(2 * p * (1 - p)) * ((2 * p - 1) / √(2 * p * (1 - p))) + 2 = (1 / √(2 * p * (1 - p))) ^ 2 := by
      rw [div_pow, ← mul_div_mul_comm, Real.mul_self_sqrt hq.le, Real.sq_sqrt hq.le]
      have : 1 - p ≠ 0 := by linarith
      field_simp
      ring
    rw [e, Real.sqrt_sq (by positivity)]
    field_simp
    ring
  · have c := (relF_sub_one (u := u) (2 * p)).div (((RelF.lift (u := u) (2 * p)).mul (relF_one_sub p)).sqrt hq.le) (by positivity)
    have hv : qt (fin p) (fin 2) = (fin (2 * p) - 1) / Fl.sqrt (fin (2 * p) * (1 - fin p)) := by
      have n2 : ¬ p < 0 := by linarith
      have n3 : ¬ 1 < p := by linarith
      have n4 : ¬ (2 : ℝ) < Lib.eps := not_lt.2 (Lib.eps_le.trans (by norm_num))
      rw [← two_mul_fin hp]
      simp [qt, t_ok, eps, prob_val_ok, n2, n3, n4, h0.ne', h1.ne]
    rw [hv]
    exact (c.mono (by norm_num)).relAcc

/-! ### Laplace -/

theorem laplace_quantile (mu : ℝ) {sigma p : ℝ} (h : 0 < sigma) (h0 : 0 < p) (h1 : p < 1) :
    ∃ s : ℝ, (∀ t, 0 < t → sgn (fin ((p - 1 / 2) * t)) = fin s) ∧ |s| ≤ 1 ∧
      (∫ x in Set.Iic (mu - sigma * s * Real.log (1 - 2 * |p - 1 / 2|)), laplacePdf mu sigma x) = p := by
  have hi : 0 < 1 - 2 * |p - 1 / 2| := by
    have : |p - 1 / 2| < 1 / 2 := abs_lt.2 ⟨by linarith, by linarith⟩
    linarith
  have hi1 : 1 - 2 * |p - 1 / 2| ≤ 1 := by have := abs_nonneg (p - 1 / 2); linarith
  have hl := Real.log_nonpos hi.le hi1
  rcases lt_trichotomy p (1 / 2) with hp | rfl | hp
  · refine ⟨-1, fun t ht => by rw [sgn, if_neg (by nlinarith), if_pos (by nlinarith)], by norm_num, ?_⟩
    have hn : 1 - 2 * |p - 1 / 2| = 2 * p := by rw [abs_of_neg (by linarith)]; ring
    have hlt : Real.log (2 * p) < 0 := Real.log_neg (by linarith) (by linarith)
    rw [(isCdf_laplace mu h).running, laplaceCdf, hn, if_pos (by nlinarith),
      show (mu - sigma * -1 * Real.log (2 * p) - mu) / sigma = Real.log (2 * p) by field_simp; ring,
      Real.exp_log (by linarith)]
    ring
  · refine ⟨0, fun t ht => by rw [sub_self, zero_mul, sgn, if_neg (by norm_num), if_neg (by norm_num)], by norm_num, ?_⟩
    rw [(isCdf_laplace mu h).running, laplaceCdf, if_neg (by simp)]
    norm_num
  · refine ⟨1, fun t ht => by rw [sgn, if_pos (by nlinarith)], by norm_num, ?_⟩
    have hn : 1 - 2 * |p - 1 / 2| = 2 * (1 - p) := by rw [abs_of_pos (by linarith)]; ring
    rw [hn] at hl
    rw [(isCdf_laplace mu h).running, laplaceCdf, hn, if_neg (by nlinarith),
      show -((mu - sigma * 1 * Real.log (2 * (1 - p)) - mu) / sigma) = Real.log (2 * (1 - p)) by field_simp; ring,
      Real.exp_log (by linarith)]
    ring

/-- every probability that is not within rounding of 0 or 1 -/
theorem C49_qlaplace (mu : ℝ) {sigma p : ℝ} (h : 0 < sigma) (h0 : gam u 2 * |p - 1 / 2| < p)
    (h1 : gam u 2 * |p - 1 / 2| < 1 - p) :
    ∃ p' q, |p' - p| ≤ gam u 2 * |p - 1 / 2| ∧ (∫ t in Set.Iic q, laplacePdf mu sigma t) = p' ∧
      AbsAcc u 6 (|mu| + sigma * (|Real.log (1 - 2 * |p' - 1 / 2|)| + 1)) (qlaplace (fin p) (fin mu) (fin sigma)) q := by
  have g := gam_nonneg R.u_nonneg R.u_lt (by norm_num : (0 : ℝ) ≤ 2)
  have hb : 0 < 1 - u := by linarith [R.u_lt]
  have hpos : 0 < p := lt_of_le_of_lt (by positivity) h0
  have hlt : p < 1 := by
    have : 0 ≤ gam u 2 * |p - 1 / 2| := by positivity
    linarith
  obtain ⟨-, v, ev, hv⟩ := relF_sub (u := u) p (1 / 2)
  obtain ⟨-, w, ew, hw⟩ := (relF_two (u := u)).mul (RelF.lift (u := u) |v|)
  obtain ⟨t, t1, t2, rfl⟩ := id hv
  obtain ⟨r, r1, r2, ewr⟩ := id hw
  have tpos : 0 < t := (Real.rpow_pos_of_pos hb _).trans_le t1
  have rpos : 0 < r := (Real.rpow_pos_of_pos hb _).trans_le r1
  have hrel : Rel u 2 (p - 1 / 2) ((p - 1 / 2) * (t * r)) := by
    have := hv.trans R.u_lt (k := 1) (l := 1) (z := (p - 1 / 2) * (t * r)) ⟨r, by simpa using r1, by simpa using r2, by ring⟩
    norm_num at this
    exact this
  have hd := hrel.err R.u_lt
  set p' := 1 / 2 + (p - 1 / 2) * (t * r) with hp'
  have e1 : p' - 1 / 2 = (p - 1 / 2) * (t * r) := by rw [hp']; ring
  have e2 : |p' - p| ≤ gam u 2 * |p - 1 / 2| := by
    rw [show p' - p = (p - 1 / 2) * (t * r) - (p - 1 / 2) by rw [hp']; ring]; exact hd
  obtain ⟨d1, d2⟩ := abs_le.1 e2
  have b0 : 0 < p' := by linarith
  have b1 : p' < 1 := by linarith
  have e3 : w = 2 * |p' - 1 / 2| := by
    rw [ewr, e1, ← mul_assoc, abs_mul _ r, abs_of_pos rpos]; ring
  have hi : 0 < 1 - 2 * |p' - 1 / 2| := by
    have : |p' - 1 / 2| < 1 / 2 := abs_lt.2 ⟨by linarith, by linarith⟩
    linarith
  obtain ⟨s, hs, ms, ec⟩ := laplace_quantile mu h b0 b1
  refine ⟨p', _, e2, ec, ?_⟩
  have rs := RelF.lift (u := u) s
  have c := (RelF.lift (u := u) mu).off.sub (((RelF.lift (u := u) sigma).mul rs).off.mul
    ((relF_one_sub (u := u) (2 * |p' - 1 / 2|)).log hi))
  have es : sgn (fin ((p - 1 / 2) * t)) = fin s := by
    rw [← hs r⁻¹ (inv_pos.2 rpos), e1, mul_assoc, mul_assoc, mul_inv_cancel₀ rpos.ne', mul_one]
  have hq : qlaplace (fin p) (fin mu) (fin sigma) = qlaplace_compute (fin p) (fin mu) (fin sigma) := by
    have n1 : ¬ sigma < 0 := by linarith
    have n2 : ¬ p < 0 := by linarith
    have n3 : ¬ 1 < p := by linarith
    simp [qlaplace, laplace_ok, prob_val_ok, n1, n2, n3, hpos.ne', hlt.ne, h.ne']
  rw [hq, qlaplace_compute, show fin p - half = fin p - fin (1 / 2) from rfl, ev, es,
    show abs (fin ((p - 1 / 2) * t)) = fin |(p - 1 / 2) * t| from rfl, ew, e3]
  refine (c.mono (by norm_num) ?_).absAcc
  rw [abs_mul, abs_of_pos h]
  have hm := abs_nonneg (Real.log (1 - 2 * |p' - 1 / 2|))
  have : sigma * |s| ≤ sigma := by nlinarith
  nlinarith

/-! ### inverse gamma -/

theorem C49_qinvgamma {shape rate p : ℝ} (hk : 0 < shape) (hr : 0 < rate) (h0 : gam u 1 * (1 - p) < p) (h1 : p < 1) :
    QuantAcc u 2 (fun q => |q|) (qinvgamma (fin p) (fin shape) (fin rate)) (invgammaPdf shape rate) p
      (gam u 1 * (1 - p)) := by
  have g := gam_nonneg R.u_nonneg R.u_lt (zero_le_one : (0 : ℝ) ≤ 1)
  have hp : 0 < 1 - p := by linarith
  have hpos : 0 < p := lt_of_le_of_lt (by positivity) h0
  obtain ⟨-, v, ev, hv⟩ := relF_one_sub (u := u) p
  have v0 := hv.pos R.u_lt hp
  have hd := hv.err R.u_lt
  rw [abs_of_pos hp] at hd
  obtain ⟨d1, d2⟩ := abs_le.1 hd
  obtain ⟨z, y, hz, hzp, ey, hy⟩ := R.igammaInv shape v hk v0 (by linarith)
  refine ⟨1 - v, rate / z, ?_, ?_, ?_⟩
  · rw [show 1 - v - p = -(v - (1 - p)) by ring, abs_neg]; exact hd
  · rw [(isCdf_invgamma hk hr).running, if_pos (by positivity), div_div_cancel₀ hr.ne', hzp]
  · have r : RelF u 1 z (fin y) := ⟨zero_le_one, y, rfl, hy⟩
    have hv' : qinvgamma (fin p) (fin shape) (fin rate) = fin rate / fin y := by
      have n1 : ¬ shape < 0 := by linarith
      have n2 : ¬ rate < 0 := by linarith
      have n3 : ¬ p < 0 := by linarith
      have n4 : ¬ 1 < p := by linarith
      have n5 : ¬ v < 0 := by linarith
      have n6 : ¬ 1 < v := by linarith
      have n7 : v ≠ 1 := by linarith
      have : qinvgamma (fin p) (fin shape) (fin rate) = qinvgamma_compute (fin p) (fin shape) (fin rate) := by
        simp [qinvgamma, invgamma_ok, prob_val_ok, n1, n2, n3, n4, hpos.ne', h1.ne, hk.ne', hr.ne']
      rw [this, qinvgamma_compute, ev]
      simp [igammaInv, n1, n5, n6, n7, ey]
    rw [hv']
    exact (((RelF.lift (u := u) rate).div r hz.ne').mono (by norm_num)).off.absAcc

/-! ### binomial and Poisson -/

/-- `qbinom` returns the smallest count whose distribution function, up to the error of `C49_pbinom`, reaches the
probability. -/
theorem C49_qbinom {p π : ℝ} (h0 : 0 < p) (h1 : p < 1) (hπ0 : 0 < π) (hπ1 : π < 1) {n : ℕ} (hn : 2 ≤ n) :
    ∃ k : ℕ, k ≤ n ∧ qbinom (fin p) n (fin π) = some (ofInt k) ∧
      (∀ j : ℕ, j < k → (∑ i ∈ range (j + 1), binomPmf n π i) *
        Real.exp (-(gam u 6 * (n * (Real.log 2 + Max.max |Real.log π| |Real.log (1 - π)| + 1) + 1))) * (1 - u) ^ n < p) ∧
      p ≤ (∑ i ∈ range (k + 1), binomPmf n π i) *
        Real.exp (gam u 6 * (n * (Real.log 2 + Max.max |Real.log π| |Real.log (1 - π)| + 1) + 1)) / (1 - u) ^ n := by
  have hb : 0 < 1 - u := by linarith [R.u_lt]
  have hb1 : 1 - u ≤ 1 := by linarith [R.u_nonneg]
  have g := gam_nonneg R.u_nonneg R.u_lt (by norm_num : (0 : ℝ) ≤ 6)
  have hpos : ∀ j, 0 ≤ binomPmf n π j := fun j => binomPmf_nonneg hπ0.le hπ1.le j
  obtain ⟨k, k0, k1, e, -, hlt, hge⟩ := C20_qbinom (n := n) (by positivity) hπ0.le hπ1.le h0 h1
  obtain ⟨k, rfl⟩ := Int.eq_ofNat_of_zero_le k0
  have k1 : k ≤ n := by exact_mod_cast k1
  refine ⟨k, k1, e, fun j hj => ?_, ?_⟩
  · obtain ⟨y, ey, l, -⟩ := C49_pbinom (u := u) hπ0 hπ1 hn (show j < n by omega)
    have hy := hlt j (by positivity) (by exact_mod_cast hj)
    rw [ey] at hy
    have hy : y < p := hy
    refine lt_of_le_of_lt (le_trans ?_ l) hy
    have : (1 - u) ^ n ≤ (1 - u) ^ (j + 1) := pow_le_pow_of_le_one hb.le hb1 (by omega)
    have hS : 0 ≤ ∑ i ∈ range (j + 1), binomPmf n π i := sum_nonneg fun i _ => hpos i
    gcongr
  · rcases k1.lt_or_eq with hk | rfl
    · obtain ⟨y, ey, -, r⟩ := C49_pbinom (u := u) hπ0 hπ1 hn hk
      rw [ey] at hge
      have hy : p ≤ y := not_lt.1 hge
      refine hy.trans (r.trans ?_)
      have : (1 - u) ^ n ≤ (1 - u) ^ (k + 1) := pow_le_pow_of_le_one hb.le hb1 (by omega)
      have hS : 0 ≤ ∑ i ∈ range (k + 1), binomPmf n π i := sum_nonneg fun i _ => hpos i
      gcongr
    · have hS : ∑ i ∈ range (k + 1), binomPmf k π i = 1 := by
        rw [← cumZ_nat, cumZ_binom le_rfl]
      rw [hS, one_mul]
      have : 1 ≤ Real.exp (gam u 6 * (k * (Real.log 2 + Max.max |Real.log π| |Real.log (1 - π)| + 1) + 1)) := by
        rw [Real.one_le_exp_iff]
        have := Real.log_nonneg (one_le_two : (1 : ℝ) ≤ 2)
        positivity
      rw [le_div_iff₀ (by positivity)]
      have : (1 - u) ^ k ≤ 1 := pow_le_one₀ hb.le hb1
      nlinarith

/-- the distribution function of `ppois`, for rates below 11, is off by at most `2 gam u 35` -/
theorem ppois_acc {rate : ℝ} (h : 0 < rate) {k : ℕ} (hk : k < 2 ^ 19) :
    ∃ y, ppois k (fin rate) false = fin y ∧ |y - ∑ i ∈ range (k + 1), poisPmf rate i| ≤ gam u 35 * 2 := by
  have g := gam_nonneg R.u_nonneg R.u_lt (by norm_num : (0 : ℝ) ≤ 35)
  by_cases hb : 10 < rate ∨ 15 < k
  · obtain ⟨y, ey, hy⟩ := C49_ppois_large (u := u) h hk hb
    exact ⟨y, ey, hy.trans (mul_le_mul_of_nonneg_right (gam_mono R.u_nonneg R.u_lt (by norm_num)) (by norm_num))⟩
  · rw [not_or, not_lt, not_lt] at hb
    obtain ⟨y, ey, hy⟩ := (C49_ppois_small (u := u) h hb.1 hb.2).1
    refine ⟨y, ey, ?_⟩
    have hk15 : (k : ℝ) ≤ 15 := by exact_mod_cast hb.2
    have := (hy.mono R.u_nonneg R.u_lt (l := 35) (by linarith)).err R.u_lt
    refine this.trans (mul_le_mul_of_nonneg_left ?_ g)
    have h1 : ∑ i ∈ range (k + 1), poisPmf rate i ≤ 1 := by
      have := sum_le_hasSum ((range (k + 1)).map ⟨Nat.cast, Nat.cast_injective⟩) (fun i _ => poisPmf_nonneg h.le i)
        (hasSum_pois rate)
      simpa [sum_map] using this
    have h2 : 0 ≤ ∑ i ∈ range (k + 1), poisPmf rate i := sum_nonneg fun i _ => poisPmf_nonneg h.le (i : ℤ)
    rw [abs_of_nonneg h2]
    linarith

/-- `qpois` below rate 11: if the distribution function clears the probability by more than the rounding error at some
count below `2^19`, the search ends there at the latest, and returns the quantile up to the error of `ppois`. For
larger rates the search begins at a normal approximation (`C49_qpois_large_partial`). -/
theorem C49_qpois_partial {p rate : ℝ} (h0 : 0 < p) (h1 : p < 1) (hr : Lib.eps ≤ rate) (hr' : rate < 11) {K : ℕ}
    (hK : K < 2 ^ 19) (hp : p + gam u 35 * 2 < ∑ i ∈ range (K + 1), poisPmf rate i) :
    ∃ k : ℕ, k ≤ K ∧ qpois (fin p) (fin rate) = some (ofInt k) ∧
      (∀ j : ℕ, j < k → ∑ i ∈ range (j + 1), poisPmf rate i ≤ p + gam u 35 * 2) ∧
      p < ∑ i ∈ range (k + 1), poisPmf rate i + gam u 35 * 2 := by
  have rpos := Lib.eps_pos.trans_le hr
  have hq : qpois (fin p) (fin rate) = runFuel (fun fuel => qpois_compute_right_search (fin p) (fin rate) fuel 0 0) := by
    have n1 : ¬ rate < 0 := by linarith
    have n2 : ¬ p < 0 := by linarith
    have n3 : ¬ 1 < p := by linarith
    have n4 : ¬ rate < Lib.eps := by linarith
    have h11 : (fin rate : Fl) < 11 := by rw [ofNat_eq]; exact hr'
    rw [qpois, if_neg (by simp [pois_ok, n1]), if_neg (by simp [prob_val_ok, n2, n3]), if_neg (by simp [h0.ne']),
      if_neg (by simp [eps, n4]), if_neg (by simp [h1.ne]), if_pos h11]
  have hz : (0 : Fl) ≤ fin p := by rw [zero_eq]; exact h0.le
  have hKp : ¬ ppois (0 + (K : ℤ)) (fin rate) false ≤ fin p := by
    obtain ⟨y, ey, hy⟩ := ppois_acc (u := u) rpos hK
    rw [zero_add, ey]
    refine not_le.2 (show p < y from ?_)
    linarith [(abs_le.1 hy).1]
  have hex : ∃ d : ℕ, ¬ ppois (0 + (d : ℤ)) (fin rate) false ≤ fin p := ⟨K, hKp⟩
  have hspec := Nat.find_spec hex
  have hmin : ∀ j : ℕ, j < Nat.find hex → ppois (0 + (j : ℤ)) (fin rate) false ≤ fin p := fun j hj =>
    not_not.1 (Nat.find_min hex hj)
  have hle : Nat.find hex ≤ K := Nat.find_min' hex hKp
  have hrun := qpois_search_stops (fin p) (fin rate) (Nat.find hex) 0 0 le_rfl hz hmin hspec
  refine ⟨Nat.find hex, hle, ?_, fun j hj => ?_, ?_⟩
  · rw [hq, runFuel_eq (qpois_search_mono (fin p) (fin rate) 0 0) hrun, zero_add]
  · obtain ⟨y, ey, hy⟩ := ppois_acc (u := u) rpos (hj.trans (hle.trans_lt hK))
    have := hmin j hj
    rw [zero_add, ey] at this
    have : y ≤ p := this
    linarith [(abs_le.1 hy).1]
  · obtain ⟨y, ey, hy⟩ := ppois_acc (u := u) rpos (hle.trans_lt hK)
    rw [zero_add, ey] at hspec
    have : p < y := not_le.1 hspec
    linarith [(abs_le.1 hy).2]

end Stats

/-! ### Instances -/

namespace Stats.ExamplesC49
open Fl Spec

set_option warn.classDefReducibility false in
attribute [local instance] wideLib
attribute [local instance] wideLib_rel

theorem gam_le {k : ℕ} (hk : k ≤ 3) : gam (1 / 2 ^ 53) k ≤ 1 / 100 := by
  refine (gam_mono (l := 7) (by positivity) (by norm_num) ?_).trans (gam_small.le.trans (by norm_num))
  have : (k : ℝ) ≤ 3 := by exact_mod_cast hk
  linarith

theorem quarter_wide : Lib.rnd (1 / 4) = ((1 / 4 : ℝ) : EReal) := by
  have := wideLib_rel.rnd_halve (1 / 2) (by have := Lib.rnd_half 1 (by norm_num); norm_num at this ⊢)
  norm_num at this ⊢; exact this

theorem near_quarter {k : ℕ} (hk : k ≤ 3) : gam (1 / 2 ^ 53) k * |(1 / 4 : ℝ) - 1 / 2| < 1 / 4 := by
  have := gam_le hk
  rw [show (1 / 4 : ℝ) - 1 / 2 = -(1 / 4) by norm_num, abs_neg, abs_of_pos (by norm_num)]
  linarith

theorem near_quarter' {k : ℕ} (hk : k ≤ 3) : gam (1 / 2 ^ 53) k * |(1 / 4 : ℝ) - 1 / 2| < 1 - 1 / 4 :=
  (near_quarter hk).trans (by norm_num)

example := C49_qnorm (u := 1 / 2 ^ 53) 1 (sigma := 3) (p := 1 / 4) (by norm_num) quarter_wide
  (by exact_mod_cast near_quarter (k := 1) (by norm_num)) (by exact_mod_cast near_quarter' (k := 1) (by norm_num))
example := C49_qlnorm (u := 1 / 2 ^ 53) 1 (sigma := 3) (p := 1 / 4) (by norm_num) quarter_wide
  (by exact_mod_cast near_quarter (k := 1) (by norm_num)) (by exact_mod_cast near_quarter' (k := 1) (by norm_num))
example := C49_qcauchy (u := 1 / 2 ^ 53) 1 (sigma := 3) (p := 1 / 4) (by norm_num)
  (by exact_mod_cast near_quarter (k := 3) (by norm_num)) (by exact_mod_cast near_quarter' (k := 3) (by norm_num))
example := C49_qt_one (u := 1 / 2 ^ 53) (p := 1 / 4)
  (by exact_mod_cast near_quarter (k := 3) (by norm_num)) (by exact_mod_cast near_quarter' (k := 3) (by norm_num))
example := C49_qt_two (u := 1 / 2 ^ 53) (p := 1 / 4) quarter_wide (by norm_num) (by norm_num)
example := C49_qlaplace (u := 1 / 2 ^ 53) 1 (sigma := 3) (p := 1 / 4) (by norm_num)
  (by exact_mod_cast near_quarter (k := 2) (by norm_num)) (by exact_mod_cast near_quarter' (k := 2) (by norm_num))
example := C49_qinvgamma (u := 1 / 2 ^ 53) (shape := 2) (rate := 3) (p := 1 / 4) (by norm_num) (by norm_num)
  (by have := gam_le (k := 1) (by norm_num); norm_num at this ⊢; linarith) (by norm_num)
example := C49_qbinom (u := 1 / 2 ^ 53) (p := 1 / 4) (π := 1 / 3) (n := 5) (by norm_num) (by norm_num) (by norm_num) (by norm_num)
  (by norm_num)
example := C49_qpois_partial (u := 1 / 2 ^ 53) (p := 1 / 4) (rate := 1) (K := 0) (by norm_num) (by norm_num)
  (Lib.eps_le.trans (by norm_num)) (by norm_num) (by norm_num) (by
    have h : (1 - 1 / 2 ^ 53 : ℝ) ^ (-(35 : ℝ)) = ((1 - 1 / 2 ^ 53) ^ 35)⁻¹ := by
      rw [Real.rpow_neg (by norm_num), show (35 : ℝ) = ((35 : ℕ) : ℝ) by norm_num, Real.rpow_natCast]
    have g : gam (1 / 2 ^ 53) 35 ≤ 1 / 100 := by
      rw [gam, h, sub_le_iff_le_add, inv_le_comm₀ (by norm_num) (by norm_num)]
      refine le_trans ?_ (one_add_mul_le_pow (a := -(1 / 2 ^ 53)) (by norm_num) 35)
      norm_num
    have e : (1 / 3 : ℝ) ≤ Real.exp (-1) := by
      rw [Real.exp_neg, one_div]
      exact inv_anti₀ (Real.exp_pos 1) (by linarith [Real.exp_one_lt_d9])
    simp [poisPmf]
    linarith)

end Stats.ExamplesC49
