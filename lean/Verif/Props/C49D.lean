import Verif.Props.C49B
import Verif.Lemmas.RoundSpecial
import Verif.Lemmas.ProbIdeal

/-!
# C49: accuracy of the functions built on the incomplete gamma and beta functions

The incomplete gamma and beta functions and their inverses are taken to be accurate to `u` at the arguments they are
called with (`RelLib`). What is bounded here is the effect of rounding these arguments, and of the arithmetic
around the call.
-/

set_option linter.unusedSectionVars false
open Classical
namespace Stats
open Fl Spec
variable [Lib] {u : ℝ} [R : RelLib u]

theorem RelF.igamma {k x a : ℝ} {f : Fl} (h : RelF u k x f) (hx : 0 < x) (ha : 0 < a) :
    RelF u (k * a + 1) (gammaP a x) (Fl.igamma (fin a) f) := by
  obtain ⟨hk, y, rfl, h⟩ := h
  have hy := h.pos R.u_lt hx
  obtain ⟨w, e, h'⟩ := R.igamma a y ha hy
  refine ⟨by positivity, w, ?_, (h.gammaP R.u_nonneg R.u_lt hk ha hx).trans R.u_lt h'⟩
  rw [Fl.igamma, if_neg (by rw [not_or, not_lt, not_lt]; exact ⟨ha.le, hy.le⟩), e, ofE_coe]

include R in
theorem fin_half {x : ℝ} (h : Lib.rnd x = x) : fin x / 2 = fin (x / 2) := by
  have h2 : (2 : Fl) = fin 2 := by show fin ((2 : ℕ) : ℝ) = _; norm_num
  have e : x / 2 = 1 / 2 * x := by ring
  rw [h2]
  show (if (2 : ℝ) = 0 then _ else ofE (Lib.rnd (x / 2))) = _
  rw [if_neg two_ne_zero, e, R.rnd_halve x h, ofE_coe]

/-! ### distribution functions -/

theorem C49_pgamma {shape scale x : ℝ} (hk : 0 < shape) (hs : Lib.eps ≤ scale) (hx : Lib.eps ≤ x) :
    RelAcc u (shape + 1) (pgamma (fin x) (fin shape) (fin scale) false) (∫ t in Set.Iic x, gammaPdf shape scale t) ∧
    AbsAcc u (shape + 2) (|Real.log (∫ t in Set.Iic x, gammaPdf shape scale t)| + 1)
      (pgamma (fin x) (fin shape) (fin scale) true) (Real.log (∫ t in Set.Iic x, gammaPdf shape scale t)) := by
  have q := Lib.eps_pos.trans_le hs
  have hx0 := Lib.eps_pos.trans_le hx
  have hz : 0 < x / scale := by positivity
  have e : ∫ t in Set.Iic x, gammaPdf shape scale t = gammaP shape (x / scale) := by
    rw [(isCdf_gamma hk q).running x, if_pos hx0]
  have r := ((RelF.lift (u := u) x).div (RelF.lift scale) q.ne').igamma hz hk
  have hv : ∀ f, pgamma (fin x) (fin shape) (fin scale) f = Stats.log_if (Fl.igamma (fin shape) (fin x / fin scale)) f := fun f => by
    have n1 : ¬ x < Lib.eps := by linarith
    have n2 : ¬ shape < 0 := by linarith
    have n3 : ¬ scale < Lib.eps := by linarith
    simp [pgamma, pgamma_compute, gamma_ok', gamma_ok, eps, n1, n2, n3, hk.ne']
  rw [hv, hv, e]
  have := (r.mono (l := shape + 1) (by linarith)).log_if (gammaP_pos hk hz)
  rw [show shape + 1 + 1 = shape + 2 by ring] at this
  exact this

/-- `dof` has to be representable: the incomplete gamma function is called at `dof/2` -/
theorem C49_pchisq {dof x : ℝ} (hk : 0 < dof) (hr : Lib.rnd dof = dof) (hx : Lib.eps ≤ x) :
    RelAcc u (dof / 2 + 1) (pchisq (fin x) (fin dof) false) (∫ t in Set.Iic x, chisqPdf dof t) ∧
    AbsAcc u (dof / 2 + 2) (|Real.log (∫ t in Set.Iic x, chisqPdf dof t)| + 1)
      (pchisq (fin x) (fin dof) true) (Real.log (∫ t in Set.Iic x, chisqPdf dof t)) := by
  have hx0 := Lib.eps_pos.trans_le hx
  have hz : 0 < x / 2 := by positivity
  have hk2 : 0 < dof / 2 := by positivity
  have e : ∫ t in Set.Iic x, chisqPdf dof t = gammaP (dof / 2) (x / 2) := by
    rw [(isCdf_chisq hk).running x, if_pos hx0]
  have r := ((RelF.lift (u := u) x).div relF_two two_ne_zero).igamma hz hk2
  have hv : ∀ f, pchisq (fin x) (fin dof) f = Stats.log_if (Fl.igamma (fin (dof / 2)) (fin x / 2)) f := fun f => by
    have n1 : ¬ x < Lib.eps := by linarith
    have n2 : ¬ dof < 0 := by linarith
    rw [← fin_half hr]
    simp [pchisq, pchisq_compute, chisq_ok', chisq_ok, eps, n1, n2, hk.ne']
  rw [hv, hv, e]
  have := (r.mono (l := dof / 2 + 1) (by linarith)).log_if (gammaP_pos hk2 hz)
  rw [show dof / 2 + 1 + 1 = dof / 2 + 2 by ring] at this
  exact this

theorem C49_pbeta {a b x : ℝ} (ha : 0 < a) (hb : 0 < b) (h0 : 0 < x) (h1 : x < 1) :
    RelAcc u 1 (pbeta (fin x) (fin a) (fin b) false) (∫ t in Set.Iic x, betaPdf a b t) ∧
    AbsAcc u 2 (|Real.log (∫ t in Set.Iic x, betaPdf a b t)| + 1) (pbeta (fin x) (fin a) (fin b) true)
      (Real.log (∫ t in Set.Iic x, betaPdf a b t)) := by
  have e : ∫ t in Set.Iic x, betaPdf a b t = betaI a b x := by
    rw [(isCdf_beta ha hb).running x, betaCdf, if_neg (by linarith), if_neg (by linarith)]
  obtain ⟨w, ew, hw⟩ := R.ibeta a b x ha hb h0 h1.le
  have hv : ∀ f, pbeta (fin x) (fin a) (fin b) f = Stats.log_if (fin w) f := fun f => by
    have n1 : ¬ x ≤ 0 := by linarith
    have n2 : ¬ 1 ≤ x := by linarith
    have n3 : ¬ a < 0 := by linarith
    have n4 : ¬ b < 0 := by linarith
    have n5 : ¬ x < 0 := by linarith
    have n6 : ¬ 1 < x := by linarith
    simp [pbeta, pbeta_compute, beta_ok', beta_ok, n1, n2, n3, n4, n5, n6, ha.ne', hb.ne', Fl.ibeta, ew]
  rw [hv, hv, e]
  have r : RelF u 1 (betaI a b x) (fin w) := ⟨zero_le_one, w, rfl, hw⟩
  exact (r.log_if (betaI_pos ha hb h0 h1.le)).imp id fun h => by norm_num at h; exact h

/-- Where the reciprocals are not flushed or rejected. The value is one minus a gamma probability, so only the
absolute error is small. -/
theorem C49_pinvgamma {shape rate x : ℝ} (hk : 0 < shape) (hx : 0 < x) (hr : 0 < rate)
    (h1 : Lib.eps ≤ 1 / x * (1 - u)) (h2 : Lib.eps ≤ 1 / rate * (1 - u)) :
    AbsAcc u (3 * shape + 2) 2 (pinvgamma (fin x) (fin shape) (fin rate) false)
      (∫ t in Set.Iic x, invgammaPdf shape rate t) := by
  have e : ∫ t in Set.Iic x, invgammaPdf shape rate t = 1 - gammaP shape (rate / x) := by
    rw [(isCdf_invgamma hk hr).running x, if_pos hx]
  have r1 := (relF_one (u := u)).div (RelF.lift x) hx.ne'
  have r2 := (relF_one (u := u)).div (RelF.lift rate) hr.ne'
  obtain ⟨_, y1, e1, b1⟩ := id r1
  obtain ⟨_, y2, e2, b2⟩ := id r2
  have lo : ∀ {z y : ℝ}, 0 < z → Rel u (0 + 0 + 1) z y → z * (1 - u) ≤ y := by
    rintro z y hz ⟨t, ht, -, rfl⟩
    rw [show (0 : ℝ) + 0 + 1 = 1 by norm_num, Real.rpow_one] at ht
    exact mul_le_mul_of_nonneg_left ht hz.le
  have l1 := h1.trans (lo (by positivity) b1)
  have l2 := h2.trans (lo (by positivity) b2)
  have p1 := Lib.eps_pos.trans_le l1
  have p2 := Lib.eps_pos.trans_le l2
  have hz : 0 < 1 / x / (1 / rate) := by positivity
  have r := ((r1.div r2 (by positivity)).igamma hz hk)
  have m : |gammaP shape (1 / x / (1 / rate))| ≤ 1 := by
    rw [abs_of_pos (gammaP_pos hk hz)]; exact (gammaP_lt_one hk hz.le).le
  have c := (relF_one (u := u)).off.sub (r.off.mono le_rfl m)
  have hv : pinvgamma (fin x) (fin shape) (fin rate) false = 1 - Fl.igamma (fin shape) (1 / fin x / (1 / fin rate)) := by
    have n1 : ¬ x < 0 := by linarith
    have n2 : ¬ shape < 0 := by linarith
    have n3 : ¬ rate < 0 := by linarith
    have n4 : ¬ y1 < Lib.eps := by linarith
    have n5 : ¬ y2 < Lib.eps := by linarith
    have hpg : pgamma (fin y1) (fin shape) (fin y2) false = Fl.igamma (fin shape) (fin y1 / fin y2) := by
      simp [pgamma, pgamma_compute, gamma_ok', gamma_ok, eps, n2, n4, n5, hk.ne', log_if]
    rw [pinvgamma, if_neg (by simp [invgamma_ok', invgamma_ok, n2, n3]), if_neg (by simpa using n1),
      if_neg (by simp [hx.ne']), if_neg (by simp), pinvgamma_limit_vals, if_neg (by simp [hr.ne']), if_neg (by simp),
      pinvgamma_compute, e1, e2, hpg]
    rfl
  rw [hv, e]
  have e3 : rate / x = 1 / x / (1 / rate) := by field_simp
  rw [e3]
  refine (c.mono ?_ (by rw [abs_one]; norm_num)).absAcc
  rw [show (max (0 : ℝ) ((0 + 0 + 1 + (0 + 0 + 1) + 1) * shape + 1)) = 3 * shape + 1 by
    rw [max_eq_right (by positivity)]; ring]
  linarith

theorem OffF.erf {k m x : ℝ} {f : Fl} (h : OffF u k m x f) : OffF u (k + 1) (2 * m + 1) (Spec.erf x) (Fl.erf f) := by
  obtain ⟨hk, hm, y, rfl, h⟩ := h
  obtain ⟨w, ew, hw⟩ := R.erf y
  have g := gam_nonneg R.u_nonneg R.u_lt hk
  have m0 := (abs_nonneg x).trans hm
  have hl : |Spec.erf y - Spec.erf x| ≤ 2 * |y - x| := by
    have hd : ∀ z ∈ Set.univ, HasDerivWithinAt Spec.erf (2 / √Real.pi * Real.exp (-z ^ 2)) Set.univ z :=
      fun z _ => (hasDerivAt_erf z).hasDerivWithinAt
    have hb : ∀ z ∈ (Set.univ : Set ℝ), ‖2 / √Real.pi * Real.exp (-z ^ 2)‖ ≤ 2 := by
      intro z _
      rw [Real.norm_eq_abs, abs_of_nonneg (by positivity)]
      have h1 : 1 ≤ √Real.pi := Real.one_le_sqrt.2 (by linarith [Real.pi_gt_three])
      have h2 : Real.exp (-z ^ 2) ≤ 1 := Real.exp_le_one_iff.2 (by nlinarith [sq_nonneg z])
      have h3 : 2 / √Real.pi ≤ 2 := div_le_self (by norm_num) h1
      have h4 : 0 ≤ 2 / √Real.pi := by positivity
      nlinarith [Real.exp_pos (-z ^ 2)]
    simpa [Real.norm_eq_abs] using Convex.norm_image_sub_le_of_norm_hasDerivWithin_le hd hb convex_univ
      (Set.mem_univ x) (Set.mem_univ y)
  have mx : |Spec.erf x| ≤ 1 := abs_le.2 ⟨(neg_one_lt_erf _).le, (erf_lt_one _).le⟩
  have ho : Off u k (2 * m + 1) (Spec.erf x) (Spec.erf y) := by
    rw [Off] at h ⊢
    calc _ ≤ 2 * |y - x| := hl
      _ ≤ 2 * (gam u k * m) := by linarith
      _ ≤ gam u k * (2 * m + 1) := by nlinarith
  exact ⟨by linarith, by linarith, w, by rw [Fl.erf, ew, ofE_coe],
    ho.rnd R.u_nonneg R.u_lt hk (by linarith) hw⟩

/-- `x` below `eps` is flushed to 0 by the code -/
theorem C49_plnorm {x : ℝ} (hx : Lib.eps ≤ x) (mu : ℝ) {sigma : ℝ} (h : 0 < sigma) :
    AbsAcc u 9 (1 + (|Real.log x| + 1 + |mu|) / sigma) (plnorm (fin x) (fin mu) (fin sigma) false)
      (∫ t in Set.Iic x, lnormPdf mu sigma t) := by
  have hx0 := Lib.eps_pos.trans_le hx
  have l := (RelF.lift (u := u) x).log hx0
  have z := ((l.sub (RelF.lift (u := u) mu).off).div (RelF.lift sigma) h.ne').div relF_sqrt2 (by positivity)
  have c := (relF_half (u := u)).off.mul ((relF_one (u := u)).off.add z.erf)
  obtain ⟨_, _, y, ey, _⟩ := id l
  have hv : plnorm (fin x) (fin mu) (fin sigma) false = pnorm_compute ((log (fin x) - fin mu) / fin sigma) := by
    have h0 : ¬ sigma < 0 := by linarith
    have h1 : ¬ sigma = 0 := by linarith
    have n1 : ¬ x < Lib.eps := by linarith
    rw [ey]
    simp [plnorm, ey, lnorm_ok', lnorm_ok, pnorm, norm_ok', norm_ok, log_if, h0, h1, eps, n1]
  rw [hv, (isCdf_lnorm mu h).running x, if_pos hx0]
  refine (c.mono (by norm_num) ?_).absAcc
  rw [abs_of_pos h, abs_of_pos (by norm_num : (0 : ℝ) < 1 / 2), abs_one, abs_of_pos (by positivity : 0 < √2)]
  have h1 : (1 : ℝ) ≤ √2 := Real.one_le_sqrt.2 (by norm_num)
  have h2 : 0 ≤ (|Real.log x| + 1 + |mu|) / sigma := by positivity
  have h3 := div_le_self h2 h1
  linarith

/-- Below the far upper tail, and with at least two degrees of freedom in the denominator. -/
theorem C49_pf_partial {df1 df2 x : ℝ} (h1 : Lib.eps ≤ df1) (h2 : 2 ≤ df2) (r1 : Lib.rnd df1 = df1) (r2 : Lib.rnd df2 = df2)
    (hx : Lib.eps ≤ x) (hw : df1 * x / df2 / (1 + df1 * x / df2) ≤ (1 - u) ^ (6 : ℝ)) :
    RelAcc u (3 * df1 + 1) (pf (fin x) (fin df1) (fin df2) false) (∫ t in Set.Iic x, fPdf df1 df2 t) ∧
    AbsAcc u (3 * df1 + 2) (|Real.log (∫ t in Set.Iic x, fPdf df1 df2 t)| + 1) (pf (fin x) (fin df1) (fin df2) true)
      (Real.log (∫ t in Set.Iic x, fPdf df1 df2 t)) := by
  have hx0 := Lib.eps_pos.trans_le hx
  have p1 := Lib.eps_pos.trans_le h1
  have p2 : 0 < df2 := by linarith
  have hz : 0 < df1 * x / df2 := by positivity
  have e : ∫ t in Set.Iic x, fPdf df1 df2 t = betaI (df1 / 2) (df2 / 2) (df1 * x / df2 / (1 + df1 * x / df2)) := by
    rw [(isCdf_f p1 p2).running x, if_pos hx0, fCdf]
  have z := ((RelF.lift (u := u) df1).mul (RelF.lift x)).div (RelF.lift df2) p2.ne'
  have o := ((relF_one (u := u)).mono (l := 0 + 0 + 1 + 0 + 1) (by norm_num)).add z zero_le_one hz.le
  have q := (z.div o (by positivity)).mono (l := 6) (by norm_num)
  obtain ⟨_, y, ey, hy⟩ := q
  have hw0 : 0 < df1 * x / df2 / (1 + df1 * x / df2) := by positivity
  have y0 := hy.pos R.u_lt hw0
  have hb : 0 < 1 - u := by linarith [R.u_lt]
  have y1 : y ≤ 1 := by
    obtain ⟨t, ht0, ht, rfl⟩ := hy
    rw [Real.rpow_neg hb.le] at ht
    have hp : 0 < (1 - u) ^ (6 : ℝ) := by positivity
    calc _ ≤ (1 - u) ^ (6 : ℝ) * ((1 - u) ^ (6 : ℝ))⁻¹ := mul_le_mul hw ht ((Real.rpow_pos_of_pos hb _).le.trans ht0) hp.le
      _ = 1 := mul_inv_cancel₀ hp.ne'
  have w1 : df1 * x / df2 / (1 + df1 * x / df2) ≤ 1 := by rw [div_le_one (by positivity)]; linarith
  obtain ⟨w, ew, hw'⟩ := R.ibeta (df1 / 2) (df2 / 2) y (by positivity) (by positivity) y0 y1
  have r : RelF u (6 * (df1 / 2) + 1) (betaI (df1 / 2) (df2 / 2) (df1 * x / df2 / (1 + df1 * x / df2))) (fin w) :=
    ⟨by positivity, w, rfl, (hy.betaI R.u_nonneg R.u_lt (by norm_num) (by positivity) (by linarith) hw0 w1 y1).trans R.u_lt hw'⟩
  have hv : ∀ f, pf (fin x) (fin df1) (fin df2) f = Stats.log_if (fin w) f := fun f => by
    have n1 : ¬ x < Lib.eps := by linarith
    have n2 : ¬ df1 < Lib.eps := by linarith
    have n3 : ¬ df2 < Lib.eps := by linarith [Lib.eps_le]
    have n4 : ¬ df1 / 2 < 0 := by linarith
    have n5 : ¬ df2 / 2 < 0 := by linarith
    have n6 : ¬ y < 0 := by linarith
    have n7 : ¬ 1 < y := by linarith
    rw [pf, if_neg (by simp [f_ok', f_ok, eps, n2, n3]), if_neg (by simpa [eps] using n1), if_neg (by simp),
      if_neg (by simp), pf_compute, ey, fin_half r1, fin_half r2, Fl.ibeta, if_neg (by simp [n4, n5, n6, n7]), ew, ofE_coe]
  rw [hv, hv, e]
  have hB := betaI_pos (a := df1 / 2) (b := df2 / 2) (by positivity) (by positivity) hw0 w1
  have := (r.mono (l := 3 * df1 + 1) (by linarith)).log_if hB
  rw [show 3 * df1 + 1 + 1 = 3 * df1 + 2 by ring] at this
  exact this

/-! ### quantiles -/

theorem C49_qgamma {shape scale p : ℝ} (hk : 0 < shape) (hs : Lib.eps ≤ scale) (h0 : 0 < p) (h1 : p < 1) :
    ∃ q, (∫ t in Set.Iic q, gammaPdf shape scale t) = p ∧ RelAcc u 2 (qgamma (fin p) (fin shape) (fin scale)) q := by
  have ps := Lib.eps_pos.trans_le hs
  obtain ⟨z, y, hz, hp, ey, hy⟩ := R.igammaInv shape p hk h0 h1
  refine ⟨scale * z, ?_, ?_⟩
  · rw [(isCdf_gamma hk ps).running, if_pos (by positivity), mul_div_cancel_left₀ _ ps.ne', hp]
  · have r : RelF u 1 z (fin y) := ⟨zero_le_one, y, rfl, hy⟩
    have hv : qgamma (fin p) (fin shape) (fin scale) = fin scale * fin y := by
      have n1 : ¬ shape < 0 := by linarith
      have n2 : ¬ scale < Lib.eps := by linarith
      have n3 : ¬ p < 0 := by linarith
      have n4 : ¬ 1 < p := by linarith
      simp [qgamma, qgamma_compute, gamma_ok, prob_val_ok, eps, n1, n2, n3, n4, h0.ne', h1.ne, hk.ne', igammaInv, ey]
    rw [hv]
    exact (((RelF.lift (u := u) scale).mul r).mono (by norm_num)).relAcc

theorem C49_qchisq {dof p : ℝ} (hk : 0 < dof) (hr : Lib.rnd dof = dof) (h0 : 0 < p) (h1 : p < 1) :
    ∃ q, (∫ t in Set.Iic q, chisqPdf dof t) = p ∧ RelAcc u 2 (qchisq (fin p) (fin dof)) q := by
  have hk2 : 0 < dof / 2 := by positivity
  obtain ⟨z, y, hz, hp, ey, hy⟩ := R.igammaInv (dof / 2) p hk2 h0 h1
  refine ⟨2 * z, ?_, ?_⟩
  · rw [(isCdf_chisq hk).running, if_pos (by positivity), mul_div_cancel_left₀ _ two_ne_zero, hp]
  · have r : RelF u 1 z (fin y) := ⟨zero_le_one, y, rfl, hy⟩
    have hv : qchisq (fin p) (fin dof) = 2 * fin y := by
      have n1 : ¬ dof < 0 := by linarith
      have n3 : ¬ p < 0 := by linarith
      have n4 : ¬ 1 < p := by linarith
      have n5 : ¬ dof / 2 < 0 := by linarith
      rw [qchisq, if_neg (by simp [chisq_ok, n1]), if_neg (by simp [prob_val_ok, n3, n4]), if_neg (by simp [h0.ne']),
        if_neg (by simp [h1.ne]), qchisq_compute, fin_half hr, igammaInv,
        if_neg (by simp [n3, n4, n5]), ey, ofE_coe]
    rw [hv]
    exact ((relF_two.mul r).mono (by norm_num)).relAcc

theorem C49_qbeta {a b p : ℝ} (ha : 0 < a) (hb : 0 < b) (h0 : 0 < p) (h1 : p < 1) :
    ∃ q, (∫ t in Set.Iic q, betaPdf a b t) = p ∧ RelAcc u 1 (qbeta (fin p) (fin a) (fin b)) q := by
  obtain ⟨z, y, z0, z1, hp, ey, hy⟩ := R.ibetaInv a b p ha hb h0 h1
  refine ⟨z, ?_, y, ?_, hy⟩
  · rw [(isCdf_beta ha hb).running, betaCdf, if_neg (by linarith), if_neg (by linarith), hp]
  · have n1 : ¬ a < 0 := by linarith
    have n2 : ¬ b < 0 := by linarith
    have n3 : ¬ p < 0 := by linarith
    have n4 : ¬ 1 < p := by linarith
    simp [qbeta, qbeta_compute, beta_ok, prob_val_ok, n1, n2, n3, n4, h0.ne', h1.ne, ha.ne', hb.ne', ibetaInv, ey]

/-- `1 - p` has to be representable; small `p` are lost otherwise. -/
theorem C49_qinvgamma_partial {shape rate p : ℝ} (hk : 0 < shape) (hr : 0 < rate) (h0 : 0 < p) (h1 : p < 1)
    (hp : Lib.rnd (1 - p) = ((1 - p : ℝ) : EReal)) :
    ∃ q, (∫ t in Set.Iic q, invgammaPdf shape rate t) = p ∧ RelAcc u 2 (qinvgamma (fin p) (fin shape) (fin rate)) q := by
  obtain ⟨z, y, hz, hzp, ey, hy⟩ := R.igammaInv shape (1 - p) hk (by linarith) (by linarith)
  refine ⟨rate / z, ?_, ?_⟩
  · rw [(isCdf_invgamma hk hr).running, if_pos (by positivity), div_div_cancel₀ hr.ne', hzp]; ring
  · have r : RelF u 1 z (fin y) := ⟨zero_le_one, y, rfl, hy⟩
    have e1 : (1 : Fl) - fin p = fin (1 - p) := by
      have : (1 : Fl) = fin 1 := by show fin ((1 : ℕ) : ℝ) = _; norm_num
      rw [this]
      show ofE (Lib.rnd (1 + -p)) = _
      rw [← sub_eq_add_neg, hp, ofE_coe]
    have hv : qinvgamma (fin p) (fin shape) (fin rate) = fin rate / fin y := by
      have n1 : ¬ shape < 0 := by linarith
      have n2 : ¬ rate < 0 := by linarith
      have n3 : ¬ p < 0 := by linarith
      have n4 : ¬ 1 < p := by linarith
      have n5 : ¬ 1 - p < 0 := by linarith
      have n6 : ¬ 1 < 1 - p := by linarith
      rw [qinvgamma, if_neg (by simp [invgamma_ok, n1, n2]), if_neg (by simp [prob_val_ok, n3, n4]),
        if_neg (by simp [h0.ne']), if_neg (by simp [h1.ne]), if_neg (by simp [hk.ne', hr.ne']), qinvgamma_compute, e1,
        igammaInv, if_neg (by simp [n1, n5, n6]), ey, ofE_coe]
    rw [hv]
    exact (((RelF.lift (u := u) rate).div r hz.ne').mono (by norm_num)).relAcc

/-- Below the median-like point `df1 q = df2`; above it the code subtracts nearly equal numbers. -/
theorem C49_qf_partial {df1 df2 p : ℝ} (hu : u ≤ 1 / 3) (h1 : Lib.eps ≤ df1) (h2 : Lib.eps ≤ df2) (r1 : Lib.rnd df1 = df1)
    (r2 : Lib.rnd df2 = df2) (h0 : 0 < p) (hp : p ≤ ∫ t in Set.Iic (df2 / df1), fPdf df1 df2 t) :
    ∃ q, (∫ t in Set.Iic q, fPdf df1 df2 t) = p ∧ RelAcc u 7 (qf (fin p) (fin df1) (fin df2)) q := by
  have p1 := Lib.eps_pos.trans_le h1
  have p2 := Lib.eps_pos.trans_le h2
  have d1 : 0 < df1 / 2 := by positivity
  have d2 : 0 < df2 / 2 := by positivity
  have u0 := R.u_nonneg
  have eh : df1 * (df2 / df1) / df2 = 1 := by field_simp
  rw [(isCdf_f p1 p2).running, if_pos (by positivity), fCdf, eh, show (1 : ℝ) / (1 + 1) = 1 / 2 by norm_num] at hp
  have hmono := strictMonoOn_betaI d1 d2
  have hlt : p < 1 := by
    have := hmono (a := 1 / 2) (b := 1) ⟨by norm_num, by norm_num⟩ ⟨by norm_num, le_rfl⟩ (by norm_num)
    rw [betaI_one d1 d2] at this
    linarith
  obtain ⟨z, y, z0, z1, hzp, ey, hy⟩ := R.ibetaInv (df1 / 2) (df2 / 2) p d1 d2 h0 hlt
  have zh : z ≤ 1 / 2 := by
    by_contra hc
    have := hmono (a := 1 / 2) (b := z) ⟨by norm_num, by norm_num⟩ ⟨z0.le, z1.le⟩ (not_le.1 hc)
    linarith
  have n1 : 0 < 1 - z := by linarith
  refine ⟨z / (df1 / df2 * (1 - z)), ?_, ?_⟩
  · rw [(isCdf_f p1 p2).running, if_pos (by positivity), fCdf, ← hzp]
    congr 1
    field_simp
    ring
  · have ry : RelF u 1 z (fin y) := ⟨zero_le_one, y, rfl, hy⟩
    have r1y : RelF u 3 (1 - z) (1 - fin y) := by
      obtain ⟨_, w, ew, hw⟩ := relF_one_sub (u := u) y
      refine ⟨by norm_num, w, ew, ?_⟩
      have : Rel u 2 (1 - z) (1 - y) := by
        obtain ⟨t, ht1, ht2, rfl⟩ := hy
        have hb : 0 < 1 - u := by linarith
        rw [Real.rpow_one] at ht1
        rw [Real.rpow_neg_one] at ht2
        have ht2' : t * (1 - u) ≤ 1 := by
          calc _ ≤ (1 - u)⁻¹ * (1 - u) := by gcongr
            _ = 1 := inv_mul_cancel₀ hb.ne'
        refine ⟨(1 - z * t) / (1 - z), ?_, ?_, by field_simp⟩
        · rw [Real.rpow_two, le_div_iff₀ n1]
          have k1 : z * (t * (1 - u)) ≤ z * 1 := by gcongr
          have k2 : (1 - u) ^ 3 * (1 - z) ≤ 1 - u - z := by
            have : (1 - u) ^ 3 ≤ 1 - 2 * u := by nlinarith [mul_nonneg u0 (sub_nonneg.2 hu), mul_nonneg u0 u0]
            nlinarith
          nlinarith
        · rw [Real.rpow_neg hb.le, Real.rpow_two, div_le_iff₀ n1, inv_mul_eq_div, le_div_iff₀ (by positivity)]
          have k1 : z * (1 - u) ≤ z * t := by gcongr
          have k3 : 1 - z * t ≤ (1 - z) * (1 + u) := by nlinarith
          have k4 : (1 + u) * (1 - u) ^ 2 ≤ 1 := by nlinarith [mul_nonneg u0 u0, mul_nonneg u0 hb.le]
          calc (1 - z * t) * (1 - u) ^ 2 ≤ (1 - z) * (1 + u) * (1 - u) ^ 2 := by gcongr
            _ = (1 - z) * ((1 + u) * (1 - u) ^ 2) := by ring
            _ ≤ (1 - z) * 1 := by gcongr
            _ = 1 - z := mul_one _
      exact (this.trans R.u_lt hw).mono u0 R.u_lt (by norm_num)
    have ra : RelF u 1 (df1 / df2) (fin (df1 / 2) / fin (df2 / 2)) := by
      have := (RelF.lift (u := u) (df1 / 2)).div (RelF.lift (df2 / 2)) d2.ne'
      rw [show df1 / 2 / (df2 / 2) = df1 / df2 by field_simp] at this
      exact this.mono (by norm_num)
    have hv : qf (fin p) (fin df1) (fin df2) = fin y / (fin (df1 / 2) / fin (df2 / 2) * (1 - fin y)) := by
      have n1 : ¬ df1 < Lib.eps := by linarith
      have n2 : ¬ df2 < Lib.eps := by linarith
      have n3 : ¬ p < 0 := by linarith
      have n4 : ¬ 1 < p := by linarith
      have n5 : ¬ df1 / 2 < 0 := by linarith
      have n6 : ¬ df2 / 2 < 0 := by linarith
      rw [qf, if_neg (by simp [f_ok, eps, n1, n2]), if_neg (by simp [prob_val_ok, n3, n4]), if_neg (by simp [h0.ne']),
        if_neg (by simp [hlt.ne]), if_neg (by simp), qf_compute, fin_half r1, fin_half r2, ibetaInv,
        if_neg (by simp [n3, n4, n5, n6]), ey, ofE_coe]
      rfl
    rw [hv]
    exact ((ry.div (ra.mul r1y) (by positivity)).mono (by norm_num)).relAcc

/-! ### Student's t -/

theorem RelF.sqrt {k x : ℝ} {f : Fl} (h : RelF u k x f) (hx : 0 ≤ x) : RelF u (k + 1) √x (Fl.sqrt f) := by
  obtain ⟨hk, y, rfl, h⟩ := h
  have hb : 0 < 1 - u := by linarith [R.u_lt]
  obtain ⟨t, h1, h2, rfl⟩ := id h
  have t0 : 0 < t := (Real.rpow_pos_of_pos hb _).trans_le h1
  have hy : 0 ≤ x * t := by positivity
  obtain ⟨w, ew, hw⟩ := R.sqrt _ hy
  refine ⟨by linarith, w, ?_, ?_⟩
  · have : ¬ x * t < 0 := by linarith
    simp [Fl.sqrt, this, ew]
  · refine Rel.trans R.u_lt (y := √(x * t)) ⟨√t, ?_, ?_, Real.sqrt_mul hx t⟩ hw
    · refine Real.le_sqrt_of_sq_le (le_trans ?_ h1)
      rw [← Real.rpow_natCast, ← Real.rpow_mul hb.le]
      exact Real.rpow_le_rpow_of_exponent_ge hb (by linarith [R.u_nonneg]) (by push_cast; linarith)
    · refine Real.sqrt_le_iff.2 ⟨by positivity, h2.trans ?_⟩
      rw [← Real.rpow_natCast, ← Real.rpow_mul hb.le]
      exact Real.rpow_le_rpow_of_exponent_ge hb (by linarith [R.u_nonneg]) (by push_cast; linarith)

/-- `pbeta` at an argument known up to roundings, away from 1 -/
theorem RelF.pbeta_lower {a b k x : ℝ} {f : Fl} (ha : 0 < a) (hb : 0 < b) (h : RelF u k x f) (hx : 0 ≤ x) (hx1 : x ≤ 2 / 3)
    (hf : ∀ y, f = fin y → y ≤ 2 / 3) : RelF u (k * (a + 2) + 1) (betaI a b x) (pbeta f (fin a) (fin b) false) := by
  obtain ⟨hk, y, rfl, h⟩ := h
  have n3 : ¬ a < 0 := by linarith
  have n4 : ¬ b < 0 := by linarith
  rcases hx.eq_or_lt with rfl | hx
  · obtain ⟨t, -, -, rfl⟩ := h
    refine ⟨by positivity, 0, ?_, ?_⟩
    · simp [pbeta, pbeta_compute, beta_ok', beta_ok, n3, n4, log_zero_if, ha.ne', hb.ne']
    · rw [betaI_zero]
      exact (Rel.refl (u := u) 0).mono R.u_nonneg R.u_lt (by positivity)
  · have y0 := h.pos R.u_lt hx
    have y1 := hf y rfl
    obtain ⟨w, ew, hw⟩ := R.ibeta a b y ha hb y0 (by linarith)
    refine ⟨by positivity, w, ?_, (h.betaI_lower R.u_nonneg R.u_lt hk ha hb hx hx1 y1).trans R.u_lt hw⟩
    have n1 : ¬ y ≤ 0 := by linarith
    have n2 : ¬ 1 ≤ y := by linarith
    have n5 : ¬ y < 0 := by linarith
    have n6 : ¬ 1 < y := by linarith
    simp [pbeta, pbeta_compute, beta_ok', beta_ok, n1, n2, n3, n4, n5, n6, ha.ne', hb.ne', Fl.ibeta, ew, log_if]

omit [Lib] R in
theorem pow_neg_le {u : ℝ} (h0 : 0 ≤ u) (hu : u ≤ 1 / 100) {n : ℕ} (hn : n ≤ 8) {k : ℝ} (hk : k ≤ n) :
    (1 - u) ^ (-k) ≤ 100 / 92 := by
  have hb : 0 < 1 - u := by linarith
  have h1 : (1 - u) ^ (-k) ≤ (1 - u) ^ (-(8 : ℝ)) := by
    refine Real.rpow_le_rpow_of_exponent_ge hb (by linarith) ?_
    have : (n : ℝ) ≤ 8 := by exact_mod_cast hn
    linarith
  refine h1.trans ?_
  rw [Real.rpow_neg hb.le, show (8 : ℝ) = ((8 : ℕ) : ℝ) by norm_num, Real.rpow_natCast]
  rw [inv_le_comm₀ (by positivity) (by norm_num)]
  have := one_add_mul_le_pow (a := -u) (by linarith) 8
  rw [← sub_eq_add_neg] at this
  push_cast at this
  norm_num at this ⊢
  linarith

theorem rel_le {k x y : ℝ} (h : Rel u k x y) (h0 : 0 ≤ x) : y ≤ x * (1 - u) ^ (-k) ∧ x ≤ y * (1 - u) ^ (-k) := by
  obtain ⟨t, h1, h2, rfl⟩ := h
  have hb : 0 < 1 - u := by linarith [R.u_lt]
  refine ⟨by gcongr, ?_⟩
  have : 1 ≤ t * (1 - u) ^ (-k) := by
    calc (1 : ℝ) = (1 - u) ^ k * (1 - u) ^ (-k) := by rw [← Real.rpow_add hb]; simp
      _ ≤ _ := by gcongr
  calc x = x * 1 := (mul_one x).symm
    _ ≤ x * (t * (1 - u) ^ (-k)) := by gcongr
    _ = _ := by ring

/-- the branch for small arguments -/
theorem pt_main_1_acc {x r : ℝ} (hu : u ≤ 1 / 100) (hr : 0 < r) (hh : Lib.rnd r = r) (hc : fin r > fin x * fin x) :
    OffF u 13 1 (tTail r x / 2) (pt_compute_main_1 (fin x * fin x) (fin r)) := by
  have u0 := R.u_nonneg
  have rz := (RelF.lift (u := u) x).mul (RelF.lift x)
  have x2 : 0 ≤ x * x := mul_self_nonneg x
  have rw1 := rz.div (((RelF.lift (u := u) r).mono (l := 0 + 0 + 1) (by norm_num)).add rz hr.le x2) (by positivity)
  have hw := rw1.mono (l := 4) (by norm_num)
  obtain ⟨_, z, ez, hz⟩ := id rz
  rw [ez] at hc
  have hzr : z < r := by simpa using hc
  have z0 : 0 ≤ z := by
    obtain ⟨t, h1, -, rfl⟩ := hz
    have := (Real.rpow_pos_of_pos (by linarith [R.u_lt] : (0 : ℝ) < 1 - u) _).trans_le h1
    positivity
  have hf : ∀ y, fin x * fin x / (fin r + fin x * fin x) = fin y → y ≤ 100 / 184 := by
    intro y ey
    have rc := (RelF.lift (u := u) z).div (((RelF.lift (u := u) r)).add (RelF.lift z) hr.le z0) (by positivity)
    rw [ez] at ey
    rw [ey] at rc
    obtain ⟨_, y', e', h'⟩ := rc
    obtain rfl : y = y' := by simpa using e'
    have h1 := (rel_le h' (by positivity)).1
    have h2 := pow_neg_le u0 hu (n := 8) le_rfl (k := 0 + (0 + 1) + 1) (by norm_num)
    have h3 : z / (r + z) ≤ 1 / 2 := by rw [div_le_iff₀ (by positivity)]; linarith
    have h4 : 0 ≤ z / (r + z) := by positivity
    calc y ≤ _ := h1
      _ ≤ 1 / 2 * (100 / 92) := mul_le_mul h3 h2 (Real.rpow_nonneg (by linarith) _) (by norm_num)
      _ = _ := by norm_num
  have hx1 : x * x / (r + x * x) ≤ 2 / 3 := by
    obtain ⟨_, y, ey, hy⟩ := id hw
    have h1 := (rel_le hy (by positivity)).2
    have h2 := pow_neg_le u0 hu (n := 8) le_rfl (k := 4) (by norm_num)
    calc _ ≤ _ := h1
      _ ≤ 100 / 184 * (100 / 92) := mul_le_mul (hf y ey) h2 (Real.rpow_nonneg (by linarith) _) (by norm_num)
      _ ≤ _ := by norm_num
  have hB := hw.pbeta_lower (a := 1 / 2) (b := r / 2) (by norm_num) (by positivity) (by positivity) hx1
    (fun y ey => (hf y ey).trans (by norm_num))
  have hsym : tTail r x / 2 = 1 / 2 - betaI (1 / 2) (r / 2) (x * x / (r + x * x)) / 2 := by
    have hm : r / (r + x ^ 2) ∈ Set.Icc (0 : ℝ) 1 := t_arg_mem hr
    rw [tTail, betaI_symm (half_pos hr) (by norm_num) hm]
    have e : 1 - r / (r + x ^ 2) = x * x / (r + x * x) := by
      have : r + x * x ≠ 0 := by positivity
      rw [show x ^ 2 = x * x by ring]; field_simp; ring
    rw [e]; ring
  have hm := betaI_mem (a := 1 / 2) (b := r / 2) (z := x * x / (r + x * x)) (by norm_num) (by positivity)
    ⟨by positivity, by linarith⟩
  have hd := hB.div relF_two two_ne_zero
  have c := (relF_half (u := u)).off.sub (hd.off.mono le_rfl (n := 1 / 2) (by
    rw [abs_of_nonneg (by linarith [hm.1])]; linarith [hm.2]))
  rw [hsym, pt_compute_main_1, fin_half hh]
  exact c.mono (by norm_num) (by norm_num [abs_of_pos])

/-- the branch for large arguments -/
theorem pt_main_2_acc {x r : ℝ} (hu : u ≤ 1 / 100) (hr : 0 < r) (hh : Lib.rnd r = r) (hc : r ≤ x ^ 2 * (100 / 92)) :
    RelF u (2 * r + 10) (tTail r x / 2) (pt_compute_main_2 (1 + (fin x / fin r) * fin x) (fin r)) := by
  have u0 := R.u_nonneg
  have rz := ((RelF.lift (u := u) x).div (RelF.lift r) hr.ne').mul (RelF.lift x)
  have x2 : 0 ≤ x / r * x := by
    rw [div_mul_eq_mul_div]; exact div_nonneg (mul_self_nonneg x) hr.le
  have ro := ((relF_one (u := u)).mono (l := 0 + 0 + 1 + 0 + 1) (by norm_num)).add rz zero_le_one x2
  have hw := ((relF_one (u := u)).div ro (by positivity)).mono (l := 4) (by norm_num)
  have e : 1 / (1 + x / r * x) = r / (r + x ^ 2) := by
    have : r + x ^ 2 ≠ 0 := by positivity
    field_simp
  have hx1 : 1 / (1 + x / r * x) ≤ 100 / 192 := by
    rw [e, div_le_iff₀ (by positivity)]; linarith
  have hp := pow_neg_le u0 hu (n := 8) le_rfl (k := 4) (by norm_num)
  have hB := hw.pbeta_lower (a := r / 2) (b := 1 / 2) (by positivity) (by norm_num) (by positivity)
    (hx1.trans (by norm_num)) (fun y ey => by
      obtain ⟨_, y', e', h'⟩ := id hw
      obtain rfl : y = y' := by rw [ey] at e'; simpa using e'
      calc y ≤ _ := (rel_le h' (by positivity)).1
        _ ≤ 100 / 192 * (100 / 92) := mul_le_mul hx1 hp (Real.rpow_nonneg (by linarith) _) (by norm_num)
        _ ≤ _ := by norm_num)
  have hd := hB.div relF_two two_ne_zero
  rw [e] at hd
  rw [tTail, pt_compute_main_2, fin_half hh]
  exact hd.mono (by linarith)

/-- The absolute error is small everywhere. `dof` has to be representable: the incomplete beta function is called
at `dof/2`. -/
theorem C49_pt {dof : ℝ} (hu : u ≤ 1 / 100) (h : Lib.eps ≤ dof) (hh : Lib.rnd dof = dof) (x : ℝ) :
    AbsAcc u (2 * dof + 14) 2 (pt (fin x) (fin dof) false) (∫ t in Set.Iic x, tPdf dof t) := by
  have hr := Lib.eps_pos.trans_le h
  have hv : pt (fin x) (fin dof) false = pt_compute (fin x) (fin dof) := by
    have n1 : ¬ dof < Lib.eps := by linarith
    simp [pt, t_ok', t_ok, eps, n1, log_if]
  rw [hv, pt_compute]
  by_cases d1 : dof = 1
  · rw [if_pos (by simp [d1]), d1, isCdf_t_one.running x]
    have hpi := Real.pi_pos
    have z := (RelF.lift (u := u) x).atan.div relF_pi hpi.ne'
    have m : |Real.arctan x / Real.pi| ≤ 1 / 2 := by
      rw [abs_div, abs_of_pos hpi, div_le_iff₀ hpi]
      exact abs_le.2 ⟨by linarith [Real.neg_pi_div_two_lt_arctan x], by linarith [Real.arctan_lt_pi_div_two x]⟩
    have c := (relF_half (u := u)).off.add (z.off.mono le_rfl m)
    exact (c.mono (by norm_num) (by norm_num)).absAcc
  rw [if_neg (by simp [d1])]
  by_cases d2 : dof = 2
  · rw [if_pos (by simp [d2]), d2, isCdf_t_two.running x]
    have x2 : 0 ≤ x * x := mul_self_nonneg x
    have s := ((((RelF.lift (u := u) x).mul (RelF.lift x)).add (relF_two.mono (l := 0 + 0 + 1) (by norm_num)) x2
      (by norm_num)).sqrt (by positivity))
    have s0 : 0 < √(x * x + 2) := Real.sqrt_pos.2 (by positivity)
    have z := (RelF.lift (u := u) x).div (relF_two.mul s) (by positivity)
    have m : |x / (2 * √(x * x + 2))| ≤ 1 / 2 := by
      rw [abs_div, abs_of_pos (by positivity : 0 < 2 * √(x * x + 2)), div_le_iff₀ (by positivity)]
      have : |x| ≤ √(x * x + 2) := by
        rw [← Real.sqrt_mul_self_eq_abs]; exact Real.sqrt_le_sqrt (by linarith)
      linarith
    have c := (relF_half (u := u)).off.add (z.off.mono le_rfl m)
    exact (c.mono (by norm_num) (by norm_num)).absAcc
  rw [if_neg (by simp [d2]), (isCdf_t hr).running x, pt_compute_main, tCdf]
  have hT := tTail_mem hr x
  have key : ∀ f, OffF u (2 * dof + 13) 1 (tTail dof x / 2) f →
      AbsAcc u (2 * dof + 14) 2 (if fin x > 0 then 1 - f else f) (if 0 < x then 1 - tTail dof x / 2 else tTail dof x / 2) := by
    intro f hf
    by_cases hx : 0 < x
    · rw [if_pos (by simpa using hx), if_pos hx]
      refine ((relF_one (u := u)).off.sub hf).mono ?_ ?_ |>.absAcc
      · rw [max_eq_right (by positivity)]; linarith
      · norm_num
    · rw [if_neg (by simpa using hx), if_neg hx]
      exact (hf.mono (by linarith) (by norm_num)).absAcc
  by_cases hc : fin dof > fin x * fin x
  · rw [if_pos hc]
    exact key _ ((pt_main_1_acc hu hr hh hc).mono (by linarith) le_rfl)
  · rw [if_neg hc]
    refine key _ ((pt_main_2_acc hu hr hh ?_).off.mono (by linarith) ?_)
    · obtain ⟨_, z, ez, hz⟩ := (RelF.lift (u := u) x).mul (RelF.lift x)
      rw [ez] at hc
      have hc' : dof ≤ z := by simpa using hc
      have h1 := (rel_le hz (mul_self_nonneg x)).1
      have h2 := pow_neg_le R.u_nonneg hu (n := 8) le_rfl (k := 0 + 0 + 1) (by norm_num)
      calc dof ≤ z := hc'
        _ ≤ _ := h1
        _ ≤ x * x * (100 / 92) := mul_le_mul_of_nonneg_left h2 (mul_self_nonneg x)
        _ = _ := by ring
    · rw [abs_of_nonneg (by linarith [hT.1])]; linarith [hT.2]

/-- In the lower tail the relative error is small too, except at one and two degrees of freedom, where the code
adds 1/2 to a number near -1/2. -/
theorem C49_pt_lower {dof x : ℝ} (hu : u ≤ 1 / 100) (h : Lib.eps ≤ dof) (hh : Lib.rnd dof = dof) (d1 : dof ≠ 1)
    (d2 : dof ≠ 2) (hx : x < 0) (hxd : dof ≤ x ^ 2 * (1 - u)) :
    RelAcc u (2 * dof + 10) (pt (fin x) (fin dof) false) (∫ t in Set.Iic x, tPdf dof t) ∧
    AbsAcc u (2 * dof + 11) (|Real.log (∫ t in Set.Iic x, tPdf dof t)| + 1) (pt (fin x) (fin dof) true)
      (Real.log (∫ t in Set.Iic x, tPdf dof t)) := by
  have hr := Lib.eps_pos.trans_le h
  have u0 := R.u_nonneg
  have hx2 : 0 < x ^ 2 := by have := hx.ne; positivity
  have hr' := pt_main_2_acc (u := u) (x := x) hu hr hh (by nlinarith)
  have hc : ¬ fin dof > fin x * fin x := by
    obtain ⟨_, z, ez, hz⟩ := (RelF.lift (u := u) x).mul (RelF.lift x)
    rw [ez]
    obtain ⟨t, h1, -, rfl⟩ := hz
    rw [show (0 : ℝ) + 0 + 1 = 1 by norm_num, Real.rpow_one] at h1
    have : dof ≤ x * x * t := by
      calc dof ≤ x ^ 2 * (1 - u) := hxd
        _ ≤ x ^ 2 * t := by gcongr
        _ = _ := by ring
    simpa using this
  have hv : ∀ f, pt (fin x) (fin dof) f = Stats.log_if (pt_compute_main_2 (1 + (fin x / fin dof) * fin x) (fin dof)) f := by
    intro f
    have n1 : ¬ dof < Lib.eps := by linarith
    have n2 : ¬ fin x > 0 := by simpa using hx.le
    rw [pt, if_neg (by simp [t_ok', t_ok, eps, n1]), if_neg (by simp), if_neg (by simp), if_neg (by simp), pt_compute,
      if_neg (by simp [d1]), if_neg (by simp [d2]), pt_compute_main, if_neg hc, if_neg n2]
  have hT : 0 < tTail dof x / 2 := by
    have := betaI_pos (a := dof / 2) (b := 1 / 2) (z := dof / (dof + x ^ 2)) (by positivity) (by norm_num) (by positivity)
      (t_arg_mem hr).2
    rw [tTail]; linarith
  rw [hv, hv, (isCdf_t hr).running x, tCdf, if_neg (by linarith)]
  have := hr'.log_if hT
  rw [show 2 * dof + 10 + 1 = 2 * dof + 11 by ring] at this
  exact this

end Stats

/-! ### Instances: 53-bit arithmetic without a bound on the exponent. -/

namespace Stats.ExamplesC49D
open Fl Spec

set_option warn.classDefReducibility false in
attribute [local instance] wideLib
attribute [local instance] wideLib_rel

theorem rnd_three : Lib.rnd (3 : ℝ) = ((3 : ℝ) : EReal) := by
  have := Lib.rnd_half 6 (by norm_num); norm_num at this ⊢; exact this
theorem rnd_five : Lib.rnd (5 : ℝ) = ((5 : ℝ) : EReal) := by
  have := Lib.rnd_half 10 (by norm_num); norm_num at this ⊢; exact this
theorem rnd_half : Lib.rnd (1 - 1 / 2 : ℝ) = ((1 - 1 / 2 : ℝ) : EReal) := by
  have := Lib.rnd_half 1 (by norm_num); norm_num at this ⊢

example := C49_pgamma (u := 1 / 2 ^ 53) (shape := 1 / 3) (scale := 2) (x := 5) (by norm_num)
  (Lib.eps_le.trans (by norm_num)) (Lib.eps_le.trans (by norm_num))
example := C49_pchisq (u := 1 / 2 ^ 53) (dof := 3) (x := 5) (by norm_num) rnd_three (Lib.eps_le.trans (by norm_num))
example := C49_pbeta (u := 1 / 2 ^ 53) (a := 1 / 3) (b := 2) (x := 1 / 5) (by norm_num) (by norm_num) (by norm_num) (by norm_num)
example := C49_pinvgamma (u := 1 / 2 ^ 53) (shape := 2) (rate := 3) (x := 1 / 5) (by norm_num) (by norm_num) (by norm_num)
  (Lib.eps_le.trans (by norm_num)) (Lib.eps_le.trans (by norm_num))
example := C49_plnorm (u := 1 / 2 ^ 53) (x := 3) (Lib.eps_le.trans (by norm_num)) 1 (sigma := 2) (by norm_num)
example := C49_pf_partial (u := 1 / 2 ^ 53) (df1 := 3) (df2 := 5) (x := 2) (Lib.eps_le.trans (by norm_num)) (by norm_num)
  rnd_three rnd_five (Lib.eps_le.trans (by norm_num))
  (by rw [show (6 : ℝ) = ((6 : ℕ) : ℝ) by norm_num, Real.rpow_natCast]; norm_num)
example := C49_pt (u := 1 / 2 ^ 53) (dof := 3) (by norm_num) (Lib.eps_le.trans (by norm_num)) rnd_three (-7)
example := C49_pt_lower (u := 1 / 2 ^ 53) (dof := 3) (x := -7) (by norm_num) (Lib.eps_le.trans (by norm_num)) rnd_three
  (by norm_num) (by norm_num) (by norm_num) (by norm_num)
example := C49_qgamma (u := 1 / 2 ^ 53) (shape := 1 / 3) (scale := 2) (p := 1 / 5) (by norm_num)
  (Lib.eps_le.trans (by norm_num)) (by norm_num) (by norm_num)
example := C49_qchisq (u := 1 / 2 ^ 53) (dof := 3) (p := 1 / 5) (by norm_num) rnd_three (by norm_num) (by norm_num)
example := C49_qbeta (u := 1 / 2 ^ 53) (a := 1 / 3) (b := 2) (p := 1 / 5) (by norm_num) (by norm_num) (by norm_num) (by norm_num)
example := C49_qinvgamma_partial (u := 1 / 2 ^ 53) (shape := 2) (rate := 3) (p := 1 / 2) (by norm_num) (by norm_num)
  (by norm_num) (by norm_num) rnd_half
example : ∃ p, 0 < p ∧ ∃ q, (∫ t in Set.Iic q, fPdf 3 5 t) = p ∧ RelAcc (1 / 2 ^ 53) 7 (qf (fin p) (fin 3) (fin 5)) q := by
  have h : 0 < ∫ t in Set.Iic ((5 : ℝ) / 3), fPdf 3 5 t := by
    rw [(isCdf_f (by norm_num) (by norm_num)).running, if_pos (by norm_num), fCdf]
    exact betaI_pos (by norm_num) (by norm_num) (by norm_num) (by norm_num)
  exact ⟨_, h, C49_qf_partial (by norm_num) (Lib.eps_le.trans (by norm_num)) (Lib.eps_le.trans (by norm_num)) rnd_three
    rnd_five h le_rfl⟩

end Stats.ExamplesC49D
