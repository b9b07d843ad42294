import Verif.Lemmas.RoundInst
import Verif.Props.C08
import Verif.Lemmas.Meets

/-!
# C49: accuracy of the densities under rounding

Every bound is relative to the exact textbook density of `Verif/Spec/Densities.lean`; the arithmetic is any
`RelLib u` (relative error `u` per operation and library call, no overflow or underflow).
-/

set_option linter.unusedSectionVars false
open Classical
namespace Stats
open Fl Spec
variable [Lib] {u : ℝ} [R : RelLib u]

theorem OffF.logAcc {k m p : ℝ} {f : Fl} {v : Bool → Fl} (hp : 0 < p) (h : OffF u k m (Real.log p) f)
    (hv : ∀ b, v b = exp_if f (!b)) : LogAcc u k m v p := by
  refine ⟨hp, ?_, ?_⟩
  · obtain ⟨_, _, y, e, h⟩ := h
    exact ⟨y, by rw [hv, ← e]; rfl, h⟩
  · obtain ⟨y, e, h1, h2⟩ := h.exp
    rw [Real.exp_log hp] at h1 h2
    exact ⟨y, by rw [hv, ← e]; rfl, h1, h2⟩

theorem OffF.absAcc {k m x : ℝ} {f : Fl} (h : OffF u k m x f) : AbsAcc u k m f x := by
  obtain ⟨_, _, y, e, h⟩ := h; exact ⟨y, e, h⟩

theorem RelF.relAcc {k x : ℝ} {f : Fl} (h : RelF u k x f) : RelAcc u k f x := h.2

theorem relF_one : RelF u 0 1 (1 : Fl) := by simpa using RelF.lift (u := u) ((1 : ℕ) : ℝ)
theorem relF_two : RelF u 0 2 (2 : Fl) := by simpa using RelF.lift (u := u) ((2 : ℕ) : ℝ)
theorem relF_three : RelF u 0 3 (3 : Fl) := by simpa using RelF.lift (u := u) ((3 : ℕ) : ℝ)
theorem relF_half : RelF u 0 (1 / 2) half := RelF.lift _
theorem relF_pi : RelF u 1 Real.pi PI := ⟨zero_le_one, _, rfl, R.pi⟩
theorem relF_log2pi : RelF u 1 (Real.log (2 * Real.pi)) LOG2PI := ⟨zero_le_one, _, rfl, R.log2pi⟩
theorem relF_log2 : RelF u 1 (Real.log 2) LOG2 := ⟨zero_le_one, _, rfl, R.log2⟩
theorem relF_logpi : RelF u 1 (Real.log Real.pi) LOGPI := ⟨zero_le_one, _, rfl, R.logpi⟩
theorem relF_sqrt2 : RelF u 1 √2 SQRT2 := ⟨zero_le_one, _, rfl, R.sqrt2⟩

/-- one minus an exact number -/
theorem relF_one_sub (x : ℝ) : RelF u 1 (1 - x) (1 - fin x) := by
  have := relF_sub (u := u) ((1 : ℕ) : ℝ) x
  simpa using this

theorem relF_sub_one (x : ℝ) : RelF u 1 (x - 1) (fin x - 1) := by
  have := relF_sub (u := u) x ((1 : ℕ) : ℝ)
  simpa using this

/-! ### normal family -/

theorem log2pi_pos : 0 < Real.log (2 * Real.pi) := Real.log_pos (by nlinarith [Real.pi_gt_three])

/-- the logarithm of the normal density at a point known up to rounding errors -/
theorem dnorm_off {x m k : ℝ} {f : Fl} (mu : ℝ) {sigma : ℝ} (h : 0 < sigma) (hf : OffF u k m (x - mu) (f - fin mu)) :
    OffF u (2 * k + 5) (1 / 2 * Real.log (2 * Real.pi) + (|Real.log sigma| + 1) + (m / sigma) ^ 2 / 2)
      (Real.log (normPdf mu sigma x)) (dnorm_log_compute ((f - fin mu) / fin sigma) (fin sigma)) := by
  have hk := hf.1
  have a := (relF_half (u := u)).neg.mul relF_log2pi
  have b := (RelF.lift (u := u) sigma).log h
  have z := hf.div (RelF.lift (u := u) sigma) h.ne'
  have c := (z.mul z).div (relF_two (u := u)) two_ne_zero
  have := (a.off.sub b).sub c
  rw [dnorm_log_compute, log_normPdf h]
  refine this.mono ?_ ?_
  · rw [show Max.max (0 + 1 + 1) (0 + 1) + 1 = (3 : ℝ) by norm_num]
    rcases max_choice 3 (k + 0 + 1 + (k + 0 + 1) + 1 + 0 + 1) with e | e <;> rw [e] <;> linarith
  · rw [abs_of_pos h, abs_two, abs_mul, abs_neg, abs_of_pos (log2pi_pos), abs_of_pos (by norm_num : (0 : ℝ) < 1 / 2)]
    exact (by ring : _ = _).le

theorem C49_dnorm (x mu : ℝ) {sigma : ℝ} (h : 0 < sigma) :
    LogAcc u 7 (1 / 2 * Real.log (2 * Real.pi) + |Real.log sigma| + 1 + ((x - mu) / sigma) ^ 2 / 2)
      (dnorm (fin x) (fin mu) (fin sigma)) (normPdf mu sigma x) := by
  have := dnorm_off mu h (relF_sub (u := u) x mu).off
  refine OffF.logAcc (normPdf_pos h x) (this.mono (by norm_num) (by rw [div_pow, sq_abs, ← div_pow]; linarith)) fun b => ?_
  have h0 : ¬ sigma < 0 := by linarith
  have h1 : ¬ sigma = 0 := by linarith
  simp [dnorm, norm_ok', norm_ok, h0, h1]
example : LogAcc u 7 (1 / 2 * Real.log (2 * Real.pi) + |Real.log 2| + 1 + (((1 / 2) - 3) / 2) ^ 2 / 2)
      (dnorm (fin (1 / 2)) (fin 3) (fin 2)) (normPdf 3 2 (1 / 2)) :=
  C49_dnorm (x := 1 / 2) (mu := 3) (sigma := 2) (h := by meets)

theorem lnormPdf_eq {mu sigma x : ℝ} (hx : 0 < x) : lnormPdf mu sigma x = normPdf mu sigma (Real.log x) / x := by
  rw [lnormPdf, if_pos hx, normPdf]; field_simp

/-- log form of the log-normal density; the plain form is `C49_dlnorm_plain` -/
theorem C49_dlnorm {x : ℝ} (hx : 0 < x) (mu : ℝ) {sigma : ℝ} (h : 0 < sigma) :
    AbsAcc u 10 (1 / 2 * Real.log (2 * Real.pi) + |Real.log sigma| + 1 +
        ((|Real.log x| + 1 + |mu|) / sigma) ^ 2 / 2 + (|Real.log x| + 1))
      (dlnorm (fin x) (fin mu) (fin sigma) true) (Real.log (lnormPdf mu sigma x)) := by
  have hl := (RelF.lift (u := u) x).log hx
  have hf := hl.sub (RelF.lift (u := u) mu).off
  have h0 : ¬ sigma < 0 := by linarith
  have h1 : ¬ sigma = 0 := by linarith
  have h2 : ¬ x < 0 := by linarith
  obtain ⟨_, _, y, e, _⟩ := id hl
  have e2 : dlnorm (fin x) (fin mu) (fin sigma) true =
      dnorm_log_compute ((log (fin x) - fin mu) / fin sigma) (fin sigma) - log (fin x) := by
    simp [dlnorm, lnorm_ok', lnorm_ok, dlnorm_log_check, dnorm, norm_ok', norm_ok, h0, h1, h2, e, exp_if]
  have := (dnorm_off mu h hf).sub hl
  rw [e2, lnormPdf_eq hx, Real.log_div (normPdf_pos h _).ne' hx.ne']
  refine (this.mono (by norm_num) ?_).absAcc
  linarith
example : AbsAcc u 10 (1 / 2 * Real.log (2 * Real.pi) + |Real.log 2| + 1 +
        ((|Real.log (1 / 2)| + 1 + |3|) / 2) ^ 2 / 2 + (|Real.log (1 / 2)| + 1))
      (dlnorm (fin (1 / 2)) (fin 3) (fin 2) true) (Real.log (lnormPdf 3 2 (1 / 2))) :=
  C49_dlnorm (x := 1 / 2) (hx := by meets) (mu := 3) (sigma := 2) (h := by meets)

theorem C49_dlnorm_plain {x : ℝ} (hx : 0 < x) (mu : ℝ) {sigma : ℝ} (h : 0 < sigma) :
    let e := gam u 9 * (1 / 2 * Real.log (2 * Real.pi) + |Real.log sigma| + 1 +
        ((|Real.log x| + 1 + |mu|) / sigma) ^ 2 / 2)
    ∃ y, dlnorm (fin x) (fin mu) (fin sigma) false = fin y ∧
      lnormPdf mu sigma x * Real.exp (-e) * (1 - u) ^ 2 ≤ y ∧
      y ≤ lnormPdf mu sigma x * Real.exp e / (1 - u) ^ 2 := by
  intro e
  have hl := (RelF.lift (u := u) x).log hx
  have hf := hl.sub (RelF.lift (u := u) mu).off
  have h0 : ¬ sigma < 0 := by linarith
  have h1 : ¬ sigma = 0 := by linarith
  have h2 : ¬ x < 0 := by linarith
  obtain ⟨_, _, w, ew, _⟩ := id hl
  have hn := (dnorm_off mu h hf).mono (l := 9) (by norm_num) (le_refl _)
  obtain ⟨y, ey, hy1, hy2⟩ := hn.exp
  have e2 : dlnorm (fin x) (fin mu) (fin sigma) false = fin y / fin x := by
    rw [← ey]
    simp [dlnorm, lnorm_ok', lnorm_ok, dlnorm_log_check, dnorm, norm_ok', norm_ok, h0, h1, h2, ew, exp_if]
  rw [Real.exp_log (normPdf_pos h _)] at hy1 hy2
  rw [← add_assoc] at hy1 hy2
  change normPdf mu sigma (Real.log x) * Real.exp (-e) * (1 - u) ≤ y at hy1
  change y ≤ normPdf mu sigma (Real.log x) * Real.exp e / (1 - u) at hy2
  obtain ⟨_, z, ez, t, t1, t2, et⟩ := (RelF.lift (u := u) y).div (RelF.lift x) hx.ne'
  have p : 0 < 1 - u := by linarith [R.u_lt]
  rw [zero_add, zero_add, Real.rpow_one] at t1
  rw [zero_add, zero_add, Real.rpow_neg_one] at t2
  have hn := normPdf_pos (mu := mu) h (Real.log x)
  have hE := Real.exp_pos e
  have hE' := Real.exp_pos (-e)
  refine ⟨z, by rw [e2, ez], ?_, ?_⟩
  · rw [et, lnormPdf_eq hx]
    have : normPdf mu sigma (Real.log x) / x * Real.exp (-e) * (1 - u) ^ 2 =
        (normPdf mu sigma (Real.log x) * Real.exp (-e) * (1 - u)) / x * (1 - u) := by ring
    rw [this]
    have h3 : 0 ≤ y := le_trans (by positivity) hy1
    exact mul_le_mul (div_le_div_of_nonneg_right hy1 hx.le) t1 p.le (by positivity)
  · rw [et, lnormPdf_eq hx]
    have : normPdf mu sigma (Real.log x) / x * Real.exp e / (1 - u) ^ 2 =
        (normPdf mu sigma (Real.log x) * Real.exp e / (1 - u)) / x * (1 - u)⁻¹ := by
      field_simp
    rw [this]
    exact mul_le_mul (div_le_div_of_nonneg_right hy2 hx.le) t2 (p.le.trans t1) (by positivity)

/-! ### uniform, exponential, Cauchy, Laplace, logistic -/

theorem C49_dunif {a b x : ℝ} (h : a < b) (hx : x ∈ Set.Icc a b) :
    RelAcc u 2 (dunif (fin x) (fin a) (fin b) false) (unifPdf a b x) ∧
    AbsAcc u 2 (|Real.log (b - a)| + 1) (dunif (fin x) (fin a) (fin b) true) (Real.log (unifPdf a b x)) := by
  have h1 : 0 < b - a := by linarith
  have h2 : ¬ b ≤ a := by linarith
  have h3 : ¬ (x < a ∨ b < x) := by rintro (h | h) <;> linarith [hx.1, hx.2]
  have he : unifPdf a b x = 1 / (b - a) := if_pos hx
  have hs := relF_sub (u := u) b a
  constructor
  · have e : dunif (fin x) (fin a) (fin b) false = 1 / (fin b - fin a) := by
      simp [dunif, unif_ok', unif_ok, dunif_log_check, h2, h3]
    rw [e, he]
    exact (((relF_one (u := u)).div hs h1.ne').mono (by norm_num)).relAcc
  · have e : dunif (fin x) (fin a) (fin b) true = -log (fin b - fin a) := by
      simp [dunif, unif_ok', unif_ok, dunif_log_check, h2, h3]
    rw [e, he, one_div, Real.log_inv]
    exact ((hs.log h1).neg.mono (by norm_num) le_rfl).absAcc
example : RelAcc u 2 (dunif (fin 2) (fin 1) (fin 4) false) (unifPdf 1 4 2) ∧
    AbsAcc u 2 (|Real.log (4 - 1)| + 1) (dunif (fin 2) (fin 1) (fin 4) true) (Real.log (unifPdf 1 4 2)) :=
  C49_dunif (a := 1) (b := 4) (x := 2) (h := by meets) (hx := by meets)

theorem C49_dexp {rate x : ℝ} (h : 0 < rate) (hx : 0 ≤ x) :
    LogAcc u 2 (|Real.log rate| + 1 + rate * x) (dexp (fin x) (fin rate)) (expPdf rate x) := by
  have he : expPdf rate x = rate * Real.exp (-rate * x) := if_pos hx
  have a := (RelF.lift (u := u) rate).log h
  have b := (RelF.lift (u := u) rate).mul (RelF.lift x)
  refine OffF.logAcc (f := dexp_log_compute (fin x) (fin rate)) (by rw [he]; positivity) ?_ fun f => ?_
  · rw [he, Real.log_mul h.ne' (Real.exp_pos _).ne', Real.log_exp, neg_mul, ← sub_eq_add_neg]
    refine (a.sub b.off).mono (by norm_num) ?_
    rw [abs_of_nonneg (mul_nonneg h.le hx)]
  · have h0 : ¬ rate < 0 := by linarith
    have h1 : ¬ x < 0 := by linarith
    simp [dexp, exp_ok', exp_ok, h0, h1]
example : LogAcc u 2 (|Real.log 2| + 1 + 2 * (1 / 2)) (dexp (fin (1 / 2)) (fin 2)) (expPdf 2 (1 / 2)) :=
  C49_dexp (rate := 2) (x := 1 / 2) (h := by meets) (hx := by meets)

theorem C49_dcauchy (x mu : ℝ) {sigma : ℝ} (h : 0 < sigma) :
    RelAcc u 11 (dcauchy (fin x) (fin mu) (fin sigma) false) (cauchyPdf mu sigma x) ∧
    AbsAcc u 12 (|Real.log (cauchyPdf mu sigma x)| + 1) (dcauchy (fin x) (fin mu) (fin sigma) true)
      (Real.log (cauchyPdf mu sigma x)) := by
  have hpi := Real.pi_pos
  have hp : 0 < cauchyPdf mu sigma x := by unfold cauchyPdf; positivity
  have h0 : ¬ sigma < 0 := by linarith
  have z := (relF_sub (u := u) x mu).div (RelF.lift sigma) h.ne'
  have zz := z.mul z
  have hz : 0 ≤ (x - mu) / sigma * ((x - mu) / sigma) := mul_self_nonneg _
  have d := ((relF_one (u := u)).mono (by norm_num : (0 : ℝ) ≤ 1 + 0 + 1 + (1 + 0 + 1) + 1)).add zz zero_le_one hz
  have e := ((RelF.lift (u := u) sigma).mul relF_pi).mul d
  have r := (relF_one (u := u)).div e (by positivity)
  have r := r.mono (l := 11) (by norm_num)
  rw [show 1 / (sigma * Real.pi * (1 + (x - mu) / sigma * ((x - mu) / sigma))) = cauchyPdf mu sigma x by
    rw [cauchyPdf]; ring] at r
  have hv : ∀ b, dcauchy (fin x) (fin mu) (fin sigma) b =
      log_if (dcauchy_compute ((fin x - fin mu) / fin sigma) (fin sigma)) b := fun b => by
    simp [dcauchy, cauchy_ok', cauchy_ok, h0]
  refine ⟨?_, ?_⟩
  · rw [hv]; exact r.relAcc
  · rw [hv]
    exact ((r.log hp).mono (by norm_num) le_rfl).absAcc
example : RelAcc u 11 (dcauchy (fin (1 / 2)) (fin 3) (fin 2) false) (cauchyPdf 3 2 (1 / 2)) ∧
    AbsAcc u 12 (|Real.log (cauchyPdf 3 2 (1 / 2))| + 1) (dcauchy (fin (1 / 2)) (fin 3) (fin 2) true)
      (Real.log (cauchyPdf 3 2 (1 / 2))) :=
  C49_dcauchy (x := 1 / 2) (mu := 3) (sigma := 2) (h := by meets)

theorem C49_dlaplace (x mu : ℝ) {sigma : ℝ} (h : 0 < sigma) :
    LogAcc u 3 (|Real.log (2 * sigma)| + 1 + |x - mu| / sigma) (dlaplace (fin x) (fin mu) (fin sigma))
      (laplacePdf mu sigma x) := by
  have h2 : 0 < 2 * sigma := by linarith
  have a := ((relF_two (u := u)).mul (RelF.lift sigma)).log h2
  have b := ((relF_sub (u := u) x mu).abs).div (RelF.lift sigma) h.ne'
  refine OffF.logAcc (f := dlaplace_log_compute (fin x) (fin mu) (fin sigma)) (by unfold laplacePdf; positivity) ?_
    fun f => ?_
  · have e : Real.log (laplacePdf mu sigma x) = -Real.log (2 * sigma) - |x - mu| / sigma := by
      rw [laplacePdf, Real.log_mul (by positivity) (by positivity), Real.log_exp, one_div, Real.log_inv, neg_div,
        ← sub_eq_add_neg]
    rw [e]
    refine (a.neg.sub b.off).mono (by norm_num) ?_
    rw [abs_div, abs_abs, abs_of_pos h]
  · have h0 : ¬ sigma < 0 := by linarith
    have h1 : ¬ sigma = 0 := by linarith
    simp [dlaplace, laplace_ok', laplace_ok, h0, h1]
example : LogAcc u 3 (|Real.log (2 * 2)| + 1 + |(1 / 2) - 3| / 2) (dlaplace (fin (1 / 2)) (fin 3) (fin 2))
      (laplacePdf 3 2 (1 / 2)) :=
  C49_dlaplace (x := 1 / 2) (mu := 3) (sigma := 2) (h := by meets)

/-- `log(1 + exp(.))` does not amplify absolute errors -/
theorem log_one_add_exp (a b : ℝ) :
    |Real.log (1 + Real.exp a) - Real.log (1 + Real.exp b)| ≤ |a - b| := by
  wlog h : b ≤ a generalizing a b
  · rw [abs_sub_comm, abs_sub_comm a]; exact this b a (le_of_not_ge h)
  have h1 := Real.exp_pos a
  have h2 := Real.exp_pos b
  have h3 := Real.exp_le_exp.2 h
  rw [abs_of_nonneg (sub_nonneg.2 (Real.log_le_log (by positivity) (by linarith))), abs_of_nonneg (sub_nonneg.2 h),
    ← Real.log_div (by positivity) (by positivity)]
  rw [Real.log_le_iff_le_exp (by positivity), div_le_iff₀ (by positivity), Real.exp_sub]
  have : Real.exp a / Real.exp b * (1 + Real.exp b) = Real.exp a / Real.exp b + Real.exp a := by field_simp
  rw [this]
  have : 1 ≤ Real.exp a / Real.exp b := by rw [le_div_iff₀ h2]; linarith
  linarith

/-- `log(1 + exp(.))` of an argument known up to rounding errors -/
theorem OffF.log_one_add_exp {k m x : ℝ} {f : Fl} (h : OffF u k m x f) :
    OffF u (k + 3) (m + Real.log (1 + Real.exp x) + 1) (Real.log (1 + Real.exp x)) (Fl.log (1 + Fl.exp f)) := by
  obtain ⟨hk, hx, y, rfl, h⟩ := h
  obtain ⟨w, ew, hw⟩ := R.exp y
  have hp : 0 < 1 + Real.exp y := by positivity
  have e : Fl.exp (fin y) = fin w := by rw [Fl.exp, ew, ofE_coe]
  have r : RelF u 1 (Real.exp y) (Fl.exp (fin y)) := ⟨zero_le_one, w, e, hw⟩
  have s := ((relF_one (u := u)).mono zero_le_one).add r zero_le_one (Real.exp_pos y).le
  obtain ⟨_, _, v, ev, hv⟩ := s.log hp
  have hl : 0 ≤ Real.log (1 + Real.exp x) := Real.log_nonneg (by linarith [Real.exp_pos x])
  have hl' : 0 ≤ Real.log (1 + Real.exp y) := Real.log_nonneg (by linarith [Real.exp_pos y])
  have hm : 0 ≤ m := (abs_nonneg _).trans hx
  refine ⟨by linarith, by rw [abs_of_nonneg hl]; linarith, v, ev, ?_⟩
  have h1 := Stats.log_one_add_exp y x
  have h2 : |y - x| ≤ gam u k * m := h
  have h3 : |v - Real.log (1 + Real.exp y)| ≤ gam u 3 * (|Real.log (1 + Real.exp y)| + 1) := by
    rw [show (3 : ℝ) = 1 + 1 + 1 by norm_num]; exact hv
  rw [abs_of_nonneg hl'] at h3
  have h4 : Real.log (1 + Real.exp y) ≤ Real.log (1 + Real.exp x) + gam u k * m := by
    have := (abs_le.1 h1).2; linarith
  have gk := gam_nonneg R.u_nonneg R.u_lt hk
  have g3 := gam_nonneg R.u_nonneg R.u_lt (by norm_num : (0 : ℝ) ≤ 3)
  have g : gam u (k + 3) = gam u k * gam u 3 + gam u k + gam u 3 := by
    have := gam_add (k := k) (l := 3) R.u_lt; linarith
  have h5 := abs_add_le (v - Real.log (1 + Real.exp y)) (Real.log (1 + Real.exp y) - Real.log (1 + Real.exp x))
  rw [sub_add_sub_cancel] at h5
  rw [Off, g]
  have h6 : gam u 3 * (Real.log (1 + Real.exp y) + 1) ≤ gam u 3 * (Real.log (1 + Real.exp x) + gam u k * m + 1) :=
    mul_le_mul_of_nonneg_left (by linarith) g3
  nlinarith [mul_nonneg gk g3, mul_nonneg (mul_nonneg gk g3) hl, mul_nonneg gk hl, mul_nonneg g3 hm]

theorem C49_dlogis (x mu : ℝ) {sigma : ℝ} (h : 0 < sigma) :
    LogAcc u 7 (3 * |(x - mu) / sigma| + |Real.log sigma| + 3 + 2 * Real.log (1 + Real.exp (-((x - mu) / sigma))))
      (dlogis (fin x) (fin mu) (fin sigma)) (logisPdf mu sigma x) := by
  have z := (relF_sub (u := u) x mu).div (RelF.lift sigma) h.ne'
  have a := (RelF.lift (u := u) sigma).log h
  have l := z.neg.off.log_one_add_exp
  have c := (z.neg.off.sub a).sub ((relF_two (u := u)).off.mul l)
  refine OffF.logAcc (f := dlogis_log_compute ((fin x - fin mu) / fin sigma) (fin sigma))
    (by unfold logisPdf; positivity) ?_ fun f => ?_
  · rw [logisPdf, Real.log_div (by positivity) (by positivity), Real.log_exp, Real.log_mul h.ne' (by positivity),
      Real.log_pow]
    rw [show ∀ a b c : ℝ, a - (b + ((2 : ℕ) : ℝ) * c) = a - b - 2 * c by intros; push_cast; ring]
    refine c.mono (by norm_num) ?_
    rw [abs_neg, abs_two]
    linarith
  · have h0 : ¬ sigma < 0 := by linarith
    simp [dlogis, logis_ok', logis_ok, h0]
example : LogAcc u 7 (3 * |((1 / 2) - 3) / 2| + |Real.log 2| + 3 + 2 * Real.log (1 + Real.exp (-(((1 / 2) - 3) / 2))))
      (dlogis (fin (1 / 2)) (fin 3) (fin 2)) (logisPdf 3 2 (1 / 2)) :=
  C49_dlogis (x := 1 / 2) (mu := 3) (sigma := 2) (h := by meets)

/-! ### beta, gamma, inverse gamma, inverse Gaussian, chi-squared, t, Weibull -/

/-- `a + b` has to be representable: `lgamma` is called at the rounded sum -/
theorem C49_dbeta {a b x : ℝ} (ha : 0 < a) (hb : 0 < b) (hab : Lib.rnd (a + b) = ((a + b : ℝ) : EReal))
    (hx : x ∈ Set.Ioo (0 : ℝ) 1) :
    LogAcc u 6 (|Real.log (Real.Gamma a)| + |Real.log (Real.Gamma b)| + |Real.log (Real.Gamma (a + b))| + 3 +
        |a - 1| * (|Real.log x| + 1) + |b - 1| * (|Real.log (1 - x)| + 1))
      (dbeta (fin x) (fin a) (fin b)) (betaPdf a b x) := by
  have h1 := hx.1
  have h2 : 0 < 1 - x := by linarith [hx.2]
  have hB := beta_pos ha hb
  have es : fin a + fin b = fin (a + b) := by
    show ofE (Lib.rnd (a + b)) = _
    rw [hab, ofE_coe]
  have la := offF_lgamma (u := u) ha
  have lb := offF_lgamma (u := u) hb
  have lab := offF_lgamma (u := u) (add_pos ha hb)
  rw [← es] at lab
  have lx := (relF_sub_one (u := u) a).off.mul ((RelF.lift (u := u) x).log h1)
  have ly := (relF_sub_one (u := u) b).off.mul ((relF_one_sub (u := u) x).log h2)
  have c := (((la.add lb).sub lab).neg.add lx).add ly
  refine OffF.logAcc (f := dbeta_log_compute (fin x) (fin a) (fin b)) (betaPdf_pos ha hb hx) ?_ fun f => ?_
  · rw [betaPdf_eq hx, Real.log_mul (by positivity) (by positivity), Real.log_mul (by positivity) (by positivity),
      Real.log_rpow h1, Real.log_rpow h2, one_div, Real.log_inv, log_beta ha hb]
    refine c.mono (by norm_num) ?_
    linarith
  · have e1 : ¬ a < 0 := by linarith
    have e2 : ¬ b < 0 := by linarith
    have e3 : ¬ x < 0 := by linarith
    have e4 : ¬ 1 < x := by linarith
    have e5 : ¬ x = 1 := by linarith
    simp [dbeta, beta_ok', beta_ok, e1, e2, e3, e4, e5, ha.ne', hb.ne', h1.ne']

theorem C49_dgamma {shape scale x : ℝ} (hk : 0 < shape) (hs : Lib.eps ≤ scale) (hx : 0 < x) :
    LogAcc u 5 (|Real.log (Real.Gamma shape)| + 1 + shape * (|Real.log scale| + 1) +
        |shape - 1| * (|Real.log x| + 1) + x / scale)
      (dgamma (fin x) (fin shape) (fin scale)) (gammaPdf shape scale x) := by
  have hs0 := Lib.eps_pos.trans_le hs
  have hG := Real.Gamma_pos_of_pos hk
  have g := offF_lgamma (u := u) hk
  have ls := (RelF.lift (u := u) shape).off.mul ((RelF.lift (u := u) scale).log hs0)
  have lx := (relF_sub_one (u := u) shape).off.mul ((RelF.lift (u := u) x).log hx)
  have q := ((RelF.lift (u := u) x).div (RelF.lift scale) hs0.ne').off
  have c := ((g.neg.sub ls).add lx).sub q
  refine OffF.logAcc (f := dgamma_log_compute (fin x) (fin shape) (fin scale)) (gammaPdf_pos hk hs0 hx) ?_ fun f => ?_
  · rw [gammaPdf, if_pos hx, Real.log_div (by positivity) (by positivity), Real.log_mul (by positivity) (by positivity),
      Real.log_mul (by positivity) (by positivity),
      Real.log_rpow hx, Real.log_rpow hs0, Real.log_exp]
    rw [show ∀ a b c d : ℝ, a + -x / scale - (c + d) = -d - c + a - x / scale by intros; ring]
    · refine c.mono (by norm_num) ?_
      rw [abs_of_pos hk, abs_of_pos (by positivity : 0 < x / scale)]
    · exact 0
  · have e1 : ¬ shape < 0 := by linarith
    have e2 : ¬ scale < Lib.eps := by linarith
    have e3 : ¬ x < 0 := by linarith
    simp [dgamma, gamma_ok', gamma_ok, eps, e1, e2, e3, hx.ne', hk.ne']
example : LogAcc u 5 (|Real.log (Real.Gamma 3)| + 1 + 3 * (|Real.log 2| + 1) +
        |3 - 1| * (|Real.log (1 / 2)| + 1) + (1 / 2) / 2)
      (dgamma (fin (1 / 2)) (fin 3) (fin 2)) (gammaPdf 3 2 (1 / 2)) :=
  C49_dgamma (shape := 3) (scale := 2) (x := 1 / 2) (hk := by meets) (hs := by meets) (hx := by meets)

theorem C49_dinvgamma {shape rate x : ℝ} (hk : 0 < shape) (hr : 0 < rate) (hx : 0 < x) :
    LogAcc u 5 (|Real.log (Real.Gamma shape)| + 1 + shape * (|Real.log rate| + 1) +
        (shape + 1) * (|Real.log x| + 1) + rate / x)
      (dinvgamma (fin x) (fin shape) (fin rate)) (invgammaPdf shape rate x) := by
  have hG := Real.Gamma_pos_of_pos hk
  have g := offF_lgamma (u := u) hk
  have ls := (RelF.lift (u := u) shape).off.mul ((RelF.lift (u := u) rate).log hr)
  have lx := (relF_sub_one (u := u) (-shape)).off.mul ((RelF.lift (u := u) x).log hx)
  have q := ((RelF.lift (u := u) rate).div (RelF.lift x) hx.ne').off
  have c := ((g.neg.add ls).add lx).sub q
  refine OffF.logAcc (f := dinvgamma_log_compute (fin x) (fin shape) (fin rate)) ?_ ?_ fun f => ?_
  · rw [invgammaPdf, if_pos hx]; positivity
  · rw [invgammaPdf, if_pos hx, Real.log_mul (by positivity) (by positivity), Real.log_mul (by positivity) (by positivity),
      Real.log_div (by positivity) (by positivity),
      Real.log_rpow hx, Real.log_rpow hr, Real.log_exp]
    have e : ∀ a b d : ℝ, a - b + d + -rate / x = -b + a + d - rate / x := by intros; ring
    rw [e]
    refine c.mono (by norm_num) ?_
    rw [abs_of_pos hk, abs_of_pos (by positivity : 0 < rate / x), show -shape - 1 = -(shape + 1) by ring, abs_neg,
      abs_of_pos (by positivity : 0 < shape + 1)]
  · have e1 : ¬ shape < 0 := by linarith
    have e2 : ¬ rate < 0 := by linarith
    have e3 : ¬ x < 0 := by linarith
    simp [dinvgamma, invgamma_ok', invgamma_ok, e1, e2, e3, hx.ne', hk.ne', hr.ne']
example : LogAcc u 5 (|Real.log (Real.Gamma 3)| + 1 + 3 * (|Real.log 2| + 1) +
        (3 + 1) * (|Real.log (1 / 2)| + 1) + 2 / (1 / 2))
      (dinvgamma (fin (1 / 2)) (fin 3) (fin 2)) (invgammaPdf 3 2 (1 / 2)) :=
  C49_dinvgamma (shape := 3) (rate := 2) (x := 1 / 2) (hk := by meets) (hr := by meets) (hx := by meets)

theorem C49_dinvgauss {mu lambda x : ℝ} (hm : 0 < mu) (hl : 0 < lambda) (hx : 0 < x) :
    LogAcc u 9 (1 / 2 * (Real.log (2 * Real.pi) + 3 * (|Real.log x| + 1) + (|Real.log lambda| + 1)) +
        lambda * (x - mu) ^ 2 / (2 * mu ^ 2 * x))
      (dinvgauss (fin x) (fin mu) (fin lambda)) (invgaussPdf mu lambda x) := by
  have hpi := Real.pi_pos
  have hs : 0 < √(lambda / (2 * Real.pi * x ^ 3)) := Real.sqrt_pos.2 (by positivity)
  have l3 := (relF_three (u := u)).off.mul ((RelF.lift (u := u) x).log hx)
  have t1 := (relF_half (u := u)).neg.off.mul ((relF_log2pi.off.add l3).sub ((RelF.lift (u := u) lambda).log hl))
  have xc := relF_sub (u := u) x mu
  have num := (RelF.lift (u := u) lambda).neg.mul (xc.mul xc)
  have den := (((relF_two (u := u)).mul (RelF.lift mu)).mul (RelF.lift mu)).mul (RelF.lift x)
  have t2 := num.div den (by positivity)
  have c := t1.add t2.off
  refine OffF.logAcc (f := dinvgauss_log_compute (fin x) (fin mu) (fin lambda)) ?_ ?_ fun f => ?_
  · rw [invgaussPdf, if_pos hx]; positivity
  · have e : Real.log (invgaussPdf mu lambda x) =
        -(1 / 2) * (Real.log (2 * Real.pi) + 3 * Real.log x - Real.log lambda) +
          -lambda * ((x - mu) * (x - mu)) / (2 * mu * mu * x) := by
      rw [invgaussPdf, if_pos hx, Real.log_mul hs.ne' (by positivity), Real.log_sqrt (by positivity),
        Real.log_div (by positivity) (by positivity), Real.log_mul (by positivity) (by positivity), Real.log_pow,
        Real.log_exp]
      push_cast
      ring
    rw [e]
    refine c.mono (by norm_num) (le_of_eq ?_)
    have e2 : |-lambda * ((x - mu) * (x - mu)) / (2 * mu * mu * x)| = lambda * (x - mu) ^ 2 / (2 * mu ^ 2 * x) := by
      rw [abs_div, abs_mul, abs_neg, abs_of_pos hl, abs_mul_self, abs_of_pos (by positivity : 0 < 2 * mu * mu * x)]
      ring
    rw [e2, abs_neg, abs_of_pos (by norm_num : (0 : ℝ) < 1 / 2), abs_of_pos log2pi_pos,
      abs_of_pos (by norm_num : (0 : ℝ) < 3)]
  · have e1 : ¬ mu < 0 := by linarith
    have e2 : ¬ lambda < 0 := by linarith
    have e3 : ¬ x < 0 := by linarith
    simp [dinvgauss, invgauss_ok', invgauss_ok, e1, e2, e3, hx.ne', hl.ne']
example : LogAcc u 9 (1 / 2 * (Real.log (2 * Real.pi) + 3 * (|Real.log (1 / 2)| + 1) + (|Real.log 2| + 1)) +
        2 * ((1 / 2) - 3) ^ 2 / (2 * 3 ^ 2 * (1 / 2)))
      (dinvgauss (fin (1 / 2)) (fin 3) (fin 2)) (invgaussPdf 3 2 (1 / 2)) :=
  C49_dinvgauss (mu := 3) (lambda := 2) (x := 1 / 2) (hm := by meets) (hl := by meets) (hx := by meets)

/-- `dof` has to be representable: `lgamma` is called at `dof/2` -/
theorem C49_dchisq {dof x : ℝ} (hk : 0 < dof) (hr : Lib.rnd dof = dof) (hx : 0 < x) :
    LogAcc u 5 (|Real.log (Real.Gamma (dof / 2))| + 1 + dof / 2 * Real.log 2 +
        |dof / 2 - 1| * (|Real.log x| + 1) + x / 2)
      (dchisq (fin x) (fin dof)) (chisqPdf dof x) := by
  have hk2 : 0 < 1 / 2 * dof := by linarith
  have hG := Real.Gamma_pos_of_pos hk2
  have he : dof / 2 = 1 / 2 * dof := by ring
  have eh : half * fin dof = fin (1 / 2 * dof) := by
    show ofE (Lib.rnd (1 / 2 * dof)) = _
    rw [R.rnd_halve dof hr, ofE_coe]
  have g := offF_lgamma (u := u) hk2
  have l2 := ((RelF.lift (u := u) (1 / 2 * dof)).mul relF_log2).off
  have lx := (relF_sub_one (u := u) (1 / 2 * dof)).off.mul ((RelF.lift (u := u) x).log hx)
  have q := ((RelF.lift (u := u) x).div relF_two two_ne_zero).off
  have c := ((g.neg.sub l2).add lx).sub q
  refine OffF.logAcc (f := dchisq_compute (fin x) (fin dof)) ?_ ?_ fun f => ?_
  · rw [chisqPdf, if_pos hx, he]; positivity
  · rw [chisqPdf, if_pos hx, he, Real.log_div (by positivity) (by positivity), Real.log_mul (by positivity) (by positivity),
      Real.log_mul (by positivity) (by positivity),
      Real.log_rpow hx, Real.log_rpow two_pos, Real.log_exp]
    have e : ∀ a c d : ℝ, a + -x / 2 - (c + d) = -d - c + a - x / 2 := by intros; ring
    rw [e, dchisq_compute, eh]
    refine c.mono (by norm_num) ?_
    have := Real.log_pos one_lt_two
    rw [abs_of_pos (by positivity : 0 < 1 / 2 * dof * Real.log 2), abs_of_pos (by positivity : 0 < x / 2)]
  · have e1 : ¬ dof < 0 := by linarith
    have e3 : ¬ x < 0 := by linarith
    simp [dchisq, chisq_ok', chisq_ok, e1, e3, hx.ne']
example : LogAcc u 5 (|Real.log (Real.Gamma (2 / 2))| + 1 + 2 / 2 * Real.log 2 +
        |2 / 2 - 1| * (|Real.log (1 / 2)| + 1) + (1 / 2) / 2)
      (dchisq (fin (1 / 2)) (fin 2)) (chisqPdf 2 (1 / 2)) :=
  C49_dchisq (dof := 2) (x := 1 / 2) (hk := by meets) (hr := by meets) (hx := by meets)

/-- `dof/2` and `dof/2 + 1/2` have to be representable -/
theorem C49_dt {dof : ℝ} (x : ℝ) (h : Lib.eps ≤ dof) (hr : Lib.rnd (dof / 2) = ((dof / 2 : ℝ) : EReal))
    (hr' : Lib.rnd (dof / 2 + 1 / 2) = ((dof / 2 + 1 / 2 : ℝ) : EReal)) :
    LogAcc u 7 (|Real.log (Real.Gamma ((dof + 1) / 2))| + |Real.log (Real.Gamma (dof / 2))| + 2 +
        1 / 2 * (|Real.log dof| + 1 + Real.log Real.pi) + (dof + 1) / 2 * (Real.log (1 + x ^ 2 / dof) + 1))
      (dt (fin x) (fin dof)) (tPdf dof x) := by
  have p := Lib.eps_pos.trans_le h
  have hpi := Real.pi_pos
  have g1 : 0 < dof / 2 + 1 / 2 := by positivity
  have g2 : 0 < dof / 2 := by positivity
  have G1 := Real.Gamma_pos_of_pos g1
  have G2 := Real.Gamma_pos_of_pos g2
  have he : (dof + 1) / 2 = dof / 2 + 1 / 2 := by ring
  have hsq : 0 < √(dof * Real.pi) := Real.sqrt_pos.2 (by positivity)
  have hlp : 0 < Real.log Real.pi := Real.log_pos (by linarith [Real.pi_gt_three])
  have hz0 : 0 < 1 + x ^ 2 / dof := by positivity
  have ed : fin dof / 2 = fin (dof / 2) := by
    have : (2 : Fl) = fin 2 := by show fin ((2 : ℕ) : ℝ) = _; norm_num
    rw [this]
    show (if (2 : ℝ) = 0 then _ else ofE (Lib.rnd (dof / 2))) = _
    rw [if_neg two_ne_zero, hr, ofE_coe]
  have eh : fin dof / 2 + half = fin (dof / 2 + 1 / 2) := by
    rw [ed]
    show ofE (Lib.rnd (dof / 2 + 1 / 2)) = _
    rw [hr', ofE_coe]
  have l1 := offF_lgamma (u := u) g1
  have l2 := offF_lgamma (u := u) g2
  have ld := (relF_half (u := u)).off.mul (((RelF.lift (u := u) dof).log p).add relF_logpi.off)
  have hzz : 0 ≤ x / dof * x := by rw [div_mul_eq_mul_div]; exact div_nonneg (mul_self_nonneg x) p.le
  have w := ((relF_one (u := u)).mono (by norm_num : (0 : ℝ) ≤ 0 + 0 + 1 + 0 + 1)).add
    (((RelF.lift (u := u) x).div (RelF.lift dof) p.ne').mul (RelF.lift x)) zero_le_one hzz
  have hz : 1 + x / dof * x = 1 + x ^ 2 / dof := by ring
  rw [hz] at w
  have c := ((l1.sub ld).sub l2).add ((RelF.lift (u := u) (dof / 2 + 1 / 2)).neg.off.mul (w.log hz0))
  refine OffF.logAcc (f := dt_log_compute (fin x) (fin dof)) ?_ ?_ fun f => ?_
  · rw [tPdf, he]; positivity
  · rw [tPdf, he, Real.log_mul (by positivity) (by positivity), Real.log_div (by positivity) (by positivity),
      Real.log_mul (by positivity) (by positivity), Real.log_sqrt (by positivity),
      Real.log_mul p.ne' hpi.ne', Real.log_rpow hz0]
    have e : ∀ a b c d : ℝ, a - ((b + c) / 2 + d) = a - 1 / 2 * (b + c) - d := by intros; ring
    rw [e, dt_log_compute, dt_log_cons_term, dt_log_mult_term, eh, ed]
    refine c.mono (by norm_num) ?_
    have hl : 0 ≤ Real.log (1 + x ^ 2 / dof) := Real.log_nonneg (by
      have : 0 ≤ x ^ 2 / dof := by positivity
      linarith)
    rw [abs_neg, abs_of_pos g1, abs_of_pos (by norm_num : (0 : ℝ) < 1 / 2), abs_of_pos hlp, abs_of_nonneg hl]
    linarith
  · have e1 : ¬ dof < Lib.eps := by linarith
    simp [dt, t_ok', t_ok, eps, e1]

/-- the power amplifies: the number of roundings grows with the shape -/
theorem C49_dweibull {shape scale x : ℝ} (hk : Lib.eps ≤ shape) (hs : Lib.eps ≤ scale) (hx : 0 < x) :
    LogAcc u (shape + 6) (|Real.log (shape / scale)| + 1 + |shape - 1| * (|Real.log (x / scale)| + 1) + (x / scale) ^ shape)
      (dweibull (fin x) (fin shape) (fin scale)) (weibullPdf shape scale x) := by
  have p := Lib.eps_pos.trans_le hk
  have q := Lib.eps_pos.trans_le hs
  have hz : 0 < x / scale := by positivity
  have hks : 0 < shape / scale := by positivity
  have z := (RelF.lift (u := u) x).div (RelF.lift scale) q.ne'
  have l1 := ((RelF.lift (u := u) shape).div (RelF.lift scale) q.ne').log hks
  have l2 := (relF_sub_one (u := u) shape).off.mul (z.log hz)
  have l3 := (z.pow hz p.le).off
  have c := (l1.add l2).sub l3
  refine OffF.logAcc (f := dweibull_log_compute (fin x / fin scale) (fin shape) (fin scale)) ?_ ?_ fun f => ?_
  · rw [weibullPdf, if_pos hx]; positivity
  · rw [weibullPdf, if_pos hx, Real.log_mul (by positivity) (by positivity), Real.log_mul (by positivity) (by positivity),
      Real.log_rpow hz, Real.log_exp, ← sub_eq_add_neg]
    refine c.mono ?_ ?_
    · rw [show Max.max (0 + 0 + 1 + 1) (1 + (0 + 0 + 1 + 1) + 1) + 1 = (5 : ℝ) by norm_num]
      rcases max_choice 5 ((0 + 0 + 1) * shape + 1) with e | e <;> rw [e] <;> linarith
    · rw [abs_of_pos (by positivity : 0 < (x / scale) ^ shape)]
  · have e1 : ¬ shape < Lib.eps := by linarith
    have e2 : ¬ scale < Lib.eps := by linarith
    have e3 : ¬ x < 0 := by linarith
    simp [dweibull, weibull_ok', weibull_ok, eps, e1, e2, e3, hx.ne']

/-! ### discrete distributions -/

theorem C49_dbern {p : ℝ} (h0 : 0 ≤ p) (h1 : p ≤ 1) (x : ℤ) :
    RelAcc u 1 (dbern x (fin p) false) (bernPmf p x) := by
  have hok : bern_ok (fin p) := by simp [bern_ok, h0, h1]
  have e : dbern x (fin p) false = dbern_compute x (fin p) := by simp [dbern, hok, log_if]
  rw [e, dbern_compute, bernPmf]
  split_ifs
  · exact ((RelF.lift (u := u) p).mono zero_le_one).relAcc
  · exact (relF_one_sub (u := u) p).relAcc
  · exact (((by simpa using RelF.lift (u := u) ((0 : ℕ) : ℝ) : RelF u 0 0 (0 : Fl))).mono zero_le_one).relAcc
example : RelAcc u 1 (dbern 2 (fin (1 / 3)) false) (bernPmf (1 / 3) 2) :=
  C49_dbern (p := 1 / 3) (h0 := by meets) (h1 := by meets) (x := 2)

theorem C49_dradem {p : ℝ} (h0 : 0 ≤ p) (h1 : p ≤ 1) (x : ℤ) :
    RelAcc u 1 (dradem x (fin p) false) (rademPmf p x) := by
  have hok : radem_ok (fin p) := by simp [radem_ok, h0, h1]
  have e : dradem x (fin p) false = dradem_compute x (fin p) := by simp [dradem, hok, log_if]
  rw [e, dradem_compute, rademPmf]
  split_ifs
  · exact ((RelF.lift (u := u) p).mono zero_le_one).relAcc
  · exact (relF_one_sub (u := u) p).relAcc
  · exact (((by simpa using RelF.lift (u := u) ((0 : ℕ) : ℝ) : RelF u 0 0 (0 : Fl))).mono zero_le_one).relAcc
example : RelAcc u 1 (dradem 2 (fin (1 / 3)) false) (rademPmf (1 / 3) 2) :=
  C49_dradem (p := 1 / 3) (h0 := by meets) (h1 := by meets) (x := 2)

theorem relF_ofInt (n : ℤ) : RelF u 1 (n : ℝ) (ofInt n) := by
  have := relF_rnd (u := u) le_rfl (Rel.refl (u := u) (n : ℝ))
  rwa [zero_add] at this

/-- counts below `2^19` are exact in every `Lib`, so `lgamma` is called at the right point -/
theorem C49_dpois {rate : ℝ} (h : 0 < rate) (n : ℕ) (hn : n < 2 ^ 19) :
    LogAcc u 5 (n * (|Real.log rate| + 1) + rate + Real.log n.factorial + 1) (dpois n (fin rate)) (poisPmf rate n) := by
  have hp : poisPmf rate n = rate ^ n * Real.exp (-rate) / n.factorial := by simp [poisPmf]
  have hf : (0 : ℝ) < n.factorial := by exact_mod_cast n.factorial_pos
  have hx : ofInt ((n : ℤ) + 1) = fin ((n : ℝ) + 1) := by
    rw [ofInt]
    have := Lib.rnd_half (2 * ((n : ℤ) + 1)) (by rw [abs_of_nonneg (by positivity)]; norm_num; omega)
    have e : (((2 * ((n : ℤ) + 1) : ℤ)) : ℝ) / 2 = (n : ℝ) + 1 := by push_cast; ring
    rw [e] at this
    push_cast
    rw [this, ofE_coe]
  have g := offF_lgamma (u := u) (by positivity : (0 : ℝ) < (n : ℝ) + 1)
  rw [Real.Gamma_nat_eq_factorial] at g
  have l := (relF_ofInt (u := u) n).off.mul ((RelF.lift (u := u) rate).log h)
  have c := (l.sub (RelF.lift (u := u) rate).off).sub g
  refine OffF.logAcc (f := dpois_log_compute n (fin rate)) (by rw [hp]; positivity) ?_ fun f => ?_
  · have e : Real.log (poisPmf rate n) = ((n : ℤ) : ℝ) * Real.log rate - rate - Real.log n.factorial := by
      rw [hp, Real.log_div (by positivity) (by positivity), Real.log_mul (by positivity) (by positivity), Real.log_pow,
        Real.log_exp]
      push_cast; ring
    rw [e, dpois_log_compute, hx]
    refine c.mono (by norm_num) ?_
    have hl : 0 ≤ Real.log n.factorial := Real.log_nonneg (by exact_mod_cast n.factorial_pos)
    rw [abs_of_pos h, abs_of_nonneg hl, Int.cast_natCast, abs_of_nonneg (by positivity : (0 : ℝ) ≤ n)]
    linarith
  · have e1 : ¬ rate < 0 := by linarith
    have e2 : ¬ ((n : ℤ) < 0) := by omega
    simp [dpois, pois_ok, e1, h.ne']

theorem offF_lbinom {n k : ℕ} (hk : k ≤ n) :
    OffF u 1 (|Real.log (n.choose k)| + 1) (Real.log (n.choose k)) (lbinom n k) := by
  obtain ⟨w, e, h⟩ := R.lbinom n k hk
  refine ⟨zero_le_one, by linarith, w, by rw [lbinom, e, ofE_coe], ?_⟩
  exact h.trans (mul_le_mul_of_nonneg_right (gam_one R.u_nonneg R.u_lt) (by positivity))

/-- `n ≤ 1` is `C49_dbern` or a constant -/
theorem C49_dbinom {p : ℝ} (h0 : 0 < p) (h1 : p < 1) {n k : ℕ} (hn : 2 ≤ n) (hk : k ≤ n) :
    LogAcc u 6 (Real.log (n.choose k) + 1 + k * (|Real.log p| + 1) + (n - k) * (|Real.log (1 - p)| + 1))
      (dbinom k n (fin p)) (binomPmf n p k) := by
  have hq : 0 < 1 - p := by linarith
  have hc : (0 : ℝ) < n.choose k := by exact_mod_cast Nat.choose_pos hk
  have hp : binomPmf n p k = n.choose k * p ^ k * (1 - p) ^ (n - k) := by simp [binomPmf, hk]
  have lp := (RelF.lift (u := u) p).log h0
  have lq := (relF_one_sub (u := u) p).log hq
  have hl : 0 ≤ Real.log (n.choose k) := Real.log_nonneg (by exact_mod_cast Nat.choose_pos hk)
  have e : Real.log (binomPmf n p k) = Real.log (n.choose k) + k * Real.log p + (n - k) * Real.log (1 - p) := by
    rw [hp, Real.log_mul (by positivity) (by positivity), Real.log_mul (by positivity) (by positivity), Real.log_pow,
      Real.log_pow, Nat.cast_sub hk]
  have hnk : (0 : ℝ) ≤ n - k := by rw [sub_nonneg]; exact_mod_cast hk
  have a1 : 0 ≤ (k : ℝ) * (|Real.log p| + 1) := by positivity
  have a2 : 0 ≤ ((n : ℝ) - k) * (|Real.log (1 - p)| + 1) := by positivity
  refine OffF.logAcc (f := dbinom_log_compute k n (fin p)) (by rw [hp]; positivity) ?_ fun b => ?_
  · rw [e, dbinom_log_compute]
    by_cases k0 : k = 0
    · subst k0
      rw [if_pos (by simp)]
      have c := (relF_ofInt (u := u) n).off.mul lq
      simp only [Nat.choose_zero_right, Nat.cast_one, Real.log_one, CharP.cast_eq_zero, zero_mul, zero_add, sub_zero,
        add_zero] at *
      refine c.mono (by norm_num) ?_
      rw [Int.cast_natCast, abs_of_nonneg (by positivity : (0 : ℝ) ≤ n)]
      linarith
    rw [if_neg (by exact_mod_cast k0)]
    by_cases kn : k = n
    · subst kn
      rw [if_pos rfl]
      have c := (relF_ofInt (u := u) k).off.mul lp
      simp only [Nat.choose_self, Nat.cast_one, Real.log_one, sub_self, zero_mul, zero_add, add_zero] at *
      refine c.mono (by norm_num) ?_
      rw [Int.cast_natCast, abs_of_nonneg (by positivity : (0 : ℝ) ≤ k)]
      linarith
    rw [if_neg (by exact_mod_cast kn)]
    have c := ((offF_lbinom (u := u) hk).add ((relF_ofInt (u := u) k).off.mul lp)).add
      ((relF_ofInt (u := u) (n - k)).off.mul lq)
    rw [Int.cast_sub, Int.cast_natCast, Int.cast_natCast] at c
    refine c.mono (by norm_num) ?_
    rw [abs_of_nonneg hl, abs_of_nonneg hnk, abs_of_nonneg (by positivity : (0 : ℝ) ≤ k)]
  · have e1 : ¬ p < 0 := by linarith
    have e2 : ¬ 1 < p := by linarith
    have e3 : ¬ ((k : ℤ) < 0 ∨ (k : ℤ) > n) := by omega
    have e4 : ¬ ((n : ℤ) = 0) := by omega
    have e5 : ¬ ((n : ℤ) = 1) := by omega
    rw [dbinom, if_neg (by simp [binom_ok, e1, e2]), if_neg e3, if_neg e4, if_neg e5]

end Stats
