import Verif.Props.C59
import Verif.Props.C49H
import Verif.Lemmas.CoarseInst

/-!
# C59: draws under rounding, from an engine that is only nearly fair

The distribution function of the draws lies between two shifted copies of the textbook distribution function. Close to
the ends of the unit interval `rcauchy` and `rlaplace` lose the probability (`C49_*_double_violated`); the draws concerned
are counted in the bound.
-/

set_option linter.unusedSectionVars false
open MeasureTheory Classical

namespace Stats
open Fl Spec

section
variable [Lib] {u : ℝ} [R : RelLib u]

theorem shift_hi {g M mu v q x : ℝ} (g0 : 0 ≤ g) (g1 : g < 1) (hM : 0 ≤ M) (h : |v - q| ≤ g * (M + |q - mu|))
    (hv : v ≤ x) : q ≤ x + shift g M mu x := by
  have h1 : 0 < 1 - g := by linarith
  have h2 := (abs_le.1 h).1
  have h3 : (1 - g) * shift g M mu x = g * (M + |x - mu|) := by rw [shift]; field_simp
  have h5 : 0 ≤ shift g M mu x := mul_nonneg (div_nonneg g0 h1.le) (by positivity)
  by_contra hc
  rw [not_le] at hc
  have h4 : |q - mu| ≤ |x - mu| + (q - x) := by
    have := abs_sub_le q x mu
    rw [abs_of_nonneg (by linarith : 0 ≤ q - x)] at this
    linarith
  nlinarith

theorem shift_lo {g M mu v q x : ℝ} (g0 : 0 ≤ g) (g1 : g < 1) (hM : 0 ≤ M) (h : |v - q| ≤ g * (M + |q - mu|))
    (hq : q ≤ x - shift g M mu x) : v ≤ x := by
  have h1 : 0 < 1 - g := by linarith
  have h2 := (abs_le.1 h).2
  have h3 : (1 - g) * shift g M mu x = g * (M + |x - mu|) := by rw [shift]; field_simp
  have h5 : 0 ≤ shift g M mu x := mul_nonneg (div_nonneg g0 h1.le) (by positivity)
  have h4 : |q - mu| ≤ |x - mu| + (x - q) := by
    have := abs_sub_le q x mu
    rw [abs_of_nonpos (by linarith : q - x ≤ 0)] at this
    linarith
  nlinarith

end

section
variable [Lib] {u : ℝ} [R : RelLib u] [NextLib] {S : Type*} [MeasurableSpace S] {P : Measure S} [IsProbabilityMeasure P]
  [Engine S] {η : ℝ}

theorem C59_rexp_round (hP : UnifNear P η) {rate : ℝ} (h : 0 < rate) (hg : gam u 3 < 1) :
    Sandwich P (fun s => some (rexp (fin rate) s)) (expPdf rate) (fun x => x - shift (gam u 3) (1 / rate) 0 x)
      (fun x => x + shift (gam u 3) (1 / rate) 0 x) (η + Lib.next 0 1) := by
  have g0 := gam_nonneg R.u_nonneg R.u_lt (by norm_num : (0 : ℝ) ≤ 3)
  have := sandwich_of (P := P) hP (g := fun s => some (rexp (fin rate) s)) (val := fun p => some (qexp p (fin rate)))
    (fun s => by rw [rexp, if_neg (by simp [exp_ok, h.le]), zero_eq, one_eq]; rfl) (isCdf_exp h)
    (lo := fun x => x - shift (gam u 3) (1 / rate) 0 x) (hi := fun x => x + shift (gam u 3) (1 / rate) 0 x)
    (κ := 0) (β := 0) (B := ∅) (fun U _ _ _ _ => by simp) le_rfl (fun p h0 h1 _ => by
      obtain ⟨q, hq, v, ev, hv⟩ := C49_qexp (u := u) h h0 h1
      rw [(isCdf_exp h).running] at hq
      have e : |Real.log (1 - p)| / rate = |q - 0| := by
        by_cases hq0 : 0 < q
        · rw [if_pos hq0] at hq
          rw [← hq, sub_sub_cancel, Real.log_exp, abs_mul, abs_neg, abs_of_pos h, sub_zero, mul_div_cancel_left₀ _ h.ne']
        · rw [if_neg hq0] at hq; linarith
      have hv' : |v - q| ≤ gam u 3 * (1 / rate + |q - 0|) := by
        rwa [add_div, e, add_comm] at hv
      refine ⟨v, q, congrArg some ev, ?_, fun x hx => shift_hi g0 hg (by positivity) hv' hx,
        fun x hx => shift_lo g0 hg (by positivity) hv' hx⟩
      show |(if 0 < q then 1 - Real.exp (-rate * q) else 0) - p| ≤ 0
      rw [hq, sub_self, abs_zero])
  simpa using this

theorem C59_rlogis_round (hP : UnifNear P η) (mu : ℝ) {sigma : ℝ} (h : 0 < sigma) (hg : gam u 5 < 1) :
    Sandwich P (fun s => some (rlogis (fin mu) (fin sigma) s)) (logisPdf mu sigma)
      (fun x => x - shift (gam u 5) (|mu| + sigma) mu x) (fun x => x + shift (gam u 5) (|mu| + sigma) mu x)
      (η + Lib.next 0 1) := by
  have g0 := gam_nonneg R.u_nonneg R.u_lt (by norm_num : (0 : ℝ) ≤ 5)
  have := sandwich_of (P := P) hP (g := fun s => some (rlogis (fin mu) (fin sigma) s))
    (val := fun p => some (qlogis p (fin mu) (fin sigma)))
    (fun s => by rw [rlogis, if_neg (by simp [logis_ok, h.le]), zero_eq, one_eq]; rfl) (isCdf_logis mu h)
    (lo := fun x => x - shift (gam u 5) (|mu| + sigma) mu x) (hi := fun x => x + shift (gam u 5) (|mu| + sigma) mu x)
    (κ := 0) (β := 0) (B := ∅) (fun U _ _ _ _ => by simp) le_rfl (fun p h0 h1 _ => by
      obtain ⟨q, hq, v, ev, hv⟩ := C49_qlogis (u := u) mu h h0 h1
      rw [(isCdf_logis mu h).running] at hq
      have e : sigma * |Real.log (p / (1 - p))| = |q - mu| := by
        have hE := Real.exp_pos (-((q - mu) / sigma))
        have : p / (1 - p) = Real.exp ((q - mu) / sigma) := by
          rw [← hq, show (q - mu) / sigma = -(-((q - mu) / sigma)) by ring, Real.exp_neg]
          rw [neg_neg]
          field_simp
          ring
        rw [this, Real.log_exp, abs_div, abs_of_pos h, mul_div_cancel₀ _ h.ne']
      have hv' : |v - q| ≤ gam u 5 * (|mu| + sigma + |q - mu|) := by
        rw [mul_add sigma, e, mul_one] at hv
        rwa [show |mu| + sigma + |q - mu| = |mu| + (|q - mu| + sigma) by ring]
      refine ⟨v, q, congrArg some ev, ?_, fun x hx => shift_hi g0 hg (by positivity) hv' hx,
        fun x hx => shift_lo g0 hg (by positivity) hv' hx⟩
      show |1 / (1 + Real.exp (-((q - mu) / sigma))) - p| ≤ 0
      rw [hq, sub_self, abs_zero])
  simpa using this

/-- the variates close to the ends of the unit interval -/
theorem ends_le {c : ℝ} (c0 : 0 ≤ c) (U : S → ℝ) (_ : ∀ s, 0 < U s ∧ U s < 1)
    (h1 : ∀ x, x ≤ 1 → x - (η + Lib.next 0 1) ≤ P.real {s | U s < x}) (h2 : ∀ x, 0 ≤ x → P.real {s | U s ≤ x} ≤ x + η)
    (mU : Measurable U) : P.real {s | U s ∈ Set.Iic c ∪ Set.Ici (1 - c)} ≤ 2 * c + (2 * η + Lib.next 0 1) := by
  have e : {s | U s ∈ Set.Iic c ∪ Set.Ici (1 - c)} = {s | U s ≤ c} ∪ {s | U s < 1 - c}ᶜ := by
    ext s; simp
  have a := measureReal_union_le (μ := P) {s | U s ≤ c} {s | U s < 1 - c}ᶜ
  have b := h2 c c0
  have d := h1 (1 - c) (by linarith)
  rw [probReal_compl_eq_one_sub (show MeasurableSet {s | U s < 1 - c} from mU measurableSet_Iio)] at a
  rw [e]
  linarith

theorem C59_rcauchy_round (hP : UnifNear P η) (mu : ℝ) {sigma : ℝ} (h : 0 < sigma) (hg : gam u 3 < 1) :
    Sandwich P (fun s => some (rcauchy (fin mu) (fin sigma) s)) (cauchyPdf mu sigma)
      (fun x => x - shift (gam u 3) |mu| mu x) (fun x => x + shift (gam u 3) |mu| mu x)
      (3 / 2 * gam u 3 + 3 * η + 2 * Lib.next 0 1) := by
  have g0 := gam_nonneg R.u_nonneg R.u_lt (by norm_num : (0 : ℝ) ≤ 3)
  have := sandwich_of (P := P) hP (g := fun s => some (rcauchy (fin mu) (fin sigma) s))
    (val := fun p => some (qcauchy p (fin mu) (fin sigma)))
    (fun s => by rw [rcauchy, if_neg (by simp [cauchy_ok, h.le]), zero_eq, one_eq]; rfl) (isCdf_cauchy mu h)
    (lo := fun x => x - shift (gam u 3) |mu| mu x) (hi := fun x => x + shift (gam u 3) |mu| mu x)
    (κ := gam u 3 * (1 / 2)) (B := Set.Iic (gam u 3 * (1 / 2)) ∪ Set.Ici (1 - gam u 3 * (1 / 2)))
    (ends_le (by positivity)) (by positivity) (fun p h0 h1 hp => by
      simp only [Set.mem_union, Set.mem_Iic, Set.mem_Ici, not_or, not_le] at hp
      have hp2 : |p - 1 / 2| ≤ 1 / 2 := abs_le.2 ⟨by linarith, by linarith⟩
      have hle := mul_le_mul_of_nonneg_left hp2 g0
      obtain ⟨p', q, hp', hq, v, ev, hv⟩ := C49_qcauchy (u := u) mu h (hle.trans_lt hp.1) (hle.trans_lt (by linarith [hp.2]))
      rw [(isCdf_cauchy mu h).running] at hq
      refine ⟨v, q, congrArg some ev, ?_, fun x hx => shift_hi g0 hg (by positivity) hv hx,
        fun x hx => shift_lo g0 hg (by positivity) hv hx⟩
      show |1 / 2 + Real.arctan ((q - mu) / sigma) / Real.pi - p| ≤ _
      rw [hq]; exact hp'.trans hle)
  convert this using 1
  ring

theorem C59_rlaplace_round (hP : UnifNear P η) (mu : ℝ) {sigma : ℝ} (h : 0 < sigma) (hg : gam u 6 < 1) :
    Sandwich P (fun s => some (rlaplace (fin mu) (fin sigma) s)) (laplacePdf mu sigma)
      (fun x => x - shift (gam u 6) (|mu| + sigma) mu x) (fun x => x + shift (gam u 6) (|mu| + sigma) mu x)
      (3 / 2 * gam u 2 + 3 * η + 2 * Lib.next 0 1) := by
  have g0 := gam_nonneg R.u_nonneg R.u_lt (by norm_num : (0 : ℝ) ≤ 6)
  have g2 := gam_nonneg R.u_nonneg R.u_lt (by norm_num : (0 : ℝ) ≤ 2)
  have g3 := (gam_mono R.u_nonneg R.u_lt (by norm_num : (2 : ℝ) ≤ 6)).trans_lt hg
  have := sandwich_of (P := P) hP (g := fun s => some (rlaplace (fin mu) (fin sigma) s))
    (val := fun p => some (qlaplace p (fin mu) (fin sigma)))
    (fun s => by rw [rlaplace, if_neg (by simp [laplace_ok, h.le]), zero_eq, one_eq]; rfl) (isCdf_laplace mu h)
    (lo := fun x => x - shift (gam u 6) (|mu| + sigma) mu x) (hi := fun x => x + shift (gam u 6) (|mu| + sigma) mu x)
    (κ := gam u 2 * (1 / 2)) (B := Set.Iic (gam u 2 * (1 / 2)) ∪ Set.Ici (1 - gam u 2 * (1 / 2)))
    (ends_le (by positivity)) (by positivity) (fun p h0 h1 hp => by
      simp only [Set.mem_union, Set.mem_Iic, Set.mem_Ici, not_or, not_le] at hp
      have hp2 : |p - 1 / 2| ≤ 1 / 2 := abs_le.2 ⟨by linarith, by linarith⟩
      have hle := mul_le_mul_of_nonneg_left hp2 g2
      obtain ⟨p', q, hp', hq, v, ev, hv⟩ := C49_qlaplace (u := u) mu h (hle.trans_lt hp.1) (hle.trans_lt (by linarith [hp.2]))
      rw [(isCdf_laplace mu h).running] at hq
      have e : sigma * |Real.log (1 - 2 * |p' - 1 / 2|)| = |q - mu| := by
        have : 1 - 2 * |p' - 1 / 2| = Real.exp (-(|q - mu| / sigma)) := by
          rw [← hq, laplaceCdf]
          split_ifs with hx
          · have h5 : (q - mu) / sigma ≤ 0 := div_nonpos_of_nonpos_of_nonneg (by linarith) h.le
            have h6 : Real.exp ((q - mu) / sigma) ≤ 1 := Real.exp_le_one_iff.2 h5
            rw [abs_of_nonpos (by linarith : q - mu ≤ 0), neg_div, neg_neg,
              abs_of_nonpos (by linarith : 1 / 2 * Real.exp ((q - mu) / sigma) - 1 / 2 ≤ 0)]
            ring
          · rw [not_lt] at hx
            have h5 : 0 ≤ (q - mu) / sigma := div_nonneg (by linarith) h.le
            have h6 : Real.exp (-((q - mu) / sigma)) ≤ 1 := Real.exp_le_one_iff.2 (by linarith)
            rw [abs_of_nonneg (by linarith : 0 ≤ q - mu),
              abs_of_nonneg (by linarith : 0 ≤ 1 - 1 / 2 * Real.exp (-((q - mu) / sigma)) - 1 / 2)]
            ring
        rw [this, Real.log_exp, abs_neg, abs_div, abs_abs, abs_of_pos h, mul_div_cancel₀ _ h.ne']
      have hv' : |v - q| ≤ gam u 6 * (|mu| + sigma + |q - mu|) := by
        rw [mul_add sigma, e, mul_one] at hv
        rwa [show |mu| + sigma + |q - mu| = |mu| + (|q - mu| + sigma) by ring]
      refine ⟨v, q, congrArg some ev, ?_, fun x hx => shift_hi g0 hg (by positivity) hv' hx,
        fun x hx => shift_lo g0 hg (by positivity) hv' hx⟩
      rw [hq]; exact hp'.trans hle)
  convert this using 1
  ring

/-- shapes whose reciprocal is exact, as in `C49_qweibull` -/
theorem C59_rweibull_round_partial (hP : UnifNear P η) {k θ : ℝ} (hk : Lib.eps ≤ k) (hθ : Lib.eps ≤ θ)
    (hr : Lib.rnd (1 / k) = ((1 / k : ℝ) : EReal)) :
    Sandwich P (fun s => some (rweibull (fin k) (fin θ) s)) (weibullPdf k θ)
      (fun x => x - gam u (1 / k + 2) * |x|) (fun x => x + gam u (1 / k + 2) * |x|) (η + Lib.next 0 1) := by
  have pk := Lib.eps_pos.trans_le hk
  have pθ := Lib.eps_pos.trans_le hθ
  have g0 := gam_nonneg R.u_nonneg R.u_lt (by positivity : (0 : ℝ) ≤ 1 / k + 2)
  have hF := isCdf_weibull pk pθ
  have := sandwich_of (P := P) hP (g := fun s => some (rweibull (fin k) (fin θ) s))
    (val := fun p => some (qweibull p (fin k) (fin θ)))
    (fun s => by rw [rweibull, if_neg (by simp [weibull_ok, eps, hk, hθ]), zero_eq, one_eq]; rfl) hF
    (lo := fun x => x - gam u (1 / k + 2) * |x|) (hi := fun x => x + gam u (1 / k + 2) * |x|)
    (κ := 0) (β := 0) (B := ∅) (fun U _ _ _ _ => by simp) le_rfl (fun p h0 h1 _ => by
      obtain ⟨q, hq, v, ev, t, t1, t2, rfl⟩ := C49_qweibull (u := u) hk hθ hr h0 h1
      rw [hF.running] at hq
      have q0 : 0 < q := by
        by_contra hc
        rw [if_neg hc] at hq; linarith
      have hb : 0 < 1 - u := by linarith [R.u_lt]
      have t0 : 0 < t := (Real.rpow_pos_of_pos hb _).trans_le t1
      have t1' : 1 ≤ t * (1 + gam u (1 / k + 2)) := by
        rw [gam, add_sub_cancel, Real.rpow_neg hb.le, ← div_eq_mul_inv, one_le_div (Real.rpow_pos_of_pos hb _)]
        exact t1
      have t2' : t ≤ 1 + gam u (1 / k + 2) := by rw [gam]; linarith
      refine ⟨q * t, q, congrArg some ev, ?_, fun x hx => ?_, fun x hx => ?_⟩
      · show |(if 0 < q then 1 - Real.exp (-(q / θ) ^ k) else 0) - p| ≤ 0
        rw [hq, sub_self, abs_zero]
      · have x0 : 0 < x := (mul_pos q0 t0).trans_le hx
        show q ≤ x + _ * |x|
        rw [abs_of_pos x0]
        nlinarith
      · have hx' : q ≤ x - gam u (1 / k + 2) * |x| := hx
        have x0 : 0 < x := by
          have := mul_nonneg g0 (abs_nonneg x)
          linarith
        rw [abs_of_pos x0] at hx'
        generalize gam u (1 / k + 2) = g at *
        have : q * t ≤ (x - g * x) * (1 + g) := mul_le_mul hx' t2' t0.le (q0.le.trans hx')
        nlinarith [mul_nonneg (mul_nonneg g0 g0) x0.le])
  simpa using this

omit [NextLib] in
theorem rnorm_acc (mu : ℝ) {sigma : ℝ} (h : 0 < sigma) (s : S) :
    ∃ v, rnorm (fin mu) (fin sigma) s = (fin v, (Engine.norm s).2) ∧
      |v - (mu + sigma * (Engine.norm s).1)| ≤ gam u 2 * (|mu| + |mu + sigma * (Engine.norm s).1 - mu|) := by
  have c := (RelF.lift (u := u) mu).off.add ((RelF.lift (u := u) sigma).mul (RelF.lift (Engine.norm s).1)).off
  obtain ⟨v, ev, hv⟩ := (c.mono (l := 2) (n := |mu| + |sigma * (Engine.norm s).1|) (by norm_num) le_rfl).absAcc
  refine ⟨v, ?_, by rwa [add_sub_cancel_left]⟩
  rw [rnorm, if_neg (by simp [norm_ok, h.le])]
  simp only [ev]

theorem C59_rnorm_round (hP : NormNear P η) (mu : ℝ) {sigma : ℝ} (h : 0 < sigma) (hg : gam u 2 < 1) :
    Sandwich P (fun s => some (rnorm (fin mu) (fin sigma) s)) (normPdf mu sigma)
      (fun x => x - shift (gam u 2) |mu| mu x) (fun x => x + shift (gam u 2) |mu| mu x) η := by
  have g0 := gam_nonneg R.u_nonneg R.u_lt (by norm_num : (0 : ℝ) ≤ 2)
  have hN : ∀ y, |P.real {s | (Engine.norm s : ℝ × S).1 ≤ (y - mu) / sigma} - Phi ((y - mu) / sigma)| ≤ η := fun y => by
    have := hP.2 ((y - mu) / sigma)
    rwa [(isCdf_norm 0 one_pos).running, sub_zero, div_one] at this
  intro x
  rw [(isCdf_norm mu h).running, (isCdf_norm mu h).running]
  constructor
  · have l1 := (abs_le.1 (hN (x - shift (gam u 2) |mu| mu x))).1
    refine le_trans (b := P.real {s | (Engine.norm s : ℝ × S).1 ≤ (x - shift (gam u 2) |mu| mu x - mu) / sigma}) (by linarith)
      (measureReal_mono fun s hs => ?_)
    obtain ⟨v, ev, hv⟩ := rnorm_acc (u := u) mu h s
    have hs' : (Engine.norm s).1 ≤ (x - shift (gam u 2) |mu| mu x - mu) / sigma := hs
    rw [le_div_iff₀ h] at hs'
    exact ⟨v, _, congrArg some ev, shift_lo g0 hg (abs_nonneg _) hv (by linarith)⟩
  · refine (measureReal_mono (s₂ := {s | (Engine.norm s : ℝ × S).1 ≤ (x + shift (gam u 2) |mu| mu x - mu) / sigma})
      fun s hs => ?_).trans (by linarith [(abs_le.1 (hN (x + shift (gam u 2) |mu| mu x))).2])
    obtain ⟨w, s', ew, hw⟩ := hs
    obtain ⟨v, ev, hv⟩ := rnorm_acc (u := u) mu h s
    have ew : some (rnorm (fin mu) (fin sigma) s) = some (fin w, s') := ew
    have e : v = w := by rw [ev] at ew; exact Fl.fin.inj (Prod.mk.inj (Option.some.inj ew)).1
    have := shift_hi g0 hg (abs_nonneg _) hv (e ▸ hw)
    show (Engine.norm s).1 ≤ _
    rw [le_div_iff₀ h]
    linarith

/-- The shift is on the scale of the logarithm. -/
theorem C59_rlnorm_round (hP : NormNear P η) (mu : ℝ) {sigma : ℝ} (h : 0 < sigma) (hg : gam u 3 < 1) :
    Sandwich P (fun s => some (rlnorm (fin mu) (fin sigma) s)) (lnormPdf mu sigma)
      (fun x => x * Real.exp (-shift (gam u 3) (|mu| + 1) mu (Real.log x)))
      (fun x => x * Real.exp (shift (gam u 3) (|mu| + 1) mu (Real.log x))) η := by
  have g0 := gam_nonneg R.u_nonneg R.u_lt (by norm_num : (0 : ℝ) ≤ 3)
  have g2 := gam_mono R.u_nonneg R.u_lt (by norm_num : (2 : ℝ) ≤ 3)
  have g1 := gam_mono R.u_nonneg R.u_lt (by norm_num : (1 : ℝ) ≤ 3)
  have hN : ∀ y, |P.real {s | (Engine.norm s : ℝ × S).1 ≤ (y - mu) / sigma} - Phi ((y - mu) / sigma)| ≤ η := fun y => by
    have := hP.2 ((y - mu) / sigma)
    rwa [(isCdf_norm 0 one_pos).running, sub_zero, div_one] at this
  -- the logarithm of a draw
  have hd : ∀ s : S, ∃ v, 0 < v ∧ rlnorm (fin mu) (fin sigma) s = (fin v, (Engine.norm s).2) ∧
      |Real.log v - (mu + sigma * (Engine.norm s).1)| ≤ gam u 3 * (|mu| + 1 + |mu + sigma * (Engine.norm s).1 - mu|) := fun s => by
    obtain ⟨y, ey, hy⟩ := rnorm_acc (u := u) mu h s
    obtain ⟨v, ev, hv⟩ := R.exp y
    have v0 := hv.pos R.u_lt (Real.exp_pos y)
    have hl := hv.log R.u_lt (Real.exp_pos y)
    rw [Real.log_exp] at hl
    refine ⟨v, v0, ?_, ?_⟩
    · rw [rlnorm, if_neg (by simp [lnorm_ok, h.le])]
      simp only [ey, Fl.exp, ev, ofE_coe]
    · have h1 := abs_sub_le (Real.log v) y (mu + sigma * (Engine.norm s).1)
      have h2 : 0 ≤ |mu| + |mu + sigma * (Engine.norm s).1 - mu| := by positivity
      have h3 := mul_le_mul_of_nonneg_right g2 h2
      linarith
  have hη : 0 ≤ η := (abs_nonneg _).trans (hP.2 0)
  intro x
  rw [(isCdf_lnorm mu h).running, (isCdf_lnorm mu h).running]
  rcases le_or_gt x 0 with hx | hx
  · have e1 : ∀ y, ¬ 0 < x * Real.exp y := fun y => not_lt.2 (mul_nonpos_of_nonpos_of_nonneg hx (Real.exp_pos y).le)
    rw [if_neg (e1 _), if_neg (e1 _)]
    have e0 : {s : S | ∃ v s', some (rlnorm (fin mu) (fin sigma) s) = some (fin v, s') ∧ v ≤ x} = ∅ :=
      Set.eq_empty_of_forall_notMem fun s => by
        rintro ⟨w, s', ew, hw⟩
        obtain ⟨v, v0, ev, -⟩ := hd s
        have e : v = w := by rw [ev] at ew; exact Fl.fin.inj (Prod.mk.inj (Option.some.inj ew)).1
        linarith
    rw [e0, measureReal_empty]
    constructor <;> linarith
  have e1 : ∀ y, 0 < x * Real.exp y := fun y => mul_pos hx (Real.exp_pos y)
  rw [if_pos (e1 _), if_pos (e1 _), Real.log_mul hx.ne' (Real.exp_pos _).ne', Real.log_mul hx.ne' (Real.exp_pos _).ne',
    Real.log_exp, Real.log_exp]
  generalize hsh : shift (gam u 3) (|mu| + 1) mu (Real.log x) = e
  constructor
  · have l1 := (abs_le.1 (hN (Real.log x + -e))).1
    refine le_trans (b := P.real {s | (Engine.norm s : ℝ × S).1 ≤ (Real.log x + -e - mu) / sigma}) (by linarith)
      (measureReal_mono fun s hs => ?_)
    obtain ⟨v, v0, ev, hv⟩ := hd s
    have hs' : (Engine.norm s).1 ≤ (Real.log x + -e - mu) / sigma := hs
    rw [le_div_iff₀ h] at hs'
    refine ⟨v, _, congrArg some ev, ?_⟩
    rw [← Real.log_le_log_iff v0 hx]
    exact shift_lo g0 hg (by positivity) hv (by rw [hsh]; linarith)
  · refine (measureReal_mono (s₂ := {s | (Engine.norm s : ℝ × S).1 ≤ (Real.log x + e - mu) / sigma})
      fun s hs => ?_).trans (by linarith [(abs_le.1 (hN (Real.log x + e))).2])
    obtain ⟨w, s', ew, hw⟩ := hs
    obtain ⟨v, v0, ev, hv⟩ := hd s
    have ew : some (rlnorm (fin mu) (fin sigma) s) = some (fin w, s') := ew
    have e' : v = w := by rw [ev] at ew; exact Fl.fin.inj (Prod.mk.inj (Option.some.inj ew)).1
    have := shift_hi g0 hg (by positivity) hv (Real.log_le_log v0 (e' ▸ hw))
    show (Engine.norm s).1 ≤ _
    rw [le_div_iff₀ h]
    linarith

end

end Stats

/-! ### an engine with 32 random bits -/

namespace Stats.ExamplesC59
open Fl Spec Coarse
set_option linter.style.longLine false

section exact
open scoped Low
attribute [local instance] lowLib_next

example : DrawCdf law (fun s => some (rexp (fin 3) s)) (fun x => pexp (fin x) (fin 3) false) Set.univ (1 / fine + Lib.next 0 1) :=
  C59_rexp unifNear (by norm_num)
example : DrawCdf law (fun s => some (rcauchy (fin 1) (fin 2) s)) (fun x => pcauchy (fin x) (fin 1) (fin 2) false) Set.univ
    (1 / fine + Lib.next 0 1) := C59_rcauchy unifNear 1 (by norm_num)
example : DrawCdf law (fun s => some (rlaplace (fin 1) (fin 2) s)) (fun x => plaplace (fin x) (fin 1) (fin 2) false) Set.univ
    (1 / fine + Lib.next 0 1) := C59_rlaplace unifNear 1 (by norm_num)
example : DrawCdf law (fun s => some (rlogis (fin 1) (fin 2) s)) (fun x => plogis (fin x) (fin 1) (fin 2) false) Set.univ
    (1 / fine + Lib.next 0 1) := C59_rlogis unifNear 1 (by norm_num)
example : DrawCdf law (fun s => some (rweibull (fin 2) (fin 3) s)) (fun x => pweibull (fin x) (fin 2) (fin 3) false) noCut
    (1 / fine + Lib.next 0 1) := C59_rweibull_partial unifNear (Low.eps_le (by norm_num)) (Low.eps_le (by norm_num))
example : DrawCdf law (rpois (fin 5)) (fun x => ppois ⌊x⌋ (fin 5) false) Set.univ (1 / fine + Lib.next 0 1) :=
  C59_rpois unifNear (Low.eps_le (by norm_num))
example : DrawCdf law (fun s => some (runif (fin 0) (fin 1) s)) (fun x => punif (fin x) (fin 0) (fin 1) false) Set.univ
    (1 / fine + (Lib.next 0 1 - 0) / (1 - 0)) := C59_runif unifNear Low.next_lt one_pos
example : DrawCdf law (fun s => some (rnorm (fin 1) (fin 2) s)) (fun x => pnorm (fin x) (fin 1) (fin 2) false) Set.univ (1 / fine) :=
  C59_rnorm normNear 1 (by norm_num)
example : DrawCdf law (fun s => some (rlnorm (fin 1) (fin 2) s)) (fun x => plnorm (fin x) (fin 1) (fin 2) false) noCut (1 / fine) :=
  C59_rlnorm_partial normNear 1 (by norm_num)
/-- 32 bits are enough for seven tosses with a probability within `2^-31` of 1/3 -/
example : ∃ p', |p' - 1 / 3| ≤ 1 / fine + Lib.next 0 1 ∧
    HasLaw law (fun s => some (rbinom (7 : ℕ) (fin (1 / 3)) s)) (massLaw (binomPmf 7 p')) := by
  obtain ⟨D, hD, h⟩ := runif_law
  exact C59_rbinom unifNear h (by norm_num) (by norm_num) 7
end exact

section double
set_option warn.classDefReducibility false in
attribute [local instance] doubleLib
attribute [local instance] doubleLib_next

/-- in binary64 -/
example : MassNear law (fun s => some (rbern (fin (1 / 3)) s)) (bernPmf (1 / 3)) (1 / fine + Lib.next 0 1) :=
  C59_rbern unifNear (by norm_num) (by norm_num)
example : MassNear law (fun s => some (rradem (fin (1 / 3)) s)) (rademPmf (1 / 3)) (1 / fine + Lib.next 0 1) :=
  C59_rradem unifNear (by norm_num) (by norm_num)
end double

section wide
set_option warn.classDefReducibility false in
attribute [local instance] wideLib
attribute [local instance] wideLib_rel
attribute [local instance] wideLib_next

theorem gam_lt {k : ℝ} (h : k ≤ 7) : gam (1 / 2 ^ 53) k < 1 :=
  (gam_mono (by norm_num) (by norm_num) h).trans_lt (ExamplesC49.gam_small.trans (by norm_num))

example : Sandwich law (fun s => some (rexp (fin 3) s)) (expPdf 3) (fun x => x - shift (gam (1 / 2 ^ 53) 3) (1 / 3) 0 x)
    (fun x => x + shift (gam (1 / 2 ^ 53) 3) (1 / 3) 0 x) (1 / fine + Lib.next 0 1) :=
  C59_rexp_round unifNear (by norm_num) (gam_lt (k := 3) (by norm_num))
example : Sandwich law (fun s => some (rlogis (fin 1) (fin 2) s)) (logisPdf 1 2)
    (fun x => x - shift (gam (1 / 2 ^ 53) 5) (|1| + 2) 1 x) (fun x => x + shift (gam (1 / 2 ^ 53) 5) (|1| + 2) 1 x)
    (1 / fine + Lib.next 0 1) := C59_rlogis_round unifNear 1 (by norm_num) (gam_lt (k := 5) (by norm_num))
example : Sandwich law (fun s => some (rcauchy (fin 1) (fin 2) s)) (cauchyPdf 1 2)
    (fun x => x - shift (gam (1 / 2 ^ 53) 3) |1| 1 x) (fun x => x + shift (gam (1 / 2 ^ 53) 3) |1| 1 x)
    (3 / 2 * gam (1 / 2 ^ 53) 3 + 3 * (1 / fine) + 2 * Lib.next 0 1) :=
  C59_rcauchy_round unifNear 1 (by norm_num) (gam_lt (k := 3) (by norm_num))
example : Sandwich law (fun s => some (rlaplace (fin 1) (fin 2) s)) (laplacePdf 1 2)
    (fun x => x - shift (gam (1 / 2 ^ 53) 6) (|1| + 2) 1 x) (fun x => x + shift (gam (1 / 2 ^ 53) 6) (|1| + 2) 1 x)
    (3 / 2 * gam (1 / 2 ^ 53) 2 + 3 * (1 / fine) + 2 * Lib.next 0 1) :=
  C59_rlaplace_round unifNear 1 (by norm_num) (gam_lt (k := 6) (by norm_num))
/-- a shape of 1/2, for which `1/shape` is exact -/
example : Sandwich law (fun s => some (rweibull (fin (1 / 2)) (fin 3) s)) (weibullPdf (1 / 2) 3)
    (fun x => x - gam (1 / 2 ^ 53) (1 / (1 / 2) + 2) * |x|) (fun x => x + gam (1 / 2 ^ 53) (1 / (1 / 2) + 2) * |x|)
    (1 / fine + Lib.next 0 1) :=
  C59_rweibull_round_partial unifNear (Lib.eps_le.trans (by norm_num)) (Lib.eps_le.trans (by norm_num))
    (by have := Lib.rnd_half 4 (by norm_num); norm_num at this ⊢)
example : Sandwich law (fun s => some (rnorm (fin 1) (fin 2) s)) (normPdf 1 2)
    (fun x => x - shift (gam (1 / 2 ^ 53) 2) |1| 1 x) (fun x => x + shift (gam (1 / 2 ^ 53) 2) |1| 1 x) (1 / fine) :=
  C59_rnorm_round normNear 1 (by norm_num) (gam_lt (k := 2) (by norm_num))
example : Sandwich law (fun s => some (rlnorm (fin 1) (fin 2) s)) (lnormPdf 1 2)
    (fun x => x * Real.exp (-shift (gam (1 / 2 ^ 53) 3) (|1| + 1) 1 (Real.log x)))
    (fun x => x * Real.exp (shift (gam (1 / 2 ^ 53) 3) (|1| + 1) 1 (Real.log x))) (1 / fine) :=
  C59_rlnorm_round normNear 1 (by norm_num) (gam_lt (k := 3) (by norm_num))
end wide

end Stats.ExamplesC59
