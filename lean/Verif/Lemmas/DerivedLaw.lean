import Verif.Lemmas.LawDens
import Verif.Lemmas.RealCdf2

/-! The transformations behind the normal, log-normal, inverse gamma, beta, F and t generators. -/

open MeasureTheory Set
open scoped ENNReal

namespace Stats
open Spec

theorem measurable_gammaPdf (a θ : ℝ) : Measurable (gammaPdf a θ) := by
  unfold gammaPdf
  exact Measurable.ite measurableSet_Ioi (by fun_prop) measurable_const

theorem gammaPdf_nonneg {a θ : ℝ} (ha : 0 < a) (hθ : 0 < θ) (x : ℝ) : 0 ≤ gammaPdf a θ x := by
  have := Real.Gamma_pos_of_pos ha
  rw [gammaPdf]; split_ifs
  · positivity
  · exact le_rfl

theorem densLaw_ae {f : ℝ → ℝ} (hf : Measurable f) {p : ℝ → Prop} (hp : ∀ x, ¬ p x → f x ≤ 0) : ∀ᵐ x ∂densLaw f, p x := by
  rw [densLaw, ae_withDensity_iff hf.ennreal_ofReal]
  refine Filter.Eventually.of_forall fun x hx => ?_
  by_contra hc
  exact hx (ENNReal.ofReal_of_nonpos (hp x hc))

theorem norm_affine (mu : ℝ) {sigma : ℝ} (h : 0 < sigma) :
    (densLaw (normPdf 0 1)).map (fun z => mu + sigma * z) = densLaw (normPdf mu sigma) := by
  rw [densLaw_map (ψ := fun w => (w - mu) / sigma) (ψ' := fun _ => 1 / sigma) (s := univ) MeasurableSet.univ (by fun_prop)]
  · congr 1; funext w
    rw [indicator_of_mem (mem_univ w), abs_of_pos (by positivity), normPdf, normPdf]
    rw [show -(((w - mu) / sigma - 0) ^ 2) / (2 * 1 ^ 2) = -((w - mu) ^ 2) / (2 * sigma ^ 2) by field_simp; ring]
    field_simp
  · exact fun w _ => (((hasDerivAt_id w).sub_const mu).div_const sigma).hasDerivWithinAt
  · intro w _; field_simp; ring
  · exact fun x hx => absurd ⟨mu + sigma * x, mem_univ _, by field_simp; ring⟩ hx

theorem lnorm_exp (mu : ℝ) {sigma : ℝ} (h : 0 < sigma) :
    (densLaw (normPdf mu sigma)).map Real.exp = densLaw (lnormPdf mu sigma) := by
  rw [densLaw_map (ψ := Real.log) (ψ' := fun w => w⁻¹) (s := Ioi 0) measurableSet_Ioi Real.measurable_exp]
  · congr 1; funext w
    by_cases hw : 0 < w
    · rw [indicator_of_mem (show w ∈ Ioi 0 from hw), abs_of_pos (by positivity), normPdf, lnormPdf, if_pos hw]
      ring
    · rw [indicator_of_notMem (show w ∉ Ioi 0 from hw), lnormPdf, if_neg hw]
  · exact fun w hw => (Real.hasDerivAt_log (ne_of_gt hw)).hasDerivWithinAt
  · exact fun w hw => Real.exp_log hw
  · exact fun x hx => absurd ⟨Real.exp x, Real.exp_pos x, Real.log_exp x⟩ hx

theorem invgamma_inv {α β : ℝ} (ha : 0 < α) (hb : 0 < β) :
    (densLaw (gammaPdf α (1 / β))).map (fun x => 1 / x) = densLaw (invgammaPdf α β) := by
  have hG := Real.Gamma_pos_of_pos ha
  rw [densLaw_map (ψ := fun w => w⁻¹) (ψ' := fun w => -(w ^ 2)⁻¹) (s := Ioi 0) measurableSet_Ioi (by fun_prop)]
  · congr 1; funext w
    by_cases hw : 0 < w
    · have hw' : 0 < w⁻¹ := by positivity
      rw [indicator_of_mem (show w ∈ Ioi 0 from hw), abs_neg, abs_of_pos (by positivity), gammaPdf, if_pos hw',
        invgammaPdf, if_pos hw, Real.inv_rpow hw.le, Real.rpow_sub_one hw.ne', Real.rpow_sub_one hw.ne', Real.rpow_neg hw.le,
        Real.div_rpow zero_le_one hb.le, Real.one_rpow, show -w⁻¹ / (1 / β) = -β / w by field_simp]
      have := (Real.rpow_pos_of_pos hw α).ne'
      have := (Real.rpow_pos_of_pos hb α).ne'
      field_simp
    · rw [indicator_of_notMem (show w ∉ Ioi 0 from hw), invgammaPdf, if_neg hw]
  · exact fun w hw => (hasDerivAt_inv (ne_of_gt hw)).hasDerivWithinAt
  · intro w hw; simp
  · intro x hx
    rw [gammaPdf, if_neg]
    exact fun h => hx ⟨x⁻¹, show 0 < x⁻¹ by positivity, inv_inv x⟩

/-- Euler's integral, with a rate -/
theorem lintegral_gamma {C s r : ℝ} (hC : 0 ≤ C) (hs : 0 < s) (hr : 0 < r) :
    ∫⁻ y in Ioi 0, ENNReal.ofReal (C * (y ^ (s - 1) * Real.exp (-(r * y)))) = ENNReal.ofReal (C * ((1 / r) ^ s * Real.Gamma s)) := by
  have hi := Real.integral_rpow_mul_exp_neg_mul_Ioi hs hr
  have hpos : 0 < (1 / r) ^ s * Real.Gamma s := mul_pos (by positivity) (Real.Gamma_pos_of_pos hs)
  have hint : Integrable (fun y : ℝ => y ^ (s - 1) * Real.exp (-(r * y))) (volume.restrict (Ioi 0)) :=
    Integrable.of_integral_ne_zero (by rw [hi]; exact hpos.ne')
  rw [← ofReal_integral_eq_lintegral_ofReal (hint.const_mul C), integral_const_mul, hi]
  filter_upwards [ae_restrict_mem measurableSet_Ioi] with y hy
  have : (0 : ℝ) < y := hy
  simp only [Pi.zero_apply]
  positivity

/-- mixtures over a gamma variate -/
theorem gamma_mix {D : Measure ℝ} [SFinite D] {b θ : ℝ} (hb : 0 < b) (hθ : 0 < θ) {h k : ℝ → ℝ → ℝ}
    (hh : Measurable fun p : ℝ × ℝ => h p.1 p.2) (hk : Measurable fun p : ℝ × ℝ => k p.1 p.2)
    (hl : ∀ y, 0 < y → D.map (fun x => h x y) = densLaw fun w => k w y) {f C s r : ℝ → ℝ}
    (hkg : ∀ w y, 0 < y → k w y * gammaPdf b θ y = C w * (y ^ (s w - 1) * Real.exp (-(r w * y))))
    (hk0 : ∀ w y, 0 < y → 0 ≤ k w y)
    (hC : ∀ w, 0 ≤ C w) (hs : ∀ w, C w ≠ 0 → 0 < s w) (hr : ∀ w, C w ≠ 0 → 0 < r w)
    (hf : ∀ w, f w = C w * ((1 / r w) ^ s w * Real.Gamma (s w))) :
    (D.prod (densLaw (gammaPdf b θ))).map (fun p => h p.1 p.2) = densLaw f := by
  refine densLaw_mix (measurable_gammaPdf b θ) hh hk ?_ ?_
  · intro y hy
    refine hl y ?_
    by_contra hc
    exact hy (by rw [gammaPdf, if_neg hc])
  · refine Filter.Eventually.of_forall fun w => ?_
    have e : ∀ y, ENNReal.ofReal (k w y) * ENNReal.ofReal (gammaPdf b θ y) =
        (Ioi 0).indicator (fun y => ENNReal.ofReal (C w * (y ^ (s w - 1) * Real.exp (-(r w * y))))) y := by
      intro y
      by_cases hy : 0 < y
      · rw [indicator_of_mem (show y ∈ Ioi 0 from hy), ← ENNReal.ofReal_mul (hk0 w y hy), hkg w y hy]
      · rw [indicator_of_notMem (show y ∉ Ioi 0 from hy), gammaPdf, if_neg hy, ENNReal.ofReal_zero, mul_zero]
    simp_rw [e]
    rw [lintegral_indicator measurableSet_Ioi, hf]
    by_cases hCw : C w = 0
    · simp [hCw]
    · exact lintegral_gamma (hC w) (hs w hCw) (hr w hCw)

theorem beta_ratio {a b : ℝ} (ha : 0 < a) (hb : 0 < b) :
    ((densLaw (gammaPdf a 1)).prod (densLaw (gammaPdf b 1))).map (fun p => p.1 / (p.1 + p.2)) = densLaw (betaPdf a b) := by
  have hGa := Real.Gamma_pos_of_pos ha
  have hGb := Real.Gamma_pos_of_pos hb
  have hGab := Real.Gamma_pos_of_pos (add_pos ha hb)
  refine gamma_mix (h := fun x y => x / (x + y))
    (k := fun w y => if 0 < w ∧ w < 1 then |y / (1 - w) ^ 2| * gammaPdf a 1 (w * y / (1 - w)) else 0) hb one_pos (by fun_prop) ?_
    (C := fun w => if 0 < w ∧ w < 1 then w ^ (a - 1) * (1 - w) ^ (-(a + 1)) / (Real.Gamma a * Real.Gamma b) else 0)
    (s := fun _ => a + b) (r := fun w => 1 / (1 - w)) ?_ ?_ ?_ ?_ ?_ ?_ ?_
  · refine Measurable.ite ((measurableSet_lt measurable_const measurable_fst).inter
      (measurableSet_lt measurable_fst measurable_const)) ?_ measurable_const
    exact (by fun_prop : Measurable fun p : ℝ × ℝ => |p.2 / (1 - p.1) ^ 2|).mul
      ((measurable_gammaPdf a 1).comp (by fun_prop))
  · intro y hy
    rw [densLaw_map (ψ := fun w => w * y / (1 - w)) (ψ' := fun w => y / (1 - w) ^ 2) (s := Ioo 0 1) measurableSet_Ioo (by fun_prop)]
    · congr 1; funext w
      by_cases hw : 0 < w ∧ w < 1
      · rw [indicator_of_mem (by exact hw), if_pos hw]
      · rw [indicator_of_notMem (by exact hw), if_neg hw]
    · intro w hw
      have h1 : 1 - w ≠ 0 := by have := hw.2; intro h; linarith
      have := ((hasDerivAt_id w).mul_const y).div ((hasDerivAt_id w).const_sub 1) h1
      refine (this.congr_deriv ?_).hasDerivWithinAt
      simp only [id]; congr 1; ring
    · intro w hw
      have h1 : 1 - w ≠ 0 := by have := hw.2; intro h; linarith
      field_simp
      ring_nf
    · intro x hx
      rw [gammaPdf, if_neg]
      intro h0
      refine hx ⟨x / (x + y), ⟨by positivity, (div_lt_one (by positivity)).2 (by linarith)⟩, ?_⟩
      have : x + y ≠ 0 := by positivity
      have e : 1 - x / (x + y) = y / (x + y) := by field_simp; ring
      simp only [e]
      field_simp
  · intro w y hy
    by_cases hw : 0 < w ∧ w < 1
    · have h1 : 0 < 1 - w := by linarith [hw.2]
      have hw0 := hw.1
      simp only [if_pos hw]
      have hq : 0 < w * y / (1 - w) := by positivity
      rw [abs_of_pos (by positivity), gammaPdf, if_pos hq, gammaPdf, if_pos hy, Real.div_rpow (by positivity) h1.le,
        Real.mul_rpow hw0.le hy.le, Real.rpow_neg h1.le, Real.one_rpow, Real.one_rpow,
        show -(1 / (1 - w) * y) = -(w * y / (1 - w)) / 1 + -y / 1 by field_simp; ring, Real.exp_add,
        show a + b - 1 = (a - 1) + (b - 1) + 1 by ring, Real.rpow_add_one hy.ne', Real.rpow_add hy,
        show a + 1 = (a - 1) + 2 by ring, Real.rpow_add h1]
      norm_num
      have := (Real.rpow_pos_of_pos h1 (a - 1)).ne'
      field_simp
    · simp only [if_neg hw]; simp
  · intro w y hy
    split_ifs
    · exact mul_nonneg (abs_nonneg _) (gammaPdf_nonneg ha one_pos _)
    · exact le_rfl
  · intro w
    split_ifs with hw
    · have h1 : 0 < 1 - w := by linarith [hw.2]
      have := hw.1
      positivity
    · exact le_rfl
  · intro w _; positivity
  · intro w hw
    have hw : 0 < w ∧ w < 1 := by by_contra hc; exact hw (if_neg hc)
    have h1 : 0 < 1 - w := by linarith [hw.2]
    positivity
  · intro w
    rw [betaPdf]
    split_ifs with hw
    · have h1 : 0 < 1 - w := by linarith [hw.2]
      rw [one_div_one_div, beta, show b - 1 = (a + b) + (-(a + 1)) by ring, Real.rpow_add h1]
      field_simp
    · simp

theorem chisqPdf_fun (k : ℝ) : chisqPdf k = gammaPdf (k / 2) 2 := by
  funext x; rw [chisqPdf, gammaPdf]

theorem f_ratio {d₁ d₂ : ℝ} (h1 : 0 < d₁) (h2 : 0 < d₂) :
    ((densLaw (chisqPdf d₁)).prod (densLaw (chisqPdf d₂))).map (fun p => d₂ / d₁ * p.1 / p.2) = densLaw (fPdf d₁ d₂) := by
  have ha : 0 < d₁ / 2 := by positivity
  have hb : 0 < d₂ / 2 := by positivity
  have hGa := Real.Gamma_pos_of_pos ha
  have hGb := Real.Gamma_pos_of_pos hb
  have hGab := Real.Gamma_pos_of_pos (add_pos ha hb)
  rw [chisqPdf_fun, chisqPdf_fun]
  refine gamma_mix (h := fun x y => d₂ / d₁ * x / y)
    (k := fun w y => if 0 < w then |d₁ / d₂ * y| * gammaPdf (d₁ / 2) 2 (d₁ / d₂ * y * w) else 0) hb two_pos (by fun_prop) ?_
    (C := fun w => if 0 < w then (d₁ / d₂) ^ (d₁ / 2) * w ^ (d₁ / 2 - 1) / (2 ^ (d₁ / 2 + d₂ / 2) *
      (Real.Gamma (d₁ / 2) * Real.Gamma (d₂ / 2))) else 0)
    (s := fun _ => d₁ / 2 + d₂ / 2) (r := fun w => (1 + d₁ / d₂ * w) / 2) ?_ ?_ ?_ ?_ ?_ ?_ ?_
  · refine Measurable.ite (measurableSet_lt measurable_const measurable_fst) ?_ measurable_const
    exact (by fun_prop : Measurable fun p : ℝ × ℝ => |d₁ / d₂ * p.2|).mul
      ((measurable_gammaPdf _ _).comp (by fun_prop))
  · intro y hy
    rw [densLaw_map (ψ := fun w => d₁ / d₂ * y * w) (ψ' := fun _ => d₁ / d₂ * y) (s := Ioi 0) measurableSet_Ioi (by fun_prop)]
    · congr 1
    · intro w _
      have := (hasDerivAt_id w).const_mul (d₁ / d₂ * y)
      simpa using this.hasDerivWithinAt
    · intro w hw
      field_simp
    · intro x hx
      rw [gammaPdf, if_neg]
      intro h0
      exact hx ⟨d₂ / d₁ * x / y, show 0 < d₂ / d₁ * x / y by positivity, by field_simp⟩
  · intro w y hy
    by_cases hw : 0 < w
    · simp only [if_pos hw]
      have hq : 0 < d₁ / d₂ * y * w := by positivity
      rw [abs_of_pos (by positivity), gammaPdf, if_pos hq, gammaPdf, if_pos hy, Real.mul_rpow (by positivity) hw.le,
        Real.mul_rpow (by positivity) hy.le,
        show -((1 + d₁ / d₂ * w) / 2 * y) = -(d₁ / d₂ * y * w) / 2 + -y / 2 by ring, Real.exp_add,
        show d₁ / 2 + d₂ / 2 - 1 = (d₁ / 2 - 1) + (d₂ / 2 - 1) + 1 by ring, Real.rpow_add_one hy.ne', Real.rpow_add hy,
        Real.rpow_add two_pos, Real.rpow_sub_one (show d₁ / d₂ ≠ 0 by positivity)]
      have := (Real.rpow_pos_of_pos two_pos (d₁ / 2)).ne'
      have := (Real.rpow_pos_of_pos two_pos (d₂ / 2)).ne'
      field_simp
    · simp only [if_neg hw]; simp
  · intro w y hy
    split_ifs
    · exact mul_nonneg (abs_nonneg _) (gammaPdf_nonneg ha two_pos _)
    · exact le_rfl
  · intro w
    split_ifs with hw
    · positivity
    · exact le_rfl
  · intro w _; positivity
  · intro w hw
    have hw : 0 < w := by by_contra hc; exact hw (if_neg hc)
    positivity
  · intro w
    rw [fPdf]
    split_ifs with hw
    · have h3 : 0 < 1 + d₁ / d₂ * w := by positivity
      rw [one_div_div, Real.div_rpow two_pos.le h3.le, beta, show (d₁ + d₂) / 2 = d₁ / 2 + d₂ / 2 by ring, Real.rpow_neg h3.le]
      have := (Real.rpow_pos_of_pos h3 (d₁ / 2 + d₂ / 2)).ne'
      have := (Real.rpow_pos_of_pos two_pos (d₁ / 2 + d₂ / 2)).ne'
      field_simp
    · simp

theorem t_ratio {ν : ℝ} (h : 0 < ν) :
    ((densLaw (normPdf 0 1)).prod (densLaw (chisqPdf ν))).map (fun p => p.1 / √(p.2 / ν)) = densLaw (tPdf ν) := by
  have hb : 0 < ν / 2 := by positivity
  have hGb := Real.Gamma_pos_of_pos hb
  rw [chisqPdf_fun]
  refine gamma_mix (h := fun x y => x / √(y / ν))
    (k := fun w y => |√(y / ν)| * normPdf 0 1 (√(y / ν) * w)) hb two_pos (by fun_prop) ?_
    (C := fun _ => 1 / (√(2 * Real.pi) * √ν * (2 ^ (ν / 2) * Real.Gamma (ν / 2))))
    (s := fun _ => (ν + 1) / 2) (r := fun w => (1 + w ^ 2 / ν) / 2) ?_ ?_ ?_ ?_ ?_ ?_ ?_
  · unfold normPdf; fun_prop
  · intro y hy
    have hq : 0 < √(y / ν) := Real.sqrt_pos.2 (by positivity)
    rw [densLaw_map (ψ := fun w => √(y / ν) * w) (ψ' := fun _ => √(y / ν)) (s := univ) MeasurableSet.univ (by fun_prop)]
    · congr 1; funext w; rw [indicator_of_mem (mem_univ w)]
    · intro w _
      have := (hasDerivAt_id w).const_mul (√(y / ν))
      simpa using this
    · intro w hw
      field_simp
    · exact fun x hx => absurd ⟨x / √(y / ν), mem_univ _, by field_simp⟩ hx
  · intro w y hy
    have hq : 0 < √(y / ν) := Real.sqrt_pos.2 (by positivity)
    have hsq : √(y / ν) ^ 2 = y / ν := Real.sq_sqrt (by positivity)
    rw [abs_of_pos hq, normPdf, gammaPdf, if_pos hy,
      show -((√(y / ν) * w - 0) ^ 2) / (2 * 1 ^ 2) = -(y / ν * w ^ 2 / 2) by rw [sub_zero, mul_pow, hsq]; ring,
      show -((1 + w ^ 2 / ν) / 2 * y) = -(y / ν * w ^ 2 / 2) + -y / 2 by ring, Real.exp_add,
      show (ν + 1) / 2 - 1 = (ν / 2 - 1) + 1 / 2 by ring, Real.rpow_add hy, ← Real.sqrt_eq_rpow, Real.sqrt_div hy.le]
    have : 0 < √ν := Real.sqrt_pos.2 h
    have : 0 < √(2 * Real.pi) := by positivity
    field_simp
  · intro w y hy
    refine mul_nonneg (abs_nonneg _) ?_
    rw [normPdf]; positivity
  · intro w; positivity
  · intro w _; positivity
  · intro w _; positivity
  · intro w
    have h3 : 0 < 1 + w ^ 2 / ν := by positivity
    have hs2 : 0 < √(2 : ℝ) := by positivity
    have hsn : 0 < √ν := Real.sqrt_pos.2 h
    have hsp : 0 < √Real.pi := Real.sqrt_pos.2 Real.pi_pos
    rw [tPdf, one_div_div, Real.div_rpow two_pos.le h3.le, Real.rpow_neg h3.le, Real.sqrt_mul two_pos.le, Real.sqrt_mul h.le,
      show (2 : ℝ) ^ ((ν + 1) / 2) = 2 ^ (ν / 2) * √2 by
        rw [show (ν + 1) / 2 = ν / 2 + 1 / 2 by ring, Real.rpow_add two_pos, ← Real.sqrt_eq_rpow]]
    have := (Real.rpow_pos_of_pos h3 ((ν + 1) / 2)).ne'
    have := (Real.rpow_pos_of_pos two_pos (ν / 2)).ne'
    field_simp

end Stats
