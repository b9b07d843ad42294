import Verif.Lemmas.Combine
import Verif.Props.C29

/-! Further laws of sums, products, powers and extremes of independent numbers. -/

open MeasureTheory Set
open scoped ENNReal NNReal

namespace Stats
open Fl Spec

theorem prod_map_map {D E : Measure ℝ} [IsProbabilityMeasure D] [IsProbabilityMeasure E] {f g : ℝ → ℝ} (hf : Measurable f)
    (hg : Measurable g) {op : ℝ → ℝ → ℝ} (ho : Measurable fun p : ℝ × ℝ => op p.1 p.2) :
    ((D.map f).prod (E.map g)).map (fun p => op p.1 p.2) = (D.prod E).map fun p => op (f p.1) (g p.2) := by
  have := Measure.isProbabilityMeasure_map (μ := D) hf.aemeasurable
  have := Measure.isProbabilityMeasure_map (μ := E) hg.aemeasurable
  rw [Measure.map_prod_map _ _ hf hg, Measure.map_map ho (hf.prodMap hg)]
  rfl

theorem lnorm_mul (m₁ m₂ : ℝ) {s₁ s₂ : ℝ} (h₁ : 0 < s₁) (h₂ : 0 < s₂) :
    ((densLaw (lnormPdf m₁ s₁)).prod (densLaw (lnormPdf m₂ s₂))).map (fun p => p.1 * p.2) =
      densLaw (lnormPdf (m₁ + m₂) √(s₁ ^ 2 + s₂ ^ 2)) := by
  have := (isCdf_norm m₁ h₁).isProb
  have := (isCdf_norm m₂ h₂).isProb
  rw [← lnorm_exp m₁ h₁, ← lnorm_exp m₂ h₂, ← lnorm_exp _ (Real.sqrt_pos.2 (by positivity)), ← norm_add m₁ m₂ h₁ h₂,
    prod_map_map Real.measurable_exp Real.measurable_exp (op := fun x y => x * y) (by fun_prop),
    Measure.map_map Real.measurable_exp (by fun_prop)]
  congr 1
  funext p
  exact (Real.exp_add _ _).symm

theorem f_inv {d₁ d₂ : ℝ} (h₁ : 0 < d₁) (h₂ : 0 < d₂) :
    (densLaw (fPdf d₁ d₂)).map (fun x => 1 / x) = densLaw (fPdf d₂ d₁) := by
  have := (isCdf_chisq h₁).isProb
  have := (isCdf_chisq h₂).isProb
  rw [← f_ratio h₁ h₂, ← f_ratio h₂ h₁, Measure.map_map (by fun_prop) (by fun_prop), ← Measure.prod_swap,
    Measure.map_map (by fun_prop) measurable_swap]
  congr 1
  funext p
  simp only [Function.comp_apply, Prod.fst_swap, Prod.snd_swap]
  rw [one_div_div, div_mul_eq_mul_div, div_mul_eq_mul_div, div_div, div_div_eq_mul_div, mul_comm d₂ p.2,
    mul_comm p.1 d₁]

theorem densLaw_chisq_pos (ν : ℝ) : ∀ᵐ x ∂densLaw (chisqPdf ν), 0 < x := by
  have hm : Measurable (chisqPdf ν) := by rw [chisqPdf_fun]; exact measurable_gammaPdf _ _
  rw [densLaw, ae_withDensity_iff hm.ennreal_ofReal]
  refine .of_forall fun x hx => ?_
  by_contra h
  exact hx (by rw [chisqPdf, if_neg h, ENNReal.ofReal_zero])

theorem t_sq {ν : ℝ} (h : 0 < ν) : (densLaw (tPdf ν)).map (fun x => x ^ 2) = densLaw (fPdf 1 ν) := by
  have := (isCdf_chisq h).isProb
  have := (isCdf_norm 0 one_pos).isProb
  rw [← t_ratio h, ← f_ratio one_pos h, Measure.map_map (by fun_prop) (by fun_prop), ← norm_sq]
  conv_rhs => rw [← Measure.map_id (μ := densLaw (chisqPdf ν)), prod_map_map (by fun_prop) measurable_id
    (op := fun x y => ν / 1 * x / y) (by fun_prop)]
  refine Measure.map_congr ?_
  have := (Measure.quasiMeasurePreserving_snd (μ := densLaw (normPdf 0 1)) (ν := densLaw (chisqPdf ν))).ae (densLaw_chisq_pos ν)
  filter_upwards [this] with p hp
  simp only [Function.comp_apply, id]
  rw [div_pow, Real.sq_sqrt (by positivity)]
  field_simp

theorem beta_compl (a b : ℝ) : (densLaw (betaPdf a b)).map (fun x => 1 - x) = densLaw (betaPdf b a) := by
  rw [densLaw_map (ψ := fun w => 1 - w) (ψ' := fun _ => -1) (s := univ) MeasurableSet.univ (by fun_prop)]
  · congr 1; funext w
    rw [indicator_of_mem (mem_univ w), abs_neg, abs_one, one_mul, betaPdf, betaPdf, sub_sub_cancel]
    by_cases h : 0 < w ∧ w < 1
    · rw [if_pos h, if_pos ⟨by linarith [h.2], by linarith [h.1]⟩, beta, beta,
        mul_comm (Real.Gamma a), add_comm a]
      ring
    · rw [if_neg h, if_neg (fun h' => h ⟨by linarith [h'.2], by linarith [h'.1]⟩)]
  · intro w _
    exact (by simpa using (hasDerivAt_id w).const_sub 1 : HasDerivAt (fun w : ℝ => 1 - w) (-1) w).hasDerivWithinAt
  · intro w _; simp
  · exact fun x hx => absurd ⟨1 - x, mem_univ _, by simp⟩ hx

theorem massZ_pois (r : ℝ≥0) : massZ (poisPmf r) = (ProbabilityTheory.poissonMeasure r).map (fun n : ℕ => (n : ℤ)) := by
  refine Measure.ext_of_singleton fun k => ?_
  rw [massZ_singleton, Measure.map_apply (measurable_of_countable _) (measurableSet_singleton k), poisPmf]
  split_ifs with h
  · have : (fun n : ℕ => (n : ℤ)) ⁻¹' {k} = {k.toNat} := by
      ext n; simp only [mem_preimage, mem_singleton_iff]; omega
    rw [this, ProbabilityTheory.poissonMeasure_singleton, mul_comm]
  · have : (fun n : ℕ => (n : ℤ)) ⁻¹' {k} = ∅ := by
      ext n; simp only [mem_preimage, mem_singleton_iff, mem_empty_iff_false, iff_false]; omega
    rw [this, measure_empty, ENNReal.ofReal_zero]

theorem pois_law (r : ℝ≥0) : massLaw (poisPmf r) = (ProbabilityTheory.poissonMeasure r).map (Nat.cast : ℕ → ℝ) := by
  rw [← massZ_map, massZ_pois, Measure.map_map (measurable_of_countable _) (measurable_of_countable _)]
  rfl

theorem pois_add {a b : ℝ} (ha : 0 ≤ a) (hb : 0 ≤ b) :
    ((massLaw (poisPmf a)).prod (massLaw (poisPmf b))).map (fun p => p.1 + p.2) = massLaw (poisPmf (a + b)) := by
  lift a to ℝ≥0 using ha
  lift b to ℝ≥0 using hb
  rw [← NNReal.coe_add, pois_law, pois_law, pois_law, ← ProbabilityTheory.map_cast_poissonMeasure_conv]
  rfl

theorem weibull_pow_law {k θ : ℝ} (hk : 0 < k) (hθ : 0 < θ) :
    (densLaw (weibullPdf k θ)).map (fun x => (x / θ) ^ k) = densLaw (expPdf 1) := by
  rw [exp_gamma one_pos, densLaw_map (ψ := fun w => θ * w ^ (1 / k)) (ψ' := fun w => θ * (1 / k * w ^ (1 / k - 1))) (s := Ioi 0)
    measurableSet_Ioi (by fun_prop)]
  · congr 1; funext w
    by_cases hw : 0 < w
    · have e1 : (w ^ (1 / k)) ^ k = w := by rw [← Real.rpow_mul hw.le, one_div_mul_cancel hk.ne', Real.rpow_one]
      have e2 : (w ^ (1 / k)) ^ (k - 1) = w ^ (1 - 1 / k) := by
        rw [← Real.rpow_mul hw.le]; congr 1; field_simp
      have e3 : w ^ (1 / k - 1) * w ^ (1 - 1 / k) = 1 := by rw [← Real.rpow_add hw]; simp
      rw [indicator_of_mem (show w ∈ Ioi 0 from hw), abs_of_pos (by positivity), weibullPdf, if_pos (by positivity), gammaPdf,
        if_pos hw, mul_div_cancel_left₀ _ hθ.ne', e1, e2]
      rw [sub_self, Real.rpow_zero, Real.Gamma_one, one_div_one, Real.rpow_one, div_one, one_mul, mul_one, div_one]
      calc θ * (1 / k * w ^ (1 / k - 1)) * (k / θ * w ^ (1 - 1 / k) * Real.exp (-w))
          = θ * (1 / k) * (k / θ) * (w ^ (1 / k - 1) * w ^ (1 - 1 / k)) * Real.exp (-w) := by ring
        _ = _ := by rw [e3]; field_simp
    · rw [indicator_of_notMem (show w ∉ Ioi 0 from hw), gammaPdf_zero _ _ (not_lt.1 hw)]
  · intro w hw
    exact ((Real.hasDerivAt_rpow_const (Or.inl (ne_of_gt hw))).const_mul θ).hasDerivWithinAt
  · intro w hw
    have hw : 0 < w := hw
    rw [mul_div_cancel_left₀ _ hθ.ne', ← Real.rpow_mul hw.le, one_div_mul_cancel hk.ne', Real.rpow_one]
  · intro x hx
    rw [weibullPdf, if_neg]
    intro h
    refine hx ⟨(x / θ) ^ k, mem_Ioi.2 (by positivity), ?_⟩
    simp only
    rw [← Real.rpow_mul (by positivity), mul_one_div_cancel hk.ne', Real.rpow_one]
    field_simp

theorem exp_min {a b : ℝ} (ha : 0 < a) (hb : 0 < b) :
    ((densLaw (expPdf a)).prod (densLaw (expPdf b))).map (fun p => Min.min p.1 p.2) = densLaw (expPdf (a + b)) := by
  refine min_law (isCdf_exp ha) (isCdf_exp hb) (isCdf_exp (add_pos ha hb)) fun x => ?_
  split_ifs
  · rw [sub_sub_cancel, sub_sub_cancel, sub_sub_cancel, ← Real.exp_add]
    congr 1; ring
  · norm_num

theorem weibull_min {k a b : ℝ} (hk : 0 < k) (ha : 0 < a) (hb : 0 < b) :
    ((densLaw (weibullPdf k a)).prod (densLaw (weibullPdf k b))).map (fun p => Min.min p.1 p.2) =
      densLaw (weibullPdf k (((1 / a) ^ k + (1 / b) ^ k) ^ (-(1 / k)))) := by
  have hc : 0 < (1 / a) ^ k + (1 / b) ^ k := by positivity
  refine min_law (isCdf_weibull hk ha) (isCdf_weibull hk hb) (isCdf_weibull hk (Real.rpow_pos_of_pos hc _)) fun x => ?_
  split_ifs with h
  · rw [sub_sub_cancel, sub_sub_cancel, sub_sub_cancel, ← Real.exp_add]
    congr 1
    rw [Real.rpow_neg hc.le, div_inv_eq_mul, Real.mul_rpow h.le (by positivity), ← Real.rpow_mul hc.le, one_div_mul_cancel hk.ne',
      Real.rpow_one, div_eq_mul_one_div x a, div_eq_mul_one_div x b, Real.mul_rpow h.le (by positivity),
      Real.mul_rpow h.le (by positivity)]
    ring
  · norm_num

end Stats
