import Verif.Lemmas.Tilt
import Verif.Lemmas.Combine2

/-! Linear images, sums and quadratic forms of normal vectors. -/

open MeasureTheory Set Matrix
open scoped ENNReal

namespace Stats
open Spec
variable {K M : ℕ}

theorem measurable_dot (a : Fin K → ℝ) : Measurable fun x : Fin K → ℝ => a ⬝ᵥ x := by
  simp only [dotProduct]; fun_prop

theorem measurable_quad (T : Matrix (Fin K) (Fin K) ℝ) : Measurable fun x : Fin K → ℝ => x ⬝ᵥ T *ᵥ x := by
  simp only [dotProduct, mulVec]; fun_prop

theorem measurable_mulVec' (B : Matrix (Fin M) (Fin K) ℝ) : Measurable fun x : Fin K → ℝ => B *ᵥ x :=
  measurable_pi_iff.2 fun i => measurable_dot (B i)

theorem quad_pos {Sigma : Matrix (Fin K) (Fin K) ℝ} (h : Sigma.PosDef) {a : Fin K → ℝ} (ha : a ≠ 0) : 0 < a ⬝ᵥ Sigma *ᵥ a := by
  have := h.dotProduct_mulVec_pos ha
  rwa [show star a = a from funext fun i => star_trivial _] at this

theorem lawV_of_dot {μ ν : Measure (Fin K → ℝ)} [IsProbabilityMeasure μ] [IsProbabilityMeasure ν]
    (h : ∀ c : Fin K → ℝ, μ.map (fun x => c ⬝ᵥ x) = ν.map fun x => c ⬝ᵥ x) : μ = ν := lawV_of_linear h

/-- a linear form of a normal vector -/
theorem mvn_linear (mu : Fin K → ℝ) {Sigma : Matrix (Fin K) (Fin K) ℝ} (h : Sigma.PosDef) {a : Fin K → ℝ} (ha : a ≠ 0) :
    (densLawV (mvnPdf mu Sigma)).map (fun x => a ⬝ᵥ x) = densLaw (normPdf (a ⬝ᵥ mu) √(a ⬝ᵥ Sigma *ᵥ a)) := by
  have hq := quad_pos h ha
  have hs := Real.sqrt_pos.2 hq
  have := mvn_prob mu h
  have := (isCdf_norm (a ⬝ᵥ mu) hs).isProb
  have hm := measurable_dot a
  have := Measure.isProbabilityMeasure_map (μ := densLawV (mvnPdf mu Sigma)) hm.aemeasurable
  refine law_of_mgf one_pos fun t _ => ?_
  have hu : IsUnit Sigma.det := isUnit_iff_ne_zero.2 h.det_pos.ne'
  obtain ⟨i1, e1⟩ := mvn_mgf (T := 0) h (by rw [smul_zero, sub_zero]; exact h.inv) (t • a)
  simp only [zero_mulVec, dotProduct_zero, zero_add, smul_zero, sub_zero, Matrix.mul_zero, det_one, Real.one_rpow, one_mul,
    nonsing_inv_nonsing_inv _ hu, smul_dotProduct, mulVec_smul, dotProduct_smul, smul_eq_mul] at i1 e1
  have hx : Measurable fun x : ℝ => Real.exp (t * x) := by fun_prop
  have hadd : Measurable fun x : Fin K → ℝ => mu + x := by fun_prop
  have e2 : ∀ x : Fin K → ℝ, Real.exp (t * (a ⬝ᵥ (mu + x))) = Real.exp (t * (a ⬝ᵥ mu)) * Real.exp (t * (a ⬝ᵥ x)) := fun x => by
    rw [dotProduct_add, mul_add, Real.exp_add]
  have hg := ProbabilityTheory.mgf_id_gaussianReal (μ := a ⬝ᵥ mu) (v := ⟨√(a ⬝ᵥ Sigma *ᵥ a) ^ 2, sq_nonneg _⟩)
  have hg := congrFun hg t
  refine ⟨?_, ?_, ?_⟩
  · rw [integrable_map_measure hx.aestronglyMeasurable hm.aemeasurable, ← mvn_shift mu h,
      integrable_map_measure (hx.comp hm).aestronglyMeasurable hadd.aemeasurable]
    refine (i1.const_mul (Real.exp (t * (a ⬝ᵥ mu)))).congr (.of_forall fun x => ?_)
    exact (e2 x).symm
  · rw [densLaw_norm _ hs]
    exact ProbabilityTheory.integrable_exp_mul_gaussianReal t
  · rw [integral_map hm.aemeasurable hx.aestronglyMeasurable, ← mvn_shift mu h,
      integral_map (f := fun x => Real.exp (t * (a ⬝ᵥ x))) hadd.aemeasurable (hx.comp hm).aestronglyMeasurable, densLaw_norm _ hs]
    refine Eq.trans ?_ hg.symm
    simp only [e2]
    rw [integral_const_mul, e1, ← Real.exp_add]
    congr 1
    show _ = _ + √(a ⬝ᵥ Sigma *ᵥ a) ^ 2 * t ^ 2 / 2
    rw [Real.sq_sqrt hq.le]
    ring

/-- an affine image of a normal vector -/
theorem mvn_affine (mu : Fin K → ℝ) {Sigma : Matrix (Fin K) (Fin K) ℝ} (h : Sigma.PosDef) (b : Fin M → ℝ)
    {B : Matrix (Fin M) (Fin K) ℝ} (hB : (B * Sigma * Bᵀ).PosDef) :
    (densLawV (mvnPdf mu Sigma)).map (fun x => b + B *ᵥ x) = densLawV (mvnPdf (b + B *ᵥ mu) (B * Sigma * Bᵀ)) := by
  have := mvn_prob mu h
  have := mvn_prob (b + B *ᵥ mu) hB
  have hm : Measurable fun x : Fin K → ℝ => b + B *ᵥ x := (measurable_mulVec' B).const_add b
  have := Measure.isProbabilityMeasure_map (μ := densLawV (mvnPdf mu Sigma)) hm.aemeasurable
  refine lawV_of_dot fun c => ?_
  rw [Measure.map_map (measurable_dot c) hm]
  have e : ((fun x : Fin M → ℝ => c ⬝ᵥ x) ∘ fun x : Fin K → ℝ => b + B *ᵥ x) =
      (fun y => c ⬝ᵥ b + y) ∘ fun x => (Bᵀ *ᵥ c) ⬝ᵥ x := by
    funext x
    show c ⬝ᵥ (b + B *ᵥ x) = _
    rw [dotProduct_add, dotProduct_mulVec, ← mulVec_transpose]
    rfl
  rw [e, ← Measure.map_map (by fun_prop) (measurable_dot _)]
  by_cases hc : c = 0
  · subst hc
    simp only [mulVec_zero, zero_dotProduct, zero_add]
    rw [Measure.map_map (by fun_prop) (by fun_prop)]
    simp only [Measure.map_const, measure_univ, Function.comp_def]
  have hq := quad_pos hB hc
  have eq : c ⬝ᵥ (B * Sigma * Bᵀ) *ᵥ c = (Bᵀ *ᵥ c) ⬝ᵥ Sigma *ᵥ (Bᵀ *ᵥ c) := by
    rw [Matrix.mul_assoc, ← mulVec_mulVec, dotProduct_mulVec, ← mulVec_transpose, mulVec_mulVec]
  have hc' : Bᵀ *ᵥ c ≠ 0 := fun h0 => by
    rw [eq, h0, zero_dotProduct] at hq
    exact lt_irrefl _ hq
  rw [mvn_linear mu h hc']
  have hl := mvn_linear (b + B *ᵥ mu) hB hc
  refine Eq.trans ?_ hl.symm
  rw [eq, densLaw_norm _ (Real.sqrt_pos.2 (quad_pos h hc')), densLaw_norm _ (Real.sqrt_pos.2 (quad_pos h hc'))]
  refine (ProbabilityTheory.gaussianReal_map_const_add (c ⬝ᵥ b)).trans ?_
  rw [dotProduct_add, dotProduct_mulVec c B, ← mulVec_transpose, add_comm]

/-- the sum of two independent normal vectors -/
theorem mvn_add (m₁ m₂ : Fin K → ℝ) {S₁ S₂ : Matrix (Fin K) (Fin K) ℝ} (h₁ : S₁.PosDef) (h₂ : S₂.PosDef) :
    ((densLawV (mvnPdf m₁ S₁)).prod (densLawV (mvnPdf m₂ S₂))).map (fun p => p.1 + p.2) =
      densLawV (mvnPdf (m₁ + m₂) (S₁ + S₂)) := by
  have := mvn_prob m₁ h₁
  have := mvn_prob m₂ h₂
  have := mvn_prob (m₁ + m₂) (h₁.add h₂)
  have hm : Measurable fun p : (Fin K → ℝ) × (Fin K → ℝ) => p.1 + p.2 := by fun_prop
  have := Measure.isProbabilityMeasure_map (μ := (densLawV (mvnPdf m₁ S₁)).prod (densLawV (mvnPdf m₂ S₂))) hm.aemeasurable
  refine lawV_of_dot fun c => ?_
  by_cases hc : c = 0
  · subst hc
    simp only [zero_dotProduct, Measure.map_const, measure_univ]
  have hd := measurable_dot c
  rw [Measure.map_map hd hm]
  have e : ((fun x : Fin K → ℝ => c ⬝ᵥ x) ∘ fun p : (Fin K → ℝ) × (Fin K → ℝ) => p.1 + p.2) =
      (fun q : ℝ × ℝ => q.1 + q.2) ∘ Prod.map (fun x => c ⬝ᵥ x) fun x => c ⬝ᵥ x := by
    funext p
    exact dotProduct_add _ _ _
  rw [e, ← Measure.map_map (by fun_prop) (hd.prodMap hd), ← Measure.map_prod_map _ _ hd hd, mvn_linear m₁ h₁ hc,
    mvn_linear m₂ h₂ hc, norm_add _ _ (Real.sqrt_pos.2 (quad_pos h₁ hc)) (Real.sqrt_pos.2 (quad_pos h₂ hc))]
  refine Eq.trans ?_ (mvn_linear (m₁ + m₂) (h₁.add h₂) hc).symm
  rw [Real.sq_sqrt (quad_pos h₁ hc).le, Real.sq_sqrt (quad_pos h₂ hc).le, add_mulVec, dotProduct_add, dotProduct_add]

/-- the squared Mahalanobis distance from the mean -/
theorem mvn_mahal (hK : 0 < K) (mu : Fin K → ℝ) {Sigma : Matrix (Fin K) (Fin K) ℝ} (h : Sigma.PosDef) :
    (densLawV (mvnPdf mu Sigma)).map (fun x => (x - mu) ⬝ᵥ Sigma⁻¹ *ᵥ (x - mu)) = densLaw (chisqPdf K) := by
  have hK' : (0 : ℝ) < K := by exact_mod_cast hK
  have := mvn_prob 0 h
  have := (isCdf_chisq hK').isProb
  have hm := measurable_quad Sigma⁻¹
  have hsub : Measurable fun x : Fin K → ℝ => (x - mu) ⬝ᵥ Sigma⁻¹ *ᵥ (x - mu) := hm.comp (by fun_prop)
  rw [← mvn_shift mu h, Measure.map_map hsub (by fun_prop)]
  have e : ((fun x : Fin K → ℝ => (x - mu) ⬝ᵥ Sigma⁻¹ *ᵥ (x - mu)) ∘ fun x => mu + x) = fun x => x ⬝ᵥ Sigma⁻¹ *ᵥ x := by
    funext x
    simp only [Function.comp_apply, add_sub_cancel_left]
  rw [e]
  have := Measure.isProbabilityMeasure_map (μ := densLawV (mvnPdf 0 Sigma)) hm.aemeasurable
  have hu : IsUnit Sigma.det := isUnit_iff_ne_zero.2 h.det_pos.ne'
  refine law_of_mgf (r := 1 / 2) (by norm_num) fun t ht => ?_
  have ht' : t < 1 / 2 := (abs_lt.1 ht).2
  have ht2 : 0 < 1 - 2 * t := by linarith
  have hQ : Sigma⁻¹ - (2 : ℝ) • (t • Sigma⁻¹) = (1 - 2 * t) • Sigma⁻¹ := by
    rw [smul_smul, sub_smul, one_smul]
  have hD : 1 - (2 : ℝ) • (Sigma * t • Sigma⁻¹) = (1 - 2 * t) • (1 : Matrix (Fin K) (Fin K) ℝ) := by
    rw [Matrix.mul_smul, mul_nonsing_inv _ hu, smul_smul, sub_smul, one_smul]
  obtain ⟨i1, e1⟩ := mvn_mgf (T := t • Sigma⁻¹) h (by rw [hQ]; exact h.inv.smul ht2) 0
  rw [hD, det_smul, det_one, mul_one, Fintype.card_fin] at e1
  simp only [zero_dotProduct, add_zero, smul_mulVec, dotProduct_smul, smul_eq_mul, zero_div, Real.exp_zero, mul_one] at i1 e1
  have hx : Measurable fun x : ℝ => Real.exp (t * x) := by fun_prop
  obtain ⟨i2, e2⟩ := chisq_mgf hK' ht'
  refine ⟨?_, i2, ?_⟩
  · rw [integrable_map_measure hx.aestronglyMeasurable hm.aemeasurable]
    exact i1
  · rw [integral_map hm.aemeasurable hx.aestronglyMeasurable, e1, e2, ← Real.rpow_natCast, ← Real.rpow_mul ht2.le]
    congr 1; ring

end Stats
