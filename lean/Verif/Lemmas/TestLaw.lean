import Verif.Lemmas.Student
import Verif.Lemmas.QuantIdeal

/-! The laws of the classical test statistics. -/

open Classical
open MeasureTheory Set Matrix
open scoped ENNReal

namespace Stats
open Spec

/-! ### distribution functions of their own draws -/

theorem IsCdf.real_le {F f : ℝ → ℝ} (hF : IsCdf F f) {u : ℝ} (h0 : 0 ≤ u) (h1 : u ≤ 1) : (densLaw f).real {x | F x ≤ u} = u := by
  have := hF.isProb
  rcases h1.eq_or_lt with rfl | h1
  · rw [show {x | F x ≤ 1} = univ from eq_univ_of_forall hF.le_one, probReal_univ]
  refine le_antisymm (le_of_forall_gt_imp_ge_of_dense fun v hv => ?_) (le_of_forall_lt_imp_le_of_dense fun w hw => ?_)
  · rcases lt_or_ge v 1 with hv1 | hv1
    · obtain ⟨x, hx⟩ := hF.exists_eq (h0.trans_lt hv) hv1
      rw [← hx, ← hF.real_Iic]
      refine measureReal_mono fun y hy => ?_
      by_contra hc
      have := hF.mono (not_le.1 hc).le
      have hy : F y ≤ u := hy
      linarith
    · exact measureReal_le_one.trans hv1
  · rcases le_or_gt w 0 with hw0 | hw0
    · exact hw0.trans measureReal_nonneg
    · obtain ⟨x, hx⟩ := hF.exists_eq hw0 (hw.trans h1)
      rw [← hx, ← hF.real_Iic]
      exact measureReal_mono fun y hy => (hF.mono hy).trans (hx.le.trans hw.le)

/-- the probability integral transform -/
theorem IsCdf.map_self {F f : ℝ → ℝ} (hF : IsCdf F f) : (densLaw f).map F = densLaw (unifPdf 0 1) := by
  have := hF.isProb
  have hm : Measurable F := hF.mono.measurable
  have := Measure.isProbabilityMeasure_map (μ := densLaw f) hm.aemeasurable
  refine law_of_cdf (isCdf_unif zero_lt_one) fun u => ?_
  rw [map_measureReal_apply hm measurableSet_Iic]
  show (densLaw f).real {x | F x ≤ u} = _
  rcases lt_or_ge u 0 with h0 | h0
  · have : {x | F x ≤ u} = ∅ := eq_empty_of_forall_notMem fun x hx => by
      have := hF.nonneg' x
      have hx : F x ≤ u := hx
      linarith
    rw [this, measureReal_empty, unifCdf, if_pos h0.le]
  · rcases le_or_gt u 1 with h1 | h1
    · rw [hF.real_le h0 h1, unifCdf]
      split_ifs with h2 h3
      · linarith
      · linarith
      · ring
    · rw [show {x | F x ≤ u} = univ from eq_univ_of_forall fun x => (hF.le_one x).trans h1.le, probReal_univ, unifCdf, if_neg (by linarith),
        if_pos h1.le]

theorem prod_swap {A B C D : Type*} [MeasurableSpace A] [MeasurableSpace B] [MeasurableSpace C] [MeasurableSpace D]
    (a : Measure A) (b : Measure B) (c : Measure C) (d : Measure D) [IsProbabilityMeasure a] [IsProbabilityMeasure b]
    [IsProbabilityMeasure c] [IsProbabilityMeasure d] :
    ((a.prod b).prod (c.prod d)).map (fun p => ((p.1.1, p.2.1), (p.1.2, p.2.2))) = (a.prod c).prod (b.prod d) := by
  have hs : Measurable fun p : (A × B) × (C × D) => ((p.1.1, p.2.1), (p.1.2, p.2.2)) := by fun_prop
  refine Measure.ext_of_lintegral _ fun f hf => ?_
  have hfs : Measurable fun p : (A × B) × (C × D) => f ((p.1.1, p.2.1), (p.1.2, p.2.2)) := hf.comp hs
  rw [lintegral_map hf hs, lintegral_prod _ hfs.aemeasurable, lintegral_prod _ hf.aemeasurable,
    lintegral_prod _ hfs.lintegral_prod_right'.aemeasurable,
    lintegral_prod _ hf.lintegral_prod_right'.aemeasurable]
  refine lintegral_congr fun x => ?_
  have e1 : ∀ y, ∫⁻ z, f ((x, z.1), (y, z.2)) ∂c.prod d = ∫⁻ z, ∫⁻ w, f ((x, z), (y, w)) ∂d ∂c := fun y =>
    lintegral_prod _ (by fun_prop)
  have e2 : ∀ z, ∫⁻ w, f ((x, z), w) ∂b.prod d = ∫⁻ y, ∫⁻ w, f ((x, z), (y, w)) ∂d ∂b := fun z =>
    lintegral_prod _ (by fun_prop)
  simp only [e1, e2]
  refine lintegral_lintegral_swap ?_
  have : Measurable fun p : (B × C) × D => f ((x, p.1.2), (p.1.1, p.2)) := by fun_prop
  exact this.lintegral_prod_right'.aemeasurable

/-! ### one sample -/

/-- the mean -/
noncomputable abbrev avg {n : ℕ} (x : Fin n → ℝ) : ℝ := (∑ j, x j) / (n : ℝ)

/-- the sum of the squared deviations from the mean -/
noncomputable abbrev dev {n : ℕ} (x : Fin n → ℝ) : ℝ := ∑ i, (x i - (∑ j, x j) / (n : ℝ)) ^ 2

section one
variable {n : ℕ} (mu : ℝ) {sigma : ℝ}

theorem measurable_student : Measurable fun x : Fin n → ℝ => ((avg x - mu) / (sigma / √(n : ℝ)), dev x / sigma ^ 2) := by fun_prop

variable (hn : 2 ≤ n) (h : 0 < sigma)
include hn h

theorem z_law : (Measure.pi fun _ : Fin n => densLaw (normPdf mu sigma)).map (fun x => (avg x - mu) / (sigma / √(n : ℝ))) =
    densLaw (normPdf 0 1) := by
  have hn1 : (0 : ℝ) < n - 1 := by have : (2 : ℝ) ≤ n := by exact_mod_cast hn
                                   linarith
  have := (isCdf_norm 0 one_pos).isProb
  have := (isCdf_chisq hn1).isProb
  have e := congrArg (Measure.map Prod.fst) (student_law hn mu h)
  rw [Measure.map_map measurable_fst (measurable_student mu), Measure.map_fst_prod, measure_univ, one_smul] at e
  exact e

theorem dev_law : (Measure.pi fun _ : Fin n => densLaw (normPdf mu sigma)).map (fun x => dev x / sigma ^ 2) =
    densLaw (chisqPdf (n - 1)) := by
  have hn1 : (0 : ℝ) < n - 1 := by have : (2 : ℝ) ≤ n := by exact_mod_cast hn
                                   linarith
  have := (isCdf_norm 0 one_pos).isProb
  have := (isCdf_chisq hn1).isProb
  have e := congrArg (Measure.map Prod.snd) (student_law hn mu h)
  rw [Measure.map_map measurable_snd (measurable_student mu), Measure.map_snd_prod, measure_univ, one_smul] at e
  exact e

theorem dev_pos : ∀ᵐ x ∂(Measure.pi fun _ : Fin n => densLaw (normPdf mu sigma)), 0 < dev x := by
  have hp := densLaw_chisq_pos ((n : ℝ) - 1)
  rw [← dev_law mu hn h] at hp
  filter_upwards [ae_of_ae_map (by fun_prop) hp] with x hx
  have := mul_pos hx (pow_pos h 2)
  rwa [div_mul_cancel₀ _ (pow_pos h 2).ne'] at this

theorem t_law : (Measure.pi fun _ : Fin n => densLaw (normPdf mu sigma)).map
    (fun x => (avg x - mu) / √(dev x / (n : ℝ) / ((n : ℝ) - 1))) = densLaw (tPdf (n - 1)) := by
  have hn2 : (2 : ℝ) ≤ n := by exact_mod_cast hn
  have hn1 : (0 : ℝ) < n - 1 := by linarith
  rw [← t_ratio hn1, ← student_law hn mu h, Measure.map_map (by fun_prop) (measurable_student mu)]
  congr 1; funext x
  show _ = (avg x - mu) / (sigma / √(n : ℝ)) / √(dev x / sigma ^ 2 / ((n : ℝ) - 1))
  have e : √(dev x / sigma ^ 2 / ((n : ℝ) - 1)) = √(dev x / (n : ℝ) / ((n : ℝ) - 1)) * √(n : ℝ) / sigma := by
    rw [← Real.sqrt_mul' _ (by linarith), eq_div_iff h.ne']
    nth_rewrite 2 [← Real.sqrt_sq h.le]
    rw [← Real.sqrt_mul' _ (sq_nonneg _)]
    congr 1
    field_simp
  rw [e]
  have : √(n : ℝ) ≠ 0 := (Real.sqrt_pos.2 (by linarith)).ne'
  rcases eq_or_ne (√(dev x / (n : ℝ) / ((n : ℝ) - 1))) 0 with h0 | h0
  · rw [h0]; simp
  · field_simp

theorem mean_law : (Measure.pi fun _ : Fin n => densLaw (normPdf mu sigma)).map (fun x => avg x) =
    densLaw (normPdf mu (sigma / √(n : ℝ))) := by
  have hp : 0 < n := by omega
  have hn0 : (0 : ℝ) < √(n : ℝ) := Real.sqrt_pos.2 (by exact_mod_cast hp)
  rw [← norm_affine mu (div_pos h hn0), ← z_law mu hn h, Measure.map_map (by fun_prop) (by fun_prop)]
  congr 1; funext x
  simp only [Function.comp_apply]
  field_simp
  ring

end one

/-! ### two samples -/

section two
variable {n m : ℕ} (mu₁ mu₂ : ℝ) {sigma : ℝ} (hn : 2 ≤ n) (hm : 2 ≤ m) (h : 0 < sigma)
include hn hm h

theorem f_law : ((Measure.pi fun _ : Fin n => densLaw (normPdf mu₁ sigma)).prod
    (Measure.pi fun _ : Fin m => densLaw (normPdf mu₂ sigma))).map
      (fun p => dev p.1 / ((n : ℝ) - 1) / (dev p.2 / ((m : ℝ) - 1))) = densLaw (fPdf (n - 1) (m - 1)) := by
  have hn1 : (0 : ℝ) < n - 1 := by have : (2 : ℝ) ≤ n := by exact_mod_cast hn
                                   linarith
  have hm1 : (0 : ℝ) < m - 1 := by have : (2 : ℝ) ≤ m := by exact_mod_cast hm
                                   linarith
  have := (isCdf_norm mu₁ h).isProb
  have := (isCdf_norm mu₂ h).isProb
  rw [← f_ratio hn1 hm1, ← dev_law mu₁ hn h, ← dev_law mu₂ hm h, Measure.map_prod_map _ _ (by fun_prop) (by fun_prop),
    Measure.map_map (by fun_prop) (by fun_prop)]
  congr 1; funext p
  simp only [Function.comp_apply, Prod.map]
  rcases eq_or_ne (dev p.2) 0 with h0 | h0
  · rw [h0]; simp
  · field_simp

theorem t2_law : ((Measure.pi fun _ : Fin n => densLaw (normPdf mu₁ sigma)).prod
    (Measure.pi fun _ : Fin m => densLaw (normPdf mu₂ sigma))).map
      (fun p => (avg p.1 - avg p.2 - (mu₁ - mu₂)) /
        √((dev p.1 + dev p.2) / ((n : ℝ) + m - 2) * (1 / n + 1 / m))) = densLaw (tPdf (n + m - 2)) := by
  have hn2 : (2 : ℝ) ≤ n := by exact_mod_cast hn
  have hm2 : (2 : ℝ) ≤ m := by exact_mod_cast hm
  have hn1 : (0 : ℝ) < n - 1 := by linarith
  have hm1 : (0 : ℝ) < m - 1 := by linarith
  have hk : (0 : ℝ) < n + m - 2 := by linarith
  have hn0 : (0 : ℝ) < n := by linarith
  have hm0 : (0 : ℝ) < m := by linarith
  have sn := Real.sqrt_pos.2 hn0
  have sm := Real.sqrt_pos.2 hm0
  have qn : √(n : ℝ) ^ 2 = n := Real.sq_sqrt hn0.le
  have qm : √(m : ℝ) ^ 2 = m := Real.sq_sqrt hm0.le
  have := (isCdf_norm mu₁ h).isProb
  have := (isCdf_norm mu₂ h).isProb
  have := (isCdf_norm 0 one_pos).isProb
  have := (isCdf_chisq hn1).isProb
  have := (isCdf_chisq hm1).isProb
  set w := √(1 / (n : ℝ) + 1 / m) with hw
  have hwq : w ^ 2 = 1 / n + 1 / m := Real.sq_sqrt (by positivity)
  have hw0 : 0 < w := Real.sqrt_pos.2 (by positivity)
  -- the difference of the means, in units of its standard deviation
  have a1 := norm_affine 0 (show 0 < 1 / (√(n : ℝ) * w) by positivity)
  have a2 : (densLaw (normPdf 0 1)).map (fun z => -(0 + 1 / (√(m : ℝ) * w) * z)) = densLaw (normPdf 0 (1 / (√(m : ℝ) * w))) := by
    have a3 := norm_affine 0 (show 0 < 1 / (√(m : ℝ) * w) by positivity)
    have a4 := ProbabilityTheory.gaussianReal_map_neg (μ := 0) (v := ⟨(1 / (√(m : ℝ) * w)) ^ 2, sq_nonneg _⟩)
    rw [neg_zero, ← densLaw_norm 0 (by positivity)] at a4
    rw [← a3, Measure.map_map (by fun_prop) (by fun_prop)] at a4
    rw [← a3]
    exact a4
  have e1 : ((densLaw (normPdf 0 1)).prod (densLaw (normPdf 0 1))).map
      (fun p => 1 / (√(n : ℝ) * w) * p.1 - 1 / (√(m : ℝ) * w) * p.2) = densLaw (normPdf 0 1) := by
    have b := norm_add 0 0 (show 0 < 1 / (√(n : ℝ) * w) by positivity) (show 0 < 1 / (√(m : ℝ) * w) by positivity)
    have : √((1 / (√(n : ℝ) * w)) ^ 2 + (1 / (√(m : ℝ) * w)) ^ 2) = 1 := by
      rw [Real.sqrt_eq_one, div_pow, div_pow, mul_pow, mul_pow, qn, qm, hwq]
      field_simp
    rw [this, add_zero, ← a1, ← a2, Measure.map_prod_map _ _ (by fun_prop) (by fun_prop), Measure.map_map (by fun_prop) (by fun_prop)] at b
    refine Eq.trans ?_ b
    congr 1; funext p
    simp only [Function.comp_apply, Prod.map]
    ring
  have e2 := chisq_add hn1 hm1
  rw [show (n : ℝ) - 1 + (m - 1) = n + m - 2 by ring] at e2
  rw [← t_ratio hk, ← e2]
  nth_rewrite 1 [← e1]
  rw [Measure.map_prod_map _ _ (by fun_prop) (by fun_prop), Measure.map_map (by fun_prop) (by fun_prop), ← prod_swap,
    Measure.map_map (by fun_prop) (by fun_prop), ← student_law hn mu₁ h, ← student_law hm mu₂ h,
    Measure.map_prod_map _ _ (measurable_student mu₁) (measurable_student mu₂), Measure.map_map (by fun_prop)
      ((measurable_student mu₁).prodMap (measurable_student mu₂))]
  congr 1; funext p
  show _ = (1 / (√(n : ℝ) * w) * ((avg p.1 - mu₁) / (sigma / √(n : ℝ))) - 1 / (√(m : ℝ) * w) * ((avg p.2 - mu₂) / (sigma / √(m : ℝ)))) /
    √((dev p.1 / sigma ^ 2 + dev p.2 / sigma ^ 2) / ((n : ℝ) + m - 2))
  have e : √((dev p.1 / sigma ^ 2 + dev p.2 / sigma ^ 2) / ((n : ℝ) + m - 2)) =
      √((dev p.1 + dev p.2) / ((n : ℝ) + m - 2)) / sigma := by
    rw [eq_div_iff h.ne']
    nth_rewrite 3 [← Real.sqrt_sq h.le]
    rw [← Real.sqrt_mul' _ (sq_nonneg _)]
    congr 1
    field_simp
  rw [e, Real.sqrt_mul' _ (by positivity), ← hw]
  rcases eq_or_ne (√((dev p.1 + dev p.2) / ((n : ℝ) + m - 2))) 0 with h0 | h0
  · rw [h0]; simp
  · field_simp
    ring

end two

theorem measurable_hotelling {K n : ℕ} (mu : Fin K → ℝ) : Measurable fun x : Fin n → Fin K → ℝ =>
    ((n : ℝ) - K) / K * ((fun i => √(n : ℝ) * ((∑ k, x k i) / (n : ℝ) - mu i)) ⬝ᵥ
      (of fun i j => ∑ k, (x k i - (∑ l, x l i) / (n : ℝ)) * (x k j - (∑ l, x l j) / (n : ℝ)))⁻¹ *ᵥ
        fun i => √(n : ℝ) * ((∑ k, x k i) / (n : ℝ) - mu i)) := by
  have h1 : Measurable fun p : (Fin K → ℝ) × (Fin K → Fin K → ℝ) => p.1 ⬝ᵥ of p.2 *ᵥ p.1 := by
    simp only [dotProduct, Matrix.mulVec, of_apply]; fun_prop
  have mi : Measurable fun p : (Fin K → ℝ) × (Fin K → Fin K → ℝ) => p.1 ⬝ᵥ (of p.2)⁻¹ *ᵥ p.1 :=
    h1.comp (measurable_fst.prodMk (measurable_inv_entries.comp measurable_snd))
  have mf : Measurable fun x : Fin n → Fin K → ℝ => ((fun i => √(n : ℝ) * ((∑ k, x k i) / (n : ℝ) - mu i),
        fun i j => ∑ k, (x k i - (∑ l, x l i) / (n : ℝ)) * (x k j - (∑ l, x l j) / (n : ℝ))) :
          (Fin K → ℝ) × (Fin K → Fin K → ℝ)) := by
    refine Measurable.prodMk (measurable_pi_iff.2 fun i => by fun_prop) (measurable_pi_iff.2 fun i => measurable_pi_iff.2 fun j => ?_)
    fun_prop
  exact (mi.comp mf).const_mul _

theorem IsCdf.real_Icc {F f : ℝ → ℝ} (hF : IsCdf F f) {a b : ℝ} (h : a ≤ b) : (densLaw f).real (Icc a b) = F b - F a := by
  have := hF.isProb
  have : NullSingletonClass (densLaw f) := by unfold densLaw; infer_instance
  rw [measureReal_congr (Ioc_ae_eq_Icc (μ := densLaw f) (a := a) (b := b)).symm, ← Iic_sdiff_Iic,
    measureReal_diff (Iic_subset_Iic.2 h) measurableSet_Iic, hF.real_Iic, hF.real_Iic]

end Stats
