import Verif.Lemmas.MvnImage
import Verif.Props.C47
import Mathlib.Probability.Independence.Basic
import Mathlib.LinearAlgebra.Matrix.SchurComplement

/-! Sums, linear images and quadratic forms of Wishart matrices. -/

open Classical
open MeasureTheory Set Matrix
open scoped ENNReal

namespace Stats
open Spec
variable {K M : ℕ}

theorem continuous_sym : Continuous (sym (K := K)) := by
  refine continuous_matrix fun i j => ?_
  simp only [sym, of_apply]
  split <;> exact continuous_apply _

theorem measurable_wishPdf_sym (Psi : Matrix (Fin K) (Fin K) ℝ) (ν : ℝ) :
    Measurable fun x : Low K → ℝ => if (sym x).PosDef then wishPdf Psi ν (sym x) else 0 := by
  refine Measurable.ite measurableSet_posDef ?_ measurable_const
  have h1 : Measurable fun x : Low K → ℝ => (sym x).det := (continuous_sym.matrix_det).measurable
  have h2 : Measurable fun x : Low K → ℝ => (Psi⁻¹ * sym x).trace :=
    ((continuous_const.matrix_mul continuous_sym).matrix_trace).measurable
  unfold wishPdf
  fun_prop

theorem mgamma_pos' {a : ℝ} {p : ℕ} (h : ((p : ℝ) - 1) / 2 < a) : 0 < mgamma a p := by
  rw [mgamma]
  refine mul_pos (by positivity) (Finset.prod_pos fun j hj => Real.Gamma_pos_of_pos ?_)
  have : (j : ℝ) + 1 ≤ p := by exact_mod_cast Finset.mem_range.1 hj
  linarith

theorem wishPdf_nonneg {Psi X : Matrix (Fin K) (Fin K) ℝ} (h : Psi.PosDef) {ν : ℝ} (hν : (K : ℝ) - 1 < ν) (hX : X.PosDef) :
    0 ≤ wishPdf Psi ν X := by
  have := h.det_pos
  have := hX.det_pos
  have := mgamma_pos' (p := K) (a := ν / 2) (by linarith)
  rw [wishPdf]
  positivity

theorem wish_low_prob {Psi : Matrix (Fin K) (Fin K) ℝ} (h : Psi.PosDef) {ν : ℝ} (hν : (K : ℝ) - 1 < ν) :
    IsProbabilityMeasure (densLawV fun x : Low K → ℝ => if (sym x).PosDef then wishPdf Psi ν (sym x) else 0) := by
  obtain ⟨L, hL, hd⟩ := posDef_factor h
  have hprob : ∀ p : Low K, IsProbabilityMeasure (densLaw (bartPdf ν p)) := fun p => by
    rw [bartPdf]
    split
    · exact chi_prob (df_pos hν p.1.1)
    · exact (isCdf_norm 0 one_pos).isProb
  have hs : Measurable (sqr (K := K)) :=
    (continuous_iff_continuousAt.2 fun u => (sqr_hasFDerivAt u).continuousAt).measurable
  have hc : Measurable (congr L) := (LinearMap.continuous_of_finiteDimensional _).measurable
  have h1 : IsProbabilityMeasure ((Measure.pi fun p : Low K => densLaw (bartPdf ν p)).map sqr) :=
    Measure.isProbabilityMeasure_map hs.aemeasurable
  rw [bart_law hν] at h1
  have h2 := Measure.isProbabilityMeasure_map (f := congr L) (μ := densLawV fun x : Low K → ℝ =>
    if (sym x).PosDef then wishPdf 1 ν (sym x) else 0) hc.aemeasurable
  rw [posDef_congr_law hd] at h2
  convert! h2 using 3 with x
  split_ifs with hx
  · rw [wish_scale hd hx ν, hL]
  · rfl

theorem wish_prob {Psi : Matrix (Fin K) (Fin K) ℝ} (h : Psi.PosDef) {ν : ℝ} (hν : (K : ℝ) - 1 < ν) :
    IsProbabilityMeasure (posDefLaw (wishPdf Psi ν)) := by
  have := wish_low_prob h hν
  rw [posDefLaw]
  exact Measure.isProbabilityMeasure_map measurable_sym.aemeasurable

theorem measurableSet_symm : MeasurableSet {X : Fin K → Fin K → ℝ | (of X)ᵀ = of X} := by
  have : {X : Fin K → Fin K → ℝ | (of X)ᵀ = of X} = ⋂ i, ⋂ j, {X | X j i = X i j} := by
    ext X
    simp only [mem_ofPred_eq, mem_iInter, ← Matrix.ext_iff, transpose_apply, of_apply]
  rw [this]
  exact .iInter fun i => .iInter fun j => measurableSet_eq_fun (by fun_prop) (by fun_prop)

theorem posDefLaw_symm (f : Matrix (Fin K) (Fin K) ℝ → ℝ) : ∀ᵐ X ∂posDefLaw f, (of X)ᵀ = of X := by
  rw [posDefLaw, ae_map_iff measurable_sym.aemeasurable measurableSet_symm]
  exact .of_forall fun x => sym_transpose x

theorem measurable_trace_mul (T : Matrix (Fin K) (Fin M) ℝ) : Measurable fun X : Fin M → Fin K → ℝ => (T * of X).trace := by
  simp only [trace, diag, Matrix.mul_apply, of_apply]
  fun_prop

/-- Exponential moments of linear forms in a Wishart matrix. -/
theorem wish_mgf {Psi T : Matrix (Fin K) (Fin K) ℝ} (h : Psi.PosDef) {ν : ℝ} (hν : (K : ℝ) - 1 < ν)
    (hT : (Psi⁻¹ - (2 : ℝ) • T).PosDef) :
    Integrable (fun X => Real.exp (T * of X).trace) (posDefLaw (wishPdf Psi ν)) ∧
      ∫ X, Real.exp (T * of X).trace ∂posDefLaw (wishPdf Psi ν) = (1 - (2 : ℝ) • (Psi * T)).det ^ (-ν / 2) := by
  set Q := Psi⁻¹ - (2 : ℝ) • T with hQ
  have hu : IsUnit Psi.det := isUnit_iff_ne_zero.2 h.det_pos.ne'
  have hq : IsUnit Q.det := isUnit_iff_ne_zero.2 hT.det_pos.ne'
  have hQi : Q⁻¹⁻¹ = Q := nonsing_inv_nonsing_inv _ hq
  have hd : (1 - (2 : ℝ) • (Psi * T)).det = Psi.det * Q.det := by
    rw [← det_mul, hQ, Matrix.mul_sub, mul_nonsing_inv _ hu, Matrix.mul_smul]
  have hdi : Q⁻¹.det = Q.det⁻¹ := by rw [det_nonsing_inv, Ring.inverse_eq_inv']
  have h1 := h.det_pos
  have h2 := hT.det_pos
  have hmt := measurable_trace_mul T
  have hme : Measurable fun X : Fin K → Fin K → ℝ => Real.exp (T * of X).trace := Real.measurable_exp.comp hmt
  have := wish_low_prob hT.inv hν
  rw [posDefLaw, integrable_map_measure hme.aestronglyMeasurable measurable_sym.aemeasurable,
    integral_map measurable_sym.aemeasurable hme.aestronglyMeasurable]
  refine tilt (φ := fun x : Low K → ℝ => (T * sym x).trace)
    (g := fun x : Low K → ℝ => if (sym x).PosDef then wishPdf Q⁻¹ ν (sym x) else 0)
    (measurable_wishPdf_sym Psi ν) (fun x => ?_) (hmt.comp measurable_sym) (by rw [hd]; positivity) ?_ fun x => ?_
  · split_ifs with hx
    · exact wishPdf_nonneg h hν hx
    · exact le_rfl
  · have := measure_univ (μ := densLawV fun x : Low K → ℝ => if (sym x).PosDef then wishPdf Q⁻¹ ν (sym x) else 0)
    rwa [densLawV, withDensity_apply _ MeasurableSet.univ, setLIntegral_univ] at this
  · split_ifs with hx
    · rw [wishPdf, wishPdf, hQi, hd, hdi, neg_div 2 ν, Real.rpow_neg (by positivity), Real.mul_rpow h1.le h2.le, Real.inv_rpow h2.le]
      have e1 : (Q * sym x).trace = (Psi⁻¹ * sym x).trace - 2 * (T * sym x).trace := by
        rw [hQ, Matrix.sub_mul, trace_sub, Matrix.smul_mul, trace_smul, smul_eq_mul]
      have e2 : Real.exp (-(Q * sym x).trace / 2) = Real.exp (T * sym x).trace * Real.exp (-(Psi⁻¹ * sym x).trace / 2) := by
        rw [← Real.exp_add, e1]
        congr 1; ring
      rw [e2]
      have h3 := Real.rpow_pos_of_pos h2 (ν / 2)
      have h4 := Real.rpow_pos_of_pos h1 (ν / 2)
      have h5 := mgamma_pos' (p := K) (a := ν / 2) (by linarith)
      have h6 : (0 : ℝ) < 2 ^ (ν * K / 2) := by positivity
      field_simp
    · simp

/-- Laws of symmetric matrices are determined by the exponential moments of the linear forms near 0. -/
theorem lawM_of_mgf {μ ν : Measure (Fin K → Fin K → ℝ)} [IsProbabilityMeasure μ] [IsProbabilityMeasure ν]
    (hμ : ∀ᵐ X ∂μ, (of X)ᵀ = of X) (hν : ∀ᵐ X ∂ν, (of X)ᵀ = of X)
    (h : ∀ T : Matrix (Fin K) (Fin K) ℝ, Tᵀ = T → ∃ r > 0, ∀ t : ℝ, |t| < r →
      Integrable (fun X => Real.exp ((t • T) * of X).trace) μ ∧ Integrable (fun X => Real.exp ((t • T) * of X).trace) ν ∧
      ∫ X, Real.exp ((t • T) * of X).trace ∂μ = ∫ X, Real.exp ((t • T) * of X).trace ∂ν) : μ = ν := by
  have key : ∀ T : Matrix (Fin K) (Fin K) ℝ, Tᵀ = T → μ.map (fun X => (T * of X).trace) = ν.map fun X => (T * of X).trace := by
    intro T hT
    obtain ⟨r, r0, hr⟩ := h T hT
    have hm := measurable_trace_mul T
    have := Measure.isProbabilityMeasure_map (μ := μ) hm.aemeasurable
    have := Measure.isProbabilityMeasure_map (μ := ν) hm.aemeasurable
    refine law_of_mgf r0 fun t ht => ?_
    have hx : Measurable fun x : ℝ => Real.exp (t * x) := by fun_prop
    obtain ⟨a, b, c⟩ := hr t ht
    simp only [Matrix.smul_mul, trace_smul, smul_eq_mul] at a b c
    rw [integrable_map_measure hx.aestronglyMeasurable hm.aemeasurable, integrable_map_measure hx.aestronglyMeasurable hm.aemeasurable,
      integral_map hm.aemeasurable hx.aestronglyMeasurable, integral_map hm.aemeasurable hx.aestronglyMeasurable]
    exact ⟨a, b, c⟩
  refine Measure.ext_of_charFunDual (funext fun L => ?_)
  set T : Matrix (Fin K) (Fin K) ℝ := of fun j i => L (Pi.single i (Pi.single j 1)) with hTd
  have e : ∀ X, L X = (T * of X).trace := by
    intro X
    have h1 : X = ∑ i, ∑ j, X i j • (Pi.single i (Pi.single j 1) : Fin K → Fin K → ℝ) := by
      funext a b
      simp [Finset.sum_apply, Pi.single_apply, apply_ite (fun f : Fin K → ℝ => f b)]
    conv_lhs => rw [h1]
    simp only [map_sum, map_smul, smul_eq_mul, trace, diag, Matrix.mul_apply, of_apply, hTd]
    rw [Finset.sum_comm]
    exact Finset.sum_congr rfl fun i _ => Finset.sum_congr rfl fun j _ => mul_comm _ _
  set T' := (1 / 2 : ℝ) • (T + Tᵀ) with hT'
  have e' : ∀ X : Fin K → Fin K → ℝ, (of X)ᵀ = of X → L X = (T' * of X).trace := by
    intro X hX
    have : (Tᵀ * of X).trace = (T * of X).trace := by
      rw [← trace_transpose, transpose_mul, transpose_transpose, hX, trace_mul_comm]
    rw [e, hT', Matrix.smul_mul, trace_smul, Matrix.add_mul, trace_add, this, smul_eq_mul]
    ring
  rw [charFunDual_eq_charFun_map_one, charFunDual_eq_charFun_map_one]
  have c1 : μ.map L = μ.map fun X => (T' * of X).trace := Measure.map_congr (hμ.mono e')
  have c2 : ν.map L = ν.map fun X => (T' * of X).trace := Measure.map_congr (hν.mono e')
  rw [c1, c2, key T' (by rw [hT', transpose_smul, transpose_add, transpose_transpose, add_comm])]

/-- all multiples of a symmetric matrix near 0, for all degrees of freedom -/
theorem wish_mgf_near {Psi T : Matrix (Fin K) (Fin K) ℝ} (h : Psi.PosDef) (hT : Tᵀ = T) : ∃ r > 0, ∀ t : ℝ, |t| < r →
    0 < (1 - (2 : ℝ) • (Psi * t • T)).det ∧
    (∀ ν : ℝ, (K : ℝ) - 1 < ν → Integrable (fun X => Real.exp ((t • T) * of X).trace) (posDefLaw (wishPdf Psi ν)) ∧
      ∫ X, Real.exp ((t • T) * of X).trace ∂posDefLaw (wishPdf Psi ν) = (1 - (2 : ℝ) • (Psi * t • T)).det ^ (-ν / 2)) ∧
    (Integrable (fun x => Real.exp (x ⬝ᵥ (t • T) *ᵥ x)) (densLawV (mvnPdf 0 Psi)) ∧
      ∫ x, Real.exp (x ⬝ᵥ (t • T) *ᵥ x) ∂densLawV (mvnPdf 0 Psi) = (1 - (2 : ℝ) • (Psi * t • T)).det ^ (-(1 : ℝ) / 2)) := by
  obtain ⟨r, r0, hr⟩ := mvn_mgf_near h hT
  refine ⟨r, r0, fun t ht => ⟨?_, fun ν hν => wish_mgf h hν (hr t ht), ?_⟩⟩
  · have hu : IsUnit Psi.det := isUnit_iff_ne_zero.2 h.det_pos.ne'
    have : 1 - (2 : ℝ) • (Psi * t • T) = Psi * (Psi⁻¹ - (2 : ℝ) • (t • T)) := by
      rw [Matrix.mul_sub, mul_nonsing_inv _ hu, Matrix.mul_smul Psi 2]
    rw [this, det_mul]
    exact mul_pos h.det_pos (hr t ht).det_pos
  · have := mvn_mgf h (hr t ht) 0
    simpa only [zero_dotProduct, add_zero, zero_div, Real.exp_zero, mul_one] using this

/-- the sum of two independent Wishart matrices -/
theorem wish_add {Psi : Matrix (Fin K) (Fin K) ℝ} (h : Psi.PosDef) {ν₁ ν₂ : ℝ} (h₁ : (K : ℝ) - 1 < ν₁) (h₂ : (K : ℝ) - 1 < ν₂)
    (h₁₂ : (K : ℝ) - 1 < ν₁ + ν₂) :
    ((posDefLaw (wishPdf Psi ν₁)).prod (posDefLaw (wishPdf Psi ν₂))).map (fun p => p.1 + p.2) =
      posDefLaw (wishPdf Psi (ν₁ + ν₂)) := by
  have := wish_prob h h₁
  have := wish_prob h h₂
  have := wish_prob h h₁₂
  have hm : Measurable fun p : (Fin K → Fin K → ℝ) × (Fin K → Fin K → ℝ) => p.1 + p.2 := by fun_prop
  have := Measure.isProbabilityMeasure_map (μ := (posDefLaw (wishPdf Psi ν₁)).prod (posDefLaw (wishPdf Psi ν₂))) hm.aemeasurable
  have hsy : MeasurableSet {X : Fin K → Fin K → ℝ | (of X)ᵀ = of X} := measurableSet_symm
  refine lawM_of_mgf ?_ (posDefLaw_symm _) fun T hT => ?_
  · rw [ae_map_iff hm.aemeasurable hsy]
    filter_upwards [Measure.quasiMeasurePreserving_fst.ae (posDefLaw_symm (wishPdf Psi ν₁)),
      Measure.quasiMeasurePreserving_snd.ae (posDefLaw_symm (wishPdf Psi ν₂))] with p h1 h2
    show (of p.1 + of p.2)ᵀ = of p.1 + of p.2
    rw [transpose_add, h1, h2]
  · obtain ⟨r, r0, hr⟩ := wish_mgf_near h hT
    refine ⟨r, r0, fun t ht => ?_⟩
    obtain ⟨d0, hw, -⟩ := hr t ht
    obtain ⟨i1, e1⟩ := hw ν₁ h₁
    obtain ⟨i2, e2⟩ := hw ν₂ h₂
    obtain ⟨i3, e3⟩ := hw _ h₁₂
    have hx : Measurable fun X : Fin K → Fin K → ℝ => Real.exp ((t • T) * of X).trace :=
      Real.measurable_exp.comp (measurable_trace_mul _)
    have e : ∀ p : (Fin K → Fin K → ℝ) × (Fin K → Fin K → ℝ), Real.exp ((t • T) * of (p.1 + p.2)).trace =
        Real.exp ((t • T) * of p.1).trace * Real.exp ((t • T) * of p.2).trace := fun p => by
      rw [← Real.exp_add, ← trace_add, ← Matrix.mul_add]
      rfl
    rw [integrable_map_measure hx.aestronglyMeasurable hm.aemeasurable, integral_map hm.aemeasurable hx.aestronglyMeasurable]
    refine ⟨(i1.mul_prod i2).congr (.of_forall fun p => (e p).symm), i3, ?_⟩
    simp only [e]
    rw [integral_prod_mul (fun X : Fin K → Fin K → ℝ => Real.exp ((t • T) * of X).trace) fun X : Fin K → Fin K → ℝ =>
      Real.exp ((t • T) * of X).trace, e1, e2, e3, ← Real.rpow_add d0]
    congr 1; ring

theorem rows_le {Psi : Matrix (Fin K) (Fin K) ℝ} {A : Matrix (Fin M) (Fin K) ℝ} (hA : (A * Psi * Aᵀ).PosDef) : M ≤ K := by
  have hi : Function.Injective (toLin' Aᵀ) := by
    rw [← LinearMap.ker_eq_bot, LinearMap.ker_eq_bot']
    intro c hc
    by_contra h0
    have := quad_pos hA h0
    rw [toLin'_apply] at hc
    rw [← mulVec_mulVec, hc, mulVec_zero, dotProduct_zero] at this
    exact lt_irrefl _ this
  simpa using LinearMap.finrank_le_finrank_of_injective hi

/-- the image `A W A'` of a Wishart matrix -/
theorem wish_congr {Psi : Matrix (Fin K) (Fin K) ℝ} (h : Psi.PosDef) {ν : ℝ} (hν : (K : ℝ) - 1 < ν)
    {A : Matrix (Fin M) (Fin K) ℝ} (hA : (A * Psi * Aᵀ).PosDef) :
    (posDefLaw (wishPdf Psi ν)).map (fun X i j => (A * of X * Aᵀ) i j) = posDefLaw (wishPdf (A * Psi * Aᵀ) ν) := by
  have hν' : (M : ℝ) - 1 < ν := by
    have : (M : ℝ) ≤ K := by exact_mod_cast rows_le hA
    linarith
  have := wish_prob h hν
  have := wish_prob hA hν'
  have hm : Measurable fun (X : Fin K → Fin K → ℝ) i j => (A * of X * Aᵀ) i j := by
    refine measurable_pi_iff.2 fun i => measurable_pi_iff.2 fun j => ?_
    simp only [Matrix.mul_apply, of_apply]
    fun_prop
  have := Measure.isProbabilityMeasure_map (μ := posDefLaw (wishPdf Psi ν)) hm.aemeasurable
  refine lawM_of_mgf ?_ (posDefLaw_symm _) fun T hT => ?_
  · rw [ae_map_iff hm.aemeasurable measurableSet_symm]
    filter_upwards [posDefLaw_symm (wishPdf Psi ν)] with X hX
    show (A * of X * Aᵀ)ᵀ = A * of X * Aᵀ
    rw [transpose_mul, transpose_mul, transpose_transpose, hX, Matrix.mul_assoc]
  · obtain ⟨r, r0, hr⟩ := wish_mgf_near hA hT
    obtain ⟨q, q0, hq⟩ := wish_mgf_near (T := Aᵀ * T * A) h (by
      rw [transpose_mul, transpose_mul, transpose_transpose, hT, Matrix.mul_assoc])
    refine ⟨Min.min r q, lt_min r0 q0, fun t ht => ?_⟩
    obtain ⟨-, hw, -⟩ := hr t (ht.trans_le (min_le_left _ _))
    obtain ⟨-, hv, -⟩ := hq t (ht.trans_le (min_le_right _ _))
    obtain ⟨i1, e1⟩ := hw ν hν'
    obtain ⟨i2, e2⟩ := hv ν hν
    have hx : Measurable fun X : Fin M → Fin M → ℝ => Real.exp ((t • T) * of X).trace :=
      Real.measurable_exp.comp (measurable_trace_mul _)
    have e : ∀ X : Fin K → Fin K → ℝ, ((t • T) * of fun i j => (A * of X * Aᵀ) i j).trace = ((t • (Aᵀ * T * A)) * of X).trace :=
      fun X => by
        show ((t • T) * (A * of X * Aᵀ)).trace = _
        rw [Matrix.smul_mul, Matrix.smul_mul, ← Matrix.mul_assoc, trace_smul, trace_smul, trace_mul_comm]
        simp only [Matrix.mul_assoc]
    rw [integrable_map_measure hx.aestronglyMeasurable hm.aemeasurable, integral_map hm.aemeasurable hx.aestronglyMeasurable]
    refine ⟨i2.congr (.of_forall fun X => ?_), i1, ?_⟩
    · simp only [Function.comp_apply, e]
    · simp only [e]
      rw [e1, e2]
      congr 1
      have c1 : (2 : ℝ) • (Psi * t • (Aᵀ * T * A)) = ((2 * t) • Psi * Aᵀ * T) * A := by
        simp only [Matrix.mul_smul, Matrix.smul_mul, smul_smul, Matrix.mul_assoc]
      have c2 : (2 : ℝ) • (A * Psi * Aᵀ * t • T) = A * ((2 * t) • Psi * Aᵀ * T) := by
        simp only [Matrix.mul_smul, Matrix.smul_mul, smul_smul, Matrix.mul_assoc]
      rw [c1, c2, det_one_sub_mul_comm]

/-- the scatter matrix of independent centred normal vectors -/
theorem wish_scatter {Psi : Matrix (Fin K) (Fin K) ℝ} (h : Psi.PosDef) {n : ℕ} (hn : K ≤ n) :
    (Measure.pi fun _ : Fin n => densLawV (mvnPdf 0 Psi)).map (fun x i j => ∑ k, x k i * x k j) = posDefLaw (wishPdf Psi n) := by
  have hν : (K : ℝ) - 1 < n := by
    have : (K : ℝ) ≤ n := by exact_mod_cast hn
    linarith
  have := mvn_prob 0 h
  have := wish_prob h hν
  have hm : Measurable fun (x : Fin n → Fin K → ℝ) (i j : Fin K) => ∑ k, x k i * x k j := by
    refine measurable_pi_iff.2 fun i => measurable_pi_iff.2 fun j => ?_
    fun_prop
  have := Measure.isProbabilityMeasure_map (μ := Measure.pi fun _ : Fin n => densLawV (mvnPdf 0 Psi)) hm.aemeasurable
  refine lawM_of_mgf ?_ (posDefLaw_symm _) fun T hT => ?_
  · rw [ae_map_iff hm.aemeasurable measurableSet_symm]
    refine .of_forall fun x => ?_
    ext i j
    simp only [transpose_apply, of_apply]
    exact Finset.sum_congr rfl fun k _ => mul_comm (x k j) (x k i)
  · obtain ⟨r, r0, hr⟩ := wish_mgf_near h hT
    refine ⟨r, r0, fun t ht => ?_⟩
    obtain ⟨d0, hw, i2, e2⟩ := hr t ht
    obtain ⟨i1, e1⟩ := hw n hν
    have hx : Measurable fun X : Fin K → Fin K → ℝ => Real.exp ((t • T) * of X).trace :=
      Real.measurable_exp.comp (measurable_trace_mul _)
    have e : ∀ x : Fin n → Fin K → ℝ, Real.exp ((t • T) * of fun i j => ∑ k, x k i * x k j).trace =
        ∏ k, Real.exp (x k ⬝ᵥ (t • T) *ᵥ x k) := fun x => by
      rw [← Real.exp_sum]
      congr 1
      simp only [trace, diag, Matrix.mul_apply, of_apply, dotProduct, mulVec, Finset.mul_sum]
      conv_rhs => rw [Finset.sum_comm]
      refine Finset.sum_congr rfl fun i _ => ?_
      conv_rhs => rw [Finset.sum_comm]
      exact Finset.sum_congr rfl fun j _ => Finset.sum_congr rfl fun k _ => by ring
    rw [integrable_map_measure hx.aestronglyMeasurable hm.aemeasurable, integral_map hm.aemeasurable hx.aestronglyMeasurable]
    refine ⟨(Integrable.fintype_prod fun _ => i2).congr (.of_forall fun x => (e x).symm), i1, ?_⟩
    simp only [e]
    rw [integral_fintype_prod_eq_pow fun x : Fin K → ℝ => Real.exp (x ⬝ᵥ (t • T) *ᵥ x), e2, e1, Fintype.card_fin, ← Real.rpow_natCast, ← Real.rpow_mul d0.le]
    congr 1; ring

theorem trace_vec (a : Fin K → ℝ) (X : Matrix (Fin K) (Fin K) ℝ) : (vecMulVec a a * X).trace = a ⬝ᵥ X *ᵥ a := by
  rw [vecMulVec_mul, trace_vecMulVec, dotProduct_comm, dotProduct_mulVec]

theorem det_one_add_vec (u v : Fin K → ℝ) : (1 + vecMulVec u v).det = 1 + v ⬝ᵥ u := by
  rw [vecMulVec_eq (ι := Unit), det_one_add_replicateCol_mul_replicateRow]

/-- a quadratic form of a Wishart matrix -/
theorem wish_quad {Psi : Matrix (Fin K) (Fin K) ℝ} (h : Psi.PosDef) {ν : ℝ} (hν : (K : ℝ) - 1 < ν) {a : Fin K → ℝ} (ha : a ≠ 0) :
    (posDefLaw (wishPdf Psi ν)).map (fun X => (a ⬝ᵥ of X *ᵥ a) / (a ⬝ᵥ Psi *ᵥ a)) = densLaw (chisqPdf ν) := by
  have hq := quad_pos h ha
  have hK : 0 < K := by
    rcases Nat.eq_zero_or_pos K with h0 | h0
    · subst h0
      exact absurd (Subsingleton.elim _ _) ha
    · exact h0
  have hν0 : 0 < ν := by
    have : (1 : ℝ) ≤ K := by exact_mod_cast hK
    linarith
  set q := a ⬝ᵥ Psi *ᵥ a with hqd
  have := wish_prob h hν
  have := (isCdf_chisq hν0).isProb
  have e : ∀ X : Fin K → Fin K → ℝ, (a ⬝ᵥ of X *ᵥ a) / q = ((1 / q) • vecMulVec a a * of X).trace := fun X => by
    rw [Matrix.smul_mul, trace_smul, trace_vec, smul_eq_mul]; ring
  simp only [e]
  have hm := measurable_trace_mul ((1 / q) • vecMulVec a a)
  have := Measure.isProbabilityMeasure_map (μ := posDefLaw (wishPdf Psi ν)) hm.aemeasurable
  obtain ⟨r, r0, hr⟩ := wish_mgf_near (T := (1 / q) • vecMulVec a a) h (by rw [transpose_smul, transpose_vecMulVec])
  refine law_of_mgf (r := Min.min r (1 / 2)) (lt_min r0 (by norm_num)) fun t ht => ?_
  obtain ⟨-, hw, -⟩ := hr t (ht.trans_le (min_le_left _ _))
  obtain ⟨i1, e1⟩ := hw ν hν
  obtain ⟨i2, e2⟩ := chisq_mgf (t := t) hν0 (abs_lt.1 (ht.trans_le (min_le_right _ _))).2
  have hx : Measurable fun x : ℝ => Real.exp (t * x) := by fun_prop
  have hd : (1 - (2 : ℝ) • (Psi * t • (1 / q) • vecMulVec a a)).det = 1 - 2 * t := by
    have : 1 - (2 : ℝ) • (Psi * t • (1 / q) • vecMulVec a a) =
        1 + vecMulVec ((-(2 * t / q)) • Psi *ᵥ a) a := by
      rw [smul_vecMulVec, ← mul_vecMulVec, neg_smul, ← sub_eq_add_neg, Matrix.mul_smul, Matrix.mul_smul, smul_smul, smul_smul]
      congr 2; ring
    rw [this, det_one_add_vec, dotProduct_smul, ← hqd, smul_eq_mul]
    field_simp
    ring
  rw [hd] at e1
  simp only [Matrix.smul_mul t, trace_smul t, smul_eq_mul] at i1 e1
  rw [integrable_map_measure hx.aestronglyMeasurable hm.aemeasurable, integral_map hm.aemeasurable hx.aestronglyMeasurable]
  exact ⟨i1, i2, e1.trans e2.symm⟩

theorem chi_sq {k : ℝ} : (densLaw (chiPdf k)).map (fun x => x ^ 2) = densLaw (chisqPdf k) := by
  rw [← chi_law, Measure.map_map (by fun_prop) (by fun_prop)]
  have : (fun x : ℝ => x ^ 2) ∘ Real.sqrt =ᵐ[densLaw (chisqPdf k)] id := by
    filter_upwards [densLaw_chisq_pos k] with x hx
    exact Real.sq_sqrt hx.le
  rw [Measure.map_congr this, Measure.map_id]

/-- the determinant of a Wishart matrix -/
theorem wish_det {Psi : Matrix (Fin K) (Fin K) ℝ} (h : Psi.PosDef) {ν : ℝ} (hν : (K : ℝ) - 1 < ν) :
    (posDefLaw (wishPdf Psi ν)).map (fun X => (of X).det / Psi.det) =
      (Measure.pi fun i : Fin K => densLaw (chisqPdf (ν - (i : ℕ)))).map fun c => ∏ i, c i := by
  obtain ⟨L, hL, hd⟩ := posDef_factor h
  have hprob : ∀ p : Low K, IsProbabilityMeasure (densLaw (bartPdf ν p)) := fun p => by
    rw [bartPdf]
    split
    · exact chi_prob (df_pos hν p.1.1)
    · exact (isCdf_norm 0 one_pos).isProb
  have hs : Measurable (sqr (K := K)) :=
    (continuous_iff_continuousAt.2 fun u => (sqr_hasFDerivAt u).continuousAt).measurable
  have hc : Measurable (congr L) := (LinearMap.continuous_of_finiteDimensional _).measurable
  have e1 : densLawV (fun x : Low K → ℝ => if (sym x).PosDef then wishPdf Psi ν (sym x) else 0) =
      ((Measure.pi fun p : Low K => densLaw (bartPdf ν p)).map sqr).map (congr L) := by
    rw [bart_law hν, posDef_congr_law hd]
    congr 1; funext x
    split_ifs with hx
    · rw [wish_scale hd hx ν, hL]
    · rfl
  have hdet : Measurable fun X : Fin K → Fin K → ℝ => (of X).det / Psi.det := by
    simp only [det_apply, of_apply]
    fun_prop
  have hprod : Measurable fun c : Fin K → ℝ => ∏ i, c i := by fun_prop
  have hi : Function.Injective fun i : Fin K => (⟨(i, i), le_rfl⟩ : Low K) := fun i j hij => by
    simpa using congrArg (fun p : Low K => p.1.1) hij
  have hind := (ProbabilityTheory.iIndepFun_pi (μ := fun p : Low K => densLaw (bartPdf ν p)) (X := fun _ x => x ^ 2)
    (fun p => by fun_prop)).precomp hi
  rw [ProbabilityTheory.iIndepFun_iff_map_fun_eq_pi_map fun i => ((measurable_pi_apply _).pow_const 2).aemeasurable] at hind
  have e2 : ∀ i : Fin K, (Measure.pi fun p : Low K => densLaw (bartPdf ν p)).map (fun u => u ⟨(i, i), le_rfl⟩ ^ 2) =
      densLaw (chisqPdf (ν - (i : ℕ))) := fun i => by
    have h1 := (measurePreserving_eval (fun p : Low K => densLaw (bartPdf ν p)) ⟨(i, i), le_rfl⟩).map_eq
    have h2 := Measure.map_map (μ := Measure.pi fun p : Low K => densLaw (bartPdf ν p)) (g := fun x : ℝ => x ^ 2)
      (f := Function.eval (⟨(i, i), le_rfl⟩ : Low K)) (by fun_prop) (measurable_pi_apply _)
    rw [h1, bartPdf, if_pos rfl, chi_sq] at h2
    exact h2.symm
  simp only [e2] at hind
  rw [← hind, posDefLaw, e1, Measure.map_map hdet measurable_sym, Measure.map_map (hdet.comp measurable_sym) hc,
    Measure.map_map ((hdet.comp measurable_sym).comp hc) hs, Measure.map_map hprod (by fun_prop)]
  congr 1; funext u
  show (sym (congr L (sqr u))).det / Psi.det = ∏ i : Fin K, u ⟨(i, i), le_rfl⟩ ^ 2
  rw [sym_congr, det_mul, det_mul, det_transpose, sym_sqr, det_sqr, ← hL, det_mul, det_transpose]
  field_simp

theorem measurable_inv_entries : Measurable fun (X : Fin K → Fin K → ℝ) i j => (of X)⁻¹ i j := by
  refine measurable_pi_iff.2 fun i => measurable_pi_iff.2 fun j => ?_
  have hc : Continuous fun X : Fin K → Fin K → ℝ => (of X : Matrix (Fin K) (Fin K) ℝ) := continuous_id
  have h1 : Continuous fun X : Fin K → Fin K → ℝ => (of X).det := hc.matrix_det
  have h2 : Continuous fun X : Fin K → Fin K → ℝ => (of X).adjugate i j := hc.matrix_adjugate.matrix_elem i j
  have : (fun X : Fin K → Fin K → ℝ => (of X)⁻¹ i j) = fun X => (of X).det⁻¹ * (of X).adjugate i j := by
    funext X
    rw [inv_def, Ring.inverse_eq_inv', Matrix.smul_apply, smul_eq_mul]
  rw [this]
  exact h1.measurable.inv.mul h2.measurable

/-- the inverse of an inverse Wishart matrix -/
theorem invwish_inv {Psi : Matrix (Fin K) (Fin K) ℝ} (h : Psi.PosDef) (ν : ℝ) :
    (posDefLaw (invwishPdf Psi ν)).map (fun X i j => (of X)⁻¹ i j) = posDefLaw (wishPdf Psi⁻¹ ν) := by
  rw [posDefLaw, Measure.map_map measurable_inv_entries measurable_sym]
  have e : ((fun (X : Fin K → Fin K → ℝ) i j => (of X)⁻¹ i j) ∘ fun (x : Low K → ℝ) i j => sym x i j) =
      (fun (x : Low K → ℝ) i j => sym x i j) ∘ invL := by
    funext x i j
    exact congrFun (congrFun (sym_invL x).symm i) j
  rw [e, ← Measure.map_map measurable_sym measurable_invL, densLawV_inv, posDefLaw]
  congr 2; funext x
  split_ifs with hx
  · have := wish_inv h hx.inv ν
    have hd := hx.det_pos
    rw [nonsing_inv_nonsing_inv _ (isUnit_iff_ne_zero.2 hd.ne'), det_nonsing_inv, Ring.inverse_eq_inv', inv_inv] at this
    rw [← this, ← mul_assoc, ← mul_pow, inv_mul_cancel₀ hd.ne', one_pow, one_mul]
  · rfl

/-- the mean of independent normal vectors -/
theorem mvn_mean (mu : Fin K → ℝ) {Sigma : Matrix (Fin K) (Fin K) ℝ} (h : Sigma.PosDef) {n : ℕ} (hn : 0 < n) :
    (Measure.pi fun _ : Fin n => densLawV (mvnPdf mu Sigma)).map (fun x i => (∑ k, x k i) / (n : ℝ)) =
      densLawV (mvnPdf mu ((1 / (n : ℝ)) • Sigma)) := by
  have hn0 : (0 : ℝ) < n := by exact_mod_cast hn
  have hS : ((1 / (n : ℝ)) • Sigma).PosDef := h.smul (by positivity)
  have := mvn_prob mu h
  have := mvn_prob mu hS
  have hm : Measurable fun (x : Fin n → Fin K → ℝ) (i : Fin K) => (∑ k, x k i) / (n : ℝ) := by
    refine measurable_pi_iff.2 fun i => ?_
    fun_prop
  have := Measure.isProbabilityMeasure_map (μ := Measure.pi fun _ : Fin n => densLawV (mvnPdf mu Sigma)) hm.aemeasurable
  refine lawV_of_dot fun c => ?_
  by_cases hc : c = 0
  · subst hc
    simp only [zero_dotProduct, Measure.map_const, measure_univ]
  have hd := measurable_dot c
  have := Measure.isProbabilityMeasure_map (μ := (Measure.pi fun _ : Fin n => densLawV (mvnPdf mu Sigma)).map
    fun x i => (∑ k, x k i) / (n : ℝ)) hd.aemeasurable
  have := Measure.isProbabilityMeasure_map (μ := densLawV (mvnPdf mu ((1 / (n : ℝ)) • Sigma))) hd.aemeasurable
  have mg : ∀ {S : Matrix (Fin K) (Fin K) ℝ}, S.PosDef → ∀ t : ℝ,
      Integrable (fun x => Real.exp (t * (c ⬝ᵥ x))) (densLawV (mvnPdf mu S)) ∧
      ∫ x, Real.exp (t * (c ⬝ᵥ x)) ∂densLawV (mvnPdf mu S) = Real.exp (c ⬝ᵥ mu * t + c ⬝ᵥ S *ᵥ c * t ^ 2 / 2) := fun {S} hS t => by
    have hs := Real.sqrt_pos.2 (quad_pos hS hc)
    have hl := mvn_linear mu hS hc
    have hx : Measurable fun x : ℝ => Real.exp (t * x) := by fun_prop
    have hg := congrFun (ProbabilityTheory.mgf_id_gaussianReal (μ := c ⬝ᵥ mu) (v := ⟨√(c ⬝ᵥ S *ᵥ c) ^ 2, sq_nonneg _⟩)) t
    rw [densLaw_norm _ hs] at hl
    have i1 := ProbabilityTheory.integrable_exp_mul_gaussianReal (μ := c ⬝ᵥ mu) (v := ⟨√(c ⬝ᵥ S *ᵥ c) ^ 2, sq_nonneg _⟩) t
    rw [ProbabilityTheory.mgf, ← hl] at hg
    rw [← hl] at i1
    refine ⟨(integrable_map_measure hx.aestronglyMeasurable hd.aemeasurable).1 i1, ?_⟩
    rw [show (∫ x, Real.exp (t * id x) ∂(densLawV (mvnPdf mu S)).map fun x => c ⬝ᵥ x) = ∫ x, Real.exp (t * (c ⬝ᵥ x)) ∂densLawV (mvnPdf mu S) from
      integral_map hd.aemeasurable hx.aestronglyMeasurable] at hg
    rw [hg]
    show Real.exp (_ + √(c ⬝ᵥ S *ᵥ c) ^ 2 * t ^ 2 / 2) = _
    rw [Real.sq_sqrt (quad_pos hS hc).le]
  refine law_of_mgf one_pos fun t _ => ?_
  have hx : Measurable fun x : ℝ => Real.exp (t * x) := by fun_prop
  have hxd : Measurable fun x : Fin K → ℝ => Real.exp (t * (c ⬝ᵥ x)) := hx.comp hd
  obtain ⟨i1, e1⟩ := mg h (t / n)
  obtain ⟨i2, e2⟩ := mg hS t
  have e : ∀ x : Fin n → Fin K → ℝ, Real.exp (t * (c ⬝ᵥ fun i => (∑ k, x k i) / (n : ℝ))) = ∏ k, Real.exp (t / n * (c ⬝ᵥ x k)) := fun x => by
    rw [← Real.exp_sum, ← Finset.mul_sum]
    congr 1
    simp only [dotProduct, Finset.mul_sum, Finset.sum_div]
    rw [Finset.sum_comm]
    exact Finset.sum_congr rfl fun k _ => Finset.sum_congr rfl fun i _ => by ring
  rw [integrable_map_measure hx.aestronglyMeasurable hd.aemeasurable, integrable_map_measure hx.aestronglyMeasurable hd.aemeasurable,
    integral_map hd.aemeasurable hx.aestronglyMeasurable, integral_map hd.aemeasurable hx.aestronglyMeasurable,
    integrable_map_measure (hx.comp hd).aestronglyMeasurable hm.aemeasurable, integral_map hm.aemeasurable hxd.aestronglyMeasurable]
  refine ⟨(Integrable.fintype_prod fun _ => i1).congr (.of_forall fun x => (e x).symm), i2, ?_⟩
  simp only [e]
  rw [integral_fintype_prod_eq_pow fun x : Fin K → ℝ => Real.exp (t / n * (c ⬝ᵥ x)), e1, e2, Fintype.card_fin, ← Real.exp_nat_mul]
  congr 1
  rw [smul_mulVec, dotProduct_smul, smul_eq_mul]
  field_simp

end Stats
