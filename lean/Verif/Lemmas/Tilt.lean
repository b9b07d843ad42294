import Verif.Lemmas.Mgf
import Verif.Lemmas.Combine
import Verif.Lemmas.MultiLaw
import Verif.IdealLin
import Mathlib.LinearAlgebra.Matrix.SchurComplement

/-! Exponential moments of normal vectors, of quadratic forms in them, and of the chi-square law. -/

open MeasureTheory Set Matrix
open scoped ENNReal

namespace Stats
open Spec

/-- A density times an exponential that is a multiple of another density. -/
theorem tilt {α : Type*} [MeasureSpace α] {f g φ : α → ℝ} {c : ℝ} (hf : Measurable f) (f0 : ∀ x, 0 ≤ f x)
    (hφ : Measurable φ) (hc : 0 ≤ c) (h1 : ∫⁻ x, ENNReal.ofReal (g x) = 1)
    (e : ∀ x, Real.exp (φ x) * f x = c * g x) :
    Integrable (fun x => Real.exp (φ x)) (volume.withDensity fun x => ENNReal.ofReal (f x)) ∧
      ∫ x, Real.exp (φ x) ∂(volume.withDensity fun x => ENNReal.ofReal (f x)) = c := by
  have hm : Measurable fun x => Real.exp (φ x) := Real.measurable_exp.comp hφ
  have hl : ∫⁻ x, ENNReal.ofReal (Real.exp (φ x)) ∂(volume.withDensity fun x => ENNReal.ofReal (f x)) = ENNReal.ofReal c := by
    rw [lintegral_withDensity_eq_lintegral_mul _ hf.ennreal_ofReal hm.ennreal_ofReal]
    have : ∀ x, ((fun x => ENNReal.ofReal (f x)) * fun x => ENNReal.ofReal (Real.exp (φ x))) x =
        ENNReal.ofReal c * ENNReal.ofReal (g x) := fun x => by
      rw [Pi.mul_apply, ← ENNReal.ofReal_mul (f0 x), mul_comm, e, ENNReal.ofReal_mul hc]
    simp_rw [this]
    rw [lintegral_const_mul' _ _ ENNReal.ofReal_ne_top, h1, mul_one]
  refine ⟨⟨hm.aestronglyMeasurable, ?_⟩, ?_⟩
  · rw [hasFiniteIntegral_iff_ofReal (.of_forall fun x => (Real.exp_pos _).le), hl]
    exact ENNReal.ofReal_lt_top
  · rw [integral_eq_lintegral_of_nonneg_ae (.of_forall fun x => (Real.exp_pos _).le) hm.aestronglyMeasurable, hl,
      ENNReal.toReal_ofReal hc]

/-- exponential moments of the chi-square law -/
theorem chisq_mgf {ν t : ℝ} (hν : 0 < ν) (ht : t < 1 / 2) : Integrable (fun x => Real.exp (t * x)) (densLaw (chisqPdf ν)) ∧
    ∫ x, Real.exp (t * x) ∂densLaw (chisqPdf ν) = (1 - 2 * t) ^ (-ν / 2) := by
  have h2 : 0 < 1 - 2 * t := by linarith
  have hθ : 0 < 2 / (1 - 2 * t) := by positivity
  have := (isCdf_gamma (half_pos hν) hθ).isProb
  rw [chisqPdf_fun]
  refine tilt (g := gammaPdf (ν / 2) (2 / (1 - 2 * t))) (measurable_gammaPdf _ _) (gammaPdf_nonneg (half_pos hν) two_pos) (by fun_prop)
    (by positivity) ?_ fun x => ?_
  · have := measure_univ (μ := densLaw (gammaPdf (ν / 2) (2 / (1 - 2 * t))))
    rwa [densLaw_apply _ MeasurableSet.univ, setLIntegral_univ] at this
  · rw [gammaPdf, gammaPdf]
    split_ifs with hx
    · rw [Real.div_rpow two_pos.le h2.le, neg_div 2 ν, Real.rpow_neg h2.le]
      have := Real.Gamma_pos_of_pos (half_pos hν)
      have h3 := Real.rpow_pos_of_pos h2 (ν / 2)
      rw [show -x / (2 / (1 - 2 * t)) = t * x + -x / 2 by field_simp; ring, Real.exp_add]
      generalize (1 - 2 * t) ^ (ν / 2) = z at h3 ⊢
      field_simp
    · simp

section normal
variable {K : ℕ}

/-- a positive definite matrix has a nonsingular factor -/
theorem posDef_factor {A : Matrix (Fin K) (Fin K) ℝ} (h : A.PosDef) : ∃ L : Matrix (Fin K) (Fin K) ℝ, L * Lᵀ = A ∧ L.det ≠ 0 := by
  obtain ⟨L, hL⟩ := cholesky A h
  refine ⟨L, hL.mul, fun h0 => ?_⟩
  have := h.det_pos
  rw [← hL.mul, det_mul, h0, zero_mul] at this
  exact lt_irrefl _ this

/-- A positive definite matrix stays so when changed a little. -/
theorem posDef_perturb {A T : Matrix (Fin K) (Fin K) ℝ} (h : A.PosDef) (hT : Tᵀ = T) :
    ∃ r > 0, ∀ t : ℝ, |t| < r → (A - t • T).PosDef := by
  obtain ⟨L, rfl, hL⟩ := posDef_factor h
  have hu : IsUnit L.det := isUnit_iff_ne_zero.2 hL
  set M := L⁻¹ * T * L⁻¹ᵀ with hM
  have hMT : Mᵀ = M := by rw [hM]; simp only [transpose_mul, transpose_transpose, hT, Matrix.mul_assoc]
  set B := ∑ i, ∑ j, |M i j| with hB
  have hB0 : 0 ≤ B := Finset.sum_nonneg fun i _ => Finset.sum_nonneg fun j _ => abs_nonneg _
  refine ⟨1 / (B + 1), by positivity, fun t ht => ?_⟩
  have e : L * Lᵀ - t • T = L * (1 - t • M) * Lᵀ := by
    have : L * M * Lᵀ = T := by
      rw [hM, ← Matrix.mul_assoc, ← Matrix.mul_assoc, mul_nonsing_inv _ hu, Matrix.one_mul, Matrix.mul_assoc, ← transpose_mul,
        mul_nonsing_inv _ hu, transpose_one, Matrix.mul_one]
    rw [Matrix.mul_sub, Matrix.sub_mul, Matrix.mul_one, Matrix.mul_smul, Matrix.smul_mul, this]
  have hLu : IsUnit L := (isUnit_iff_isUnit_det L).2 hu
  rw [e]
  have hc := hLu.posDef_star_right_conjugate_iff (x := 1 - t • M)
  rw [star_eq_conjTranspose, conjTranspose_eq_transpose_of_trivial] at hc
  rw [hc]
  refine PosDef.of_dotProduct_mulVec_pos ?_ fun x hx => ?_
  · rw [IsHermitian, conjTranspose_eq_transpose_of_trivial, transpose_sub, transpose_one, transpose_smul, hMT]
  · have hx0 : 0 < x ⬝ᵥ x := by
      have := dotProduct_star_self_pos_iff.2 hx
      simpa using this
    have hsq : ∀ i, x i ^ 2 ≤ x ⬝ᵥ x := fun i => by
      rw [sq]
      exact Finset.single_le_sum (f := fun i => x i * x i) (fun i _ => mul_self_nonneg _) (Finset.mem_univ i)
    have hbound : |x ⬝ᵥ M *ᵥ x| ≤ B * (x ⬝ᵥ x) := by
      rw [show x ⬝ᵥ M *ᵥ x = ∑ i, ∑ j, x i * (M i j * x j) from
        Finset.sum_congr rfl fun i _ => Finset.mul_sum Finset.univ (fun j => M i j * x j) (x i), hB,
        Finset.sum_mul]
      refine (Finset.abs_sum_le_sum_abs _ _).trans (Finset.sum_le_sum fun i _ => ?_)
      rw [Finset.sum_mul]
      refine (Finset.abs_sum_le_sum_abs _ _).trans (Finset.sum_le_sum fun j _ => ?_)
      rw [show x i * (M i j * x j) = M i j * (x i * x j) by ring, abs_mul]
      refine mul_le_mul_of_nonneg_left (abs_le.2 ?_) (abs_nonneg _)
      have h1 := hsq i
      have h2 := hsq j
      constructor <;> nlinarith [sq_nonneg (x i - x j), sq_nonneg (x i + x j)]
    rw [show star x = x from funext fun i => star_trivial _, sub_mulVec, dotProduct_sub, one_mulVec, smul_mulVec, dotProduct_smul,
      smul_eq_mul]
    have h1 : t * (x ⬝ᵥ M *ᵥ x) ≤ |t| * (B * (x ⬝ᵥ x)) := by
      refine (le_abs_self _).trans ?_
      rw [abs_mul]
      exact mul_le_mul_of_nonneg_left hbound (abs_nonneg _)
    have h2 : |t| * (B + 1) < 1 := (lt_div_iff₀ (by positivity)).1 ht
    have h3 := abs_nonneg t
    nlinarith

theorem measurable_mvnPdf (mu : Fin K → ℝ) (Sigma : Matrix (Fin K) (Fin K) ℝ) : Measurable (mvnPdf mu Sigma) := by
  unfold mvnPdf
  have : Measurable fun x : Fin K → ℝ => (x - mu) ⬝ᵥ Sigma⁻¹ *ᵥ (x - mu) := by
    simp only [dotProduct, mulVec]
    fun_prop
  fun_prop

theorem mvnPdf_nonneg (mu : Fin K → ℝ) {Sigma : Matrix (Fin K) (Fin K) ℝ} (h : Sigma.PosDef) (x : Fin K → ℝ) :
    0 ≤ mvnPdf mu Sigma x := by
  have := h.det_pos
  rw [mvnPdf]; positivity

theorem mvn_prob (mu : Fin K → ℝ) {Sigma : Matrix (Fin K) (Fin K) ℝ} (h : Sigma.PosDef) :
    IsProbabilityMeasure (densLawV (mvnPdf mu Sigma)) := by
  obtain ⟨L, hL, hd⟩ := posDef_factor h
  have := (isCdf_norm 0 one_pos).isProb
  have hm : Measurable fun z : Fin K → ℝ => mu + L *ᵥ z :=
    ((toLin' L).continuous_of_finiteDimensional.measurable).const_add mu
  rw [← mvn_law mu hL hd]
  exact Measure.isProbabilityMeasure_map hm.aemeasurable

/-- the mean is a shift -/
theorem mvn_shift (mu : Fin K → ℝ) {Sigma : Matrix (Fin K) (Fin K) ℝ} (h : Sigma.PosDef) :
    (densLawV (mvnPdf 0 Sigma)).map (fun x => mu + x) = densLawV (mvnPdf mu Sigma) := by
  obtain ⟨L, hL, hd⟩ := posDef_factor h
  have hm : Measurable fun z : Fin K → ℝ => 0 + L *ᵥ z :=
    ((toLin' L).continuous_of_finiteDimensional.measurable).const_add 0
  rw [← mvn_law mu hL hd, ← mvn_law 0 hL hd, Measure.map_map (by fun_prop) hm]
  simp only [zero_add]
  rfl

/-- Exponential moments of quadratic and linear forms in a normal vector. -/
theorem mvn_mgf {Psi T : Matrix (Fin K) (Fin K) ℝ} (h : Psi.PosDef) (hT : (Psi⁻¹ - (2 : ℝ) • T).PosDef) (b : Fin K → ℝ) :
    Integrable (fun x => Real.exp (x ⬝ᵥ T *ᵥ x + b ⬝ᵥ x)) (densLawV (mvnPdf 0 Psi)) ∧
      ∫ x, Real.exp (x ⬝ᵥ T *ᵥ x + b ⬝ᵥ x) ∂densLawV (mvnPdf 0 Psi) =
        (1 - (2 : ℝ) • (Psi * T)).det ^ (-(1 : ℝ) / 2) * Real.exp (b ⬝ᵥ (Psi⁻¹ - (2 : ℝ) • T)⁻¹ *ᵥ b / 2) := by
  set Q := Psi⁻¹ - (2 : ℝ) • T with hQ
  have hu : IsUnit Psi.det := isUnit_iff_ne_zero.2 h.det_pos.ne'
  have hq : IsUnit Q.det := isUnit_iff_ne_zero.2 hT.det_pos.ne'
  have hQi : Q⁻¹⁻¹ = Q := nonsing_inv_nonsing_inv _ hq
  have hQT : Qᵀ = Q := by have := hT.isHermitian; rwa [IsHermitian, conjTranspose_eq_transpose_of_trivial] at this
  have hd : (1 - (2 : ℝ) • (Psi * T)).det = Psi.det * Q.det := by
    rw [← det_mul, hQ, Matrix.mul_sub, mul_nonsing_inv _ hu, Matrix.mul_smul]
  have hdi : Q⁻¹.det = Q.det⁻¹ := by rw [det_nonsing_inv, Ring.inverse_eq_inv']
  have h1 := h.det_pos
  have h2 := hT.det_pos
  have := mvn_prob (Q⁻¹ *ᵥ b) hT.inv
  have hm1 : Measurable fun x : Fin K → ℝ => x ⬝ᵥ T *ᵥ x + b ⬝ᵥ x := by
    simp only [dotProduct, mulVec]
    fun_prop
  refine tilt (g := mvnPdf (Q⁻¹ *ᵥ b) Q⁻¹) (measurable_mvnPdf 0 Psi) (mvnPdf_nonneg 0 h) hm1 (by rw [hd]; positivity) ?_ fun x => ?_
  · have := measure_univ (μ := densLawV (mvnPdf (Q⁻¹ *ᵥ b) Q⁻¹))
    rwa [densLawV, withDensity_apply _ MeasurableSet.univ, setLIntegral_univ] at this
  · rw [mvnPdf, mvnPdf, hQi, hd, hdi, sub_zero, Real.mul_rpow h1.le h2.le, Real.inv_rpow h2.le]
    have e1 : (x - Q⁻¹ *ᵥ b) ⬝ᵥ Q *ᵥ (x - Q⁻¹ *ᵥ b) = x ⬝ᵥ Psi⁻¹ *ᵥ x - 2 * (x ⬝ᵥ T *ᵥ x) - 2 * (b ⬝ᵥ x) + b ⬝ᵥ Q⁻¹ *ᵥ b := by
      have e2 : Q *ᵥ (x - Q⁻¹ *ᵥ b) = Q *ᵥ x - b := by
        rw [mulVec_sub, mulVec_mulVec, mul_nonsing_inv _ hq, one_mulVec]
      have e3 : (Q⁻¹ *ᵥ b) ⬝ᵥ Q *ᵥ x = b ⬝ᵥ x := by
        rw [dotProduct_mulVec, ← mulVec_transpose, hQT, mulVec_mulVec, mul_nonsing_inv _ hq, one_mulVec]
      have e4 : x ⬝ᵥ Q *ᵥ x = x ⬝ᵥ Psi⁻¹ *ᵥ x - 2 * (x ⬝ᵥ T *ᵥ x) := by
        rw [hQ, sub_mulVec, dotProduct_sub, smul_mulVec, dotProduct_smul, smul_eq_mul]
      rw [e2, dotProduct_sub, sub_dotProduct, sub_dotProduct, e3, e4, dotProduct_comm x b, dotProduct_comm (Q⁻¹ *ᵥ b) b]
      ring
    rw [e1]
    have e5 : Real.exp (x ⬝ᵥ T *ᵥ x + b ⬝ᵥ x) * Real.exp (-(x ⬝ᵥ Psi⁻¹ *ᵥ x) / 2) =
        Real.exp (b ⬝ᵥ Q⁻¹ *ᵥ b / 2) * Real.exp (-(x ⬝ᵥ Psi⁻¹ *ᵥ x - 2 * (x ⬝ᵥ T *ᵥ x) - 2 * (b ⬝ᵥ x) + b ⬝ᵥ Q⁻¹ *ᵥ b) / 2) := by
      rw [← Real.exp_add, ← Real.exp_add]
      congr 1; ring
    have h3 := Real.rpow_pos_of_pos h2 (-(1 : ℝ) / 2)
    calc _ = (2 * Real.pi) ^ (-(K : ℝ) / 2) * Psi.det ^ (-(1 : ℝ) / 2) *
          (Real.exp (x ⬝ᵥ T *ᵥ x + b ⬝ᵥ x) * Real.exp (-(x ⬝ᵥ Psi⁻¹ *ᵥ x) / 2)) := by ring
      _ = _ := by rw [e5]; field_simp

/-- small multiples of a symmetric matrix -/
theorem mvn_mgf_near {Psi T : Matrix (Fin K) (Fin K) ℝ} (h : Psi.PosDef) (hT : Tᵀ = T) :
    ∃ r > 0, ∀ t : ℝ, |t| < r → (Psi⁻¹ - (2 : ℝ) • (t • T)).PosDef := by
  obtain ⟨r, r0, hr⟩ := posDef_perturb h.inv hT
  refine ⟨r / 2, by positivity, fun t ht => ?_⟩
  rw [smul_smul]
  exact hr _ (by rw [abs_mul, abs_two]; linarith)

end normal
end Stats
