import Verif.Lemmas.Moment
import Mathlib.NumberTheory.ZetaValues
import Mathlib.Analysis.SpecialFunctions.ImproperIntegrals
import Mathlib.MeasureTheory.Integral.Prod
import Mathlib.MeasureTheory.Integral.Bochner.SumMeasure
import Mathlib.RingTheory.Polynomial.Bernstein

/-! # Moments of the F, t, Laplace, logistic, inverse Gaussian and discrete distributions; laws without a mean -/

set_option linter.unusedSectionVars false
open MeasureTheory Set Filter Topology
open scoped ENNReal

namespace Stats
open Spec

theorem HasSum.like {ι : Type*} {f g : ι → ℝ} {a b : ℝ} (h : HasSum f a) (e : ∀ i, g i = f i) (eb : b = a) : HasSum g b := by
  rwa [funext e, eb]

/-! ### products -/

theorem mean_map {T : Type*} [MeasurableSpace T] {Q : Measure T} {X : T → ℝ} (hX : AEMeasurable X Q) {m : ℝ}
    (h1 : Integrable X Q) (hm : ∫ t, X t ∂Q = m) :
    Integrable (fun x : ℝ => x) (Q.map X) ∧ ∫ x, x ∂Q.map X = m :=
  ⟨(integrable_map_measure (g := fun x : ℝ => x) (by fun_prop) hX).2 h1, by rw [integral_map hX (by fun_prop), hm]⟩

theorem moments_map {T : Type*} [MeasurableSpace T] {Q : Measure T} [IsProbabilityMeasure Q] {X : T → ℝ}
    (hX : AEMeasurable X Q) {m v w : ℝ} (h1 : Integrable X Q) (hm : ∫ t, X t ∂Q = m)
    (h2 : Integrable (fun t => X t ^ 2) Q) (hw : ∫ t, X t ^ 2 ∂Q = w) (hv : v = w - m ^ 2) : Moments (Q.map X) m v := by
  have := Measure.isProbabilityMeasure_map hX
  have h := mean_map hX h1 hm
  exact .of_raw h.1 ((integrable_map_measure (g := fun x : ℝ => x ^ 2) (by fun_prop) hX).2 h2) h.2
    (by rw [integral_map hX (by fun_prop), hw]) hv

theorem chisq_pos (ν : ℝ) : ∀ᵐ y ∂densLaw (chisqPdf ν), 0 < y := by
  refine densLaw_ae (by rw [chisqPdf_fun]; exact measurable_gammaPdf _ _) fun x hx => ?_
  rw [chisqPdf, if_neg hx]

theorem chisq_inv {ν : ℝ} (h : 2 < ν) : Integrable (fun y : ℝ => y⁻¹) (densLaw (chisqPdf ν)) ∧
    ∫ y, y⁻¹ ∂densLaw (chisqPdf ν) = 1 / (ν - 2) := by
  have h0 : 0 < ν / 2 := by linarith
  have h1 := gamma_pow (r := -1) h0 two_pos (by linarith)
  rw [← chisqPdf_fun] at h1
  simp only [Real.rpow_neg_one] at h1
  refine ⟨h1.1, h1.2.trans ?_⟩
  have hp : 0 < ν / 2 + -1 := by linarith
  have e := Real.Gamma_add_one hp.ne'
  rw [show ν / 2 + -1 + 1 = ν / 2 by ring] at e
  have hG := (Real.Gamma_pos_of_pos hp).ne'
  rw [e, show ν - 2 = 2 * (ν / 2 + -1) by ring]
  generalize ν / 2 + -1 = a at hp hG
  have := hp.ne'
  field_simp

theorem chisq_inv2 {ν : ℝ} (h : 4 < ν) : Integrable (fun y : ℝ => (y⁻¹) ^ 2) (densLaw (chisqPdf ν)) ∧
    ∫ y, (y⁻¹) ^ 2 ∂densLaw (chisqPdf ν) = 1 / ((ν - 2) * (ν - 4)) := by
  have h0 : 0 < ν / 2 := by linarith
  have h1 := gamma_pow (r := -2) h0 two_pos (by linarith)
  rw [← chisqPdf_fun] at h1
  have e0 : ∀ᵐ y ∂densLaw (chisqPdf ν), y ^ (-2 : ℝ) = (y⁻¹) ^ 2 := by
    filter_upwards [chisq_pos ν] with y hy
    rw [Real.rpow_neg hy.le, Real.rpow_two, inv_pow]
  refine ⟨h1.1.congr e0, (integral_congr_ae e0).symm.trans (h1.2.trans ?_)⟩
  have hp : 0 < ν / 2 + -2 := by linarith
  have e := Gamma_add_two hp
  rw [show ν / 2 + -2 + 2 = ν / 2 by ring] at e
  have hG := (Real.Gamma_pos_of_pos hp).ne'
  rw [e, Real.rpow_neg two_pos.le, Real.rpow_two, show ν - 4 = 2 * (ν / 2 + -2) by ring,
    show ν - 2 = 2 * (ν / 2 + -2 + 1) by ring]
  generalize ν / 2 + -2 = a at hp hG
  have := hp.ne'
  field_simp

theorem mean_f {d₁ d₂ : ℝ} (h1 : 0 < d₁) (h2 : 2 < d₂) :
    Integrable (fun x : ℝ => x) (densLaw (fPdf d₁ d₂)) ∧ ∫ x, x ∂densLaw (fPdf d₁ d₂) = d₂ / (d₂ - 2) := by
  have h0 : 0 < d₂ := by linarith
  have := (isCdf_chisq h0).isProb
  have := (isCdf_chisq h1).isProb
  have m1 := moments_chisq h1
  have i2 := chisq_inv h2
  rw [← f_ratio h1 h0]
  have e : ∀ p : ℝ × ℝ, d₂ / d₁ * p.1 / p.2 = (d₂ / d₁ * p.1) * p.2⁻¹ := fun p => div_eq_mul_inv _ _
  refine mean_map (by fun_prop) ?_ ?_
  · simp only [e]
    exact Integrable.mul_prod (m1.int1.const_mul _) i2.1
  · simp only [e]
    rw [integral_prod_mul (fun x : ℝ => d₂ / d₁ * x) (fun y : ℝ => y⁻¹), integral_const_mul, m1.mean, i2.2]
    field_simp

theorem moments_f {d₁ d₂ : ℝ} (h1 : 0 < d₁) (h2 : 4 < d₂) :
    Moments (densLaw (fPdf d₁ d₂)) (d₂ / (d₂ - 2))
      (2 * d₂ ^ 2 * (d₁ + d₂ - 2) / (d₁ * (d₂ - 2) ^ 2 * (d₂ - 4))) := by
  have h0 : 0 < d₂ := by linarith
  have := (isCdf_chisq h0).isProb
  have p1 := (isCdf_chisq h1).isProb
  have hp := (isCdf_f h1 h0).isProb
  have m1 := moments_chisq h1
  have r1 := m1.raw
  have m := mean_f h1 (by linarith : 2 < d₂)
  have i2 := chisq_inv2 h2
  have e : ∀ p : ℝ × ℝ, (d₂ / d₁ * p.1 / p.2) ^ 2 = ((d₂ / d₁) ^ 2 * p.1 ^ 2) * (p.2⁻¹) ^ 2 := fun p => by
    rw [div_eq_mul_inv]; ring
  have key : Integrable (fun x : ℝ => x ^ 2) (densLaw (fPdf d₁ d₂)) ∧ ∫ x, x ^ 2 ∂densLaw (fPdf d₁ d₂) =
      (d₂ / d₁) ^ 2 * (2 * d₁ + d₁ ^ 2) * (1 / ((d₂ - 2) * (d₂ - 4))) := by
    rw [← f_ratio h1 h0]
    have hX : AEMeasurable (fun p : ℝ × ℝ => d₂ / d₁ * p.1 / p.2) ((densLaw (chisqPdf d₁)).prod (densLaw (chisqPdf d₂))) := by
      fun_prop
    constructor
    · refine (integrable_map_measure (g := fun x : ℝ => x ^ 2) (by fun_prop) hX).2 ?_
      simp only [Function.comp_def, e]
      exact Integrable.mul_prod (m1.int2.const_mul _) i2.1
    · rw [integral_map hX (by fun_prop)]
      simp only [e]
      rw [integral_prod_mul (fun x : ℝ => (d₂ / d₁) ^ 2 * x ^ 2) (fun y : ℝ => (y⁻¹) ^ 2), integral_const_mul, r1, i2.2]
  refine .of_raw m.1 key.1 m.2 key.2 ?_
  have g1 : d₂ - 2 ≠ 0 := by linarith
  have g2 : d₂ - 4 ≠ 0 := by linarith
  field_simp
  ring

theorem mean_t {ν : ℝ} (h : 1 < ν) :
    Integrable (fun x : ℝ => x) (densLaw (tPdf ν)) ∧ ∫ x, x ∂densLaw (tPdf ν) = 0 := by
  have h0 : 0 < ν := by linarith
  have := (isCdf_chisq h0).isProb
  have := (isCdf_norm 0 one_pos).isProb
  have m1 := moments_norm01
  have i := gamma_pow (r := -(1 / 2)) (half_pos h0) two_pos (by linarith)
  rw [← chisqPdf_fun] at i
  have j : Integrable (fun y : ℝ => (√(y / ν))⁻¹) (densLaw (chisqPdf ν)) := by
    refine (i.1.const_mul √ν).congr ?_
    filter_upwards [chisq_pos ν] with y hy
    rw [Real.sqrt_div hy.le, Real.rpow_neg hy.le, ← Real.sqrt_eq_rpow, inv_div, div_eq_mul_inv]
  rw [← t_ratio h0]
  refine mean_map (by fun_prop) ?_ ?_
  · simp only [div_eq_mul_inv (Prod.fst _)]
    exact Integrable.mul_prod m1.int1 j
  · simp only [div_eq_mul_inv (Prod.fst _)]
    rw [integral_prod_mul (fun x : ℝ => x) (fun y : ℝ => (√(y / ν))⁻¹), m1.mean, zero_mul]

theorem moments_t {ν : ℝ} (h : 2 < ν) : Moments (densLaw (tPdf ν)) 0 (ν / (ν - 2)) := by
  have h0 : 0 < ν := by linarith
  have := (isCdf_chisq h0).isProb
  have := (isCdf_norm 0 one_pos).isProb
  have := (isCdf_t h0).isProb
  have m1 := moments_norm01
  have r1 := m1.raw
  have i := chisq_inv h
  have e : ∀ᵐ y ∂densLaw (chisqPdf ν), ν * y⁻¹ = ((√(y / ν))⁻¹) ^ 2 := by
    filter_upwards [chisq_pos ν] with y hy
    rw [inv_pow, Real.sq_sqrt (by positivity), inv_div, div_eq_mul_inv]
  have m := mean_t (by linarith : 1 < ν)
  have e2 : ∀ p : ℝ × ℝ, (p.1 / √(p.2 / ν)) ^ 2 = p.1 ^ 2 * ((√(p.2 / ν))⁻¹) ^ 2 := fun p => by
    rw [div_eq_mul_inv, mul_pow]
  have key : Integrable (fun x : ℝ => x ^ 2) (densLaw (tPdf ν)) ∧ ∫ x, x ^ 2 ∂densLaw (tPdf ν) = ν * (1 / (ν - 2)) := by
    rw [← t_ratio h0]
    have hX : AEMeasurable (fun p : ℝ × ℝ => p.1 / √(p.2 / ν)) ((densLaw (normPdf 0 1)).prod (densLaw (chisqPdf ν))) := by
      fun_prop
    constructor
    · refine (integrable_map_measure (g := fun x : ℝ => x ^ 2) (by fun_prop) hX).2 ?_
      simp only [Function.comp_def, e2]
      exact Integrable.mul_prod m1.int2 ((i.1.const_mul ν).congr e)
    · rw [integral_map hX (by fun_prop)]
      simp only [e2]
      rw [integral_prod_mul (fun x : ℝ => x ^ 2) (fun y : ℝ => ((√(y / ν))⁻¹) ^ 2), r1, ← integral_congr_ae e,
        integral_const_mul, i.2]
      ring
  exact .of_raw m.1 key.1 m.2 key.2 (by ring)

/-! ### location and scale -/

theorem locscale {f g : ℝ → ℝ} (mu : ℝ) {sigma : ℝ} (h : 0 < sigma) (e : ∀ x, g x = f ((x - mu) / sigma) / sigma) :
    (densLaw f).map (fun z => mu + sigma * z) = densLaw g := by
  rw [densLaw_map (ψ := fun w => (w - mu) / sigma) (ψ' := fun _ => 1 / sigma) (s := univ) MeasurableSet.univ (by fun_prop)]
  · congr 1; funext w
    rw [indicator_of_mem (mem_univ w), abs_of_pos (by positivity), e]
    ring
  · exact fun w _ => (((hasDerivAt_id w).sub_const mu).div_const sigma).hasDerivWithinAt
  · intro w _; field_simp; ring
  · exact fun x hx => absurd ⟨mu + sigma * x, mem_univ _, by field_simp; ring⟩ hx

theorem exp_pow (r : ℝ) (hr : 0 < r + 1) :
    IntegrableOn (fun x : ℝ => x ^ r * Real.exp (-x)) (Ioi 0) ∧
      ∫ x in Ioi (0 : ℝ), x ^ r * Real.exp (-x) = Real.Gamma (r + 1) := by
  have h := gamma_pow (k := 1) (θ := 1) (r := r) one_pos one_pos (by linarith)
  rw [(isCdf_gamma one_pos one_pos).integrable_dens, (isCdf_gamma one_pos one_pos).integral_dens] at h
  have e : (fun x : ℝ => x ^ r * gammaPdf 1 1 x) = indicator (Ioi 0) fun x => x ^ r * Real.exp (-x) := by
    funext x
    by_cases hx : 0 < x
    · rw [indicator_of_mem (show x ∈ Ioi 0 from hx), gammaPdf, if_pos hx]; simp
    · rw [indicator_of_notMem (show x ∉ Ioi 0 from hx), gammaPdf, if_neg hx, mul_zero]
  rw [e, integrable_indicator_iff measurableSet_Ioi, integral_indicator measurableSet_Ioi] at h
  exact ⟨h.1, h.2.trans (by simp [add_comm])⟩

/-- an even function is integrable if it is on the positive half line, and its integral is twice that part -/
theorem even_half {f : ℝ → ℝ} (he : ∀ x, f (-x) = f x) (hi : IntegrableOn f (Ioi 0)) :
    Integrable f ∧ ∫ x, f x = 2 * ∫ x in Ioi 0, f x := by
  have hf : IntegrableOn f (Iic 0) := by
    rw [← Measure.map_neg_eq_self (volume : Measure ℝ)]
    let m : MeasurableEmbedding fun x : ℝ => -x := (Homeomorph.neg ℝ).measurableEmbedding
    rw [m.integrableOn_map_iff]
    simp_rw [Function.comp_def, he, neg_preimage, neg_Iic, neg_zero]
    exact Iff.mpr integrableOn_Ici_iff_integrableOn_Ioi hi
  refine ⟨?_, ?_⟩
  · rw [← integrableOn_univ, ← Iic_union_Ioi (a := (0 : ℝ))]
    exact hf.union hi
  · have e : f = fun x => f |x| := by
      funext x
      rcases abs_cases x with h | h
      · rw [h.1]
      · rw [h.1, he]
    conv_lhs => rw [e]
    rw [integral_comp_abs (f := f)]

theorem odd_zero {f : ℝ → ℝ} (ho : ∀ x, f (-x) = -f x) : ∫ x, f x = 0 := by
  have h := integral_neg_eq_self f volume
  simp only [ho, integral_neg] at h
  linarith

theorem moments_laplace01 : Moments (densLaw (laplacePdf 0 1)) 0 2 := by
  have hl := isCdf_laplace 0 one_pos
  have := hl.isProb
  have e : ∀ x, laplacePdf 0 1 x = 1 / 2 * Real.exp (-|x|) := fun x => by rw [laplacePdf]; simp
  have i1 := exp_pow 1 (by norm_num)
  have i2 := exp_pow 2 (by norm_num)
  simp only [Real.rpow_one, Real.rpow_two] at i1 i2
  have g3 : Real.Gamma ((2 : ℝ) + 1) = 2 := by
    have := Real.Gamma_nat_eq_factorial 2
    norm_num at this ⊢
  rw [g3] at i2
  have c : ∀ x : ℝ, x ∈ Ioi (0 : ℝ) → |x| = x := fun x hx => abs_of_pos hx
  have e2 := even_half (f := fun x => x ^ 2 * laplacePdf 0 1 x) (fun x => by simp only [e, abs_neg]; ring)
    (by
      refine IntegrableOn.congr_fun (i2.1.const_mul (1 / 2)) (fun x hx => ?_) measurableSet_Ioi
      simp only [e, c x hx]; ring)
  have e1 := even_half (f := fun x => |x| * laplacePdf 0 1 x) (fun x => by simp only [e, abs_neg])
    (by
      refine IntegrableOn.congr_fun (i1.1.const_mul (1 / 2)) (fun x hx => ?_) measurableSet_Ioi
      simp only [e, c x hx]; ring)
  have f1 : Integrable (fun x => x * laplacePdf 0 1 x) := by
    refine e1.1.mono' ?_ (.of_forall fun x => ?_)
    · simp only [e]; fun_prop
    · rw [norm_mul, Real.norm_eq_abs, Real.norm_of_nonneg (by rw [e]; positivity)]
  refine .of_raw (w := 2) ((hl.integrable_dens _).2 f1) ((hl.integrable_dens _).2 e2.1) ?_ ?_ (by norm_num)
  · rw [hl.integral_dens]
    exact odd_zero fun x => by simp only [e, abs_neg]; ring
  · rw [hl.integral_dens, e2.2]
    have : ∀ x ∈ Ioi (0 : ℝ), x ^ 2 * laplacePdf 0 1 x = 1 / 2 * (x ^ 2 * Real.exp (-x)) := fun x hx => by
      simp only [e, c x hx]; ring
    rw [setIntegral_congr_fun measurableSet_Ioi this, integral_const_mul, i2.2]
    norm_num

theorem moments_laplace (mu : ℝ) {sigma : ℝ} (h : 0 < sigma) :
    Moments (densLaw (laplacePdf mu sigma)) mu (2 * sigma ^ 2) := by
  have := (isCdf_laplace 0 one_pos).isProb
  have h1 := moments_laplace01.affine mu sigma
  rw [locscale mu h (g := laplacePdf mu sigma) fun x => by
    rw [laplacePdf, laplacePdf, sub_zero, abs_div, abs_of_pos h]
    rw [div_one, neg_div]
    field_simp] at h1
  simpa [mul_comm] using h1

/-! ### logistic -/

theorem logis_series {x : ℝ} (hx : 0 < x) :
    HasSum (fun n : ℕ => (-1) ^ n * ((n + 1 : ℝ) * Real.exp (-((n + 1 : ℝ) * x)))) (logisPdf 0 1 x) := by
  have hq : ‖-Real.exp (-x)‖ < 1 := by
    rw [norm_neg, Real.norm_of_nonneg (Real.exp_pos _).le, Real.exp_lt_one_iff]; linarith
  have h := (hasSum_coe_mul_geometric_of_norm_lt_one hq).neg
  have h' : HasSum (fun n : ℕ => -((n + 1 : ℕ) * (-Real.exp (-x)) ^ (n + 1))) (logisPdf 0 1 x) := by
    rw [hasSum_nat_add_iff (f := fun n : ℕ => -((n : ℝ) * (-Real.exp (-x)) ^ n)) 1]
    have e : logisPdf 0 1 x + ∑ i ∈ Finset.range 1, -((i : ℝ) * (-Real.exp (-x)) ^ i) =
        -(-Real.exp (-x) / (1 - -Real.exp (-x)) ^ 2) := by
      rw [logisPdf]; simp [neg_div]
    rw [e]
    exact h
  convert h' using 1
  funext n
  rw [show -((n + 1 : ℝ) * x) = ((n + 1 : ℕ) : ℝ) * -x by push_cast; ring, Real.exp_nat_mul, neg_pow (Real.exp (-x))]
  push_cast
  ring

theorem sum_eta_two : HasSum (fun n : ℕ => (-1 : ℝ) ^ n / (n + 1) ^ 2) (Real.pi ^ 2 / 12) := by
  have h := hasSum_zeta_two
  have h1 : HasSum (fun n : ℕ => 1 / ((n + 1 : ℝ)) ^ 2) (Real.pi ^ 2 / 6) := by
    have := (hasSum_nat_add_iff (f := fun n : ℕ => (1 : ℝ) / (n : ℝ) ^ 2) 1 (g := Real.pi ^ 2 / 6)).2 (by simpa using h)
    simpa using this
  have h2 : HasSum (fun n : ℕ => 1 / ((2 * n + 1 + 1 : ℝ)) ^ 2) (Real.pi ^ 2 / 24) := by
    have e : (fun n : ℕ => 1 / ((2 * n + 1 + 1 : ℝ)) ^ 2) = fun n : ℕ => 1 / 4 * (1 / ((n + 1 : ℝ)) ^ 2) := by
      funext n
      rw [show (2 * n + 1 + 1 : ℝ) = 2 * (n + 1) by ring, mul_pow]
      field_simp
      norm_num
    rw [e, show Real.pi ^ 2 / 24 = 1 / 4 * (Real.pi ^ 2 / 6) by ring]
    exact h1.mul_left _
  have h3 : HasSum (fun n : ℕ => 1 / ((2 * n + 1 : ℝ)) ^ 2) (Real.pi ^ 2 / 8) := by
    have hs : Summable fun n : ℕ => 1 / ((2 * n + 1 : ℝ)) ^ 2 := by
      have := h1.summable.comp_injective (i := fun n : ℕ => 2 * n) (fun a b hab => by simpa using hab)
      simpa [Function.comp_def] using this
    obtain ⟨a, ha⟩ := hs
    have := HasSum.even_add_odd (f := fun n : ℕ => 1 / ((n + 1 : ℝ)) ^ 2) (m := a) (m' := Real.pi ^ 2 / 24)
      (by simpa using ha) (by simpa using h2)
    have e := this.unique h1
    rwa [show a = Real.pi ^ 2 / 8 by linarith] at ha
  have := HasSum.even_add_odd (f := fun n : ℕ => (-1 : ℝ) ^ n / (n + 1) ^ 2) (m := Real.pi ^ 2 / 8)
    (m' := -(Real.pi ^ 2 / 24)) (by simpa using h3) (by
      have := h2.neg
      simpa [pow_add, pow_mul, neg_div] using this)
  convert this using 1
  ring

theorem logisPdf_le (x : ℝ) : logisPdf 0 1 x ≤ Real.exp (-|x|) := by
  rw [logisPdf]
  simp only [sub_zero, div_one, one_mul]
  have h := Real.exp_pos (-x)
  rcases abs_cases x with hx | hx
  · rw [hx.1, div_le_iff₀ (by positivity)]
    nlinarith [mul_pos h h, mul_pos (mul_pos h h) h]
  · rw [hx.1, neg_neg, div_le_iff₀ (by positivity)]
    have e : Real.exp x * Real.exp (-x) = 1 := by rw [← Real.exp_add]; simp
    have h' := Real.exp_pos x
    nlinarith [mul_pos h h, mul_pos h' h]

theorem logisPdf_even (x : ℝ) : logisPdf 0 1 (-x) = logisPdf 0 1 x := by
  rw [logisPdf, logisPdf]
  simp only [sub_zero, div_one, one_mul, neg_neg]
  have h := Real.exp_pos (-x)
  have h' := Real.exp_pos x
  have e : Real.exp x * Real.exp (-x) = 1 := by rw [← Real.exp_add]; simp
  rw [div_eq_div_iff (by positivity) (by positivity)]
  have e2 : Real.exp (-x) = (Real.exp x)⁻¹ := Real.exp_neg x
  rw [e2]
  field_simp
  ring

theorem logisPdf_nonneg (x : ℝ) : 0 ≤ logisPdf 0 1 x := by rw [logisPdf]; positivity

theorem logis_half : ∫ x in Ioi (0 : ℝ), x ^ 2 * logisPdf 0 1 x = Real.pi ^ 2 / 6 := by
  have g3 : Real.Gamma (2 + 1 : ℝ) = 2 := by
    have := Real.Gamma_nat_eq_factorial 2
    norm_num at this ⊢
  have ii : ∀ n : ℕ, IntegrableOn (fun x : ℝ => x ^ 2 * Real.exp (-((n + 1 : ℝ) * x))) (Ioi 0) ∧
      ∫ x in Ioi (0 : ℝ), x ^ 2 * Real.exp (-((n + 1 : ℝ) * x)) = 2 / (n + 1 : ℝ) ^ 3 := by
    intro n
    have hn : (0 : ℝ) < n + 1 := by positivity
    have h1 := Real.integral_rpow_mul_exp_neg_mul_Ioi (a := 3) (r := (n + 1 : ℝ)) (by norm_num) hn
    have h2 := integrableOn_rpow_mul_exp_neg_mul_rpow (p := 1) (s := 2) (b := (n + 1 : ℝ)) (by norm_num) one_pos hn
    simp only [Real.rpow_one, Real.rpow_two] at h2
    simp only [show (3 : ℝ) - 1 = 2 by norm_num, Real.rpow_two] at h1
    simp only [neg_mul] at h2
    refine ⟨h2, h1.trans ?_⟩
    rw [show (3 : ℝ) = 2 + 1 by norm_num, g3, show (2 + 1 : ℝ) = ((3 : ℕ) : ℝ) by norm_num, Real.rpow_natCast, one_div,
      inv_pow]
    field_simp
  have hs := hasSum_integral_of_summable_integral_norm (μ := volume.restrict (Ioi (0 : ℝ)))
    (F := fun (n : ℕ) (x : ℝ) => (-1) ^ n * (n + 1 : ℝ) * (x ^ 2 * Real.exp (-((n + 1 : ℝ) * x))))
    (fun n => (ii n).1.const_mul _) (by
      have : ∀ n : ℕ, ∫ x in Ioi (0 : ℝ), ‖(-1) ^ n * (n + 1 : ℝ) * (x ^ 2 * Real.exp (-((n + 1 : ℝ) * x)))‖ =
          2 * (1 / (n + 1 : ℝ) ^ 2) := by
        intro n
        have hn : (0 : ℝ) < n + 1 := by positivity
        have e : ∀ x : ℝ, ‖(-1) ^ n * (n + 1 : ℝ) * (x ^ 2 * Real.exp (-((n + 1 : ℝ) * x)))‖ =
            (n + 1 : ℝ) * (x ^ 2 * Real.exp (-((n + 1 : ℝ) * x))) := fun x => by
          rw [norm_mul, norm_mul, norm_pow, norm_neg, norm_one, one_pow, one_mul, Real.norm_of_nonneg hn.le,
            Real.norm_of_nonneg (by positivity)]
        simp only [e]
        rw [integral_const_mul, (ii n).2]
        field_simp
      simp only [this]
      refine Summable.mul_left _ ?_
      have h1 := (summable_nat_add_iff (f := fun n : ℕ => (1 : ℝ) / (n : ℝ) ^ 2) 1).2 hasSum_zeta_two.summable
      simpa using h1)
  have hv : ∀ n : ℕ, ∫ x in Ioi (0 : ℝ), (-1) ^ n * (n + 1 : ℝ) * (x ^ 2 * Real.exp (-((n + 1 : ℝ) * x))) =
      2 * ((-1 : ℝ) ^ n / (n + 1) ^ 2) := by
    intro n
    have hn : (0 : ℝ) < n + 1 := by positivity
    rw [integral_const_mul, (ii n).2]
    field_simp
  simp only [hv] at hs
  have e := hs.unique (sum_eta_two.mul_left 2)
  rw [show 2 * (Real.pi ^ 2 / 12) = Real.pi ^ 2 / 6 by ring] at e
  rw [← e]
  refine setIntegral_congr_fun measurableSet_Ioi fun x hx => ?_
  have := ((logis_series hx).mul_left (x ^ 2)).tsum_eq
  rw [← this]
  exact tsum_congr fun n => by ring

theorem moments_logis01 : Moments (densLaw (logisPdf 0 1)) 0 (Real.pi ^ 2 / 3) := by
  have hl := isCdf_logis 0 one_pos
  have hL := isCdf_laplace 0 one_pos
  have := hl.isProb
  have m := moments_laplace01
  have le : ∀ x, logisPdf 0 1 x ≤ 2 * laplacePdf 0 1 x := fun x => by
    refine (logisPdf_le x).trans_eq ?_
    rw [laplacePdf]; simp
  have hm : Measurable (logisPdf 0 1) := by unfold logisPdf; fun_prop
  have i1 : Integrable (fun x => x * logisPdf 0 1 x) := by
    refine (((hL.integrable_dens _).1 m.int1).norm.const_mul 2).mono' (by fun_prop) (.of_forall fun x => ?_)
    rw [norm_mul, norm_mul, Real.norm_of_nonneg (logisPdf_nonneg x),
      Real.norm_of_nonneg ((logisPdf_nonneg x).trans (le x) |> fun h => by linarith : 0 ≤ laplacePdf 0 1 x)]
    nlinarith [le x, norm_nonneg x]
  have i2 : Integrable (fun x => x ^ 2 * logisPdf 0 1 x) := by
    refine (((hL.integrable_dens _).1 m.int2).const_mul 2).mono' (by fun_prop) (.of_forall fun x => ?_)
    rw [norm_mul, Real.norm_of_nonneg (logisPdf_nonneg x), Real.norm_of_nonneg (sq_nonneg x)]
    nlinarith [le x, sq_nonneg x]
  refine .of_raw (w := Real.pi ^ 2 / 3) ((hl.integrable_dens _).2 i1) ((hl.integrable_dens _).2 i2) ?_ ?_ (by ring)
  · rw [hl.integral_dens]
    exact odd_zero fun x => by rw [logisPdf_even]; ring
  · rw [hl.integral_dens, (even_half (f := fun x => x ^ 2 * logisPdf 0 1 x) (fun x => by rw [logisPdf_even]; ring)
      i2.integrableOn).2, logis_half]
    ring

theorem moments_logis (mu : ℝ) {sigma : ℝ} (h : 0 < sigma) :
    Moments (densLaw (logisPdf mu sigma)) mu (sigma ^ 2 * Real.pi ^ 2 / 3) := by
  have := (isCdf_logis 0 one_pos).isProb
  have h1 := moments_logis01.affine mu sigma
  rw [locscale mu h (g := logisPdf mu sigma) fun x => by
    rw [logisPdf, logisPdf, sub_zero]
    rw [div_one]
    field_simp] at h1
  simpa [mul_div_assoc] using h1

/-! ### heavy tails -/

/-- a density with a tail as heavy as `x^(-2)` has no mean -/
theorem no_mean {f : ℝ → ℝ} {C s K : ℝ} (hC : 0 < C) (hs : s ≤ 1) (hK : 0 < K)
    (h : ∀ x, K < x → C * x ^ (-s) ≤ x * f x) : ¬ Integrable (fun x => x * f x) := by
  intro hi
  have h1 : IntegrableOn (fun x : ℝ => C * x ^ (-s)) (Ioi K) := by
    refine hi.integrableOn.mono' ?_ ?_
    · exact (by fun_prop : Measurable fun x : ℝ => C * x ^ (-s)).aestronglyMeasurable
    · rw [ae_restrict_iff' measurableSet_Ioi]
      refine .of_forall fun x hx => ?_
      have hx0 : 0 < x := hK.trans hx
      rw [Real.norm_of_nonneg (by positivity)]
      exact h x hx
  have h2 : IntegrableOn (fun x : ℝ => x ^ (-s)) (Ioi K) := by
    have := h1.const_mul C⁻¹
    refine IntegrableOn.congr_fun this (fun x _ => ?_) measurableSet_Ioi
    rw [← mul_assoc, inv_mul_cancel₀ hC.ne', one_mul]
  rw [integrableOn_Ioi_rpow_iff hK] at h2
  linarith

theorem no_mean_t {ν : ℝ} (h0 : 0 < ν) (h : ν ≤ 1) : ¬ Integrable fun x => x * tPdf ν x := by
  have g1 := Real.Gamma_pos_of_pos (show 0 < (ν + 1) / 2 by linarith)
  have g2 := Real.Gamma_pos_of_pos (half_pos h0)
  refine no_mean (C := Real.Gamma ((ν + 1) / 2) / (√(ν * Real.pi) * Real.Gamma (ν / 2)) *
    (1 + 1 / ν) ^ (-((ν + 1) / 2))) (s := ν) (K := 1) (by positivity) h one_pos fun x hx => ?_
  have hx0 : 0 < x := one_pos.trans hx
  rw [tPdf, mul_left_comm, mul_assoc]
  refine mul_le_mul_of_nonneg_left ?_ (by positivity)
  have e : x ^ (-ν) = x * (x ^ 2) ^ (-((ν + 1) / 2)) := by
    rw [← Real.rpow_natCast x 2, ← Real.rpow_mul hx0.le]
    conv_rhs => rw [← Real.rpow_one x, ← Real.rpow_mul hx0.le, ← Real.rpow_add hx0]
    congr 1
    push_cast
    ring
  rw [e, mul_left_comm, ← Real.mul_rpow (by positivity) (by positivity)]
  refine mul_le_mul_of_nonneg_left ?_ hx0.le
  refine Real.rpow_le_rpow_of_nonpos (by positivity) ?_ (by linarith)
  have : 1 ≤ x ^ 2 := by nlinarith
  have : (1 + 1 / ν) * x ^ 2 = x ^ 2 + x ^ 2 / ν := by ring
  linarith

theorem no_mean_cauchy (mu : ℝ) {sigma : ℝ} (h : 0 < sigma) : ¬ Integrable fun x => x * cauchyPdf mu sigma x := by
  have hpi := Real.pi_pos
  refine no_mean (C := 1 / (Real.pi * sigma * (1 + ((1 + |mu|) / sigma) ^ 2))) (s := 1) (K := 1) (by positivity) le_rfl
    one_pos fun x hx => ?_
  have hx0 : 0 < x := one_pos.trans hx
  rw [cauchyPdf, Real.rpow_neg_one]
  have h1 : |x - mu| ≤ (1 + |mu|) * x := by
    have := abs_sub x mu
    rw [abs_of_pos hx0] at this
    nlinarith [abs_nonneg mu]
  have h2 : 1 + ((x - mu) / sigma) ^ 2 ≤ (1 + ((1 + |mu|) / sigma) ^ 2) * x ^ 2 := by
    have h3 : ((x - mu) / sigma) ^ 2 ≤ ((1 + |mu|) / sigma) ^ 2 * x ^ 2 := by
      rw [← mul_pow, ← sq_abs]
      refine pow_le_pow_left₀ (abs_nonneg _) ?_ 2
      rw [abs_div, abs_of_pos h, div_mul_eq_mul_div]
      gcongr
    nlinarith
  rw [one_div, ← mul_inv, ← div_eq_mul_one_div, inv_eq_one_div, div_le_div_iff₀ (by positivity) (by positivity)]
  have := mul_le_mul_of_nonneg_left h2 (show 0 ≤ Real.pi * sigma by positivity)
  nlinarith

theorem no_mean_invgamma {α β : ℝ} (h0 : 0 < α) (h : α ≤ 1) (hb : 0 < β) : ¬ Integrable fun x => x * invgammaPdf α β x := by
  have g1 := Real.Gamma_pos_of_pos h0
  refine no_mean (C := β ^ α / Real.Gamma α * Real.exp (-β)) (s := α) (K := 1) (by positivity) h one_pos fun x hx => ?_
  have hx0 : 0 < x := one_pos.trans hx
  rw [invgammaPdf, if_pos hx0, show x * (β ^ α / Real.Gamma α * x ^ (-α - 1) * Real.exp (-β / x)) =
    β ^ α / Real.Gamma α * Real.exp (-β / x) * (x ^ (-α - 1) * x) by ring, ← Real.rpow_add_one hx0.ne', sub_add_cancel]
  refine mul_le_mul_of_nonneg_right ?_ (by positivity)
  refine mul_le_mul_of_nonneg_left ?_ (by positivity)
  refine Real.exp_le_exp.2 ?_
  rw [neg_div, neg_le_neg_iff]
  exact div_le_self hb.le hx.le

theorem no_mean_f {d₁ d₂ : ℝ} (h1 : 0 < d₁) (h0 : 0 < d₂) (h : d₂ ≤ 2) : ¬ Integrable fun x => x * fPdf d₁ d₂ x := by
  have hb := beta_pos (half_pos h1) (half_pos h0)
  refine no_mean (C := 1 / beta (d₁ / 2) (d₂ / 2) * (d₁ / d₂) ^ (d₁ / 2) * (1 + d₁ / d₂) ^ (-((d₁ + d₂) / 2)))
    (s := d₂ / 2) (K := 1) (by positivity) (by linarith) one_pos fun x hx => ?_
  have hx0 : 0 < x := one_pos.trans hx
  rw [fPdf, if_pos hx0]
  have e : x ^ (-(d₂ / 2)) = x ^ (d₁ / 2 - 1) * x * x ^ (-((d₁ + d₂) / 2)) := by
    rw [← Real.rpow_add_one hx0.ne', ← Real.rpow_add hx0]
    congr 1
    ring
  rw [e]
  have h2 : (1 + d₁ / d₂) ^ (-((d₁ + d₂) / 2)) * x ^ (-((d₁ + d₂) / 2)) ≤ (1 + d₁ / d₂ * x) ^ (-((d₁ + d₂) / 2)) := by
    rw [← Real.mul_rpow (by positivity) hx0.le]
    refine Real.rpow_le_rpow_of_nonpos (by positivity) ?_ (by linarith)
    have : (1 + d₁ / d₂) * x = x + d₁ / d₂ * x := by ring
    linarith
  have := mul_le_mul_of_nonneg_left h2
    (show 0 ≤ 1 / beta (d₁ / 2) (d₂ / 2) * (d₁ / d₂) ^ (d₁ / 2) * x ^ (d₁ / 2 - 1) * x by positivity)
  nlinarith

/-! ### inverse Gaussian -/

section
variable {mu lambda : ℝ} (hm : 0 < mu) (hl : 0 < lambda)
include hm hl

theorem igPdf1_pos : ∀ᵐ x ∂densLaw (igPdf1 mu lambda), 0 < x := by
  have hr : Measurable fun z : ℝ => igRoot mu lambda (z * z) := (measurable_igRoot hm hl).comp (by fun_prop)
  rw [← ig_small hm hl, ae_map_iff hr.aemeasurable measurableSet_Ioi]
  exact .of_forall fun z => igRoot_pos hm hl (mul_self_nonneg z)

theorem igPdf1_sum : Integrable (fun x => x + mu ^ 2 / x) (densLaw (igPdf1 mu lambda)) ∧
    ∫ x, (x + mu ^ 2 / x) ∂densLaw (igPdf1 mu lambda) = 2 * mu + mu ^ 2 / lambda := by
  have hr : Measurable fun z : ℝ => igRoot mu lambda (z * z) := (measurable_igRoot hm hl).comp (by fun_prop)
  have := (isCdf_norm 0 one_pos).isProb
  have m := moments_norm01
  have r := m.raw
  have e : ∀ z : ℝ, igRoot mu lambda (z * z) + mu ^ 2 / igRoot mu lambda (z * z) = 2 * mu + mu ^ 2 / lambda * z ^ 2 := by
    intro z
    have h1 := igRoot_eq hm hl (mul_self_nonneg z)
    have h2 := igRoot_pos hm hl (mul_self_nonneg z)
    generalize igRoot mu lambda (z * z) = x at h1 h2
    field_simp
    linear_combination h1
  rw [← ig_small hm hl, integral_map hr.aemeasurable (by fun_prop),
    integrable_map_measure (g := fun x => x + mu ^ 2 / x) (by fun_prop) hr.aemeasurable]
  simp only [Function.comp_def, e]
  refine ⟨(integrable_const _).add (m.int2.const_mul _), ?_⟩
  rw [integral_add (integrable_const _) (m.int2.const_mul _), integral_const_mul (mu ^ 2 / lambda), r]
  simp

/-- the conditional expectation of a function of the chosen root -/
theorem ig_inner (g : ℝ → ℝ) {x : ℝ} (hx : 0 < x) :
    Integrable (fun u : ℝ => g (if u ≤ mu / (mu + x) then x else mu * mu / x)) (volume.restrict (Ioo (0 : ℝ) 1)) ∧
    ∫ u in Ioo (0 : ℝ) 1, g (if u ≤ mu / (mu + x) then x else mu * mu / x) =
      mu / (mu + x) * g x + x / (mu + x) * g (mu * mu / x) := by
  have h0 : 0 ≤ mu / (mu + x) := by positivity
  have h1 : mu / (mu + x) ≤ 1 := by rw [div_le_one (by positivity)]; linarith
  have e : (fun u : ℝ => g (if u ≤ mu / (mu + x) then x else mu * mu / x)) =
      fun u => indicator (Iic (mu / (mu + x))) (fun _ => g x - g (mu * mu / x)) u + g (mu * mu / x) := by
    funext u
    by_cases hu : u ≤ mu / (mu + x)
    · rw [if_pos hu, indicator_of_mem (show u ∈ Iic _ from hu)]; ring
    · rw [if_neg hu, indicator_of_notMem (show u ∉ Iic _ from hu), zero_add]
  have hf : IsFiniteMeasure (volume.restrict (Ioo (0 : ℝ) 1)) := ⟨by simp⟩
  have i1 : Integrable (indicator (Iic (mu / (mu + x))) fun _ : ℝ => g x - g (mu * mu / x))
    (volume.restrict (Ioo (0 : ℝ) 1)) := (integrable_const _).indicator measurableSet_Iic
  rw [e]
  refine ⟨i1.add (integrable_const _), ?_⟩
  rw [integral_add i1 (integrable_const _), integral_indicator measurableSet_Iic, integral_const, integral_const,
    measureReal_restrict_apply_univ, measureReal_restrict_apply_univ, Measure.real]
  have e2 : (volume.restrict (Ioo (0 : ℝ) 1)) (Iic (mu / (mu + x))) = ENNReal.ofReal (mu / (mu + x)) := by
    rw [Measure.restrict_apply measurableSet_Iic]
    have : (Iic (mu / (mu + x)) ∩ Ioo 0 1 : Set ℝ) =ᵐ[volume] Ioc 0 (mu / (mu + x)) := by
      have h : Ioo (0 : ℝ) 1 =ᵐ[volume] Ioc 0 1 := Ioo_ae_eq_Ioc
      refine ((ae_eq_refl (Iic (mu / (mu + x)))).inter h).trans (ae_of_all _ fun y => ?_)
      refine propext ⟨fun hy => ⟨hy.2.1, hy.1⟩, fun hy => ⟨hy.2, hy.1, hy.2.trans h1⟩⟩
    rw [measure_congr this, Real.volume_Ioc, sub_zero]
  rw [e2, ENNReal.toReal_ofReal h0]
  have : (volume.real (Ioo (0 : ℝ) 1)) = 1 := by simp
  rw [this]
  simp only [smul_eq_mul]
  field_simp
  ring

theorem ig_key {g G : ℝ → ℝ} (hg : Measurable g) (h0 : ∀ x, 0 < x → 0 ≤ g x)
    (hG : Integrable G (densLaw (igPdf1 mu lambda)))
    (hx : ∀ x, 0 < x → mu / (mu + x) * g x + x / (mu + x) * g (mu * mu / x) = G x) :
    Integrable g (densLaw (invgaussPdf mu lambda)) ∧
      ∫ x, g x ∂densLaw (invgaussPdf mu lambda) = ∫ x, G x ∂densLaw (igPdf1 mu lambda) := by
  have hr : Measurable fun z : ℝ => igRoot mu lambda (z * z) := (measurable_igRoot hm hl).comp (by fun_prop)
  have := (isCdf_norm 0 one_pos).isProb
  have hD : IsProbabilityMeasure (densLaw (igPdf1 mu lambda)) := by
    rw [← ig_small hm hl]; exact Measure.isProbabilityMeasure_map hr.aemeasurable
  have hU : IsProbabilityMeasure (volume.restrict (Ioo (0 : ℝ) 1)) := ⟨by simp⟩
  have hH : Measurable fun p : ℝ × ℝ => if p.2 ≤ mu / (mu + p.1) then p.1 else mu * mu / p.1 :=
    Measurable.ite (measurableSet_le measurable_snd (by fun_prop)) measurable_fst (by fun_prop)
  have hi : Integrable (fun p : ℝ × ℝ => g (if p.2 ≤ mu / (mu + p.1) then p.1 else mu * mu / p.1))
      ((densLaw (igPdf1 mu lambda)).prod (volume.restrict (Ioo (0 : ℝ) 1))) := by
    refine (integrable_prod_iff (hg.comp hH).aestronglyMeasurable).2 ⟨?_, ?_⟩
    · filter_upwards [igPdf1_pos hm hl] with x hx
      exact (ig_inner hm hl g hx).1
    · refine hG.congr ?_
      filter_upwards [igPdf1_pos hm hl] with x hx'
      have : ∀ u : ℝ, ‖g (if u ≤ mu / (mu + x) then x else mu * mu / x)‖ = g (if u ≤ mu / (mu + x) then x else mu * mu / x) :=
        fun u => Real.norm_of_nonneg (by split_ifs <;> exact h0 _ (by positivity))
      refine ((integral_congr_ae (.of_forall this)).trans ?_).symm
      rw [(ig_inner hm hl g hx').2, hx x hx']
  rw [← ig_choose hm hl]
  refine ⟨(integrable_map_measure hg.aestronglyMeasurable hH.aemeasurable).2 hi, ?_⟩
  rw [integral_map hH.aemeasurable hg.aestronglyMeasurable, integral_prod _ hi]
  refine integral_congr_ae ?_
  filter_upwards [igPdf1_pos hm hl] with x hx'
  exact (ig_inner hm hl g hx').2.trans (hx x hx')

omit hl in
theorem ig_alg1 {x : ℝ} (hx : 0 < x) : mu / (mu + x) * x + x / (mu + x) * (mu * mu / x) = mu := by
  have : mu + x ≠ 0 := by positivity
  field_simp
  ring

omit hl in
theorem ig_alg2 {x : ℝ} (hx : 0 < x) :
    mu / (mu + x) * x ^ 2 + x / (mu + x) * (mu * mu / x) ^ 2 = mu * (x + mu ^ 2 / x) - mu ^ 2 := by
  have : mu + x ≠ 0 := by positivity
  field_simp
  ring

theorem moments_invgauss : Moments (densLaw (invgaussPdf mu lambda)) mu (mu ^ 3 / lambda) := by
  have hp := (isCdf_invgauss hm hl).isProb
  have hr : Measurable fun z : ℝ => igRoot mu lambda (z * z) := (measurable_igRoot hm hl).comp (by fun_prop)
  have := (isCdf_norm 0 one_pos).isProb
  have hD : IsProbabilityMeasure (densLaw (igPdf1 mu lambda)) := by
    rw [← ig_small hm hl]; exact Measure.isProbabilityMeasure_map hr.aemeasurable
  have s := igPdf1_sum hm hl
  have c1 : Integrable (fun _ : ℝ => mu) (densLaw (igPdf1 mu lambda)) := integrable_const _
  have c2 : Integrable (fun x : ℝ => mu * (x + mu ^ 2 / x) - mu ^ 2) (densLaw (igPdf1 mu lambda)) :=
    (s.1.const_mul mu).sub (integrable_const _)
  have k1 := ig_key hm hl (g := fun x => x) measurable_id (fun x h => le_of_lt h) c1 fun x hx => ig_alg1 hm hx
  have k2 := ig_key hm hl (g := fun x => x ^ 2) (by fun_prop) (fun x _ => sq_nonneg x) c2 fun x hx => ig_alg2 hm hx
  have e1 : ∫ x, x ∂densLaw (invgaussPdf mu lambda) = mu := k1.2.trans (by simp)
  refine Moments.of_raw k1.1 k2.1 e1 k2.2 ?_
  rw [integral_sub (s.1.const_mul mu) (integrable_const _), integral_const_mul, s.2]
  simp
  ring

end

/-! ### laws of integers -/

theorem mass_integral {p : ℤ → ℝ} (h0 : ∀ k, 0 ≤ p k) (g : ℝ → ℝ) {a : ℝ} (hg : HasSum (fun k : ℤ => g k * p k) a) :
    Integrable g (massLaw p) ∧ ∫ x, g x ∂massLaw p = a := by
  have hi : Integrable g (massLaw p) := by
    refine integrable_sum_dirac (fun k => ENNReal.ofReal_ne_top) ?_
    refine hg.summable.abs.congr fun k => ?_
    rw [ENNReal.toReal_ofReal (h0 k), abs_mul, abs_of_nonneg (h0 k), mul_comm, Real.norm_eq_abs]
  refine ⟨hi, ?_⟩
  have := hasSum_integral_measure (μ := fun k : ℤ => ENNReal.ofReal (p k) • Measure.dirac (k : ℝ)) (f := g) hi
  refine this.unique ?_
  refine HasSum.like hg (fun k => ?_) rfl
  rw [integral_smul_measure, integral_dirac, ENNReal.toReal_ofReal (h0 k), smul_eq_mul, mul_comm]

/-- mean and variance of a mass function -/
structure MassMom (p : ℤ → ℝ) (m v : ℝ) : Prop where
  nonneg : ∀ k, 0 ≤ p k
  total : HasSum p 1
  mean : HasSum (fun k : ℤ => k * p k) m
  var : HasSum (fun k : ℤ => ((k : ℝ) - m) ^ 2 * p k) v

theorem MassMom.of_raw {p : ℤ → ℝ} (h0 : ∀ k, 0 ≤ p k) (h1 : HasSum p 1) {m v w : ℝ}
    (hm : HasSum (fun k : ℤ => k * p k) m) (hw : HasSum (fun k : ℤ => (k : ℝ) * (k - 1) * p k) w) (hv : v = w + m - m ^ 2) :
    MassMom p m v := by
  refine ⟨h0, h1, hm, ?_⟩
  have := ((hw.add hm).sub (hm.mul_left (2 * m))).add (h1.mul_left (m ^ 2))
  rw [show w + m - 2 * m * m + m ^ 2 * 1 = v by rw [hv]; ring] at this
  exact HasSum.like this (fun k => by ring) rfl

theorem MassMom.moments {p : ℤ → ℝ} {m v : ℝ} (h : MassMom p m v) : Moments (massLaw p) m v := by
  have h1 := mass_integral h.nonneg (fun x => x) h.mean
  have h2 := mass_integral h.nonneg (fun x => (x - m) ^ 2) h.var
  have h0 := mass_integral h.nonneg (fun _ => 1) (by simpa using h.total)
  refine ⟨h1.1, ?_, h1.2, h2.2⟩
  have := (h2.1.add (h1.1.const_mul (2 * m))).sub (h0.1.const_mul (m ^ 2))
  refine this.congr (.of_forall fun x => ?_)
  simp only [Pi.add_apply, Pi.sub_apply]
  ring

theorem massMom_bern {p : ℝ} (h0 : 0 ≤ p) (h1 : p ≤ 1) : MassMom (bernPmf p) p (p * (1 - p)) := by
  have s : ∀ g : ℤ → ℝ, HasSum (fun k : ℤ => g k * bernPmf p k) (g 1 * p + g 0 * (1 - p)) := fun g => by
    have := hasSum_sum_of_ne_finset_zero (L := SummationFilter.unconditional ℤ) (s := {0, 1})
      (f := fun k : ℤ => g k * bernPmf p k) ?_
    · refine HasSum.like this (fun _ => rfl) ?_
      simp [bernPmf, add_comm]
    · intro k hk
      simp only [Finset.mem_insert, Finset.mem_singleton, not_or] at hk
      simp [bernPmf, hk.1, hk.2]
  refine .of_raw (w := 0) (fun k => ?_) ?_ ?_ ?_ (by ring)
  · unfold bernPmf; split_ifs <;> linarith
  · simpa using s fun _ => 1
  · simpa using s fun k => k
  · simpa using s fun k => k * (k - 1)

theorem massMom_radem {p : ℝ} (h0 : 0 ≤ p) (h1 : p ≤ 1) : MassMom (rademPmf p) (2 * p - 1) (4 * p * (1 - p)) := by
  have s : ∀ g : ℤ → ℝ, HasSum (fun k : ℤ => g k * rademPmf p k) (g 1 * p + g (-1) * (1 - p)) := fun g => by
    have := hasSum_sum_of_ne_finset_zero (L := SummationFilter.unconditional ℤ) (s := {-1, 1})
      (f := fun k : ℤ => g k * rademPmf p k) ?_
    · refine HasSum.like this (fun _ => rfl) ?_
      simp [rademPmf, add_comm]
    · intro k hk
      simp only [Finset.mem_insert, Finset.mem_singleton, not_or] at hk
      simp [rademPmf, hk.1, hk.2]
  refine .of_raw (w := 2 * (1 - p)) (fun k => ?_) ?_ ?_ ?_ (by ring)
  · unfold rademPmf; split_ifs <;> linarith
  · simpa using s fun _ => 1
  · have := s fun k => k
    convert this using 1
    push_cast; ring
  · have := s fun k => k * (k - 1)
    convert this using 1
    push_cast; ring

theorem massMom_pois {rate : ℝ} (h : 0 ≤ rate) : MassMom (poisPmf rate) rate rate := by
  have hn : HasSum (fun n : ℕ => poisPmf rate n) 1 :=
    (Function.Injective.hasSum_iff (g := fun n : ℕ => (n : ℤ)) Nat.cast_injective (fun k hk => by
      apply poisPmf_neg
      by_contra hc
      exact hk ⟨k.toNat, by simp; omega⟩)).2 (hasSum_pois rate)
  refine .of_raw (w := rate ^ 2) (poisPmf_nonneg h) (hasSum_pois rate) ?_ ?_ (by ring)
  · refine hasSum_int_of_nat (fun k hk => by rw [poisPmf_neg hk, mul_zero]) ?_
    rw [← hasSum_nat_add_iff' (f := fun n : ℕ => (((n : ℤ) : ℝ)) * poisPmf rate (n : ℤ)) 1]
    refine HasSum.like (hn.mul_left rate) (fun n => ?_) ?_
    · rw [poisPmf_nat, poisPmf_nat, Nat.factorial_succ]
      push_cast
      have : (n.factorial : ℝ) ≠ 0 := by positivity
      field_simp
      ring
    · simp
  · refine hasSum_int_of_nat (fun k hk => by rw [poisPmf_neg hk, mul_zero]) ?_
    rw [← hasSum_nat_add_iff' (f := fun n : ℕ => (((n : ℤ) : ℝ)) * (((n : ℤ) : ℝ) - 1) * poisPmf rate (n : ℤ)) 2]
    refine HasSum.like (hn.mul_left (rate ^ 2)) (fun n => ?_) ?_
    · rw [poisPmf_nat, poisPmf_nat, Nat.factorial_succ, Nat.factorial_succ]
      push_cast
      have : (n.factorial : ℝ) ≠ 0 := by positivity
      field_simp
      ring
    · simp [Finset.sum_range_succ]

theorem hasSum_binom_mul (n : ℕ) (p : ℝ) (g : ℝ → ℝ) :
    HasSum (fun k : ℤ => g k * binomPmf n p k)
      (∑ i ∈ Finset.range (n + 1), g i * (bernsteinPolynomial ℝ n i).eval p) := by
  refine hasSum_int_of_nat (fun k hk => by rw [binomPmf_neg hk, mul_zero]) ?_
  have : ∀ i ∈ Finset.range (n + 1), g i * (bernsteinPolynomial ℝ n i).eval p = g ((i : ℤ) : ℝ) * binomPmf n p (i : ℤ) := by
    intro i hi
    have hi' : i ≤ n := by have := Finset.mem_range.1 hi; omega
    rw [binomPmf, if_pos (by omega)]
    simp [bernsteinPolynomial]
  rw [Finset.sum_congr rfl this]
  refine hasSum_sum_of_ne_finset_zero fun i hi => ?_
  rw [binomPmf_gt (by have := mt Finset.mem_range.2 hi; omega), mul_zero]

theorem massMom_binom (n : ℕ) {p : ℝ} (h0 : 0 ≤ p) (h1 : p ≤ 1) : MassMom (binomPmf n p) (n * p) (n * p * (1 - p)) := by
  refine .of_raw (w := n * (n - 1) * p ^ 2) (binomPmf_nonneg h0 h1) (hasSum_binom n p) ?_ ?_ (by ring)
  · convert hasSum_binom_mul n p (fun x => x) using 1
    have := congrArg (Polynomial.eval p) (bernsteinPolynomial.sum_smul ℝ n)
    simpa [Polynomial.eval_finsetSum] using this.symm
  · convert hasSum_binom_mul n p (fun x => x * (x - 1)) using 1
    have := congrArg (Polynomial.eval p) (bernsteinPolynomial.sum_mul_smul ℝ n)
    have e : ∀ k : ℕ, ((k * (k - 1) : ℕ) : ℝ) = k * (k - 1) := fun k => by
      rcases k with _ | k
      · simp
      · push_cast; simp
    simp only [Polynomial.eval_finsetSum, nsmul_eq_mul, Polynomial.eval_mul,
      Polynomial.eval_natCast, e, Polynomial.eval_pow, Polynomial.eval_X] at this
    exact this.symm

end Stats
