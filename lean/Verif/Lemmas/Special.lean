import Verif.Spec.Special
import Mathlib.Analysis.SpecialFunctions.Gaussian.GaussianIntegral
import Mathlib.Analysis.SpecialFunctions.Gamma.Beta
import Mathlib.Probability.Distributions.Beta

/-! Basic facts about the error function and the regularised incomplete gamma and beta functions. -/

open MeasureTheory Set Filter Topology Real

namespace Stats.Spec

/-! ### error function -/

theorem hasDerivAt_erf (x : ℝ) : HasDerivAt erf (2 / √π * Real.exp (-x ^ 2)) x := by
  have hc : Continuous fun t : ℝ => Real.exp (-t ^ 2) := by fun_prop
  exact (intervalIntegral.integral_hasDerivAt_right (hc.intervalIntegrable _ _)
    (hc.stronglyMeasurableAtFilter _ _) hc.continuousAt).const_mul _

theorem continuous_erf : Continuous erf :=
  continuous_iff_continuousAt.2 fun x => (hasDerivAt_erf x).continuousAt

@[simp] theorem erf_zero : erf 0 = 0 := by simp [erf]

theorem erf_neg (x : ℝ) : erf (-x) = -erf x := by
  rw [erf, erf, ← mul_neg]
  congr 1
  have := intervalIntegral.integral_comp_neg (a := 0) (b := x) fun t : ℝ => Real.exp (-t ^ 2)
  simp only [neg_sq, neg_zero] at this
  rw [this, intervalIntegral.integral_symm]

theorem strictMono_erf : StrictMono erf := by
  apply strictMono_of_deriv_pos
  intro x
  rw [(hasDerivAt_erf x).deriv]
  have := Real.pi_pos
  positivity

theorem tendsto_erf_atTop : Tendsto erf atTop (𝓝 1) := by
  have hi : IntegrableOn (fun t : ℝ => Real.exp (-t ^ 2)) (Ioi 0) := by
    simpa using (integrable_exp_neg_mul_sq (zero_lt_one)).integrableOn (s := Ioi (0 : ℝ))
  have h := intervalIntegral_tendsto_integral_Ioi 0 hi tendsto_id
  have h2 : ∫ t in Ioi (0 : ℝ), Real.exp (-t ^ 2) = √π / 2 := by
    simpa using integral_gaussian_Ioi 1
  rw [h2] at h
  have h3 := h.const_mul (2 / √π)
  have : 2 / √π * (√π / 2) = 1 := by
    have := Real.sqrt_pos.2 Real.pi_pos
    field_simp
  rw [this] at h3
  exact h3

theorem tendsto_erf_atBot : Tendsto erf atBot (𝓝 (-1)) := by
  have := (tendsto_erf_atTop.comp tendsto_neg_atBot_atTop).neg
  refine this.congr fun x => ?_
  simp [erf_neg]

theorem erf_lt_one (x : ℝ) : erf x < 1 := by
  have h1 : erf x < erf (x + 1) := strictMono_erf (by linarith)
  exact h1.trans_le (strictMono_erf.monotone.ge_of_tendsto tendsto_erf_atTop _)

theorem neg_one_lt_erf (x : ℝ) : -1 < erf x := by
  have := erf_lt_one (-x)
  rw [erf_neg] at this
  linarith

theorem exists_erf {y : ℝ} (h1 : -1 < y) (h2 : y < 1) : ∃ x, erf x = y := by
  have hl := (tendsto_erf_atBot.eventually_lt_const h1).exists
  have hu := (tendsto_erf_atTop.eventually_const_lt h2).exists
  obtain ⟨a, ha⟩ := hl
  obtain ⟨b, hb⟩ := hu
  exact mem_range_of_exists_le_of_exists_ge continuous_erf ⟨a, ha.le⟩ ⟨b, hb.le⟩

/-! ### incomplete gamma function -/

section gamma
variable {a : ℝ}

theorem gammaInt_intervalIntegrable (ha : 0 < a) {z w : ℝ} (hz : 0 ≤ z) (hw : 0 ≤ w) :
    IntervalIntegrable (fun t : ℝ => t ^ (a - 1) * Real.exp (-t)) volume z w := by
  have h := Real.GammaIntegral_convergent ha
  have h' : IntegrableOn (fun t : ℝ => t ^ (a - 1) * Real.exp (-t)) (Ioi 0) := by
    simpa [mul_comm] using h
  constructor
  · exact h'.mono_set fun x hx => lt_of_le_of_lt hz hx.1
  · exact h'.mono_set fun x hx => lt_of_le_of_lt hw hx.1

@[simp] theorem gammaP_zero (a : ℝ) : gammaP a 0 = 0 := by simp [gammaP]

theorem hasDerivAt_gammaP (ha : 0 < a) {z : ℝ} (hz : 0 < z) :
    HasDerivAt (gammaP a) (z ^ (a - 1) * Real.exp (-z) / Real.Gamma a) z := by
  apply HasDerivAt.div_const
  apply intervalIntegral.integral_hasDerivAt_right (gammaInt_intervalIntegrable ha le_rfl hz.le)
  · apply ContinuousOn.stronglyMeasurableAtFilter (s := Ioi 0) isOpen_Ioi _ _ hz
    intro t ht
    have ht : (t : ℝ) ≠ 0 := (mem_Ioi.1 ht).ne'
    exact ((Real.continuousAt_rpow_const _ _ (Or.inl ht)).mul
      (by fun_prop)).continuousWithinAt
  · exact (Real.continuousAt_rpow_const _ _ (Or.inl hz.ne')).mul (by fun_prop)

theorem gammaP_sub (ha : 0 < a) {z w : ℝ} (hz : 0 ≤ z) (hw : 0 ≤ w) :
    gammaP a w - gammaP a z = (∫ t in z..w, t ^ (a - 1) * Real.exp (-t)) / Real.Gamma a := by
  rw [gammaP, gammaP, ← sub_div, intervalIntegral.integral_interval_sub_left]
  · exact gammaInt_intervalIntegrable ha le_rfl hw
  · exact gammaInt_intervalIntegrable ha le_rfl hz

theorem strictMonoOn_gammaP (ha : 0 < a) : StrictMonoOn (gammaP a) (Ici 0) := by
  intro z hz w hw hzw
  rw [← sub_pos, gammaP_sub ha hz hw]
  apply div_pos _ (Real.Gamma_pos_of_pos ha)
  apply intervalIntegral.intervalIntegral_pos_of_pos_on (gammaInt_intervalIntegrable ha hz hw) _ hzw
  intro x hx
  have : 0 < x := lt_of_le_of_lt hz hx.1
  positivity

theorem gammaP_nonneg (ha : 0 < a) {z : ℝ} (hz : 0 ≤ z) : 0 ≤ gammaP a z := by
  rw [← gammaP_zero a]
  exact (strictMonoOn_gammaP ha).monotoneOn (by simp) hz hz

theorem tendsto_gammaP (ha : 0 < a) : Tendsto (gammaP a) atTop (𝓝 1) := by
  have hi : IntegrableOn (fun t : ℝ => t ^ (a - 1) * Real.exp (-t)) (Ioi 0) := by
    simpa [mul_comm] using Real.GammaIntegral_convergent ha
  have h := (intervalIntegral_tendsto_integral_Ioi 0 hi tendsto_id).div_const (Real.Gamma a)
  have h2 : ∫ t in Ioi (0 : ℝ), t ^ (a - 1) * Real.exp (-t) = Real.Gamma a := by
    rw [Real.Gamma_eq_integral ha]; simp [mul_comm]
  rw [h2, div_self (Real.Gamma_pos_of_pos ha).ne'] at h
  exact h

theorem gammaP_lt_one (ha : 0 < a) {z : ℝ} (hz : 0 ≤ z) : gammaP a z < 1 := by
  have h1 : gammaP a z < gammaP a (z + 1) :=
    strictMonoOn_gammaP ha hz (by simp only [mem_Ici]; linarith) (by linarith)
  refine h1.trans_le (ge_of_tendsto (tendsto_gammaP ha) ?_)
  filter_upwards [Ici_mem_atTop (z + 1)] with w hw
  have hw : z + 1 ≤ w := hw
  exact (strictMonoOn_gammaP ha).monotoneOn (by simp only [mem_Ici]; linarith)
    (by simp only [mem_Ici]; linarith) hw

theorem continuousOn_gammaP (ha : 0 < a) : ContinuousOn (gammaP a) (Ici 0) := by
  apply ContinuousOn.div_const
  intro z hz
  have hz : 0 ≤ z := hz
  have hi : IntegrableOn (fun t : ℝ => t ^ (a - 1) * Real.exp (-t)) (uIcc 0 (z + 1)) := by
    rw [uIcc_of_le (by linarith), integrableOn_Icc_iff_integrableOn_Ioc]
    exact (gammaInt_intervalIntegrable ha le_rfl (by linarith : (0 : ℝ) ≤ z + 1)).1
  have h := intervalIntegral.continuousOn_primitive_interval hi
  have hm : z ∈ uIcc 0 (z + 1) := by rw [uIcc_of_le (by linarith)]; constructor <;> linarith
  refine (h z hm).mono_of_mem_nhdsWithin ?_
  rw [uIcc_of_le (by linarith)]
  exact mem_nhdsWithin.2 ⟨Iio (z + 1), isOpen_Iio, by simp, fun x hx => ⟨hx.2, le_of_lt hx.1⟩⟩

theorem exists_gammaP (ha : 0 < a) {y : ℝ} (h1 : 0 ≤ y) (h2 : y < 1) : ∃ z, 0 ≤ z ∧ gammaP a z = y := by
  have hu := ((tendsto_gammaP ha).eventually_const_lt h2).and (Ici_mem_atTop (0 : ℝ))
  obtain ⟨b, hb, hb0⟩ := hu.exists
  have hb0 : 0 ≤ b := hb0
  have := intermediate_value_Icc hb0 ((continuousOn_gammaP ha).mono Icc_subset_Ici_self)
  obtain ⟨z, hz, hzy⟩ := this ⟨by simpa using h1, hb.le⟩
  exact ⟨z, hz.1, hzy⟩

end gamma

/-! ### incomplete beta function -/

section beta
variable {a b : ℝ}

theorem beta_pos (ha : 0 < a) (hb : 0 < b) : 0 < beta a b := ProbabilityTheory.beta_pos ha hb

theorem beta_comm (a b : ℝ) : beta a b = beta b a := by
  rw [beta, beta, mul_comm (Real.Gamma a), add_comm a b]

theorem betaInt_intervalIntegrable01 (ha : 0 < a) (hb : 0 < b) :
    IntervalIntegrable (fun t : ℝ => t ^ (a - 1) * (1 - t) ^ (b - 1)) volume 0 1 := by
  have h := Complex.betaIntegral_convergent (u := a) (v := b) (by simpa) (by simpa)
  have h2 : IntervalIntegrable (fun x : ℝ => ((x ^ (a - 1) * (1 - x) ^ (b - 1) : ℝ) : ℂ)) volume 0 1 := by
    rw [intervalIntegrable_iff_integrableOn_Ioc_of_le zero_le_one] at h ⊢
    refine h.congr_fun (fun x hx => ?_) measurableSet_Ioc
    have h0 : 0 ≤ x := hx.1.le
    have h1 : 0 ≤ 1 - x := by linarith [hx.2]
    simp only
    push_cast
    rw [Complex.ofReal_cpow h0, Complex.ofReal_cpow h1]
    push_cast
    rfl
  rw [intervalIntegrable_iff_integrableOn_Ioc_of_le zero_le_one] at h2 ⊢
  rw [IntegrableOn]
  simpa using h2.re

theorem betaInt_eq (ha : 0 < a) (hb : 0 < b) :
    ∫ t in (0 : ℝ)..1, t ^ (a - 1) * (1 - t) ^ (b - 1) = beta a b := by
  have h := ProbabilityTheory.beta_eq_betaIntegralReal a b ha hb
  have e : beta a b = ProbabilityTheory.beta a b := rfl
  rw [e, h, Complex.betaIntegral]
  have : ∫ x in (0 : ℝ)..1, (x : ℂ) ^ ((a : ℂ) - 1) * (1 - (x : ℂ)) ^ ((b : ℂ) - 1) =
      ∫ x in (0 : ℝ)..1, ((x ^ (a - 1) * (1 - x) ^ (b - 1) : ℝ) : ℂ) := by
    apply intervalIntegral.integral_congr
    intro x hx
    rw [uIcc_of_le zero_le_one] at hx
    have h1 : 0 ≤ 1 - x := by linarith [hx.2]
    simp only
    push_cast
    rw [Complex.ofReal_cpow hx.1, Complex.ofReal_cpow h1]
    push_cast
    rfl
  rw [this, intervalIntegral.integral_ofReal, Complex.ofReal_re]

theorem betaInt_intervalIntegrable (ha : 0 < a) (hb : 0 < b) {z w : ℝ} (hz : z ∈ Icc (0 : ℝ) 1)
    (hw : w ∈ Icc (0 : ℝ) 1) :
    IntervalIntegrable (fun t : ℝ => t ^ (a - 1) * (1 - t) ^ (b - 1)) volume z w := by
  refine (betaInt_intervalIntegrable01 ha hb).mono_set ?_
  rw [uIcc_of_le zero_le_one]
  exact uIcc_subset_Icc hz hw

@[simp] theorem betaI_zero (a b : ℝ) : betaI a b 0 = 0 := by simp [betaI]

theorem betaI_one (ha : 0 < a) (hb : 0 < b) : betaI a b 1 = 1 := by
  rw [betaI, betaInt_eq ha hb, div_self (beta_pos ha hb).ne']

theorem hasDerivAt_betaI (ha : 0 < a) (hb : 0 < b) {z : ℝ} (hz : 0 < z) (hz1 : z < 1) :
    HasDerivAt (betaI a b) (z ^ (a - 1) * (1 - z) ^ (b - 1) / beta a b) z := by
  apply HasDerivAt.div_const
  have hc : ∀ t : ℝ, t ∈ Ioo (0 : ℝ) 1 → ContinuousAt (fun t : ℝ => t ^ (a - 1) * (1 - t) ^ (b - 1)) t := by
    intro t ht
    have h0 : t ≠ 0 := ht.1.ne'
    have h1 : 1 - t ≠ 0 := by linarith [ht.2]
    exact (Real.continuousAt_rpow_const _ _ (Or.inl h0)).mul
      (ContinuousAt.rpow_const (by fun_prop) (Or.inl h1))
  apply intervalIntegral.integral_hasDerivAt_right
    (betaInt_intervalIntegrable ha hb ⟨le_rfl, zero_le_one⟩ ⟨hz.le, hz1.le⟩)
  · exact ContinuousOn.stronglyMeasurableAtFilter (s := Ioo 0 1) isOpen_Ioo
      (fun t ht => (hc t ht).continuousWithinAt) _ ⟨hz, hz1⟩
  · exact hc z ⟨hz, hz1⟩

theorem betaI_sub (ha : 0 < a) (hb : 0 < b) {z w : ℝ} (hz : z ∈ Icc (0 : ℝ) 1) (hw : w ∈ Icc (0 : ℝ) 1) :
    betaI a b w - betaI a b z = (∫ t in z..w, t ^ (a - 1) * (1 - t) ^ (b - 1)) / beta a b := by
  rw [betaI, betaI, ← sub_div, intervalIntegral.integral_interval_sub_left]
  · exact betaInt_intervalIntegrable ha hb ⟨le_rfl, zero_le_one⟩ hw
  · exact betaInt_intervalIntegrable ha hb ⟨le_rfl, zero_le_one⟩ hz

theorem strictMonoOn_betaI (ha : 0 < a) (hb : 0 < b) : StrictMonoOn (betaI a b) (Icc 0 1) := by
  intro z hz w hw hzw
  rw [← sub_pos, betaI_sub ha hb hz hw]
  apply div_pos _ (beta_pos ha hb)
  apply intervalIntegral.intervalIntegral_pos_of_pos_on (betaInt_intervalIntegrable ha hb hz hw) _ hzw
  intro x hx
  have h0 : 0 < x := lt_of_le_of_lt hz.1 hx.1
  have h1 : 0 < 1 - x := by linarith [hx.2, hw.2]
  positivity

theorem betaI_mem (ha : 0 < a) (hb : 0 < b) {z : ℝ} (hz : z ∈ Icc (0 : ℝ) 1) :
    betaI a b z ∈ Icc (0 : ℝ) 1 := by
  have hm := (strictMonoOn_betaI ha hb).monotoneOn
  constructor
  · simpa using hm (left_mem_Icc.2 zero_le_one) hz hz.1
  · simpa [betaI_one ha hb] using hm hz (right_mem_Icc.2 zero_le_one) hz.2

theorem continuousOn_betaI (ha : 0 < a) (hb : 0 < b) : ContinuousOn (betaI a b) (Icc 0 1) := by
  apply ContinuousOn.div_const
  have hi : IntegrableOn (fun t : ℝ => t ^ (a - 1) * (1 - t) ^ (b - 1)) (uIcc 0 1) := by
    rw [uIcc_of_le zero_le_one, integrableOn_Icc_iff_integrableOn_Ioc]
    exact (betaInt_intervalIntegrable01 ha hb).1
  have h := intervalIntegral.continuousOn_primitive_interval hi
  rwa [uIcc_of_le zero_le_one] at h

theorem exists_betaI (ha : 0 < a) (hb : 0 < b) {y : ℝ} (hy : y ∈ Icc (0 : ℝ) 1) :
    ∃ z ∈ Icc (0 : ℝ) 1, betaI a b z = y := by
  have := intermediate_value_Icc zero_le_one (continuousOn_betaI ha hb)
  rw [betaI_zero, betaI_one ha hb] at this
  exact this hy

theorem betaI_symm (ha : 0 < a) (hb : 0 < b) {z : ℝ} (hz : z ∈ Icc (0 : ℝ) 1) :
    betaI a b z = 1 - betaI b a (1 - z) := by
  have h := betaI_sub hb ha (z := 1 - z) (w := 1) ⟨by linarith [hz.2], by linarith [hz.1]⟩
    ⟨zero_le_one, le_rfl⟩
  rw [betaI_one hb ha] at h
  rw [h, betaI, beta_comm]
  congr 1
  have := intervalIntegral.integral_comp_sub_left (a := 0) (b := z)
    (fun t : ℝ => t ^ (b - 1) * (1 - t) ^ (a - 1)) 1
  simp only [sub_zero] at this
  rw [← this]
  apply intervalIntegral.integral_congr
  intro x _
  simp only [sub_sub_cancel]
  ring

end beta

end Stats.Spec
