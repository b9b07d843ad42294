import Mathlib.Probability.Moments.ComplexMGF
import Mathlib.MeasureTheory.Measure.CharacteristicFunction.Basic

/-! Laws that are determined by exponential moments near 0, and by their linear images. -/

open MeasureTheory Set ProbabilityTheory

namespace Stats

/-- Equal finite exponential moments near 0 make equal laws. -/
theorem law_of_mgf {μ ν : Measure ℝ} [IsProbabilityMeasure μ] [IsProbabilityMeasure ν] {r : ℝ} (hr : 0 < r)
    (h : ∀ t, |t| < r → Integrable (fun x => Real.exp (t * x)) μ ∧ Integrable (fun x => Real.exp (t * x)) ν ∧
      ∫ x, Real.exp (t * x) ∂μ = ∫ x, Real.exp (t * x) ∂ν) : μ = ν := by
  have sub : ∀ {κ : Measure ℝ}, (∀ t, |t| < r → Integrable (fun x => Real.exp (t * x)) κ) →
      Ioo (-r) r ⊆ interior (integrableExpSet id κ) := fun hk =>
    interior_maximal (fun t ht => hk t (abs_lt.2 ht)) isOpen_Ioo
  have hμ := sub fun t ht => (h t ht).1
  have hν := sub fun t ht => (h t ht).2.1
  have hX : AnalyticOnNhd ℂ (complexMGF id μ) {z | z.re ∈ Ioo (-r) r} :=
    analyticOnNhd_complexMGF.mono fun z hz => hμ hz
  have hY : AnalyticOnNhd ℂ (complexMGF id ν) {z | z.re ∈ Ioo (-r) r} :=
    analyticOnNhd_complexMGF.mono fun z hz => hν hz
  have he := AnalyticOnNhd.eqOn_of_preconnected_of_frequently_eq hX hY
    ((convex_Ioo (-r) r).linear_preimage Complex.reLm).isPreconnected (z₀ := 0) (by simp [hr]) ?_
  · refine Measure.ext_of_charFun (funext fun t => ?_)
    have := he (show (t * Complex.I : ℂ) ∈ {z : ℂ | z.re ∈ Ioo (-r) r} by simp [hr])
    rwa [complexMGF_id_mul_I, complexMGF_id_mul_I] at this
  · have hs : ∃ᶠ x : ℝ in nhdsWithin 0 {0}ᶜ, complexMGF id μ x = complexMGF id ν x := by
      refine Filter.Eventually.frequently ?_
      have : Ioo (-r) r ∈ nhds (0 : ℝ) := Ioo_mem_nhds (by linarith) hr
      filter_upwards [mem_nhdsWithin_of_mem_nhds this] with t ht
      rw [complexMGF_ofReal, complexMGF_ofReal]
      exact congrArg _ (h t (abs_lt.2 ht)).2.2
    rw [Filter.frequently_iff_seq_forall] at hs ⊢
    obtain ⟨xs, h1, h2⟩ := hs
    refine ⟨fun n => xs n, ?_, h2⟩
    rw [tendsto_nhdsWithin_iff] at h1 ⊢
    refine ⟨?_, by simpa using h1.2⟩
    have := (Complex.continuous_ofReal.tendsto (0 : ℝ)).comp h1.1
    rwa [Complex.ofReal_zero] at this

/-- Laws of vectors are determined by the laws of the linear combinations of the components. -/
theorem lawV_of_linear {ι : Type*} [Fintype ι] {μ ν : Measure (ι → ℝ)} [IsProbabilityMeasure μ] [IsProbabilityMeasure ν]
    (h : ∀ c : ι → ℝ, μ.map (fun x => ∑ i, c i * x i) = ν.map fun x => ∑ i, c i * x i) : μ = ν := by
  classical
  refine Measure.ext_of_charFunDual (funext fun L => ?_)
  have e : (L : (ι → ℝ) → ℝ) = fun x => ∑ i, L (Pi.single i 1) * x i := by
    funext x
    conv_lhs => rw [← Finset.univ_sum_single x, map_sum]
    refine Finset.sum_congr rfl fun i _ => ?_
    have : Pi.single i (x i) = x i • (Pi.single i 1 : ι → ℝ) := by rw [← Pi.single_smul, smul_eq_mul, mul_one]
    rw [this, map_smul, smul_eq_mul, mul_comm]
  rw [charFunDual_eq_charFun_map_one, charFunDual_eq_charFun_map_one, e, h]

end Stats
