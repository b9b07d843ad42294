import Mathlib.MeasureTheory.Integral.DivergenceTheorem
import Mathlib.MeasureTheory.Integral.IntegralEqImproper

/-! A function with a given derivative (up to finitely many points) and limits 0 and 1 is the running
integral of its derivative. -/

open MeasureTheory Set Filter Topology

namespace Stats

theorem intervalIntegrable_of_deriv {F f : ℝ → ℝ} (hF : Continuous F) (s : Finset ℝ) :
    ∀ a b : ℝ, a ≤ b → (∀ x ∈ Ioo a b, x ∉ s → HasDerivAt F (f x) x) →
      (∀ x, x ∉ s → 0 ≤ f x) → IntervalIntegrable f volume a b := by
  -- the points of `t ⊆ s` still to be removed
  suffices h : ∀ t : Finset ℝ, ∀ a b : ℝ, a ≤ b →
      (∀ x ∈ Ioo a b, x ∉ t → HasDerivAt F (f x) x ∧ 0 ≤ f x) → IntervalIntegrable f volume a b from
    fun a b hab h1 h2 => h s a b hab fun x hx hxs => ⟨h1 x hx hxs, h2 x hxs⟩
  intro t
  induction t using Finset.induction_on with
  | empty =>
    intro a b hab h
    rw [intervalIntegrable_iff_integrableOn_Ioc_of_le hab]
    exact intervalIntegral.integrableOn_deriv_of_nonneg hF.continuousOn
      (fun x hx => (h x hx (by simp)).1) (fun x hx => (h x hx (by simp)).2)
  | insert c t _ ih =>
    intro a b hab h
    by_cases hc : c ∈ Ioo a b
    · refine (ih a c hc.1.le fun x hx hxt => ?_).trans (ih c b hc.2.le fun x hx hxt => ?_)
      · exact h x ⟨hx.1, hx.2.trans hc.2⟩ (by simp [hx.2.ne, hxt])
      · exact h x ⟨hc.1.trans hx.1, hx.2⟩ (by simp [hx.1.ne', hxt])
    · refine ih a b hab fun x hx hxt => h x hx ?_
      rintro hxc
      rcases Finset.mem_insert.1 hxc with rfl | h'
      · exact hc hx
      · exact hxt h'

/-- The main lemma: `F` is a distribution function with density `f`. -/
theorem cdf_of_deriv {F f : ℝ → ℝ} (hF : Continuous F) (s : Finset ℝ)
    (hd : ∀ x, x ∉ s → HasDerivAt F (f x) x) (hf : ∀ x, x ∉ s → 0 ≤ f x)
    (hbot : Tendsto F atBot (𝓝 0)) (htop : Tendsto F atTop (𝓝 1)) :
    Integrable f ∧ (∫ x, f x = 1) ∧ ∀ x, ∫ t in Iic x, f t = F x := by
  have hii : ∀ a b, a ≤ b → IntervalIntegrable f volume a b := fun a b hab =>
    intervalIntegrable_of_deriv hF s a b hab (fun x _ h => hd x h) hf
  have hftc : ∀ a b, a ≤ b → ∫ x in a..b, f x = F b - F a := fun a b hab =>
    integral_eq_of_hasDerivAt_off_countable_of_le F f hab s.countable_toSet hF.continuousOn
      (fun x hx => hd x hx.2) (hii a b hab)
  have hae : ∀ᵐ x, 0 ≤ f x := by
    have : ∀ᵐ x : ℝ, x ∉ (s : Set ℝ) := (s.countable_toSet.ae_notMem volume)
    filter_upwards [this] with x hx using hf x hx
  have hnorm : ∀ a b, a ≤ b → ∫ x in a..b, ‖f x‖ = F b - F a := by
    intro a b hab
    rw [← hftc a b hab]
    apply intervalIntegral.integral_congr_ae
    filter_upwards [hae] with x hx _ using by rw [Real.norm_of_nonneg hx]
  have hint : Integrable f := by
    refine integrable_of_intervalIntegral_norm_tendsto (ι := ℕ) (l := atTop) (a := fun n => -(n : ℝ))
      (b := fun n => (n : ℝ)) 1 (fun n => ?_) ?_ ?_ ?_
    · exact (intervalIntegrable_iff_integrableOn_Ioc_of_le (by
        have : (0 : ℝ) ≤ n := n.cast_nonneg
        linarith)).1 (hii _ _ (by have : (0 : ℝ) ≤ n := n.cast_nonneg; linarith))
    · exact tendsto_neg_atTop_atBot.comp tendsto_natCast_atTop_atTop
    · exact tendsto_natCast_atTop_atTop
    · have : (fun n : ℕ => ∫ x in -(n : ℝ)..(n : ℝ), ‖f x‖) = fun n : ℕ => F n - F (-n) := by
        funext n
        exact hnorm _ _ (by have : (0 : ℝ) ≤ n := n.cast_nonneg; linarith)
      rw [this]
      have h1 := htop.comp (tendsto_natCast_atTop_atTop (R := ℝ))
      have h2 := hbot.comp (tendsto_neg_atTop_atBot.comp (tendsto_natCast_atTop_atTop (R := ℝ)))
      simpa using h1.sub h2
  have hIic : ∀ x, ∫ t in Iic x, f t = F x := by
    intro x
    have h1 := intervalIntegral_tendsto_integral_Iic x hint.integrableOn tendsto_id
    have h2 : Tendsto (fun a => ∫ t in a..x, f t) atBot (𝓝 (F x - 0)) := by
      refine Tendsto.congr' ?_ (tendsto_const_nhds.sub hbot)
      filter_upwards [Iic_mem_atBot x] with a ha using (hftc a x ha).symm
    simpa using tendsto_nhds_unique h1 h2
  refine ⟨hint, ?_, hIic⟩
  have h1 := intervalIntegral_tendsto_integral hint tendsto_neg_atTop_atBot tendsto_id
  have h2 : Tendsto (fun a => ∫ t in (-a)..a, f t) atTop (𝓝 (1 - 0)) := by
    refine Tendsto.congr' ?_ (htop.sub (hbot.comp tendsto_neg_atTop_atBot))
    filter_upwards [Ici_mem_atTop 0] with a ha
    exact (hftc (-a) a (by have : (0 : ℝ) ≤ a := ha; linarith)).symm
  simpa using tendsto_nhds_unique h1 h2

end Stats
