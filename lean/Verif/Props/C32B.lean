import Verif.Props.C28B
import Verif.Props.C33

/-!
# C32 in binary64: inverse gamma and t draws with a small shape

With an ideal engine `rinvgamma(2^-11, 1)` and `rt(2^-10)` are infinite or NaN with positive probability, so they do not have the inverse gamma
or the t law, nor any other law on the real numbers.
-/

set_option linter.unusedSectionVars false
open Classical MeasureTheory
namespace Stats
open Fl Spec

namespace C32Double
open Double DoubleArith C28Double
set_option warn.classDefReducibility false in
attribute [local instance] doubleLib

variable {S : Type*} [MeasurableSpace S] [Engine S] {P : Measure S}

/-- the uniform variate and its law -/
theorem unif_draw (hP : FairEngine P) :
    ∃ U M, Draw P U M (densLaw (unifPdf (Lib.next 0 1) 1)) ∧ ∀ᵐ s ∂P, runif 0 1 s = (fin (U s), M s) := by
  obtain ⟨h1, h2⟩ := next_small
  obtain ⟨U, M, d, e⟩ := hasLaw_iff.1 (hP.unif (Lib.next 0 1) 1 (by linarith))
  refine ⟨U, M, d, e.mono fun s hs => ?_⟩
  rw [runif, if_neg (by simp [unif_ok, zero_eq, one_eq])]
  simp only [zero_eq, one_eq]
  exact Option.some.inj hs

theorem unif_low (hP : FairEngine P) {U : S → ℝ} {M : S → S} (d : Draw P U M (densLaw (unifPdf (Lib.next 0 1) 1))) :
    ¬ ∀ᵐ s ∂P, ¬ U s ≤ 5 / 8 := by
  have := hP.prob
  obtain ⟨h1, h2⟩ := next_small
  intro h
  have hs : SFinite (densLaw (unifPdf (Lib.next 0 1) 1)) := by unfold densLaw; infer_instance
  have h3 : P.map U (Set.Icc (1 / 8) (5 / 8)) = 0 := by
    rw [Measure.map_apply d.mX measurableSet_Icc]
    exact measure_eq_zero_iff_ae_notMem.2 (h.mono fun s hs hm => hs hm.2)
  have hm : Measurable (unifPdf (Lib.next 0 1) 1) := by
    unfold unifPdf
    exact Measurable.ite measurableSet_Icc measurable_const measurable_const
  rw [d.fst, densLaw, withDensity_apply_eq_zero' hm.ennreal_ofReal.aemeasurable] at h3
  have h4 : {x | ENNReal.ofReal (unifPdf (Lib.next 0 1) 1 x) ≠ 0} ∩ Set.Icc (1 / 8) (5 / 8) = Set.Icc (1 / 8 : ℝ) (5 / 8) := by
    refine Set.inter_eq_right.2 fun x hx => ?_
    have : 0 < unifPdf (Lib.next 0 1) 1 x := by
      rw [unifPdf, if_pos ⟨by linarith [hx.1], by linarith [hx.2]⟩]
      have : 0 < 1 - Lib.next 0 1 := by linarith
      positivity
    simpa using this
  rw [h4, Real.volume_Icc] at h3
  norm_num at h3

/-- C32 fails in binary64 for `rinvgamma(2^-11, 1)`. -/
theorem C32_rinvgamma_double_violated (hP : FairEngine P) (D : Measure ℝ) : ¬ HasLaw P (rinvgamma (fin (1 / 2 ^ 11)) 1) D := by
  rintro ⟨X, N, -, -, e, -⟩
  obtain ⟨U, M, d, eu⟩ := unif_draw hP
  refine unif_low hP d ?_
  filter_upwards [e, eu] with s hs hu h
  exact C28_rinvgamma_double_violated hs (u := U s) (by rw [hu]) h (X s) rfl

/-- C32 fails in binary64 for `rt(2^-10)`. -/
theorem C32_rt_double_violated (hP : FairEngine P) (D : Measure ℝ) : ¬ HasLaw P (rt (fin (1 / 2 ^ 10))) D := by
  rintro ⟨X, N, -, -, e, -⟩
  have := hP.prob
  obtain ⟨U, M, d, eu⟩ := unif_draw hP
  obtain ⟨Z, K, dz, ez⟩ := hasLaw_iff.1 hP.norm
  refine unif_low hP d ?_
  have h1 : ∀ᵐ s ∂P, ¬ U (K s) ≤ 5 / 8 := by
    filter_upwards [e, dz.ae eu, ez] with s hs hu hz h
    have hk : (rnorm 0 1 s).2 = K s := by
      simp only [rnorm]
      rw [if_neg (by simp [norm_ok, zero_eq, one_eq])]
      exact congrArg Prod.snd (Option.some.inj hz)
    exact C28_rt_double_violated hs (u := U (K s)) (by rw [hk, hu]) h (X s) rfl
  have h2 : ∀ᵐ s ∂(P.map K), ¬ U s ≤ 5 / 8 := by
    rw [ae_map_iff dz.mN.aemeasurable]
    · exact h1
    · exact (measurableSet_le d.mX measurable_const).compl
  rwa [dz.next] at h2

example : ¬ HasLaw Tape.tapeLaw (rt (fin (1 / 2 ^ 10))) (densLaw (tPdf (1 / 2 ^ 10))) := C32_rt_double_violated Tape.fair _
example : ¬ HasLaw Tape.tapeLaw (rinvgamma (fin (1 / 2 ^ 11)) 1) (densLaw (invgammaPdf (1 / 2 ^ 11) 1)) := C32_rinvgamma_double_violated Tape.fair _

end C32Double
end Stats
