import Verif.Lemmas.InvGaussLaw
import Verif.Props.C32
import Verif.Props.C28

/-!
# C33: the inverse Gaussian generator

rand/rinvgauss.ipp: the transformation with multiple roots of Michael, Schucany and Haas.
-/

set_option linter.unusedSectionVars false
open Classical
open MeasureTheory Set
open scoped ENNReal

namespace Stats
open Fl Spec

section
variable [Lib] [Ideal] {S : Type*} [Engine S]

/-- the generator in exact arithmetic -/
theorem rinvgauss_fin {mu lambda : ℝ} (hm : 0 < mu) (hl : 0 < lambda) {s s1 s2 : S} {z u : ℝ}
    (hz : Engine.norm s = (z, s1)) (hu : runif (fin 0) (fin 1) s1 = (fin u, s2)) :
    rinvgauss (fin mu) (fin lambda) s =
      (fin (if u ≤ mu / (mu + igRoot mu lambda (z * z)) then igRoot mu lambda (z * z)
        else mu * mu / igRoot mu lambda (z * z)), s2) := by
  have hp := igRoot_pos hm hl (mul_self_nonneg z)
  have h2 : 2 * lambda ≠ 0 := by linarith
  have h3 : 0 ≤ 4 * mu * lambda * (z * z) + mu * mu * (z * z) * (z * z) := by
    have := mul_self_nonneg z; positivity
  rw [rinvgauss]
  simp only [zero_eq, one_eq, ofNat_eq, rnorm01 hz, hu, ideal, isqrt h3, ifin_div _ h2]
  have er : mu + (mu * mu * (z * z) - mu * √(4 * mu * lambda * (z * z) + mu * mu * (z * z) * (z * z))) / (2 * lambda) =
    igRoot mu lambda (z * z) := rfl
  simp only [er, ifin_div _ hp.ne', ifin_div _ (add_pos hm hp).ne', fin_le_fin]
  split_ifs <;> rfl

/-- Whatever the draws, the result is a positive solution `x` of `lambda (x - mu)^2 = mu^2 x y`, where `y` is the square
of the normal variate. -/
theorem C33_root [NextLib] {mu lambda : ℝ} (hm : 0 < mu) (hl : 0 < lambda) (s : S) :
    ∃ x : ℝ, (rinvgauss (fin mu) (fin lambda) s).1 = fin x ∧ 0 < x ∧
      lambda * (x - mu) ^ 2 = mu ^ 2 * x * ((Engine.norm s).1 ^ 2) := by
  obtain ⟨u, s2, hu, h0, h1⟩ := runif_cases (Engine.norm s).2
  have hz : Engine.norm s = ((Engine.norm s).1, (Engine.norm s).2) := rfl
  set z := (Engine.norm s).1 with hzd
  have hp := igRoot_pos hm hl (mul_self_nonneg z)
  have he := igRoot_eq hm hl (mul_self_nonneg z)
  rw [rinvgauss_fin hm hl hz hu]
  refine ⟨_, rfl, ?_⟩
  split_ifs
  · exact ⟨hp, by rw [he, pow_two z]⟩
  · refine ⟨by positivity, ?_⟩
    generalize igRoot mu lambda (z * z) = x at hp he
    field_simp
    linear_combination he
end

variable [Lib] [Ideal] {S : Type*} [MeasurableSpace S] [Engine S] {P : Measure S}

/-- C33: the law is the inverse Gaussian law. -/
theorem C33_rinvgauss (hP : FairEngine P) (hn : Lib.next 0 1 = 0) {mu lambda : ℝ} (hm : 0 < mu) (hl : 0 < lambda) :
    HasLaw P (fun s => some (rinvgauss (fin mu) (fin lambda) s)) (densLaw (invgaussPdf mu lambda)) := by
  have := hP.prob
  obtain ⟨Z, N, hZ, eZ⟩ := fair_norm hP
  obtain ⟨U, M, hU, eU⟩ := fair_runif hP hn
  have h1 := hZ.map (f := fun z => igRoot mu lambda (z * z)) ((measurable_igRoot hm hl).comp (by fun_prop))
  rw [ig_small hm hl] at h1
  have hH : Measurable fun p : ℝ × ℝ => if p.2 ≤ mu / (mu + p.1) then p.1 else mu * mu / p.1 :=
    Measurable.ite (measurableSet_le measurable_snd (by fun_prop)) measurable_fst (by fun_prop)
  refine hasLaw_iff.2 ⟨_, _, ig_choose hm hl ▸ (h1.comp hU).map hH, ?_⟩
  filter_upwards [eZ, hZ.ae eU] with s hz hu
  rw [rinvgauss_fin hm hl hz hu.1]

end Stats

namespace Stats.ExamplesC33
open Fl Spec
open scoped Stats.Fair

example : HasLaw Tape.tapeLaw (fun s => some (rinvgauss (fin 2) (fin 3) s)) (densLaw (invgaussPdf 2 3)) :=
  C33_rinvgauss Tape.fair Fair.next (by norm_num) (by norm_num)

end Stats.ExamplesC33
