import Verif.Lemmas.DerivedLaw
import Verif.Props.C31
import Verif.Props.C42

/-!
# C32: laws of the generators built on normal and gamma variates

Exact arithmetic, an ideal engine (`FairEngine`), and `nextafter(0,1)` idealised to 0 (as in C29, C31).
-/

set_option linter.unusedSectionVars false
open Classical
open MeasureTheory Set
open scoped ENNReal

namespace Stats
open Fl Spec
variable [Lib] [Ideal] {S : Type*} [MeasurableSpace S] [Engine S] {P : Measure S}

theorem rnorm_draw (hP : FairEngine P) (mu : ℝ) {sigma : ℝ} (h : 0 < sigma) :
    ∃ X N, Draw P X N (densLaw (normPdf mu sigma)) ∧
      ∀ᵐ s ∂P, rnorm (fin mu) (fin sigma) s = (fin (X s), N s) := by
  have := hP.prob
  obtain ⟨Z, N, hZ, e⟩ := fair_norm hP
  refine ⟨_, N, norm_affine mu h ▸ hZ.map (f := fun z => mu + sigma * z) (by fun_prop), ?_⟩
  filter_upwards [e] with s hs
  exact rnorm_fin mu h.le hs

theorem C32_rnorm (hP : FairEngine P) (mu : ℝ) {sigma : ℝ} (h : 0 < sigma) :
    HasLaw P (fun s => some (rnorm (fin mu) (fin sigma) s)) (densLaw (normPdf mu sigma)) := by
  obtain ⟨X, N, hX, e⟩ := rnorm_draw hP mu h
  exact hasLaw_iff.2 ⟨X, N, hX, e.mono fun s hs => by rw [hs]⟩

/-- `sigma = 0` passes the checks; the result is then the mean. -/
theorem C32_rnorm_zero (hP : FairEngine P) (mu : ℝ) :
    HasLaw P (fun s => some (rnorm (fin mu) (fin 0) s)) (Measure.dirac mu) := by
  have := hP.prob
  obtain ⟨Z, N, hZ, e⟩ := fair_norm hP
  have := hZ.map (f := fun _ => mu) measurable_const
  rw [Measure.map_const, measure_univ, one_smul] at this
  refine hasLaw_iff.2 ⟨_, N, this, e.mono fun s hs => ?_⟩
  rw [rnorm_fin mu le_rfl hs, zero_mul, add_zero]

theorem C32_rlnorm (hP : FairEngine P) (mu : ℝ) {sigma : ℝ} (h : 0 < sigma) :
    HasLaw P (fun s => some (rlnorm (fin mu) (fin sigma) s)) (densLaw (lnormPdf mu sigma)) := by
  have := hP.prob
  obtain ⟨X, N, hX, e⟩ := rnorm_draw hP mu h
  refine hasLaw_iff.2 ⟨_, N, lnorm_exp mu h ▸ hX.map Real.measurable_exp, e.mono fun s hs => ?_⟩
  rw [rlnorm, if_neg (by simp [lnorm_ok, h.le]), hs]
  simp only [ideal]

theorem rchisq_draw (hP : FairEngine P) (hn : Lib.next 0 1 = 0) {k : ℝ} (hk : 0 < k) :
    ∃ X N, Draw P X N (densLaw (chisqPdf k)) ∧ ∀ᵐ s ∂P, rchisq (fin k) s = some (fin (X s), N s) := by
  obtain ⟨X, N, hX, e⟩ := rgamma_draw hP hn (half_pos hk) (eps_le_two)
  rw [← chisqPdf_fun] at hX
  refine ⟨X, N, hX, e.mono fun s hs => ?_⟩
  rw [rchisq, if_neg (by simp [chisq_ok, hk.le]), ← hs]
  simp only [ideal, ifin_div _ (two_ne_zero (α := ℝ))]

theorem C32_rchisq (hP : FairEngine P) (hn : Lib.next 0 1 = 0) {k : ℝ} (hk : 0 < k) :
    HasLaw P (rchisq (fin k)) (densLaw (chisqPdf k)) :=
  hasLaw_iff.2 (rchisq_draw hP hn hk)

/-- Rates above `1/eps` make the generator reject its own scale `1/rate` (see `C28_rinvgamma_violated`). -/
theorem C32_rinvgamma_partial (hP : FairEngine P) (hn : Lib.next 0 1 = 0) {α β : ℝ} (ha : 0 < α) (hb0 : 0 < β)
    (hb1 : Lib.eps ≤ 1 / β) : HasLaw P (rinvgamma (fin α) (fin β)) (densLaw (invgammaPdf α β)) := by
  have := hP.prob
  obtain ⟨X, N, hX, e⟩ := rgamma_draw hP hn ha hb1
  have hpos := hX.ae_val (densLaw_ae (measurable_gammaPdf α (1 / β)) (p := fun x => 0 < x)
    fun x hx => by rw [gammaPdf, if_neg hx])
  refine hasLaw_iff.2 ⟨_, N, invgamma_inv ha hb0 ▸ hX.map (f := fun x => 1 / x) (by fun_prop), ?_⟩
  filter_upwards [e, hpos] with s hs hp
  rw [rinvgamma, if_neg (by simp [invgamma_ok, ha.le, hb0.le])]
  simp only [ideal, ifin_div _ hb0.ne', hs, Option.map_some, ifin_div _ hp.ne']

/-- For a rate above `1/eps` no law at all: the draws are NaN. -/
theorem C32_rinvgamma_violated (hP : FairEngine P) {α β : ℝ} (ha : 0 < α) (hb0 : 0 < β) (hb1 : 1 / β < Lib.eps)
    (D : Measure ℝ) : ¬ HasLaw P (rinvgamma (fin α) (fin β)) D := by
  have := hP.prob
  rintro ⟨X, N, -, -, e, -⟩
  obtain ⟨s, hs⟩ := e.exists
  have hg : rgamma (fin α) (fin (1 / β)) s = some (nan, s) :=
    runFuel_eq (rgamma_rec_mono _ _ s) (n := 1) (by
      rw [rgamma_rec, if_pos]
      simp only [gamma_ok, eps, fin_lt_fin, gt_iff_lt, hb1, not_true_eq_false, and_false, not_false_eq_true])
  rw [rinvgamma, if_neg (by simp [invgamma_ok, ha.le, hb0.le])] at hs
  simp only [ideal, ifin_div _ hb0.ne', hg, Option.map_some, Option.some.injEq, Prod.mk.injEq] at hs
  simp at hs

theorem C32_rbeta (hP : FairEngine P) (hn : Lib.next 0 1 = 0) {a b : ℝ} (ha : 0 < a) (hb : 0 < b) :
    HasLaw P (rbeta (fin a) (fin b)) (densLaw (betaPdf a b)) := by
  have := hP.prob
  have pa : ∀ {c : ℝ}, 0 < c → IsProbabilityMeasure (densLaw (gammaPdf c 1)) := fun hc => (isCdf_gamma hc one_pos).isProb
  have p1 := pa ha
  have p2 := pa hb
  obtain ⟨X, N, hX, eX⟩ := rgamma_draw hP hn ha eps_le_one
  obtain ⟨Y, M, hY, eY⟩ := rgamma_draw hP hn hb eps_le_one
  have pos : ∀ {c : ℝ}, ∀ᵐ x ∂densLaw (gammaPdf c 1), 0 < x := fun {c} =>
    densLaw_ae (measurable_gammaPdf c 1) (p := fun x => 0 < x) fun x hx => by rw [gammaPdf, if_neg hx]
  refine hasLaw_iff.2 ⟨_, _, beta_ratio ha hb ▸ (hX.comp hY).map (f := fun p => p.1 / (p.1 + p.2)) (by fun_prop), ?_⟩
  filter_upwards [eX, hX.ae eY, hX.ae_val pos, hX.ae (hY.ae_val pos)] with s h1 h2 h3 h4
  rw [rbeta, if_neg (by simp [beta_ok, ha.le, hb.le])]
  simp only [ideal, h1, Option.bind_some, h2, Option.map_some, ifin_div _ (add_pos h3 h4).ne']

theorem C32_rf (hP : FairEngine P) (hn : Lib.next 0 1 = 0) {d₁ d₂ : ℝ} (h1 : Lib.eps ≤ d₁) (h2 : Lib.eps ≤ d₂) :
    HasLaw P (rf (fin d₁) (fin d₂)) (densLaw (fPdf d₁ d₂)) := by
  have := hP.prob
  have p1 : 0 < d₁ := Lib.eps_pos.trans_le h1
  have p2 : 0 < d₂ := Lib.eps_pos.trans_le h2
  have q1 := (isCdf_chisq p1).isProb
  have q2 := (isCdf_chisq p2).isProb
  obtain ⟨X, N, hX, eX⟩ := rchisq_draw hP hn p1
  obtain ⟨Y, M, hY, eY⟩ := rchisq_draw hP hn p2
  have pos : ∀ᵐ x ∂densLaw (chisqPdf d₂), 0 < x := by
    rw [chisqPdf_fun]
    exact densLaw_ae (measurable_gammaPdf _ 2) (p := fun x => 0 < x) fun x hx => by rw [gammaPdf, if_neg hx]
  refine hasLaw_iff.2 ⟨_, _, f_ratio p1 p2 ▸ (hX.comp hY).map (f := fun p => d₂ / d₁ * p.1 / p.2) (by fun_prop), ?_⟩
  filter_upwards [eX, hX.ae eY, hX.ae (hY.ae_val pos)] with s g1 g2 g4
  rw [rf, if_neg (by simp [f_ok, h1, h2, eps])]
  simp only [ideal, g1, Option.bind_some, g2, Option.map_some, ifin_div _ p1.ne', ifin_div _ g4.ne']

theorem C32_rt (hP : FairEngine P) (hn : Lib.next 0 1 = 0) {ν : ℝ} (h : Lib.eps ≤ ν) :
    HasLaw P (rt (fin ν)) (densLaw (tPdf ν)) := by
  have := hP.prob
  have p : 0 < ν := Lib.eps_pos.trans_le h
  have q := (isCdf_chisq p).isProb
  obtain ⟨X, N, hX, eX⟩ := rnorm_draw hP 0 one_pos
  obtain ⟨Y, M, hY, eY⟩ := rchisq_draw hP hn p
  have pos : ∀ᵐ x ∂densLaw (chisqPdf ν), 0 < x := by
    rw [chisqPdf_fun]
    exact densLaw_ae (measurable_gammaPdf _ 2) (p := fun x => 0 < x) fun x hx => by rw [gammaPdf, if_neg hx]
  refine hasLaw_iff.2 ⟨_, _, t_ratio p ▸ (hX.comp hY).map (f := fun p => p.1 / √(p.2 / ν)) (by fun_prop), ?_⟩
  filter_upwards [eX, hX.ae eY, hX.ae (hY.ae_val pos)] with s g1 g2 g4
  have g5 : 0 < Y (N s) / ν := by positivity
  rw [rt, if_neg (by simp [t_ok, h, eps])]
  simp only [ideal, g1, g2, Option.map_some, ifin_div _ p.ne', isqrt g5.le, ifin_div _ (Real.sqrt_pos.2 g5).ne']

end Stats

namespace Stats.ExamplesC32
open Fl Spec
open scoped Stats.Fair

example : HasLaw Tape.tapeLaw (fun s => some (rnorm (fin 3) (fin 2) s)) (densLaw (normPdf 3 2)) :=
  C32_rnorm Tape.fair 3 (by norm_num)

example : HasLaw Tape.tapeLaw (rinvgamma (fin (1 / 2)) (fin 3)) (densLaw (invgammaPdf (1 / 2) 3)) :=
  C32_rinvgamma_partial Tape.fair Fair.next (by norm_num) (by norm_num) (Fair.eps_le (by norm_num))

example : HasLaw Tape.tapeLaw (rbeta (fin (1 / 2)) (fin 3)) (densLaw (betaPdf (1 / 2) 3)) :=
  C32_rbeta Tape.fair Fair.next (by norm_num) (by norm_num)

example : HasLaw Tape.tapeLaw (rf (fin 3) (fin 5)) (densLaw (fPdf 3 5)) :=
  C32_rf Tape.fair Fair.next (Fair.eps_le (by norm_num)) (Fair.eps_le (by norm_num))

example : HasLaw Tape.tapeLaw (rt (fin 3)) (densLaw (tPdf 3)) :=
  C32_rt Tape.fair Fair.next (Fair.eps_le (by norm_num))

end Stats.ExamplesC32
