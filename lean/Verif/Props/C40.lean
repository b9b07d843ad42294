import Verif.Spec.Symm
import Verif.Props.C42
import Verif.Props.C08
import Verif.Lemmas.ExactInst
import Verif.Lemmas.Meets

/-!
# C40: symmetry and location-scale equivariance

Exact arithmetic, every location and every positive scale, every argument; densities in both forms. The
Student-t quantile is antisymmetric at 1, 2 and infinitely many degrees of freedom and not elsewhere
(`C42_qt_symm_violated`, restated here).
-/

set_option linter.unusedSectionVars false
open Classical
namespace Stats
open Fl Spec
variable [Lib] [Ideal]

theorem symmDens_of {d : Fl → Bool → Fl} {f : ℝ → ℝ} {mu : ℝ} (hd : IsDensityOn d f Set.univ)
    (hf : ∀ t, f (mu - t) = f (mu + t)) : SymmDens d mu := by
  intro t b
  obtain ⟨-, h1, h2⟩ := hd (mu + t) trivial
  obtain ⟨-, h3, h4⟩ := hd (mu - t) trivial
  rw [hf] at h3 h4
  cases b
  · exact ⟨_, h1, h3⟩
  · exact ⟨_, h2, h4⟩

theorem symmCdf_of {p : Fl → Bool → Fl} {F : ℝ → ℝ} {mu : ℝ} (hp : ∀ x, p (fin x) false = fin (F x))
    (hF : ∀ t, F (mu - t) = 1 - F (mu + t)) : SymmCdf p mu :=
  fun t => ⟨F (mu + t), hp _, by rw [hp, hF]⟩

theorem symmQuant_of {q : Fl → Fl} {F f : ℝ → ℝ} {mu : ℝ} (hF : IsCdf F f) (hq : IsInv q F)
    (hs : ∀ t, F (mu - t) = 1 - F (mu + t)) : SymmQuant q mu := by
  intro u h0 h1
  obtain ⟨x, hx⟩ := hF.exists_eq h0 h1
  refine ⟨x - mu, ?_, ?_⟩
  · rw [← hx] at h0 h1 ⊢
    rw [hq x h0 h1]; congr 1; ring
  · have e : F (mu - (x - mu)) = 1 - u := by rw [hs, ← hx]; congr 2; ring
    rw [← e]; exact hq _ (by rw [e]; linarith) (by rw [e]; linarith)

theorem scaledDens_of {d₀ d : Fl → Bool → Fl} {f₀ f : ℝ → ℝ} {mu sigma : ℝ} (hs : 0 < sigma)
    (h0 : IsDensityOn d₀ f₀ Set.univ) (h : IsDensityOn d f Set.univ)
    (hf : ∀ x, f (mu + sigma * x) = f₀ x / sigma) : ScaledDens d₀ d mu sigma := by
  intro x
  obtain ⟨hp, h1, h2⟩ := h0 x trivial
  obtain ⟨-, h3, h4⟩ := h (mu + sigma * x) trivial
  rw [hf] at h3 h4
  rw [Real.log_div hp.ne' hs.ne'] at h4
  exact ⟨f₀ x, hp, h1, h3, h2, h4⟩

theorem scaledCdf_of {p₀ p : Fl → Bool → Fl} {F₀ F : ℝ → ℝ} {mu sigma : ℝ}
    (h0 : ∀ x, p₀ (fin x) false = fin (F₀ x)) (h : ∀ x, p (fin x) false = fin (F x))
    (hF : ∀ x, F (mu + sigma * x) = F₀ x) : ScaledCdf p₀ p mu sigma :=
  fun x => ⟨F₀ x, h0 x, by rw [h, hF]⟩

theorem scaledQuant_of {q₀ q : Fl → Fl} {F₀ F f : ℝ → ℝ} {mu sigma : ℝ} (hc : IsCdf F₀ f)
    (h0 : IsInv q₀ F₀) (h : IsInv q F) (hF : ∀ x, F (mu + sigma * x) = F₀ x) : ScaledQuant q₀ q mu sigma := by
  intro u hu0 hu1
  obtain ⟨x, hx⟩ := hc.exists_eq hu0 hu1
  refine ⟨x, ?_, ?_⟩
  · rw [← hx] at hu0 hu1 ⊢; exact h0 x hu0 hu1
  · rw [← hx, ← hF] at hu0 hu1 ⊢; exact h _ hu0 hu1

theorem affine_cancel (mu : ℝ) {sigma : ℝ} (h : 0 < sigma) (x : ℝ) : (mu + sigma * x - mu) / sigma = (x - 0) / 1 := by
  field_simp; ring

theorem affine_symm (mu sigma t : ℝ) : (mu - t - mu) / sigma = -((mu + t - mu) / sigma) := by ring

/-! ### Normal -/

theorem normPdf_symm (mu sigma t : ℝ) : normPdf mu sigma (mu - t) = normPdf mu sigma (mu + t) := by
  rw [normPdf, normPdf]; congr 3; ring

theorem C40_dnorm_symm (mu : ℝ) {sigma : ℝ} (h : 0 < sigma) :
    SymmDens (fun x => dnorm x (fin mu) (fin sigma)) mu :=
  symmDens_of (C08_dnorm mu h) (normPdf_symm mu sigma)
example : SymmDens (fun x => dnorm x (fin 3) (fin 2)) 3 := C40_dnorm_symm (mu := 3) (sigma := 2) (h := by meets)

theorem pnorm_symm (mu sigma : ℝ) (t : ℝ) : Phi ((mu - t - mu) / sigma) = 1 - Phi ((mu + t - mu) / sigma) := by
  rw [affine_symm, Phi_neg]

theorem C40_pnorm_symm (mu : ℝ) {sigma : ℝ} (h : 0 < sigma) :
    SymmCdf (fun x => pnorm x (fin mu) (fin sigma)) mu :=
  symmCdf_of (pnorm_fin mu h) (pnorm_symm mu sigma)
example : SymmCdf (fun x => pnorm x (fin 3) (fin 2)) 3 := C40_pnorm_symm (mu := 3) (sigma := 2) (h := by meets)

theorem C40_qnorm_symm (mu : ℝ) {sigma : ℝ} (h : 0 < sigma) :
    SymmQuant (fun u => qnorm u (fin mu) (fin sigma)) mu :=
  symmQuant_of (isCdf_norm mu h) (qnorm_inv mu h) (pnorm_symm mu sigma)
example : SymmQuant (fun u => qnorm u (fin 3) (fin 2)) 3 := C40_qnorm_symm (mu := 3) (sigma := 2) (h := by meets)

theorem C40_dnorm_scale (mu : ℝ) {sigma : ℝ} (h : 0 < sigma) :
    ScaledDens (fun x => dnorm x (fin 0) (fin 1)) (fun x => dnorm x (fin mu) (fin sigma)) mu sigma := by
  refine scaledDens_of h (C08_dnorm 0 one_pos) (C08_dnorm mu h) fun x => ?_
  rw [normPdf, normPdf]
  have : -((mu + sigma * x - mu) ^ 2) / (2 * sigma ^ 2) = -((x - 0) ^ 2) / (2 * 1 ^ 2) := by field_simp; ring
  rw [this]; field_simp
example : ScaledDens (fun x => dnorm x (fin 0) (fin 1)) (fun x => dnorm x (fin 3) (fin 2)) 3 2 :=
  C40_dnorm_scale (mu := 3) (sigma := 2) (h := by meets)

theorem C40_pnorm_scale (mu : ℝ) {sigma : ℝ} (h : 0 < sigma) :
    ScaledCdf (fun x => pnorm x (fin 0) (fin 1)) (fun x => pnorm x (fin mu) (fin sigma)) mu sigma :=
  scaledCdf_of (pnorm_fin 0 one_pos) (pnorm_fin mu h) fun x => by rw [affine_cancel mu h]
example : ScaledCdf (fun x => pnorm x (fin 0) (fin 1)) (fun x => pnorm x (fin 3) (fin 2)) 3 2 :=
  C40_pnorm_scale (mu := 3) (sigma := 2) (h := by meets)

theorem C40_qnorm_scale (mu : ℝ) {sigma : ℝ} (h : 0 < sigma) :
    ScaledQuant (fun u => qnorm u (fin 0) (fin 1)) (fun u => qnorm u (fin mu) (fin sigma)) mu sigma :=
  scaledQuant_of (isCdf_norm 0 one_pos) (qnorm_inv 0 one_pos) (qnorm_inv mu h) fun x => by
    rw [affine_cancel mu h]
example : ScaledQuant (fun u => qnorm u (fin 0) (fin 1)) (fun u => qnorm u (fin 3) (fin 2)) 3 2 :=
  C40_qnorm_scale (mu := 3) (sigma := 2) (h := by meets)

/-! ### Cauchy -/

theorem C40_dcauchy_symm (mu : ℝ) {sigma : ℝ} (h : 0 < sigma) :
    SymmDens (fun x => dcauchy x (fin mu) (fin sigma)) mu :=
  symmDens_of (C08_dcauchy mu h) fun t => by rw [cauchyPdf, cauchyPdf, affine_symm, neg_sq]
example : SymmDens (fun x => dcauchy x (fin 3) (fin 2)) 3 := C40_dcauchy_symm (mu := 3) (sigma := 2) (h := by meets)

theorem pcauchy_symm (mu sigma : ℝ) (t : ℝ) : 1 / 2 + Real.arctan ((mu - t - mu) / sigma) / Real.pi =
    1 - (1 / 2 + Real.arctan ((mu + t - mu) / sigma) / Real.pi) := by
  rw [affine_symm, Real.arctan_neg]; ring

theorem C40_pcauchy_symm (mu : ℝ) {sigma : ℝ} (h : 0 < sigma) :
    SymmCdf (fun x => pcauchy x (fin mu) (fin sigma)) mu :=
  symmCdf_of (pcauchy_fin mu h) (pcauchy_symm mu sigma)
example : SymmCdf (fun x => pcauchy x (fin 3) (fin 2)) 3 := C40_pcauchy_symm (mu := 3) (sigma := 2) (h := by meets)

theorem C40_qcauchy_symm (mu : ℝ) {sigma : ℝ} (h : 0 < sigma) :
    SymmQuant (fun u => qcauchy u (fin mu) (fin sigma)) mu :=
  symmQuant_of (isCdf_cauchy mu h) (qcauchy_inv mu h) (pcauchy_symm mu sigma)
example : SymmQuant (fun u => qcauchy u (fin 3) (fin 2)) 3 := C40_qcauchy_symm (mu := 3) (sigma := 2) (h := by meets)

theorem C40_dcauchy_scale (mu : ℝ) {sigma : ℝ} (h : 0 < sigma) :
    ScaledDens (fun x => dcauchy x (fin 0) (fin 1)) (fun x => dcauchy x (fin mu) (fin sigma)) mu sigma := by
  refine scaledDens_of h (C08_dcauchy 0 one_pos) (C08_dcauchy mu h) fun x => ?_
  rw [cauchyPdf, cauchyPdf, affine_cancel mu h]
  have := Real.pi_pos
  field_simp
example : ScaledDens (fun x => dcauchy x (fin 0) (fin 1)) (fun x => dcauchy x (fin 3) (fin 2)) 3 2 :=
  C40_dcauchy_scale (mu := 3) (sigma := 2) (h := by meets)

theorem C40_pcauchy_scale (mu : ℝ) {sigma : ℝ} (h : 0 < sigma) :
    ScaledCdf (fun x => pcauchy x (fin 0) (fin 1)) (fun x => pcauchy x (fin mu) (fin sigma)) mu sigma :=
  scaledCdf_of (pcauchy_fin 0 one_pos) (pcauchy_fin mu h) fun x => by rw [affine_cancel mu h]
example : ScaledCdf (fun x => pcauchy x (fin 0) (fin 1)) (fun x => pcauchy x (fin 3) (fin 2)) 3 2 :=
  C40_pcauchy_scale (mu := 3) (sigma := 2) (h := by meets)

theorem C40_qcauchy_scale (mu : ℝ) {sigma : ℝ} (h : 0 < sigma) :
    ScaledQuant (fun u => qcauchy u (fin 0) (fin 1)) (fun u => qcauchy u (fin mu) (fin sigma)) mu sigma :=
  scaledQuant_of (isCdf_cauchy 0 one_pos) (qcauchy_inv 0 one_pos) (qcauchy_inv mu h) fun x => by
    rw [affine_cancel mu h]
example : ScaledQuant (fun u => qcauchy u (fin 0) (fin 1)) (fun u => qcauchy u (fin 3) (fin 2)) 3 2 :=
  C40_qcauchy_scale (mu := 3) (sigma := 2) (h := by meets)

/-! ### Laplace -/

theorem C40_dlaplace_symm (mu : ℝ) {sigma : ℝ} (h : 0 < sigma) :
    SymmDens (fun x => dlaplace x (fin mu) (fin sigma)) mu :=
  symmDens_of (C08_dlaplace mu h) fun t => by
    rw [laplacePdf, laplacePdf, show mu - t - mu = -(mu + t - mu) by ring, abs_neg]
example : SymmDens (fun x => dlaplace x (fin 3) (fin 2)) 3 := C40_dlaplace_symm (mu := 3) (sigma := 2) (h := by meets)

theorem plaplace_symm (mu sigma t : ℝ) :
    laplaceCdf mu sigma (mu - t) = 1 - laplaceCdf mu sigma (mu + t) := by
  have e1 : (mu - t - mu) / sigma = -(t / sigma) := by ring
  have e2 : (mu + t - mu) / sigma = t / sigma := by ring
  rw [laplaceCdf, laplaceCdf, e1, e2]
  rcases lt_trichotomy t 0 with ht | rfl | ht
  · rw [if_neg (by linarith), if_pos (by linarith), neg_neg]
  · norm_num
  · rw [if_pos (by linarith), if_neg (by linarith)]; ring

theorem C40_plaplace_symm (mu : ℝ) {sigma : ℝ} (h : 0 < sigma) :
    SymmCdf (fun x => plaplace x (fin mu) (fin sigma)) mu :=
  symmCdf_of (plaplace_fin mu h) (plaplace_symm mu sigma)
example : SymmCdf (fun x => plaplace x (fin 3) (fin 2)) 3 := C40_plaplace_symm (mu := 3) (sigma := 2) (h := by meets)

theorem C40_qlaplace_symm (mu : ℝ) {sigma : ℝ} (h : 0 < sigma) :
    SymmQuant (fun u => qlaplace u (fin mu) (fin sigma)) mu :=
  symmQuant_of (isCdf_laplace mu h) (qlaplace_inv mu h) (plaplace_symm mu sigma)
example : SymmQuant (fun u => qlaplace u (fin 3) (fin 2)) 3 :=
  C40_qlaplace_symm (mu := 3) (sigma := 2) (h := by meets)

theorem C40_dlaplace_scale (mu : ℝ) {sigma : ℝ} (h : 0 < sigma) :
    ScaledDens (fun x => dlaplace x (fin 0) (fin 1)) (fun x => dlaplace x (fin mu) (fin sigma)) mu sigma := by
  refine scaledDens_of h (C08_dlaplace 0 one_pos) (C08_dlaplace mu h) fun x => ?_
  rw [laplacePdf, laplacePdf]
  have : -|mu + sigma * x - mu| / sigma = -|x - 0| / 1 := by
    rw [show mu + sigma * x - mu = sigma * x by ring, abs_mul, abs_of_pos h, sub_zero]; field_simp
  rw [this]; field_simp
example : ScaledDens (fun x => dlaplace x (fin 0) (fin 1)) (fun x => dlaplace x (fin 3) (fin 2)) 3 2 :=
  C40_dlaplace_scale (mu := 3) (sigma := 2) (h := by meets)

theorem laplaceCdf_scale (mu : ℝ) {sigma : ℝ} (h : 0 < sigma) (x : ℝ) :
    laplaceCdf mu sigma (mu + sigma * x) = laplaceCdf 0 1 x := by
  rw [laplaceCdf, laplaceCdf, affine_cancel mu h]
  have : mu + sigma * x < mu ↔ x < 0 := by
    constructor
    · intro hx; by_contra hc; nlinarith [mul_nonneg h.le (not_lt.1 hc)]
    · intro hx; nlinarith [mul_neg_of_pos_of_neg h hx]
  simp only [this]

theorem C40_plaplace_scale (mu : ℝ) {sigma : ℝ} (h : 0 < sigma) :
    ScaledCdf (fun x => plaplace x (fin 0) (fin 1)) (fun x => plaplace x (fin mu) (fin sigma)) mu sigma :=
  scaledCdf_of (plaplace_fin 0 one_pos) (plaplace_fin mu h) (laplaceCdf_scale mu h)
example : ScaledCdf (fun x => plaplace x (fin 0) (fin 1)) (fun x => plaplace x (fin 3) (fin 2)) 3 2 :=
  C40_plaplace_scale (mu := 3) (sigma := 2) (h := by meets)

theorem C40_qlaplace_scale (mu : ℝ) {sigma : ℝ} (h : 0 < sigma) :
    ScaledQuant (fun u => qlaplace u (fin 0) (fin 1)) (fun u => qlaplace u (fin mu) (fin sigma)) mu sigma :=
  scaledQuant_of (isCdf_laplace 0 one_pos) (qlaplace_inv 0 one_pos) (qlaplace_inv mu h) (laplaceCdf_scale mu h)
example : ScaledQuant (fun u => qlaplace u (fin 0) (fin 1)) (fun u => qlaplace u (fin 3) (fin 2)) 3 2 :=
  C40_qlaplace_scale (mu := 3) (sigma := 2) (h := by meets)

/-! ### Logistic -/

theorem C40_dlogis_symm (mu : ℝ) {sigma : ℝ} (h : 0 < sigma) :
    SymmDens (fun x => dlogis x (fin mu) (fin sigma)) mu :=
  symmDens_of (C08_dlogis mu h) fun t => by
    have hp := Real.exp_pos ((mu + t - mu) / sigma)
    rw [logisPdf, logisPdf, affine_symm, neg_neg, Real.exp_neg]
    field_simp
    ring
example : SymmDens (fun x => dlogis x (fin 3) (fin 2)) 3 := C40_dlogis_symm (mu := 3) (sigma := 2) (h := by meets)

theorem plogis_symm (mu sigma t : ℝ) : 1 / (1 + Real.exp (-((mu - t - mu) / sigma))) =
    1 - 1 / (1 + Real.exp (-((mu + t - mu) / sigma))) := by
  have hp := Real.exp_pos ((mu + t - mu) / sigma)
  rw [affine_symm, neg_neg, Real.exp_neg]
  field_simp
  ring

theorem C40_plogis_symm (mu : ℝ) {sigma : ℝ} (h : 0 < sigma) :
    SymmCdf (fun x => plogis x (fin mu) (fin sigma)) mu :=
  symmCdf_of (plogis_fin mu h) (plogis_symm mu sigma)
example : SymmCdf (fun x => plogis x (fin 3) (fin 2)) 3 := C40_plogis_symm (mu := 3) (sigma := 2) (h := by meets)

theorem C40_qlogis_symm (mu : ℝ) {sigma : ℝ} (h : 0 < sigma) :
    SymmQuant (fun u => qlogis u (fin mu) (fin sigma)) mu :=
  symmQuant_of (isCdf_logis mu h) (qlogis_inv mu h) (plogis_symm mu sigma)
example : SymmQuant (fun u => qlogis u (fin 3) (fin 2)) 3 := C40_qlogis_symm (mu := 3) (sigma := 2) (h := by meets)

theorem C40_dlogis_scale (mu : ℝ) {sigma : ℝ} (h : 0 < sigma) :
    ScaledDens (fun x => dlogis x (fin 0) (fin 1)) (fun x => dlogis x (fin mu) (fin sigma)) mu sigma := by
  refine scaledDens_of h (C08_dlogis 0 one_pos) (C08_dlogis mu h) fun x => ?_
  rw [logisPdf, logisPdf, affine_cancel mu h]
  have hp := Real.exp_pos (-((x - 0) / 1))
  field_simp
example : ScaledDens (fun x => dlogis x (fin 0) (fin 1)) (fun x => dlogis x (fin 3) (fin 2)) 3 2 :=
  C40_dlogis_scale (mu := 3) (sigma := 2) (h := by meets)

theorem C40_plogis_scale (mu : ℝ) {sigma : ℝ} (h : 0 < sigma) :
    ScaledCdf (fun x => plogis x (fin 0) (fin 1)) (fun x => plogis x (fin mu) (fin sigma)) mu sigma :=
  scaledCdf_of (plogis_fin 0 one_pos) (plogis_fin mu h) fun x => by rw [affine_cancel mu h]
example : ScaledCdf (fun x => plogis x (fin 0) (fin 1)) (fun x => plogis x (fin 3) (fin 2)) 3 2 :=
  C40_plogis_scale (mu := 3) (sigma := 2) (h := by meets)

theorem C40_qlogis_scale (mu : ℝ) {sigma : ℝ} (h : 0 < sigma) :
    ScaledQuant (fun u => qlogis u (fin 0) (fin 1)) (fun u => qlogis u (fin mu) (fin sigma)) mu sigma :=
  scaledQuant_of (isCdf_logis 0 one_pos) (qlogis_inv 0 one_pos) (qlogis_inv mu h) fun x => by
    rw [affine_cancel mu h]
example : ScaledQuant (fun u => qlogis u (fin 0) (fin 1)) (fun u => qlogis u (fin 3) (fin 2)) 3 2 :=
  C40_qlogis_scale (mu := 3) (sigma := 2) (h := by meets)

/-! ### Student t -/

theorem C40_dt_symm {dof : ℝ} (h : Lib.eps ≤ dof) : SymmDens (fun x => dt x (fin dof)) 0 :=
  symmDens_of (C08_dt h) fun t => by rw [tPdf, tPdf, zero_sub, zero_add, neg_sq]
example : SymmDens (fun x => dt x (fin 4)) 0 := C40_dt_symm (dof := 4) (h := by meets)

theorem tCdf_symm {ν : ℝ} (h : 0 < ν) (t : ℝ) : tCdf ν (0 - t) = 1 - tCdf ν (0 + t) := by
  have e : tTail ν (-t) = tTail ν t := by rw [tTail, tTail, neg_sq]
  rw [zero_sub, zero_add, tCdf, tCdf, e]
  rcases lt_trichotomy t 0 with ht | rfl | ht
  · rw [if_pos (by linarith), if_neg (by linarith)]
  · have : tTail ν 0 = 1 := by
      rw [tTail]; simp only [ne_eq, OfNat.ofNat_ne_zero, not_false_eq_true, zero_pow, add_zero, div_self h.ne']
      exact betaI_one (half_pos h) (by norm_num)
    rw [neg_zero, if_neg (lt_irrefl _), this]; norm_num
  · rw [if_neg (by linarith), if_pos ht]; ring

theorem C40_pt_symm {dof : ℝ} (h : Lib.eps ≤ dof) : SymmCdf (fun x => pt x (fin dof)) 0 :=
  symmCdf_of (pt_fin h) (tCdf_symm (Lib.eps_pos.trans_le h))
example : SymmCdf (fun x => pt x (fin 4)) 0 := C40_pt_symm (dof := 4) (h := by meets)

theorem tCdfCoded_symm {ν : ℝ} (h : 0 < ν) (t : ℝ) : tCdfCoded ν (0 - t) = 1 - tCdfCoded ν (0 + t) := by
  rw [tCdfCoded_eq h, tCdfCoded_eq h, tCdf_symm h]

/-- missing: other degrees of freedom, where the claim fails (`C40_qt_symm_violated`) -/
theorem C40_qt_symm_partial : SymmQuant (fun u => qt u (fin 1)) 0 ∧ SymmQuant (fun u => qt u (fin 2)) 0 ∧
    SymmQuant (fun u => qt u pinf) 0 := by
  refine ⟨symmQuant_of (isCdf_tCoded one_pos) qt_one_inv (tCdfCoded_symm one_pos),
    symmQuant_of (isCdf_tCoded two_pos) qt_two_inv (tCdfCoded_symm two_pos), ?_⟩
  intro u h0 h1
  obtain ⟨t, h2, h3⟩ := C40_qnorm_symm 0 one_pos u h0 h1
  have e : ∀ u : ℝ, 0 < u → u < 1 → qt (fin u) pinf = qnorm (fin u) (fin 0) (fin 1) := by
    intro u h0 h1
    simp [qt, t_ok, prob_val_ok, h0.le, h1.le, h0.ne', h1.ne, eps, feq]
  exact ⟨t, (e u h0 h1).trans h2, (e _ (by linarith) (by linarith)).trans h3⟩

theorem C40_qt_symm_violated : ¬ SymmQuant (fun u => qt u (fin 5)) 0 := by
  intro h
  obtain ⟨u, r, s, h0, h1, hr, hs, hne⟩ := C42_qt_symm_violated
  obtain ⟨t, e1, e2⟩ := h u h0 h1
  simp only [hr, hs, fin.injEq] at e1 e2
  exact hne (by rw [e1, e2]; ring)

end Stats

namespace Stats.ExamplesC40
open Fl Spec
open scoped Stats.Exact

/-- location 2, scale 3: the median is the location -/
example : pnorm (fin 2) (fin 2) (fin 3) false = fin (1 / 2) := by
  obtain ⟨r, h1, h2⟩ := C40_pnorm_symm 2 (show (0 : ℝ) < 3 by norm_num) 0
  simp only [add_zero, sub_zero] at h1 h2
  rw [h1] at h2 ⊢
  have := fin.inj h2
  congr 1; linarith

/-- and the quantile of one half is the location -/
example : qcauchy (fin (1 / 2)) (fin 2) (fin 3) = fin 2 := by
  obtain ⟨t, h1, h2⟩ := C40_qcauchy_symm 2 (show (0 : ℝ) < 3 by norm_num) (1 / 2) (by norm_num) (by norm_num)
  simp only [show (1 - 1 / 2 : ℝ) = 1 / 2 by norm_num] at h1 h2
  rw [h1] at h2 ⊢
  have := fin.inj h2
  congr 1; linarith

/-- a t distribution with 7/2 degrees of freedom -/
example : pt (fin 0) (fin (7 / 2)) false = fin (1 / 2) := by
  obtain ⟨r, h1, h2⟩ := C40_pt_symm (dof := 7 / 2) (Exact.eps_le (by norm_num)) 0
  simp only [add_zero, sub_zero] at h1 h2
  rw [h1] at h2 ⊢
  have := fin.inj h2
  congr 1; linarith

end Stats.ExamplesC40
