import Verif.Lemmas.QuantIdeal
import Verif.Lemmas.ExactInst
import Verif.Lemmas.Meets

/-!
# C14, C15, C16: quantile functions

C14 `q(p(x)) = x`, C15 `p(q(u)) = u`, C16 `q` is monotone and hits the ends of the support; exact arithmetic,
non-degenerate finite parameters. Where the code replaces small arguments by 0 (`x < eps`), C14 and C15 fail:
`_violated`; the `_partial` theorems cover the points outside this zone.
`qt` is treated in `C42.lean`, `qinvgauss` (an iteration) in `C21.lean`.
-/

set_option linter.unusedSectionVars false
open Classical
namespace Stats
open Fl Spec
variable [Lib] [Ideal]

/-! ### normal -/

theorem C14_norm (mu : ℝ) {sigma : ℝ} (h : 0 < sigma) :
    QuantOfCdfOn (fun x => pnorm x (fin mu) (fin sigma)) (fun u => qnorm u (fin mu) (fin sigma)) Set.univ :=
  quantOfCdfOn_of (qnorm_inv mu h) (fun _ _ => ⟨Phi_pos _, Phi_lt_one _⟩) (fun x _ => pnorm_fin mu h x)
example : QuantOfCdfOn (fun x => pnorm x (fin 3) (fin 2)) (fun u => qnorm u (fin 3) (fin 2)) Set.univ :=
  C14_norm (mu := 3) (sigma := 2) (h := by meets)

theorem C15_norm (mu : ℝ) {sigma : ℝ} (h : 0 < sigma) :
    CdfOfQuant (fun x => pnorm x (fin mu) (fin sigma)) (fun u => qnorm u (fin mu) (fin sigma)) :=
  cdfOfQuant_of (isCdf_norm mu h) (qnorm_inv mu h) (pnorm_fin mu h)
example : CdfOfQuant (fun x => pnorm x (fin 3) (fin 2)) (fun u => qnorm u (fin 3) (fin 2)) :=
  C15_norm (mu := 3) (sigma := 2) (h := by meets)

theorem C16_norm (mu : ℝ) {sigma : ℝ} (h : 0 < sigma) :
    MonoQuant (fun u => qnorm u (fin mu) (fin sigma)) ninf pinf := by
  refine monoQuant_of (isCdf_norm mu h) (qnorm_inv mu h) ?_ ?_ (by simp) (by simp) (by simp) <;>
  simp [qnorm, norm_ok, prob_val_ok, h.ne', not_lt.2 h.le]
example : MonoQuant (fun u => qnorm u (fin 3) (fin 2)) ninf pinf := C16_norm (mu := 3) (sigma := 2) (h := by meets)

/-! ### log-normal -/

theorem lnorm_cut {x : ℝ} (h : x < Lib.eps) (mu : ℝ) {sigma : ℝ} (hs : 0 < sigma) :
    plnorm (fin x) (fin mu) (fin sigma) false = fin 0 := by
  simp [plnorm, lnorm_ok', lnorm_ok, eps, h, not_lt.2 hs.le]

/-- missing: `0 < x < eps`, see `C14_lnorm_violated` -/
theorem C14_lnorm_partial (mu : ℝ) {sigma : ℝ} (h : 0 < sigma) :
    QuantOfCdfOn (fun x => plnorm x (fin mu) (fin sigma)) (fun u => qlnorm u (fin mu) (fin sigma))
      (Set.Ici Lib.eps) :=
  quantOfCdfOn_of (qlnorm_inv mu h)
    (fun x hx => by
      have hx : 0 < x := Lib.eps_pos.trans_le hx
      simp only [if_pos hx]; exact ⟨Phi_pos _, Phi_lt_one _⟩)
    (fun x hx => plnorm_fin mu h x (Or.inl hx))
example : QuantOfCdfOn (fun x => plnorm x (fin 3) (fin 2)) (fun u => qlnorm u (fin 3) (fin 2))
      (Set.Ici Lib.eps) :=
  C14_lnorm_partial (mu := 3) (sigma := 2) (h := by meets)

theorem qlnorm_zero (mu : ℝ) {sigma : ℝ} (h : 0 < sigma) : qlnorm (fin 0) (fin mu) (fin sigma) = fin 0 := by
  simp [qlnorm, lnorm_ok, prob_val_ok, qlnorm_compute, qnorm, norm_ok, h.ne', not_lt.2 h.le]

theorem C14_lnorm_violated (mu : ℝ) {sigma : ℝ} (h : 0 < sigma) :
    ¬ QuantOfCdfOn (fun x => plnorm x (fin mu) (fin sigma)) (fun u => qlnorm u (fin mu) (fin sigma))
      (Set.Ioi 0) := by
  intro hc
  have he := Lib.eps_pos
  have := hc (Lib.eps / 2) (half_pos he)
  simp only [lnorm_cut (half_lt_self he) mu h, qlnorm_zero mu h] at this
  injection this with this
  linarith
example : ¬ QuantOfCdfOn (fun x => plnorm x (fin 3) (fin 2)) (fun u => qlnorm u (fin 3) (fin 2))
      (Set.Ioi 0) :=
  C14_lnorm_violated (mu := 3) (sigma := 2) (h := by meets)

/-- missing: probabilities whose quantile is below `eps`, see `C15_lnorm_violated` -/
theorem C15_lnorm_partial (mu : ℝ) {sigma : ℝ} (h : 0 < sigma) :
    CdfOfQuantOn (fun x => plnorm x (fin mu) (fin sigma)) (fun u => qlnorm u (fin mu) (fin sigma))
      (Set.Ici Lib.eps) :=
  cdfOfQuantOn_of (isCdf_lnorm mu h) (qlnorm_inv mu h) (fun x hx => plnorm_fin mu h x (Or.inl hx))
example : CdfOfQuantOn (fun x => plnorm x (fin 3) (fin 2)) (fun u => qlnorm u (fin 3) (fin 2))
      (Set.Ici Lib.eps) :=
  C15_lnorm_partial (mu := 3) (sigma := 2) (h := by meets)

theorem C15_lnorm_violated (mu : ℝ) {sigma : ℝ} (h : 0 < sigma) :
    ¬ CdfOfQuant (fun x => plnorm x (fin mu) (fin sigma)) (fun u => qlnorm u (fin mu) (fin sigma)) := by
  intro hc
  have he := half_pos Lib.eps_pos
  have h0 := Phi_pos ((Real.log (Lib.eps / 2) - mu) / sigma)
  have h1 := Phi_lt_one ((Real.log (Lib.eps / 2) - mu) / sigma)
  have hq := qlnorm_inv mu h (Lib.eps / 2) (by simpa only [if_pos he]) (by simpa only [if_pos he])
  have := hc _ h0 h1
  simp only [if_pos he] at hq
  simp only [hq, lnorm_cut (half_lt_self Lib.eps_pos) mu h] at this
  injection this with this
  linarith
example : ¬ CdfOfQuant (fun x => plnorm x (fin 3) (fin 2)) (fun u => qlnorm u (fin 3) (fin 2)) :=
  C15_lnorm_violated (mu := 3) (sigma := 2) (h := by meets)

theorem C16_lnorm (mu : ℝ) {sigma : ℝ} (h : 0 < sigma) :
    MonoQuant (fun u => qlnorm u (fin mu) (fin sigma)) (fin 0) pinf := by
  refine monoQuant_of (isCdf_lnorm mu h) (qlnorm_inv mu h) (qlnorm_zero mu h) ?_ ?_ (by simp) (by simp)
  · simp [qlnorm, lnorm_ok, prob_val_ok, qlnorm_compute, qnorm, norm_ok, h.ne', not_lt.2 h.le, exp]
  · intro x h0 _
    have hx : 0 < x := by by_contra hc; rw [if_neg hc] at h0; exact lt_irrefl _ h0
    simpa using hx.le
example : MonoQuant (fun u => qlnorm u (fin 3) (fin 2)) (fin 0) pinf :=
  C16_lnorm (mu := 3) (sigma := 2) (h := by meets)

/-! ### uniform -/

theorem C14_unif {a b : ℝ} (h : a < b) :
    QuantOfCdfOn (fun x => punif x (fin a) (fin b)) (fun u => qunif u (fin a) (fin b)) (Set.Ioo a b) :=
  quantOfCdfOn_of (qunif_inv h)
    (fun x hx => by
      have hb : 0 < b - a := by linarith
      rw [unifCdf, if_neg (not_le.2 hx.1), if_neg (not_le.2 hx.2)]
      exact ⟨div_pos (by linarith [hx.1]) hb, by rw [div_lt_one hb]; linarith [hx.2]⟩)
    (fun x _ => punif_fin h x)
example : QuantOfCdfOn (fun x => punif x (fin 1) (fin 4)) (fun u => qunif u (fin 1) (fin 4)) (Set.Ioo 1 4) :=
  C14_unif (a := 1) (b := 4) (h := by meets)

theorem C15_unif {a b : ℝ} (h : a < b) :
    CdfOfQuant (fun x => punif x (fin a) (fin b)) (fun u => qunif u (fin a) (fin b)) :=
  cdfOfQuant_of (isCdf_unif h) (qunif_inv h) (punif_fin h)
example : CdfOfQuant (fun x => punif x (fin 1) (fin 4)) (fun u => qunif u (fin 1) (fin 4)) :=
  C15_unif (a := 1) (b := 4) (h := by meets)

theorem C16_unif {a b : ℝ} (h : a < b) : MonoQuant (fun u => qunif u (fin a) (fin b)) (fin a) (fin b) := by
  have h2 : ¬ b ≤ a := by linarith
  refine monoQuant_of (isCdf_unif h) (qunif_inv h) ?_ ?_ ?_ ?_ (by simpa using h.le)
  · simp [qunif, unif_ok, prob_val_ok, h2]
  · simp [qunif, unif_ok, prob_val_ok, h2]
  · intro x h0 _
    rw [unifCdf] at h0
    split_ifs at h0 <;> simp at * <;> linarith
  · intro x _ h1
    rw [unifCdf] at h1
    split_ifs at h1 <;> simp at * <;> linarith
example : MonoQuant (fun u => qunif u (fin 1) (fin 4)) (fin 1) (fin 4) := C16_unif (a := 1) (b := 4) (h := by meets)

/-! ### exponential -/

theorem C14_exp {rate : ℝ} (h : 0 < rate) :
    QuantOfCdfOn (fun x => pexp x (fin rate)) (fun u => qexp u (fin rate)) (Set.Ioi 0) :=
  quantOfCdfOn_of (qexp_inv h)
    (fun x hx => by
      have hx : 0 < x := hx
      simp only [if_pos hx]
      have h1 : Real.exp (-rate * x) < 1 := Real.exp_lt_one_iff.2 (by nlinarith)
      exact ⟨by linarith, by linarith [Real.exp_pos (-rate * x)]⟩)
    (fun x _ => pexp_fin h x)
example : QuantOfCdfOn (fun x => pexp x (fin 2)) (fun u => qexp u (fin 2)) (Set.Ioi 0) :=
  C14_exp (rate := 2) (h := by meets)

theorem C15_exp {rate : ℝ} (h : 0 < rate) :
    CdfOfQuant (fun x => pexp x (fin rate)) (fun u => qexp u (fin rate)) :=
  cdfOfQuant_of (isCdf_exp h) (qexp_inv h) (pexp_fin h)
example : CdfOfQuant (fun x => pexp x (fin 2)) (fun u => qexp u (fin 2)) := C15_exp (rate := 2) (h := by meets)

theorem C16_exp {rate : ℝ} (h : 0 < rate) : MonoQuant (fun u => qexp u (fin rate)) (fin 0) pinf := by
  refine monoQuant_of (isCdf_exp h) (qexp_inv h) ?_ ?_ ?_ (by simp) (by simp)
  · simp [qexp, exp_ok, prob_val_ok, not_lt.2 h.le]
  · simp [qexp, exp_ok, prob_val_ok, not_lt.2 h.le]
  · intro x h0 _
    have hx : 0 < x := by by_contra hc; rw [if_neg hc] at h0; exact lt_irrefl _ h0
    simpa using hx.le
example : MonoQuant (fun u => qexp u (fin 2)) (fin 0) pinf := C16_exp (rate := 2) (h := by meets)

/-! ### Cauchy -/

theorem cauchy_mem (z : ℝ) : 0 < 1 / 2 + Real.arctan z / Real.pi ∧ 1 / 2 + Real.arctan z / Real.pi < 1 := by
  have hpi := Real.pi_pos
  have h1 := Real.arctan_lt_pi_div_two z
  have h2 := Real.neg_pi_div_two_lt_arctan z
  constructor
  · have : -(1 / 2) < Real.arctan z / Real.pi := by rw [lt_div_iff₀ hpi]; linarith
    linarith
  · have : Real.arctan z / Real.pi < 1 / 2 := by rw [div_lt_iff₀ hpi]; linarith
    linarith

theorem C14_cauchy (mu : ℝ) {sigma : ℝ} (h : 0 < sigma) :
    QuantOfCdfOn (fun x => pcauchy x (fin mu) (fin sigma)) (fun u => qcauchy u (fin mu) (fin sigma)) Set.univ :=
  quantOfCdfOn_of (qcauchy_inv mu h) (fun _ _ => cauchy_mem _) (fun x _ => pcauchy_fin mu h x)
example : QuantOfCdfOn (fun x => pcauchy x (fin 3) (fin 2)) (fun u => qcauchy u (fin 3) (fin 2)) Set.univ :=
  C14_cauchy (mu := 3) (sigma := 2) (h := by meets)

theorem C15_cauchy (mu : ℝ) {sigma : ℝ} (h : 0 < sigma) :
    CdfOfQuant (fun x => pcauchy x (fin mu) (fin sigma)) (fun u => qcauchy u (fin mu) (fin sigma)) :=
  cdfOfQuant_of (isCdf_cauchy mu h) (qcauchy_inv mu h) (pcauchy_fin mu h)
example : CdfOfQuant (fun x => pcauchy x (fin 3) (fin 2)) (fun u => qcauchy u (fin 3) (fin 2)) :=
  C15_cauchy (mu := 3) (sigma := 2) (h := by meets)

theorem C16_cauchy (mu : ℝ) {sigma : ℝ} (h : 0 < sigma) :
    MonoQuant (fun u => qcauchy u (fin mu) (fin sigma)) ninf pinf := by
  refine monoQuant_of (isCdf_cauchy mu h) (qcauchy_inv mu h) ?_ ?_ (by simp) (by simp) (by simp) <;>
  simp [qcauchy, cauchy_ok, prob_val_ok, h.ne', not_lt.2 h.le]
example : MonoQuant (fun u => qcauchy u (fin 3) (fin 2)) ninf pinf :=
  C16_cauchy (mu := 3) (sigma := 2) (h := by meets)

/-! ### Laplace -/

theorem laplace_mem (mu : ℝ) {sigma : ℝ} (h : 0 < sigma) (x : ℝ) :
    0 < laplaceCdf mu sigma x ∧ laplaceCdf mu sigma x < 1 := by
  rw [laplaceCdf]
  split_ifs with h1
  · have h3 : Real.exp ((x - mu) / sigma) < 1 := Real.exp_lt_one_iff.2 (div_neg_of_neg_of_pos (by linarith) h)
    have := Real.exp_pos ((x - mu) / sigma)
    constructor <;> linarith
  · have h3 : Real.exp (-((x - mu) / sigma)) ≤ 1 := Real.exp_le_one_iff.2 (by
      have : 0 ≤ (x - mu) / sigma := div_nonneg (by linarith) h.le
      linarith)
    have := Real.exp_pos (-((x - mu) / sigma))
    constructor <;> linarith

theorem C14_laplace (mu : ℝ) {sigma : ℝ} (h : 0 < sigma) :
    QuantOfCdfOn (fun x => plaplace x (fin mu) (fin sigma)) (fun u => qlaplace u (fin mu) (fin sigma)) Set.univ :=
  quantOfCdfOn_of (qlaplace_inv mu h) (fun x _ => laplace_mem mu h x) (fun x _ => plaplace_fin mu h x)
example : QuantOfCdfOn (fun x => plaplace x (fin 3) (fin 2)) (fun u => qlaplace u (fin 3) (fin 2)) Set.univ :=
  C14_laplace (mu := 3) (sigma := 2) (h := by meets)

theorem C15_laplace (mu : ℝ) {sigma : ℝ} (h : 0 < sigma) :
    CdfOfQuant (fun x => plaplace x (fin mu) (fin sigma)) (fun u => qlaplace u (fin mu) (fin sigma)) :=
  cdfOfQuant_of (isCdf_laplace mu h) (qlaplace_inv mu h) (plaplace_fin mu h)
example : CdfOfQuant (fun x => plaplace x (fin 3) (fin 2)) (fun u => qlaplace u (fin 3) (fin 2)) :=
  C15_laplace (mu := 3) (sigma := 2) (h := by meets)

theorem C16_laplace (mu : ℝ) {sigma : ℝ} (h : 0 < sigma) :
    MonoQuant (fun u => qlaplace u (fin mu) (fin sigma)) ninf pinf := by
  refine monoQuant_of (isCdf_laplace mu h) (qlaplace_inv mu h) ?_ ?_ (by simp) (by simp) (by simp) <;>
  simp [qlaplace, laplace_ok, prob_val_ok, h.ne', not_lt.2 h.le]
example : MonoQuant (fun u => qlaplace u (fin 3) (fin 2)) ninf pinf :=
  C16_laplace (mu := 3) (sigma := 2) (h := by meets)

/-! ### logistic -/

theorem C14_logis (mu : ℝ) {sigma : ℝ} (h : 0 < sigma) :
    QuantOfCdfOn (fun x => plogis x (fin mu) (fin sigma)) (fun u => qlogis u (fin mu) (fin sigma)) Set.univ :=
  quantOfCdfOn_of (qlogis_inv mu h)
    (fun x _ => by
      have := Real.exp_pos (-((x - mu) / sigma))
      exact ⟨by positivity, by rw [div_lt_one (by linarith)]; linarith⟩)
    (fun x _ => plogis_fin mu h x)
example : QuantOfCdfOn (fun x => plogis x (fin 3) (fin 2)) (fun u => qlogis u (fin 3) (fin 2)) Set.univ :=
  C14_logis (mu := 3) (sigma := 2) (h := by meets)

theorem C15_logis (mu : ℝ) {sigma : ℝ} (h : 0 < sigma) :
    CdfOfQuant (fun x => plogis x (fin mu) (fin sigma)) (fun u => qlogis u (fin mu) (fin sigma)) :=
  cdfOfQuant_of (isCdf_logis mu h) (qlogis_inv mu h) (plogis_fin mu h)
example : CdfOfQuant (fun x => plogis x (fin 3) (fin 2)) (fun u => qlogis u (fin 3) (fin 2)) :=
  C15_logis (mu := 3) (sigma := 2) (h := by meets)

theorem C16_logis (mu : ℝ) {sigma : ℝ} (h : 0 < sigma) :
    MonoQuant (fun u => qlogis u (fin mu) (fin sigma)) ninf pinf := by
  refine monoQuant_of (isCdf_logis mu h) (qlogis_inv mu h) ?_ ?_ (by simp) (by simp) (by simp) <;>
  simp [qlogis, logis_ok, prob_val_ok, h.ne', not_lt.2 h.le]
example : MonoQuant (fun u => qlogis u (fin 3) (fin 2)) ninf pinf := C16_logis (mu := 3) (sigma := 2) (h := by meets)

/-! ### beta -/

theorem betaCdf_mem {a b : ℝ} (ha : 0 < a) (hb : 0 < b) {x : ℝ} (h0 : 0 < x) (h1 : x < 1) :
    0 < betaCdf a b x ∧ betaCdf a b x < 1 := by
  rw [betaCdf, if_neg (not_le.2 h0), if_neg (not_le.2 h1)]
  have m : x ∈ Set.Icc (0 : ℝ) 1 := ⟨h0.le, h1.le⟩
  have e0 := strictMonoOn_betaI ha hb ⟨le_rfl, zero_le_one⟩ m h0
  have e1 := strictMonoOn_betaI ha hb m ⟨zero_le_one, le_rfl⟩ h1
  rw [betaI_one ha hb] at e1
  rw [betaI_zero] at e0
  exact ⟨e0, e1⟩

theorem C14_beta {a b : ℝ} (ha : 0 < a) (hb : 0 < b) :
    QuantOfCdfOn (fun x => pbeta x (fin a) (fin b)) (fun u => qbeta u (fin a) (fin b)) (Set.Ioo 0 1) :=
  quantOfCdfOn_of (qbeta_inv ha hb) (fun _ hx => betaCdf_mem ha hb hx.1 hx.2) (fun x _ => pbeta_fin ha hb x)
example : QuantOfCdfOn (fun x => pbeta x (fin 1) (fin 4)) (fun u => qbeta u (fin 1) (fin 4)) (Set.Ioo 0 1) :=
  C14_beta (a := 1) (b := 4) (ha := by meets) (hb := by meets)

theorem C15_beta {a b : ℝ} (ha : 0 < a) (hb : 0 < b) :
    CdfOfQuant (fun x => pbeta x (fin a) (fin b)) (fun u => qbeta u (fin a) (fin b)) :=
  cdfOfQuant_of (isCdf_beta ha hb) (qbeta_inv ha hb) (pbeta_fin ha hb)
example : CdfOfQuant (fun x => pbeta x (fin 1) (fin 4)) (fun u => qbeta u (fin 1) (fin 4)) :=
  C15_beta (a := 1) (b := 4) (ha := by meets) (hb := by meets)

theorem C16_beta {a b : ℝ} (ha : 0 < a) (hb : 0 < b) :
    MonoQuant (fun u => qbeta u (fin a) (fin b)) (fin 0) (fin 1) := by
  refine monoQuant_of (isCdf_beta ha hb) (qbeta_inv ha hb) ?_ ?_ ?_ ?_ (by simp)
  · simp [qbeta, beta_ok, prob_val_ok, not_lt.2 ha.le, not_lt.2 hb.le]
  · simp [qbeta, beta_ok, prob_val_ok, not_lt.2 ha.le, not_lt.2 hb.le]
  · intro x h0 _
    rw [betaCdf] at h0
    split_ifs at h0 <;> simp at * <;> linarith
  · intro x _ h1
    rw [betaCdf] at h1
    split_ifs at h1 <;> simp at * <;> linarith
example : MonoQuant (fun u => qbeta u (fin 1) (fin 4)) (fin 0) (fin 1) :=
  C16_beta (a := 1) (b := 4) (ha := by meets) (hb := by meets)

/-! ### gamma -/

theorem gammaP_mem {a z : ℝ} (ha : 0 < a) (hz : 0 < z) : 0 < gammaP a z ∧ gammaP a z < 1 := by
  refine ⟨?_, gammaP_lt_one ha hz.le⟩
  have := strictMonoOn_gammaP ha (Set.mem_Ici.2 le_rfl) (Set.mem_Ici.2 hz.le) hz
  rwa [gammaP_zero] at this

theorem gamma_cut {x : ℝ} (h : x < Lib.eps) {k θ : ℝ} (hk : 0 < k) (hθ : Lib.eps ≤ θ) :
    pgamma (fin x) (fin k) (fin θ) false = fin 0 := by
  simp [pgamma, gamma_ok', gamma_ok, eps, h, not_lt.2 hk.le, not_lt.2 hθ]

theorem qgamma_zero {k θ : ℝ} (hk : 0 < k) (hθ : Lib.eps ≤ θ) : qgamma (fin 0) (fin k) (fin θ) = fin 0 := by
  simp [qgamma, gamma_ok, prob_val_ok, eps, not_lt.2 hk.le, not_lt.2 hθ]

/-- missing: `0 < x < eps` (violated) and scale below `eps` (rejected by the code) -/
theorem C14_gamma_partial {k θ : ℝ} (hk : 0 < k) (hθ : Lib.eps ≤ θ) :
    QuantOfCdfOn (fun x => pgamma x (fin k) (fin θ)) (fun u => qgamma u (fin k) (fin θ)) (Set.Ici Lib.eps) :=
  quantOfCdfOn_of (qgamma_inv hk hθ)
    (fun x hx => by
      have hx : 0 < x := Lib.eps_pos.trans_le hx
      simp only [if_pos hx]; exact gammaP_mem hk (div_pos hx (Lib.eps_pos.trans_le hθ)))
    (fun x hx => pgamma_fin hk hθ x (Or.inl hx))
example : QuantOfCdfOn (fun x => pgamma x (fin 2) (fin 2)) (fun u => qgamma u (fin 2) (fin 2)) (Set.Ici Lib.eps) :=
  C14_gamma_partial (k := 2) (θ := 2) (hk := by meets) (hθ := by meets)

theorem C14_gamma_violated {k θ : ℝ} (hk : 0 < k) (hθ : Lib.eps ≤ θ) :
    ¬ QuantOfCdfOn (fun x => pgamma x (fin k) (fin θ)) (fun u => qgamma u (fin k) (fin θ)) (Set.Ioi 0) := by
  intro hc
  have he := Lib.eps_pos
  have := hc (Lib.eps / 2) (half_pos he)
  simp only [gamma_cut (half_lt_self he) hk hθ, qgamma_zero hk hθ] at this
  injection this with this
  linarith
example : ¬ QuantOfCdfOn (fun x => pgamma x (fin 2) (fin 2)) (fun u => qgamma u (fin 2) (fin 2)) (Set.Ioi 0) :=
  C14_gamma_violated (k := 2) (θ := 2) (hk := by meets) (hθ := by meets)

/-- missing: probabilities whose quantile is below `eps` -/
theorem C15_gamma_partial {k θ : ℝ} (hk : 0 < k) (hθ : Lib.eps ≤ θ) :
    CdfOfQuantOn (fun x => pgamma x (fin k) (fin θ)) (fun u => qgamma u (fin k) (fin θ)) (Set.Ici Lib.eps) :=
  cdfOfQuantOn_of (isCdf_gamma hk (Lib.eps_pos.trans_le hθ)) (qgamma_inv hk hθ)
    (fun x hx => pgamma_fin hk hθ x (Or.inl hx))
example : CdfOfQuantOn (fun x => pgamma x (fin 2) (fin 2)) (fun u => qgamma u (fin 2) (fin 2)) (Set.Ici Lib.eps) :=
  C15_gamma_partial (k := 2) (θ := 2) (hk := by meets) (hθ := by meets)

theorem C15_gamma_violated {k θ : ℝ} (hk : 0 < k) (hθ : Lib.eps ≤ θ) :
    ¬ CdfOfQuant (fun x => pgamma x (fin k) (fin θ)) (fun u => qgamma u (fin k) (fin θ)) := by
  intro hc
  have he := half_pos Lib.eps_pos
  obtain ⟨h0, h1⟩ := gammaP_mem hk (div_pos he (Lib.eps_pos.trans_le hθ))
  have hq := qgamma_inv hk hθ (Lib.eps / 2) (by simpa only [if_pos he]) (by simpa only [if_pos he])
  have := hc _ h0 h1
  simp only [if_pos he] at hq
  simp only [hq, gamma_cut (half_lt_self Lib.eps_pos) hk hθ] at this
  injection this with this
  linarith
example : ¬ CdfOfQuant (fun x => pgamma x (fin 2) (fin 2)) (fun u => qgamma u (fin 2) (fin 2)) :=
  C15_gamma_violated (k := 2) (θ := 2) (hk := by meets) (hθ := by meets)

theorem C16_gamma {k θ : ℝ} (hk : 0 < k) (hθ : Lib.eps ≤ θ) :
    MonoQuant (fun u => qgamma u (fin k) (fin θ)) (fin 0) pinf := by
  refine monoQuant_of (isCdf_gamma hk (Lib.eps_pos.trans_le hθ)) (qgamma_inv hk hθ) (qgamma_zero hk hθ) ?_ ?_
    (by simp) (by simp)
  · simp [qgamma, gamma_ok, prob_val_ok, eps, not_lt.2 hk.le, not_lt.2 hθ]
  · intro x h0 _
    have hx : 0 < x := by by_contra hc; rw [if_neg hc] at h0; exact lt_irrefl _ h0
    simpa using hx.le
example : MonoQuant (fun u => qgamma u (fin 2) (fin 2)) (fin 0) pinf :=
  C16_gamma (k := 2) (θ := 2) (hk := by meets) (hθ := by meets)

/-! ### chi-squared -/

theorem chisq_cut {x : ℝ} (h : x < Lib.eps) {k : ℝ} (hk : 0 < k) : pchisq (fin x) (fin k) false = fin 0 := by
  simp [pchisq, chisq_ok', chisq_ok, eps, h, not_lt.2 hk.le]

theorem qchisq_zero {k : ℝ} (hk : 0 < k) : qchisq (fin 0) (fin k) = fin 0 := by
  simp [qchisq, chisq_ok, prob_val_ok, not_lt.2 hk.le]

/-- missing: `0 < x < eps` (violated) -/
theorem C14_chisq_partial {k : ℝ} (hk : 0 < k) :
    QuantOfCdfOn (fun x => pchisq x (fin k)) (fun u => qchisq u (fin k)) (Set.Ici Lib.eps) :=
  quantOfCdfOn_of (qchisq_inv hk)
    (fun x hx => by
      have hx : 0 < x := Lib.eps_pos.trans_le hx
      simp only [if_pos hx]; exact gammaP_mem (half_pos hk) (half_pos hx))
    (fun x hx => pchisq_fin hk x (Or.inl hx))
example : QuantOfCdfOn (fun x => pchisq x (fin 2)) (fun u => qchisq u (fin 2)) (Set.Ici Lib.eps) :=
  C14_chisq_partial (k := 2) (hk := by meets)

theorem C14_chisq_violated {k : ℝ} (hk : 0 < k) :
    ¬ QuantOfCdfOn (fun x => pchisq x (fin k)) (fun u => qchisq u (fin k)) (Set.Ioi 0) := by
  intro hc
  have he := Lib.eps_pos
  have := hc (Lib.eps / 2) (half_pos he)
  simp only [chisq_cut (half_lt_self he) hk, qchisq_zero hk] at this
  injection this with this
  linarith
example : ¬ QuantOfCdfOn (fun x => pchisq x (fin 2)) (fun u => qchisq u (fin 2)) (Set.Ioi 0) :=
  C14_chisq_violated (k := 2) (hk := by meets)

/-- missing: probabilities whose quantile is below `eps` -/
theorem C15_chisq_partial {k : ℝ} (hk : 0 < k) :
    CdfOfQuantOn (fun x => pchisq x (fin k)) (fun u => qchisq u (fin k)) (Set.Ici Lib.eps) :=
  cdfOfQuantOn_of (isCdf_chisq hk) (qchisq_inv hk) (fun x hx => pchisq_fin hk x (Or.inl hx))
example : CdfOfQuantOn (fun x => pchisq x (fin 2)) (fun u => qchisq u (fin 2)) (Set.Ici Lib.eps) :=
  C15_chisq_partial (k := 2) (hk := by meets)

theorem C15_chisq_violated {k : ℝ} (hk : 0 < k) :
    ¬ CdfOfQuant (fun x => pchisq x (fin k)) (fun u => qchisq u (fin k)) := by
  intro hc
  have he := half_pos Lib.eps_pos
  obtain ⟨h0, h1⟩ := gammaP_mem (half_pos hk) (half_pos he)
  have hq := qchisq_inv hk (Lib.eps / 2) (by simpa only [if_pos he]) (by simpa only [if_pos he])
  have := hc _ h0 h1
  simp only [if_pos he] at hq
  simp only [hq, chisq_cut (half_lt_self Lib.eps_pos) hk] at this
  injection this with this
  linarith
example : ¬ CdfOfQuant (fun x => pchisq x (fin 2)) (fun u => qchisq u (fin 2)) :=
  C15_chisq_violated (k := 2) (hk := by meets)

theorem C16_chisq {k : ℝ} (hk : 0 < k) : MonoQuant (fun u => qchisq u (fin k)) (fin 0) pinf := by
  refine monoQuant_of (isCdf_chisq hk) (qchisq_inv hk) (qchisq_zero hk) ?_ ?_ (by simp) (by simp)
  · simp [qchisq, chisq_ok, prob_val_ok, not_lt.2 hk.le]
  · intro x h0 _
    have hx : 0 < x := by by_contra hc; rw [if_neg hc] at h0; exact lt_irrefl _ h0
    simpa using hx.le
example : MonoQuant (fun u => qchisq u (fin 2)) (fin 0) pinf := C16_chisq (k := 2) (hk := by meets)

/-! ### inverse gamma -/

/-- points at which the cut-off of `pgamma` at `1/x` does not bite -/
def invCut : Set ℝ := {x | 0 < x ∧ Lib.eps ≤ 1 / x}

/-- missing: `x > 1/eps`, where `pgamma` replaces `1/x` by 0 (violated), and `rate > 1/eps` (NaN) -/
theorem C14_invgamma_partial {α β : ℝ} (ha : 0 < α) (hb : 0 < β) (hb' : Lib.eps ≤ 1 / β) :
    QuantOfCdfOn (fun x => pinvgamma x (fin α) (fin β)) (fun u => qinvgamma u (fin α) (fin β)) invCut :=
  quantOfCdfOn_of (qinvgamma_inv ha hb)
    (fun x hx => by
      simp only [if_pos hx.1]
      obtain ⟨h0, h1⟩ := gammaP_mem ha (div_pos hb hx.1)
      constructor <;> linarith)
    (fun x hx => pinvgamma_fin ha hb hb' x (Or.inl hx.2))
example : QuantOfCdfOn (fun x => pinvgamma x (fin 3) (fin 2)) (fun u => qinvgamma u (fin 3) (fin 2)) invCut :=
  C14_invgamma_partial (α := 3) (β := 2) (ha := by meets) (hb := by meets) (hb' := by meets)

theorem invgamma_cut {x : ℝ} (hx : 0 < x) (h : 1 / x < Lib.eps) {α β : ℝ} (ha : 0 < α) (hb : 0 < β)
    (hb' : Lib.eps ≤ 1 / β) : pinvgamma (fin x) (fin α) (fin β) false = fin 1 := by
  have := gamma_cut h ha hb'
  simp only [pinvgamma, invgamma_ok', invgamma_ok, pinvgamma_limit_vals, pinvgamma_compute, ideal,
    ifin_div _ hx.ne', ifin_div _ hb.ne']
  rw [one_div, one_div] at this
  simp [not_lt.2 ha.le, not_lt.2 hb.le, not_lt.2 hx.le, hb.ne', hx.ne', this, ideal]

theorem C14_invgamma_violated {α β : ℝ} (ha : 0 < α) (hb : 0 < β) (hb' : Lib.eps ≤ 1 / β) :
    ¬ QuantOfCdfOn (fun x => pinvgamma x (fin α) (fin β)) (fun u => qinvgamma u (fin α) (fin β)) (Set.Ioi 0) := by
  intro hc
  have he := Lib.eps_pos
  have hx : 0 < 2 / Lib.eps := by positivity
  have h1 : 1 / (2 / Lib.eps) < Lib.eps := by rw [one_div_div]; linarith
  have := hc (2 / Lib.eps) hx
  simp only [invgamma_cut hx h1 ha hb hb'] at this
  simp [qinvgamma, invgamma_ok, prob_val_ok, not_lt.2 ha.le, not_lt.2 hb.le] at this
example : ¬ QuantOfCdfOn (fun x => pinvgamma x (fin 3) (fin 2)) (fun u => qinvgamma u (fin 3) (fin 2)) (Set.Ioi 0) :=
  C14_invgamma_violated (α := 3) (β := 2) (ha := by meets) (hb := by meets) (hb' := by meets)

/-- missing: probabilities whose quantile is above `1/eps`, and `rate > 1/eps` (NaN) -/
theorem C15_invgamma_partial {α β : ℝ} (ha : 0 < α) (hb : 0 < β) (hb' : Lib.eps ≤ 1 / β) :
    CdfOfQuantOn (fun x => pinvgamma x (fin α) (fin β)) (fun u => qinvgamma u (fin α) (fin β)) invCut :=
  cdfOfQuantOn_of (isCdf_invgamma ha hb) (qinvgamma_inv ha hb) (fun x hx => pinvgamma_fin ha hb hb' x (Or.inl hx.2))
example : CdfOfQuantOn (fun x => pinvgamma x (fin 3) (fin 2)) (fun u => qinvgamma u (fin 3) (fin 2)) invCut :=
  C15_invgamma_partial (α := 3) (β := 2) (ha := by meets) (hb := by meets) (hb' := by meets)

theorem C15_invgamma_violated {α β : ℝ} (ha : 0 < α) (hb : 0 < β) (hb' : Lib.eps ≤ 1 / β) :
    ¬ CdfOfQuant (fun x => pinvgamma x (fin α) (fin β)) (fun u => qinvgamma u (fin α) (fin β)) := by
  intro hc
  have he := Lib.eps_pos
  have hx : 0 < 2 / Lib.eps := by positivity
  have hx1 : 1 / (2 / Lib.eps) < Lib.eps := by rw [one_div_div]; linarith
  obtain ⟨h0, h1⟩ := gammaP_mem ha (div_pos hb hx)
  have hq := qinvgamma_inv ha hb (2 / Lib.eps) (by simp only [if_pos hx]; linarith) (by simp only [if_pos hx]; linarith)
  have := hc (1 - gammaP α (β / (2 / Lib.eps))) (by linarith) (by linarith)
  simp only [if_pos hx] at hq
  simp only [hq, invgamma_cut hx hx1 ha hb hb'] at this
  injection this with this
  linarith
example : ¬ CdfOfQuant (fun x => pinvgamma x (fin 3) (fin 2)) (fun u => qinvgamma u (fin 3) (fin 2)) :=
  C15_invgamma_violated (α := 3) (β := 2) (ha := by meets) (hb := by meets) (hb' := by meets)

theorem C16_invgamma {α β : ℝ} (ha : 0 < α) (hb : 0 < β) :
    MonoQuant (fun u => qinvgamma u (fin α) (fin β)) (fin 0) pinf := by
  refine monoQuant_of (isCdf_invgamma ha hb) (qinvgamma_inv ha hb) ?_ ?_ ?_ (by simp) (by simp)
  · simp [qinvgamma, invgamma_ok, prob_val_ok, not_lt.2 ha.le, not_lt.2 hb.le]
  · simp [qinvgamma, invgamma_ok, prob_val_ok, not_lt.2 ha.le, not_lt.2 hb.le]
  · intro x h0 _
    have hx : 0 < x := by by_contra hc; rw [if_neg hc] at h0; exact lt_irrefl _ h0
    simpa using hx.le
example : MonoQuant (fun u => qinvgamma u (fin 3) (fin 2)) (fin 0) pinf :=
  C16_invgamma (α := 3) (β := 2) (ha := by meets) (hb := by meets)

/-! ### F -/

theorem fCdf_mem {d₁ d₂ x : ℝ} (h1 : 0 < d₁) (h2 : 0 < d₂) (hx : 0 < x) : 0 < fCdf d₁ d₂ x ∧ fCdf d₁ d₂ x < 1 := by
  obtain ⟨m0, m1⟩ := div_one_add_mem (show 0 < d₁ * x / d₂ by positivity)
  have := betaCdf_mem (half_pos h1) (half_pos h2) m0 m1
  rwa [betaCdf, if_neg (not_le.2 m0), if_neg (not_le.2 m1)] at this

theorem f_cut {x : ℝ} (h : x < Lib.eps) {d₁ d₂ : ℝ} (h1 : Lib.eps ≤ d₁) (h2 : Lib.eps ≤ d₂) :
    pf (fin x) (fin d₁) (fin d₂) false = fin 0 := by
  simp [pf, f_ok', f_ok, eps, h, not_lt.2 h1, not_lt.2 h2]

theorem qf_zero {d₁ d₂ : ℝ} (h1 : Lib.eps ≤ d₁) (h2 : Lib.eps ≤ d₂) : qf (fin 0) (fin d₁) (fin d₂) = fin 0 := by
  simp [qf, f_ok, prob_val_ok, eps, not_lt.2 h1, not_lt.2 h2]

/-- missing: `0 < x < eps` (violated) and degrees of freedom below `eps` (rejected by the code) -/
theorem C14_f_partial {d₁ d₂ : ℝ} (h1 : Lib.eps ≤ d₁) (h2 : Lib.eps ≤ d₂) :
    QuantOfCdfOn (fun x => pf x (fin d₁) (fin d₂)) (fun u => qf u (fin d₁) (fin d₂)) (Set.Ici Lib.eps) :=
  quantOfCdfOn_of (qf_inv h1 h2)
    (fun x hx => by
      have hx : 0 < x := Lib.eps_pos.trans_le hx
      simp only [if_pos hx]; exact fCdf_mem (Lib.eps_pos.trans_le h1) (Lib.eps_pos.trans_le h2) hx)
    (fun x hx => pf_fin h1 h2 x (Or.inl hx))
example : QuantOfCdfOn (fun x => pf x (fin 3) (fin 3)) (fun u => qf u (fin 3) (fin 3)) (Set.Ici Lib.eps) :=
  C14_f_partial (d₁ := 3) (d₂ := 3) (h1 := by meets) (h2 := by meets)

theorem C14_f_violated {d₁ d₂ : ℝ} (h1 : Lib.eps ≤ d₁) (h2 : Lib.eps ≤ d₂) :
    ¬ QuantOfCdfOn (fun x => pf x (fin d₁) (fin d₂)) (fun u => qf u (fin d₁) (fin d₂)) (Set.Ioi 0) := by
  intro hc
  have he := Lib.eps_pos
  have := hc (Lib.eps / 2) (half_pos he)
  simp only [f_cut (half_lt_self he) h1 h2, qf_zero h1 h2] at this
  injection this with this
  linarith
example : ¬ QuantOfCdfOn (fun x => pf x (fin 3) (fin 3)) (fun u => qf u (fin 3) (fin 3)) (Set.Ioi 0) :=
  C14_f_violated (d₁ := 3) (d₂ := 3) (h1 := by meets) (h2 := by meets)

/-- missing: probabilities whose quantile is below `eps` -/
theorem C15_f_partial {d₁ d₂ : ℝ} (h1 : Lib.eps ≤ d₁) (h2 : Lib.eps ≤ d₂) :
    CdfOfQuantOn (fun x => pf x (fin d₁) (fin d₂)) (fun u => qf u (fin d₁) (fin d₂)) (Set.Ici Lib.eps) :=
  cdfOfQuantOn_of (isCdf_f (Lib.eps_pos.trans_le h1) (Lib.eps_pos.trans_le h2)) (qf_inv h1 h2)
    (fun x hx => pf_fin h1 h2 x (Or.inl hx))
example : CdfOfQuantOn (fun x => pf x (fin 3) (fin 3)) (fun u => qf u (fin 3) (fin 3)) (Set.Ici Lib.eps) :=
  C15_f_partial (d₁ := 3) (d₂ := 3) (h1 := by meets) (h2 := by meets)

theorem C15_f_violated {d₁ d₂ : ℝ} (hd1 : Lib.eps ≤ d₁) (hd2 : Lib.eps ≤ d₂) :
    ¬ CdfOfQuant (fun x => pf x (fin d₁) (fin d₂)) (fun u => qf u (fin d₁) (fin d₂)) := by
  intro hc
  have he := half_pos Lib.eps_pos
  obtain ⟨h0, h1⟩ := fCdf_mem (Lib.eps_pos.trans_le hd1) (Lib.eps_pos.trans_le hd2) he
  have hq := qf_inv hd1 hd2 (Lib.eps / 2) (by simpa only [if_pos he]) (by simpa only [if_pos he])
  have := hc _ h0 h1
  simp only [if_pos he] at hq
  simp only [hq, f_cut (half_lt_self Lib.eps_pos) hd1 hd2] at this
  injection this with this
  linarith
example : ¬ CdfOfQuant (fun x => pf x (fin 3) (fin 3)) (fun u => qf u (fin 3) (fin 3)) :=
  C15_f_violated (d₁ := 3) (d₂ := 3) (hd1 := by meets) (hd2 := by meets)

theorem C16_f {d₁ d₂ : ℝ} (h1 : Lib.eps ≤ d₁) (h2 : Lib.eps ≤ d₂) :
    MonoQuant (fun u => qf u (fin d₁) (fin d₂)) (fin 0) pinf := by
  refine monoQuant_of (isCdf_f (Lib.eps_pos.trans_le h1) (Lib.eps_pos.trans_le h2)) (qf_inv h1 h2) (qf_zero h1 h2)
    ?_ ?_ (by simp) (by simp)
  · simp [qf, f_ok, prob_val_ok, eps, not_lt.2 h1, not_lt.2 h2]
  · intro x h0 _
    have hx : 0 < x := by by_contra hc; rw [if_neg hc] at h0; exact lt_irrefl _ h0
    simpa using hx.le
example : MonoQuant (fun u => qf u (fin 3) (fin 3)) (fin 0) pinf :=
  C16_f (d₁ := 3) (d₂ := 3) (h1 := by meets) (h2 := by meets)

/-! ### Weibull -/

theorem weibull_mem {k θ x : ℝ} (h2 : 0 < θ) (hx : 0 < x) :
    0 < 1 - Real.exp (-(x / θ) ^ k) ∧ 1 - Real.exp (-(x / θ) ^ k) < 1 := by
  have := Real.rpow_pos_of_pos (div_pos hx h2) k
  have h3 : Real.exp (-(x / θ) ^ k) < 1 := Real.exp_lt_one_iff.2 (by linarith)
  have := Real.exp_pos (-(x / θ) ^ k)
  constructor <;> linarith

theorem weibull_cut {x : ℝ} (h : x < Lib.eps) {k θ : ℝ} (h1 : Lib.eps ≤ k) (h2 : Lib.eps ≤ θ) :
    pweibull (fin x) (fin k) (fin θ) false = fin 0 := by
  simp [pweibull, weibull_ok', weibull_ok, eps, h, not_lt.2 h1, not_lt.2 h2]

theorem qweibull_zero {k θ : ℝ} (h1 : Lib.eps ≤ k) (h2 : Lib.eps ≤ θ) :
    qweibull (fin 0) (fin k) (fin θ) = fin 0 := by
  simp [qweibull, weibull_ok, prob_val_ok, eps, not_lt.2 h1, not_lt.2 h2, (Lib.eps_pos.trans_le h1).ne']

/-- missing: `0 < x < eps` (violated) and parameters below `eps` (rejected by the code) -/
theorem C14_weibull_partial {k θ : ℝ} (h1 : Lib.eps ≤ k) (h2 : Lib.eps ≤ θ) :
    QuantOfCdfOn (fun x => pweibull x (fin k) (fin θ)) (fun u => qweibull u (fin k) (fin θ)) (Set.Ici Lib.eps) :=
  quantOfCdfOn_of (qweibull_inv h1 h2)
    (fun x hx => by
      have hx : 0 < x := Lib.eps_pos.trans_le hx
      simp only [if_pos hx]; exact weibull_mem (Lib.eps_pos.trans_le h2) hx)
    (fun x hx => pweibull_fin h1 h2 x (Or.inl hx))
example : QuantOfCdfOn (fun x => pweibull x (fin 2) (fin 2)) (fun u => qweibull u (fin 2) (fin 2)) (Set.Ici Lib.eps) :=
  C14_weibull_partial (k := 2) (θ := 2) (h1 := by meets) (h2 := by meets)

theorem C14_weibull_violated {k θ : ℝ} (h1 : Lib.eps ≤ k) (h2 : Lib.eps ≤ θ) :
    ¬ QuantOfCdfOn (fun x => pweibull x (fin k) (fin θ)) (fun u => qweibull u (fin k) (fin θ)) (Set.Ioi 0) := by
  intro hc
  have he := Lib.eps_pos
  have := hc (Lib.eps / 2) (half_pos he)
  simp only [weibull_cut (half_lt_self he) h1 h2, qweibull_zero h1 h2] at this
  injection this with this
  linarith
example : ¬ QuantOfCdfOn (fun x => pweibull x (fin 2) (fin 2)) (fun u => qweibull u (fin 2) (fin 2)) (Set.Ioi 0) :=
  C14_weibull_violated (k := 2) (θ := 2) (h1 := by meets) (h2 := by meets)

/-- missing: probabilities whose quantile is below `eps` -/
theorem C15_weibull_partial {k θ : ℝ} (h1 : Lib.eps ≤ k) (h2 : Lib.eps ≤ θ) :
    CdfOfQuantOn (fun x => pweibull x (fin k) (fin θ)) (fun u => qweibull u (fin k) (fin θ)) (Set.Ici Lib.eps) :=
  cdfOfQuantOn_of (isCdf_weibull (Lib.eps_pos.trans_le h1) (Lib.eps_pos.trans_le h2)) (qweibull_inv h1 h2)
    (fun x hx => pweibull_fin h1 h2 x (Or.inl hx))
example : CdfOfQuantOn (fun x => pweibull x (fin 2) (fin 2)) (fun u => qweibull u (fin 2) (fin 2)) (Set.Ici Lib.eps) :=
  C15_weibull_partial (k := 2) (θ := 2) (h1 := by meets) (h2 := by meets)

theorem C15_weibull_violated {k θ : ℝ} (hd1 : Lib.eps ≤ k) (hd2 : Lib.eps ≤ θ) :
    ¬ CdfOfQuant (fun x => pweibull x (fin k) (fin θ)) (fun u => qweibull u (fin k) (fin θ)) := by
  intro hc
  have he := half_pos Lib.eps_pos
  obtain ⟨h0, h1⟩ := weibull_mem (k := k) (Lib.eps_pos.trans_le hd2) he
  have hq := qweibull_inv hd1 hd2 (Lib.eps / 2) (by simpa only [if_pos he]) (by simpa only [if_pos he])
  have := hc _ h0 h1
  simp only [if_pos he] at hq
  simp only [hq, weibull_cut (half_lt_self Lib.eps_pos) hd1 hd2] at this
  injection this with this
  linarith
example : ¬ CdfOfQuant (fun x => pweibull x (fin 2) (fin 2)) (fun u => qweibull u (fin 2) (fin 2)) :=
  C15_weibull_violated (k := 2) (θ := 2) (hd1 := by meets) (hd2 := by meets)

theorem C16_weibull {k θ : ℝ} (h1 : Lib.eps ≤ k) (h2 : Lib.eps ≤ θ) :
    MonoQuant (fun u => qweibull u (fin k) (fin θ)) (fin 0) pinf := by
  refine monoQuant_of (isCdf_weibull (Lib.eps_pos.trans_le h1) (Lib.eps_pos.trans_le h2)) (qweibull_inv h1 h2)
    (qweibull_zero h1 h2) ?_ ?_ (by simp) (by simp)
  · simp [qweibull, weibull_ok, prob_val_ok, eps, not_lt.2 h1, not_lt.2 h2, (Lib.eps_pos.trans_le h1).ne']
  · intro x h0 _
    have hx : 0 < x := by by_contra hc; rw [if_neg hc] at h0; exact lt_irrefl _ h0
    simpa using hx.le
example : MonoQuant (fun u => qweibull u (fin 2) (fin 2)) (fin 0) pinf :=
  C16_weibull (k := 2) (θ := 2) (h1 := by meets) (h2 := by meets)

end Stats

namespace Stats.ExamplesC14
open Fl Spec
open scoped Stats.Exact

/-- at concrete parameters and points -/
example : qnorm (pnorm (fin 3) (fin 1) (fin 2) false) (fin 1) (fin 2) = fin 3 := C14_norm 1 two_pos 3 trivial
example : qgamma (pgamma (fin 3) (fin 1) (fin 2) false) (fin 1) (fin 2) = fin 3 :=
  C14_gamma_partial one_pos (Exact.eps_le (by norm_num)) 3 (Set.mem_Ici.2 (Exact.eps_le (by norm_num)))
example : pbeta (qbeta (fin (1 / 3)) (fin 2) (fin 5)) (fin 2) (fin 5) false = fin (1 / 3) :=
  C15_beta two_pos (by norm_num) _ (by norm_num) (by norm_num)
example : qweibull (fin (1 / 4)) (fin 2) (fin 5) ≤ qweibull (fin (1 / 3)) (fin 2) (fin 5) :=
  (C16_weibull (Exact.eps_le (by norm_num)) (Exact.eps_le (by norm_num))).2.2 _ _ (by norm_num) (by norm_num) (by norm_num)

end Stats.ExamplesC14
