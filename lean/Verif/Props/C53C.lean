import Verif.Props.C53B
import Verif.Props.C51R
import Verif.Lemmas.Meets

/-!
# C53, exact arithmetic: how the quantiles and the draws move with a parameter
-/

set_option linter.unusedSectionVars false
open Classical
namespace Stats
open Fl Spec

section quantiles
variable [Lib] [Ideal]

/-- A quantile function with what is known about it: the distribution function it inverts and its values at 0 and 1. -/
structure QFam (q : Fl → Fl) (F f : ℝ → ℝ) (lo hi : Fl) : Prop where
  cdf : IsCdf F f
  inv : IsInv q F
  mono : MonoQuant q lo hi

omit [Lib] [Ideal] in
theorem isInv_inj {q : Fl → Fl} {F : ℝ → ℝ} (h : IsInv q F) {x y : ℝ} (h0 : 0 < F x) (h1 : F x < 1) (e : F x = F y) :
    x = y := by
  have a := h x h0 h1
  have b := h y (e ▸ h0) (e ▸ h1)
  rw [e, b] at a
  simpa using a.symm

omit [Lib] [Ideal] in
theorem QFam.le_at {q r : Fl → Fl} {F f G g : ℝ → ℝ} {a b c d : Fl} (hq : QFam q F f a b) (hr : QFam r G g c d) {u : ℝ}
    (h0 : 0 < u) (h1 : u < 1) (h : ∀ y, G y = u → u ≤ F y) : q (fin u) ≤ r (fin u) := by
  obtain ⟨x, hx⟩ := hq.cdf.exists_eq h0 h1
  obtain ⟨y, hy⟩ := hr.cdf.exists_eq h0 h1
  have e1 : q (fin u) = fin x := hx ▸ hq.inv x (hx ▸ h0) (hx ▸ h1)
  have e2 : r (fin u) = fin y := hy ▸ hr.inv y (hy ▸ h0) (hy ▸ h1)
  rw [e1, e2, fin_le_fin]
  by_contra hc
  rw [not_le] at hc
  have h2 := hq.cdf.mono hc.le
  have h3 : F y = F x := le_antisymm h2 (hx ▸ h y hy)
  exact hc.ne (isInv_inj hq.inv (by rw [h3, hx]; exact h0) (by rw [h3, hx]; exact h1) h3)

omit [Lib] [Ideal] in
theorem QFam.le {q r : Fl → Fl} {F f G g : ℝ → ℝ} {a b c d : Fl} (hq : QFam q F f a b) (hr : QFam r G g c d)
    (h : ∀ x, G x ≤ F x) (hac : a ≤ c) (hbd : b ≤ d) {u : ℝ} (h0 : 0 ≤ u) (h1 : u ≤ 1) : q (fin u) ≤ r (fin u) := by
  rcases h0.eq_or_lt with rfl | h0
  · rw [hq.mono.1, hr.mono.1]; exact hac
  · rcases h1.eq_or_lt with rfl | h1
    · rw [hq.mono.2.1, hr.mono.2.1]; exact hbd
    · exact hq.le_at hr h0 h1 fun y hy => hy ▸ h y

omit [Lib] [Ideal] in
/-- `G` is the wider of the two. -/
theorem QFam.wider {q r : Fl → Fl} {F f G g : ℝ → ℝ} {a b : Fl} (hq : QFam q F f a b) (hr : QFam r G g a b) {m u₀ : ℝ}
    (ha : a ≤ a) (hb : b ≤ b) (hF : F m = u₀) (hG : G m = u₀) (h0 : 0 < u₀) (h1 : u₀ < 1)
    (hR : ∀ x, m ≤ x → G x ≤ F x) (hL : ∀ x, x ≤ m → F x ≤ G x) :
    (∀ u : ℝ, u₀ ≤ u → u ≤ 1 → q (fin u) ≤ r (fin u)) ∧ ∀ u : ℝ, 0 ≤ u → u ≤ u₀ → r (fin u) ≤ q (fin u) := by
  constructor
  · intro u hu hu1
    rcases hu1.eq_or_lt with rfl | hu1
    · rw [hq.mono.2.1, hr.mono.2.1]; exact hb
    · refine hq.le_at hr (h0.trans_le hu) hu1 fun y hy => hy ▸ hR y ?_
      by_contra hc
      have e : G y = G m := le_antisymm (hr.cdf.mono (not_le.1 hc).le) (by rw [hG, hy]; exact hu)
      exact (not_le.1 hc).ne (isInv_inj hr.inv (by rw [hy]; linarith) (by rw [hy]; exact hu1) e)
  · intro u hu0 hu
    rcases hu0.eq_or_lt with rfl | hu0
    · rw [hq.mono.1, hr.mono.1]; exact ha
    · refine hr.le_at hq hu0 (hu.trans_lt h1) fun y hy => hy ▸ hL y ?_
      by_contra hc
      have e : F m = F y := le_antisymm (hq.cdf.mono (not_le.1 hc).le) (by rw [hF, hy]; exact hu)
      exact (not_le.1 hc).ne (isInv_inj hq.inv (by rw [hF]; exact h0) (by rw [hF]; exact h1) e)

/-! ### Location and scale -/

omit [Lib] [Ideal] in
theorem locRises {q : ℝ → Fl → Fl} {H : ℝ → ℝ} {f : ℝ → ℝ → ℝ} {a b : Fl} {σ : ℝ} (hσ : 0 < σ) (hH : Monotone H)
    (ha : a ≤ a) (hb : b ≤ b) (h : ∀ m, QFam (q m) (fun x => H ((x - m) / σ)) (f m) a b) : QuantRises Set.univ q := by
  intro s _ t _ hst u h0 h1
  exact (h s).le (h t) (fun x => hH (by gcongr)) ha hb h0 h1

omit [Lib] [Ideal] in
theorem scaleSpreads {q : ℝ → Fl → Fl} {H : ℝ → ℝ} {f : ℝ → ℝ → ℝ} {a b : Fl} {m : ℝ} (hH : Monotone H)
    (hH0 : H 0 = 1 / 2) (ha : a ≤ a) (hb : b ≤ b)
    (h : ∀ σ, 0 < σ → QFam (q σ) (fun x => H ((x - m) / σ)) (f σ) a b) : QuantSpreads (Set.Ioi 0) (1 / 2) q := by
  intro s hs t ht hst
  have hs : 0 < s := hs
  have ht : 0 < t := ht
  refine (h s hs).wider (h t ht) (m := m) ha hb (by simp [hH0]) (by simp [hH0]) (by norm_num) (by norm_num) ?_ ?_ <;>
    intro x hx <;> apply hH
  · exact div_le_div_of_nonneg_left (by linarith) hs hst
  · rw [div_le_div_iff₀ hs ht]; nlinarith

omit [Lib] [Ideal] in
theorem Phi_mono : Monotone Phi := by
  have := (isCdf_norm 0 one_pos).mono
  simpa using this

omit [Lib] [Ideal] in
theorem Phi_half : Phi 0 = 1 / 2 := by
  simp [Phi]

theorem qfam_norm (mu : ℝ) {sigma : ℝ} (h : 0 < sigma) :
    QFam (fun u => qnorm u (fin mu) (fin sigma)) (fun x => Phi ((x - mu) / sigma)) (normPdf mu sigma) ninf pinf :=
  ⟨isCdf_norm mu h, qnorm_inv mu h, C16_norm mu h⟩

theorem C53_qnorm_mu {sigma : ℝ} (h : 0 < sigma) : QuantRises Set.univ fun mu u => qnorm u (fin mu) (fin sigma) :=
  locRises h Phi_mono (by simp) (by simp) fun mu => qfam_norm mu h
example : qnorm (fin (1 / 3)) (fin 0) (fin 2) ≤ qnorm (fin (1 / 3)) (fin 3) (fin 2) :=
  C53_qnorm_mu (by meets) 0 trivial 3 trivial (by meets) (1 / 3) (by meets) (by meets)

theorem C53_qnorm_sigma (mu : ℝ) : QuantSpreads (Set.Ioi 0) (1 / 2) fun sigma u => qnorm u (fin mu) (fin sigma) :=
  scaleSpreads Phi_mono Phi_half (by simp) (by simp) fun _ h => qfam_norm mu h
example : qnorm (fin (1 / 3)) (fin 3) (fin 5) ≤ qnorm (fin (1 / 3)) (fin 3) (fin 2) :=
  (C53_qnorm_sigma 3 2 (by meets) 5 (by meets) (by meets)).2 (1 / 3) (by meets) (by meets)

theorem qfam_cauchy (mu : ℝ) {sigma : ℝ} (h : 0 < sigma) :
    QFam (fun u => qcauchy u (fin mu) (fin sigma)) (fun x => 1 / 2 + Real.arctan ((x - mu) / sigma) / Real.pi)
      (cauchyPdf mu sigma) ninf pinf :=
  ⟨isCdf_cauchy mu h, qcauchy_inv mu h, C16_cauchy mu h⟩

omit [Lib] [Ideal] in
theorem arctan_mono : Monotone fun z => 1 / 2 + Real.arctan z / Real.pi := by
  intro x y h
  have := Real.arctan_strictMono.monotone h
  have := Real.pi_pos
  beta_reduce
  gcongr

theorem C53_qcauchy_mu {sigma : ℝ} (h : 0 < sigma) : QuantRises Set.univ fun mu u => qcauchy u (fin mu) (fin sigma) :=
  locRises (H := fun z => 1 / 2 + Real.arctan z / Real.pi) h arctan_mono (by simp) (by simp) fun mu => qfam_cauchy mu h
example : qcauchy (fin (1 / 3)) (fin 0) (fin 2) ≤ qcauchy (fin (1 / 3)) (fin 3) (fin 2) :=
  C53_qcauchy_mu (by meets) 0 trivial 3 trivial (by meets) (1 / 3) (by meets) (by meets)

theorem C53_qcauchy_sigma (mu : ℝ) : QuantSpreads (Set.Ioi 0) (1 / 2) fun sigma u => qcauchy u (fin mu) (fin sigma) :=
  scaleSpreads (H := fun z => 1 / 2 + Real.arctan z / Real.pi) arctan_mono (by simp) (by simp) (by simp)
    fun _ h => qfam_cauchy mu h
example : qcauchy (fin (1 / 3)) (fin 3) (fin 5) ≤ qcauchy (fin (1 / 3)) (fin 3) (fin 2) :=
  (C53_qcauchy_sigma 3 2 (by meets) 5 (by meets) (by meets)).2 (1 / 3) (by meets) (by meets)

theorem qfam_logis (mu : ℝ) {sigma : ℝ} (h : 0 < sigma) :
    QFam (fun u => qlogis u (fin mu) (fin sigma)) (fun x => 1 / (1 + Real.exp (-((x - mu) / sigma))))
      (logisPdf mu sigma) ninf pinf :=
  ⟨isCdf_logis mu h, qlogis_inv mu h, C16_logis mu h⟩

omit [Lib] [Ideal] in
theorem logis_mono : Monotone fun z : ℝ => 1 / (1 + Real.exp (-z)) := by
  intro x y h
  beta_reduce
  gcongr

theorem C53_qlogis_mu {sigma : ℝ} (h : 0 < sigma) : QuantRises Set.univ fun mu u => qlogis u (fin mu) (fin sigma) :=
  locRises (H := fun z => 1 / (1 + Real.exp (-z))) h logis_mono (by simp) (by simp) fun mu => qfam_logis mu h
example : qlogis (fin (1 / 3)) (fin 0) (fin 2) ≤ qlogis (fin (1 / 3)) (fin 3) (fin 2) :=
  C53_qlogis_mu (by meets) 0 trivial 3 trivial (by meets) (1 / 3) (by meets) (by meets)

theorem C53_qlogis_sigma (mu : ℝ) : QuantSpreads (Set.Ioi 0) (1 / 2) fun sigma u => qlogis u (fin mu) (fin sigma) :=
  scaleSpreads (H := fun z => 1 / (1 + Real.exp (-z))) logis_mono (by norm_num) (by simp) (by simp)
    fun _ h => qfam_logis mu h
example : qlogis (fin (1 / 3)) (fin 3) (fin 5) ≤ qlogis (fin (1 / 3)) (fin 3) (fin 2) :=
  (C53_qlogis_sigma 3 2 (by meets) 5 (by meets) (by meets)).2 (1 / 3) (by meets) (by meets)

omit [Lib] [Ideal] in
theorem laplaceCdf_std (mu : ℝ) {sigma : ℝ} (h : 0 < sigma) (x : ℝ) :
    laplaceCdf mu sigma x = laplaceCdf 0 1 ((x - mu) / sigma) := by
  have : (x - mu) / sigma < 0 ↔ x < mu := by rw [div_lt_iff₀ h]; simp
  simp only [laplaceCdf, sub_zero, div_one, this]

theorem qfam_laplace (mu : ℝ) {sigma : ℝ} (h : 0 < sigma) :
    QFam (fun u => qlaplace u (fin mu) (fin sigma)) (fun x => laplaceCdf 0 1 ((x - mu) / sigma))
      (laplacePdf mu sigma) ninf pinf := by
  have e : laplaceCdf mu sigma = fun x => laplaceCdf 0 1 ((x - mu) / sigma) := funext (laplaceCdf_std mu h)
  exact ⟨e ▸ isCdf_laplace mu h, e ▸ qlaplace_inv mu h, C16_laplace mu h⟩

theorem C53_qlaplace_mu {sigma : ℝ} (h : 0 < sigma) : QuantRises Set.univ fun mu u => qlaplace u (fin mu) (fin sigma) :=
  locRises h (isCdf_laplace 0 one_pos).mono (by simp) (by simp) fun mu => qfam_laplace mu h
example : qlaplace (fin (1 / 3)) (fin 0) (fin 2) ≤ qlaplace (fin (1 / 3)) (fin 3) (fin 2) :=
  C53_qlaplace_mu (by meets) 0 trivial 3 trivial (by meets) (1 / 3) (by meets) (by meets)

theorem C53_qlaplace_sigma (mu : ℝ) : QuantSpreads (Set.Ioi 0) (1 / 2) fun sigma u => qlaplace u (fin mu) (fin sigma) :=
  scaleSpreads (isCdf_laplace 0 one_pos).mono (by norm_num [laplaceCdf]) (by simp) (by simp) fun _ h => qfam_laplace mu h
example : qlaplace (fin (1 / 3)) (fin 3) (fin 5) ≤ qlaplace (fin (1 / 3)) (fin 3) (fin 2) :=
  (C53_qlaplace_sigma 3 2 (by meets) 5 (by meets) (by meets)).2 (1 / 3) (by meets) (by meets)

/-! ### Log-normal -/

theorem qfam_lnorm (mu : ℝ) {sigma : ℝ} (h : 0 < sigma) :
    QFam (fun u => qlnorm u (fin mu) (fin sigma)) (fun x => if 0 < x then Phi ((Real.log x - mu) / sigma) else 0)
      (lnormPdf mu sigma) (fin 0) pinf :=
  ⟨isCdf_lnorm mu h, qlnorm_inv mu h, C16_lnorm mu h⟩

theorem C53_qlnorm_mu {sigma : ℝ} (h : 0 < sigma) : QuantRises Set.univ fun mu u => qlnorm u (fin mu) (fin sigma) := by
  intro s _ t _ hst u h0 h1
  refine (qfam_lnorm s h).le (qfam_lnorm t h) (fun x => ?_) (by simp) (by simp) h0 h1
  split_ifs
  · exact Phi_mono (by gcongr)
  · exact le_rfl
example : qlnorm (fin (1 / 3)) (fin 0) (fin 2) ≤ qlnorm (fin (1 / 3)) (fin 3) (fin 2) :=
  C53_qlnorm_mu (by meets) 0 trivial 3 trivial (by meets) (1 / 3) (by meets) (by meets)

theorem C53_qlnorm_sigma (mu : ℝ) : QuantSpreads (Set.Ioi 0) (1 / 2) fun sigma u => qlnorm u (fin mu) (fin sigma) := by
  intro s hs t ht hst
  have hs : 0 < s := hs
  have ht : 0 < t := ht
  refine (qfam_lnorm mu hs).wider (qfam_lnorm mu ht) (m := Real.exp mu) (by simp) (by simp)
    (by simp [Real.exp_pos, Phi_half]) (by simp [Real.exp_pos, Phi_half]) (by norm_num) (by norm_num) ?_ ?_ <;>
    intro x hx <;> split_ifs with hp
  · exact (Phi_scale hs hst).1 ((lnorm_log hp).1 hx)
  · exact le_rfl
  · exact (Phi_scale hs hst).2 ((lnorm_log hp).2 hx)
  · exact le_rfl
example : qlnorm (fin (1 / 3)) (fin 3) (fin 5) ≤ qlnorm (fin (1 / 3)) (fin 3) (fin 2) :=
  (C53_qlnorm_sigma 3 2 (by meets) 5 (by meets) (by meets)).2 (1 / 3) (by meets) (by meets)

/-! ### The others -/

theorem qfam_unif {a b : ℝ} (h : a < b) :
    QFam (fun u => qunif u (fin a) (fin b)) (unifCdf a b) (unifPdf a b) (fin a) (fin b) :=
  ⟨isCdf_unif h, qunif_inv h, C16_unif h⟩

theorem C53_qunif_a (b : ℝ) : QuantRises (Set.Iio b) fun a u => qunif u (fin a) (fin b) := fun _ hs _ ht hst _ h0 h1 =>
  (qfam_unif hs).le (qfam_unif ht) (unifCdf_ends hs ht hst le_rfl) (by simpa using hst) (by simp) h0 h1
example : qunif (fin (1 / 3)) (fin 0) (fin 5) ≤ qunif (fin (1 / 3)) (fin 2) (fin 5) :=
  C53_qunif_a 5 0 (by meets) 2 (by meets) (by meets) (1 / 3) (by meets) (by meets)

theorem C53_qunif_b (a : ℝ) : QuantRises (Set.Ioi a) fun b u => qunif u (fin a) (fin b) := fun _ hs _ ht hst _ h0 h1 =>
  (qfam_unif hs).le (qfam_unif ht) (unifCdf_ends hs ht le_rfl hst) (by simp) (by simpa using hst) h0 h1
example : qunif (fin (1 / 3)) (fin 2) (fin 5) ≤ qunif (fin (1 / 3)) (fin 2) (fin 8) :=
  C53_qunif_b 2 5 (by meets) 8 (by meets) (by meets) (1 / 3) (by meets) (by meets)

theorem qfam_exp {rate : ℝ} (h : 0 < rate) :
    QFam (fun u => qexp u (fin rate)) (fun x => if 0 < x then 1 - Real.exp (-rate * x) else 0) (expPdf rate) (fin 0) pinf :=
  ⟨isCdf_exp h, qexp_inv h, C16_exp h⟩

theorem C53_qexp : QuantFalls (Set.Ioi 0) fun rate u => qexp u (fin rate) := by
  intro s hs t ht hst u h0 h1
  refine (qfam_exp ht).le (qfam_exp hs) (fun x => ?_) (by simp) (by simp) h0 h1
  split_ifs with hx
  · have : Real.exp (-t * x) ≤ Real.exp (-s * x) := Real.exp_le_exp.2 (by nlinarith)
    linarith
  · exact le_rfl
example : qexp (fin (1 / 3)) (fin 3) ≤ qexp (fin (1 / 3)) (fin 2) :=
  C53_qexp 2 (by meets) 3 (by meets) (by meets) (1 / 3) (by meets) (by meets)

theorem qfam_gamma {k θ : ℝ} (hk : 0 < k) (hθ : Lib.eps ≤ θ) :
    QFam (fun u => qgamma u (fin k) (fin θ)) (fun x => if 0 < x then gammaP k (x / θ) else 0) (gammaPdf k θ) (fin 0) pinf :=
  ⟨isCdf_gamma hk (Lib.eps_pos.trans_le hθ), qgamma_inv hk hθ, C16_gamma hk hθ⟩

theorem C53_qgamma_shape {scale : ℝ} (hθ : Lib.eps ≤ scale) :
    QuantRises (Set.Ioi 0) fun shape u => qgamma u (fin shape) (fin scale) := by
  intro s hs t ht hst u h0 h1
  have hθ0 := Lib.eps_pos.trans_le hθ
  refine (qfam_gamma hs hθ).le (qfam_gamma ht hθ) (fun x => ?_) (by simp) (by simp) h0 h1
  split_ifs with hx
  · exact Ord.gammaP_anti hs hst (by positivity)
  · exact le_rfl
example : qgamma (fin (1 / 3)) (fin 2) (fin 5) ≤ qgamma (fin (1 / 3)) (fin 3) (fin 5) :=
  C53_qgamma_shape (by meets) 2 (by meets) 3 (by meets) (by meets) (1 / 3) (by meets) (by meets)

theorem C53_qgamma_scale {shape : ℝ} (hk : 0 < shape) :
    QuantRises (Set.Ici Lib.eps) fun scale u => qgamma u (fin shape) (fin scale) := by
  intro s hs t ht hst u h0 h1
  have hs0 : 0 < s := Lib.eps_pos.trans_le hs
  refine (qfam_gamma hk hs).le (qfam_gamma hk ht) (fun x => ?_) (by simp) (by simp) h0 h1
  split_ifs with hx
  · exact Ord.gammaP_le hk (div_nonneg hx.le (hs0.trans_le hst).le) (by gcongr)
  · exact le_rfl
example : qgamma (fin (1 / 3)) (fin 5) (fin 2) ≤ qgamma (fin (1 / 3)) (fin 5) (fin 3) :=
  C53_qgamma_scale (by meets) 2 (Set.mem_Ici.2 (by meets)) 3 (Set.mem_Ici.2 (by meets)) (by meets) (1 / 3) (by meets) (by meets)

theorem qfam_chisq {k : ℝ} (hk : 0 < k) :
    QFam (fun u => qchisq u (fin k)) (fun x => if 0 < x then gammaP (k / 2) (x / 2) else 0) (chisqPdf k) (fin 0) pinf :=
  ⟨isCdf_chisq hk, qchisq_inv hk, C16_chisq hk⟩

theorem C53_qchisq : QuantRises (Set.Ioi 0) fun dof u => qchisq u (fin dof) := by
  intro s hs t ht hst u h0 h1
  refine (qfam_chisq hs).le (qfam_chisq ht) (fun x => ?_) (by simp) (by simp) h0 h1
  split_ifs with hx
  · exact Ord.gammaP_anti (half_pos hs) (by linarith) (by positivity)
  · exact le_rfl
example : qchisq (fin (1 / 3)) (fin 2) ≤ qchisq (fin (1 / 3)) (fin 3) :=
  C53_qchisq 2 (by meets) 3 (by meets) (by meets) (1 / 3) (by meets) (by meets)

theorem qfam_beta {a b : ℝ} (ha : 0 < a) (hb : 0 < b) :
    QFam (fun u => qbeta u (fin a) (fin b)) (betaCdf a b) (betaPdf a b) (fin 0) (fin 1) :=
  ⟨isCdf_beta ha hb, qbeta_inv ha hb, C16_beta ha hb⟩

theorem C53_qbeta_a {b : ℝ} (hb : 0 < b) : QuantRises (Set.Ioi 0) fun a u => qbeta u (fin a) (fin b) :=
  fun _ hs _ ht hst _ h0 h1 =>
    (qfam_beta hs hb).le (qfam_beta ht hb) (Ord.betaCdf_anti hs hst hb) (by simp) (by simp) h0 h1
example : qbeta (fin (1 / 3)) (fin 2) (fin 5) ≤ qbeta (fin (1 / 3)) (fin 3) (fin 5) :=
  C53_qbeta_a (by meets) 2 (by meets) 3 (by meets) (by meets) (1 / 3) (by meets) (by meets)

theorem C53_qbeta_b {a : ℝ} (ha : 0 < a) : QuantFalls (Set.Ioi 0) fun b u => qbeta u (fin a) (fin b) :=
  fun _ hs _ ht hst _ h0 h1 =>
    (qfam_beta ha ht).le (qfam_beta ha hs) (Ord.betaCdf_mono ha hs hst) (by simp) (by simp) h0 h1
example : qbeta (fin (1 / 3)) (fin 5) (fin 3) ≤ qbeta (fin (1 / 3)) (fin 5) (fin 2) :=
  C53_qbeta_b (by meets) 2 (by meets) 3 (by meets) (by meets) (1 / 3) (by meets) (by meets)

theorem qfam_invgamma {α β : ℝ} (ha : 0 < α) (hb : 0 < β) :
    QFam (fun u => qinvgamma u (fin α) (fin β)) (fun x => if 0 < x then 1 - gammaP α (β / x) else 0) (invgammaPdf α β)
      (fin 0) pinf :=
  ⟨isCdf_invgamma ha hb, qinvgamma_inv ha hb, C16_invgamma ha hb⟩

theorem C53_qinvgamma_shape {rate : ℝ} (hr : 0 < rate) :
    QuantFalls (Set.Ioi 0) fun shape u => qinvgamma u (fin shape) (fin rate) := by
  intro s hs t ht hst u h0 h1
  refine (qfam_invgamma ht hr).le (qfam_invgamma hs hr) (fun x => ?_) (by simp) (by simp) h0 h1
  split_ifs with hx
  · have := Ord.gammaP_anti hs hst (show 0 < rate / x by positivity)
    linarith
  · exact le_rfl
example : qinvgamma (fin (1 / 3)) (fin 3) (fin 5) ≤ qinvgamma (fin (1 / 3)) (fin 2) (fin 5) :=
  C53_qinvgamma_shape (by meets) 2 (by meets) 3 (by meets) (by meets) (1 / 3) (by meets) (by meets)

theorem C53_qinvgamma_rate {shape : ℝ} (hk : 0 < shape) :
    QuantRises (Set.Ioi 0) fun rate u => qinvgamma u (fin shape) (fin rate) := by
  intro s hs t ht hst u h0 h1
  have hs : 0 < s := hs
  refine (qfam_invgamma hk hs).le (qfam_invgamma hk ht) (fun x => ?_) (by simp) (by simp) h0 h1
  split_ifs with hx
  · have := Ord.gammaP_le hk (show 0 ≤ s / x by positivity) (show s / x ≤ t / x by gcongr)
    linarith
  · exact le_rfl
example : qinvgamma (fin (1 / 3)) (fin 5) (fin 2) ≤ qinvgamma (fin (1 / 3)) (fin 5) (fin 3) :=
  C53_qinvgamma_rate (by meets) 2 (by meets) 3 (by meets) (by meets) (1 / 3) (by meets) (by meets)

theorem qfam_weibull {k θ : ℝ} (hk : Lib.eps ≤ k) (hθ : Lib.eps ≤ θ) :
    QFam (fun u => qweibull u (fin k) (fin θ)) (fun x => if 0 < x then 1 - Real.exp (-(x / θ) ^ k) else 0)
      (weibullPdf k θ) (fin 0) pinf :=
  ⟨isCdf_weibull (Lib.eps_pos.trans_le hk) (Lib.eps_pos.trans_le hθ), qweibull_inv hk hθ, C16_weibull hk hθ⟩

theorem C53_qweibull_scale {shape : ℝ} (hk : Lib.eps ≤ shape) :
    QuantRises (Set.Ici Lib.eps) fun scale u => qweibull u (fin shape) (fin scale) := by
  intro s hs t ht hst u h0 h1
  have hs0 : 0 < s := Lib.eps_pos.trans_le hs
  have hk0 := Lib.eps_pos.trans_le hk
  refine (qfam_weibull hk hs).le (qfam_weibull hk ht) (fun x => ?_) (by simp) (by simp) h0 h1
  split_ifs with hx
  · have : (x / t) ^ shape ≤ (x / s) ^ shape :=
      Real.rpow_le_rpow (div_nonneg hx.le (hs0.trans_le hst).le) (by gcongr) hk0.le
    have := Real.exp_le_exp.2 (neg_le_neg this)
    linarith
  · exact le_rfl
example : qweibull (fin (1 / 3)) (fin 5) (fin 2) ≤ qweibull (fin (1 / 3)) (fin 5) (fin 3) :=
  C53_qweibull_scale (by meets) 2 (Set.mem_Ici.2 (by meets)) 3 (Set.mem_Ici.2 (by meets)) (by meets) (1 / 3) (by meets) (by meets)

/-- The quantile at `1 - 1/e` is the scale, whatever the shape. -/
theorem C53_qweibull_shape {scale : ℝ} (hθ : Lib.eps ≤ scale) :
    QuantNarrows (Set.Ici Lib.eps) (1 - Real.exp (-1)) fun shape u => qweibull u (fin shape) (fin scale) := by
  intro s hs t ht hst
  have hθ0 := Lib.eps_pos.trans_le hθ
  have e1 : Real.exp (-1) < 1 := by rw [Real.exp_lt_one_iff]; norm_num
  have e2 := Real.exp_pos (-1)
  refine (qfam_weibull ht hθ).wider (qfam_weibull hs hθ) (m := scale) (by simp) (by simp)
    (by simp [hθ0, hθ0.ne']) (by simp [hθ0, hθ0.ne']) (by linarith) (by linarith) ?_ ?_ <;>
    intro x hx <;> split_ifs with hp
  · exact (weibull_shape hp hθ0 hst).1 hx
  · exact le_rfl
  · exact (weibull_shape hp hθ0 hst).2 hx
  · exact le_rfl
example : qweibull (fin 1) (fin 3) (fin 5) ≤ qweibull (fin 1) (fin 2) (fin 5) :=
  (C53_qweibull_shape (by meets) 2 (Set.mem_Ici.2 (by meets)) 3 (Set.mem_Ici.2 (by meets)) (by meets)).1 1
    (by linarith [Real.exp_pos (-1)]) le_rfl

/-! ### Counts -/

omit [Lib] [Ideal] in
theorem isSmallest_order {p r : ℤ → Bool → Fl} {S T : Set ℤ} {u : ℝ} {j k : ℤ} (h : ∀ i, r i false ≤ p i false)
    (hST : k < j → k ∈ S) (hj : IsSmallest p S (fin u) j) (hk : IsSmallest r T (fin u) k) : j ≤ k := by
  by_contra hc
  have h1 := hj.2.2 k (hST (not_le.1 hc)) (not_le.1 hc)
  have h2 := hk.2.1
  have h3 := h k
  revert h1 h2 h3
  cases p k false <;> cases r k false <;> simp
  intro a b; linarith

omit [Lib] [Ideal] in
theorem isSmallestAbove_order {p r : ℤ → Bool → Fl} {S : Set ℤ} {u : ℝ} {j k : ℤ} (h : ∀ i, r i false ≤ p i false)
    (hj : IsSmallestAbove p S (fin u) j) (hk : IsSmallestAbove r S (fin u) k) : j ≤ k := by
  by_contra hc
  have h1 := hj.2.2 k hk.1 (not_le.1 hc)
  have h2 := hk.2.1
  have h3 := h k
  revert h1 h2 h3
  cases p k false <;> cases r k false <;> simp
  intro a b; linarith

theorem C53_qbern : QuantRises (Set.Icc 0 1) fun p u => qbern u (fin p) := by
  have := Ideal.monoLib
  intro s hs t ht hst u h0 h1
  obtain ⟨j, hj, hj'⟩ := C18_qbern h0 h1 hs.1 hs.2
  obtain ⟨k, hk, hk'⟩ := C18_qbern h0 h1 ht.1 ht.2
  beta_reduce
  rw [hj, hk]
  exact fin_int_le (isSmallest_order (fun i => C53_pbern s hs t ht hst i false) (fun _ => hk'.1) hj' hk')
example : qbern (fin (1 / 3)) (fin (1 / 3)) ≤ qbern (fin (1 / 3)) (fin (1 / 2)) :=
  C53_qbern (1 / 3) (by meets) (1 / 2) (by meets) (by meets) (1 / 3) (by meets) (by meets)

theorem C53_qradem : QuantRises (Set.Icc 0 1) fun p u => qradem u (fin p) := by
  have := Ideal.monoLib
  intro s hs t ht hst u h0 h1
  obtain ⟨j, hj, hj'⟩ := C18_qradem h0 h1 hs.1 hs.2
  obtain ⟨k, hk, hk'⟩ := C18_qradem h0 h1 ht.1 ht.2
  beta_reduce
  rw [hj, hk]
  exact fin_int_le (isSmallest_order (fun i => C53_pradem s hs t ht hst i false) (fun _ => hk'.1) hj' hk')
example : qradem (fin (1 / 3)) (fin (1 / 3)) ≤ qradem (fin (1 / 3)) (fin (1 / 2)) :=
  C53_qradem (1 / 3) (by meets) (1 / 2) (by meets) (by meets) (1 / 3) (by meets) (by meets)

theorem C53_qbinom_prob (n : ℕ) : QuantRisesO (Set.Icc (0 : ℝ) 1) fun p u => qbinom u n (fin p) := by
  intro s hs t ht hst u h0 h1
  rcases h1.eq_or_lt with rfl | h1
  · exact ⟨_, _, (C16_qbinom n hs.1 hs.2).2.1, (C16_qbinom n ht.1 ht.2).2.1, by simp⟩
  · obtain ⟨j, hj, hj'⟩ := C18_qbinom_partial n h0 h1 hs.1 hs.2
    obtain ⟨k, hk, hk'⟩ := C18_qbinom_partial n h0 h1 ht.1 ht.2
    exact ⟨_, _, hj, hk,
      fin_int_le (isSmallest_order (fun i => C53_pbinom_prob n s hs t ht hst i false) (fun _ => hk'.1) hj' hk')⟩
example : ∃ x y, qbinom (fin (2 / 3)) 5 (fin (1 / 3)) = some x ∧ qbinom (fin (2 / 3)) 5 (fin (1 / 2)) = some y ∧ x ≤ y :=
  C53_qbinom_prob 5 (1 / 3) (by meets) (1 / 2) (by meets) (by meets) (2 / 3) (by meets) (by meets)

theorem C53_qbinom_trials {p : ℝ} (h0 : 0 ≤ p) (h1 : p ≤ 1) :
    QuantRisesO (Set.univ : Set ℕ) fun n u => qbinom u n (fin p) := by
  intro m _ n _ hmn u hu0 hu1
  rcases hu1.eq_or_lt with rfl | hu1
  · exact ⟨_, _, (C16_qbinom m h0 h1).2.1, (C16_qbinom n h0 h1).2.1, by simpa using hmn⟩
  · obtain ⟨j, hj, hj'⟩ := C18_qbinom_partial m hu0 hu1 h0 h1
    obtain ⟨k, hk, hk'⟩ := C18_qbinom_partial n hu0 hu1 h0 h1
    exact ⟨_, _, hj, hk, fin_int_le (isSmallest_order
      (fun i => C53_pbinom_trials h0 h1 m trivial n trivial hmn i false)
      (S := Set.Icc 0 m) (fun h => ⟨hk'.1.1, h.le.trans hj'.1.2⟩) hj' hk')⟩
example : ∃ x y, qbinom (fin (2 / 3)) 5 (fin (1 / 3)) = some x ∧ qbinom (fin (2 / 3)) 7 (fin (1 / 3)) = some y ∧ x ≤ y :=
  C53_qbinom_trials (p := 1 / 3) (by meets) (by meets) 5 trivial 7 trivial (by meets) (2 / 3) (by meets) (by meets)

/-- Rates below epsilon, at which the code returns 0, are included. -/
theorem C53_qpois : QuantRisesO (Set.Ici (0 : ℝ)) fun rate u => qpois u (fin rate) := by
  intro s hs t ht hst u h0 h1
  have hs : 0 ≤ s := hs
  have ht : 0 ≤ t := ht
  have a : ∀ {r : ℝ}, 0 ≤ r → pois_ok (fin r) := fun hr => by simp [pois_ok, hr]
  have small : ∀ {r : ℝ}, 0 ≤ r → r < Lib.eps → qpois (fin u) (fin r) = some (fin 0) := fun hr hr' => by
    rw [qpois, if_neg (not_not.2 (a hr))]; simp [prob_val_ok, eps, hr', h0, h1]
  rcases lt_or_ge t Lib.eps with ht' | ht'
  · exact ⟨_, _, small hs (hst.trans_lt ht'), small ht ht', by simp⟩
  have mt := C16_qpois_partial ht'
  rcases lt_or_ge s Lib.eps with hs' | hs'
  · obtain ⟨x, y, hx, hy, hxy⟩ := mt.2.2 0 u le_rfl h0 h1
    have := mt.1
    beta_reduce at hx hy this
    rw [this] at hx
    cases hx
    exact ⟨_, _, small hs hs', hy, hxy⟩
  rcases h0.eq_or_lt with rfl | h0
  · exact ⟨_, _, (C16_qpois_partial hs').1, mt.1, by simp⟩
  rcases h1.eq_or_lt with rfl | h1
  · exact ⟨_, _, (C16_qpois_partial hs').2.1, mt.2.1, by simp⟩
  obtain ⟨j, hj, hj'⟩ := C19_qpois_above_partial hs' h0 h1
  obtain ⟨k, hk, hk'⟩ := C19_qpois_above_partial ht' h0 h1
  exact ⟨_, _, hj, hk, fin_int_le (isSmallestAbove_order (fun i => C53_ppois s hs t ht hst i false) hj' hk')⟩
example : ∃ x y, qpois (fin (2 / 3)) (fin 3) = some x ∧ qpois (fin (2 / 3)) (fin 5) = some y ∧ x ≤ y :=
  C53_qpois 3 (by meets) 5 (by meets) (by meets) (2 / 3) (by meets) (by meets)

end quantiles

/-! ### Draws -/

section draws
variable [Lib] [Ideal] {E : Type*} [Engine E]

theorem C53_rnorm_mu {sigma : ℝ} (h : 0 ≤ sigma) : DrawRises (E := E) Set.univ fun mu => rnorm (fin mu) (fin sigma) := by
  intro s _ t _ hst e
  have k := fun m => rnorm_fin m h (show Engine.norm e = ((Engine.norm e).1, (Engine.norm e).2) from rfl)
  beta_reduce
  rw [k, k]
  exact ⟨by simpa using hst, rfl⟩
example (e : E) : (rnorm (fin 0) (fin 2) e).1 ≤ (rnorm (fin 3) (fin 2) e).1 :=
  (C53_rnorm_mu (by meets) 0 trivial 3 trivial (by meets) e).1

theorem C53_rlnorm_mu {sigma : ℝ} (h : 0 ≤ sigma) :
    DrawRises (E := E) Set.univ fun mu => rlnorm (fin mu) (fin sigma) := by
  intro s _ t _ hst e
  have k := fun m => rnorm_fin m h (show Engine.norm e = ((Engine.norm e).1, (Engine.norm e).2) from rfl)
  beta_reduce
  rw [rlnorm, rlnorm, if_neg (by simp [lnorm_ok, h]), if_neg (by simp [lnorm_ok, h]), k, k]
  refine ⟨?_, rfl⟩
  simp only [ideal, fin_le_fin]
  exact Real.exp_le_exp.2 (by linarith)
example (e : E) : (rlnorm (fin 0) (fin 2) e).1 ≤ (rlnorm (fin 3) (fin 2) e).1 :=
  (C53_rlnorm_mu (by meets) 0 trivial 3 trivial (by meets) e).1

variable [NextLib]

theorem drawRises_inv {S : Set ℝ} {q : ℝ → Fl → Fl} {r : ℝ → E → Fl × E} (hq : QuantRises S q)
    (h : ∀ p ∈ S, ∀ e, r p e = (q p (runif 0 1 e).1, (runif 0 1 e).2)) : DrawRises S r := by
  intro s hs t ht hst e
  obtain ⟨u, e1, hu, h0, h1⟩ := runif_cases e
  rw [h s hs, h t ht, zero_eq, one_eq, hu]
  exact ⟨hq s hs t ht hst u h0.le h1.le, rfl⟩

theorem drawFalls_inv {S : Set ℝ} {q : ℝ → Fl → Fl} {r : ℝ → E → Fl × E} (hq : QuantFalls S q)
    (h : ∀ p ∈ S, ∀ e, r p e = (q p (runif 0 1 e).1, (runif 0 1 e).2)) : DrawFalls S r := by
  intro s hs t ht hst e
  obtain ⟨u, e1, hu, h0, h1⟩ := runif_cases e
  rw [h s hs, h t ht, zero_eq, one_eq, hu]
  exact ⟨hq s hs t ht hst u h0.le h1.le, rfl⟩

theorem C53_rcauchy_mu {sigma : ℝ} (h : 0 < sigma) :
    DrawRises (E := E) Set.univ fun mu => rcauchy (fin mu) (fin sigma) :=
  drawRises_inv (C53_qcauchy_mu h) fun _ _ _ => by rw [rcauchy, if_neg (by simp [cauchy_ok, h.le])]
example (e : E) : (rcauchy (fin 0) (fin 2) e).1 ≤ (rcauchy (fin 3) (fin 2) e).1 :=
  (C53_rcauchy_mu (by meets) 0 trivial 3 trivial (by meets) e).1

theorem C53_rlaplace_mu {sigma : ℝ} (h : 0 < sigma) :
    DrawRises (E := E) Set.univ fun mu => rlaplace (fin mu) (fin sigma) :=
  drawRises_inv (C53_qlaplace_mu h) fun _ _ _ => by rw [rlaplace, if_neg (by simp [laplace_ok, h.le])]
example (e : E) : (rlaplace (fin 0) (fin 2) e).1 ≤ (rlaplace (fin 3) (fin 2) e).1 :=
  (C53_rlaplace_mu (by meets) 0 trivial 3 trivial (by meets) e).1

theorem C53_rlogis_mu {sigma : ℝ} (h : 0 < sigma) :
    DrawRises (E := E) Set.univ fun mu => rlogis (fin mu) (fin sigma) :=
  drawRises_inv (C53_qlogis_mu h) fun _ _ _ => by rw [rlogis, if_neg (by simp [logis_ok, h.le])]
example (e : E) : (rlogis (fin 0) (fin 2) e).1 ≤ (rlogis (fin 3) (fin 2) e).1 :=
  (C53_rlogis_mu (by meets) 0 trivial 3 trivial (by meets) e).1

theorem C53_rexp : DrawFalls (E := E) (Set.Ioi 0) fun rate => rexp (fin rate) :=
  drawFalls_inv C53_qexp fun p hp _ => by rw [rexp, if_neg (by simp [exp_ok, le_of_lt (show 0 < p from hp)])]
example (e : E) : (rexp (fin 3) e).1 ≤ (rexp (fin 2) e).1 := (C53_rexp 2 (by meets) 3 (by meets) (by meets) e).1

theorem C53_rweibull_scale {shape : ℝ} (hk : Lib.eps ≤ shape) :
    DrawRises (E := E) (Set.Ici Lib.eps) fun scale => rweibull (fin shape) (fin scale) :=
  drawRises_inv (C53_qweibull_scale hk) fun p hp _ => by
    rw [rweibull, if_neg (by simp [weibull_ok, eps, hk, show Lib.eps ≤ p from hp])]
example (e : E) : (rweibull (fin 5) (fin 2) e).1 ≤ (rweibull (fin 5) (fin 3) e).1 :=
  (C53_rweibull_scale (by meets) 2 (Set.mem_Ici.2 (by meets)) 3 (Set.mem_Ici.2 (by meets)) (by meets) e).1

theorem C53_rbern : DrawRises (E := E) (Set.Icc 0 1) fun p => rbern (fin p) := by
  intro s hs t ht hst e
  obtain ⟨u, e1, hu, -, -⟩ := runif_cases e
  beta_reduce
  rw [rbern, rbern, if_neg (by simp [bern_ok, hs.1, hs.2]), if_neg (by simp [bern_ok, ht.1, ht.2]), zero_eq, one_eq, hu]
  refine ⟨?_, rfl⟩
  simp only [fin_le_fin]
  split_ifs with a b b
  · simp
  · exact absurd (a.trans hst) b
  · simp
  · simp
example (e : E) : (rbern (fin (1 / 3)) e).1 ≤ (rbern (fin (1 / 2)) e).1 :=
  (C53_rbern (1 / 3) (by meets) (1 / 2) (by meets) (by meets) e).1

theorem C53_rradem : DrawRises (E := E) (Set.Icc 0 1) fun p => rradem (fin p) := by
  intro s hs t ht hst e
  obtain ⟨u, e1, hu, -, -⟩ := runif_cases e
  beta_reduce
  rw [rradem, rradem, if_neg (by simp [radem_ok, hs.1, hs.2]), if_neg (by simp [radem_ok, ht.1, ht.2]), zero_eq, one_eq, hu]
  refine ⟨?_, rfl⟩
  simp only [fin_le_fin]
  split_ifs with a b b
  · simp
  · exact absurd (a.trans hst) b
  · simp
  · simp
example (e : E) : (rradem (fin (1 / 3)) e).1 ≤ (rradem (fin (1 / 2)) e).1 :=
  (C53_rradem (1 / 3) (by meets) (1 / 2) (by meets) (by meets) e).1

theorem rbinom_loop_order {s t : ℝ} (hs : s ∈ Set.Icc (0 : ℝ) 1) (ht : t ∈ Set.Icc (0 : ℝ) 1) (hst : s ≤ t) (n : ℕ) :
    ∀ (x y : ℝ) (e : E), x ≤ y → (rbinom_loop (fin s) n (fin x) e).1 ≤ (rbinom_loop (fin t) n (fin y) e).1 ∧
      (rbinom_loop (fin s) n (fin x) e).2 = (rbinom_loop (fin t) n (fin y) e).2 := by
  induction n with
  | zero => intro x y e h; exact ⟨by simpa [rbinom_loop] using h, rfl⟩
  | succ n ih =>
    intro x y e h
    have val : ∀ {p : ℝ}, p ∈ Set.Icc (0 : ℝ) 1 → ∃ r : ℝ, (rbern (fin p) e).1 = fin r := by
      intro p hp
      rw [rbern, if_neg (by simp [bern_ok, hp.1, hp.2])]
      dsimp only
      split_ifs <;> exact ⟨_, rfl⟩
    obtain ⟨a, ha⟩ := val hs
    obtain ⟨b, hb⟩ := val ht
    obtain ⟨h1, h2⟩ := C53_rbern (E := E) s hs t ht hst e
    rw [ha, hb, fin_le_fin] at h1
    simp only [rbinom_loop, ha, hb, ideal, ← h2]
    exact ih _ _ _ (by linarith)

theorem C53_rbinom_prob (n : ℕ) : DrawRises (E := E) (Set.Icc 0 1) fun p => rbinom n (fin p) := by
  intro s hs t ht hst e
  beta_reduce
  rw [rbinom, rbinom, if_neg (by simp [binom_ok, hs.1, hs.2]), if_neg (by simp [binom_ok, ht.1, ht.2])]
  rw [zero_eq]
  exact rbinom_loop_order hs ht hst _ 0 0 e le_rfl
example (e : E) : (rbinom 5 (fin (1 / 3)) e).1 ≤ (rbinom 5 (fin (1 / 2)) e).1 :=
  (C53_rbinom_prob 5 (1 / 3) (by meets) (1 / 2) (by meets) (by meets) e).1

theorem C53_rpois : DrawRisesO (E := E) (Set.Ici 0) fun rate => rpois (fin rate) := by
  intro s hs t ht hst e
  obtain ⟨u, e1, hu, h0, h1⟩ := runif_cases e
  obtain ⟨x, y, hx, hy, hxy⟩ := C53_qpois s hs t ht hst u h0.le h1.le
  beta_reduce at hx hy
  have k : ∀ {p : ℝ} {v : Fl}, 0 ≤ p → qpois (fin u) (fin p) = some v → rpois (fin p) e = some (v, e1) := by
    intro p v hp hv
    rw [rpois, if_neg (by simp [pois_ok, hp]), zero_eq, one_eq, hu]
    simp only [hv, Option.map_some]
  beta_reduce
  rw [k hs hx, k ht hy]
  refine ⟨by simp, ?_⟩
  rintro _ _ ⟨⟩ ⟨⟩
  exact ⟨hxy, rfl⟩
example (e : E) : rpois (fin 2) e = none ↔ rpois (fin 3) e = none :=
  (C53_rpois 2 (by meets) 3 (by meets) (by meets) e).1

theorem drawRisesO_scale {S : Set ℝ} {r : ℝ → E → Option (Fl × E)} (hS : ∀ s ∈ S, 0 < s)
    (h : ∀ s ∈ S, ∀ t ∈ S, ScaledRandO (r s) (r t) (t / s)) (hp : ∀ s ∈ S, ∀ e v, r s e = some v → In (Set.Ioi 0) v.1) :
    DrawRisesO S r := by
  intro s hs t ht hst e
  rcases h s hs t ht e with ⟨h1, h2⟩ | ⟨x, e', h1, h2⟩
  · refine ⟨by simp [h1, h2], ?_⟩
    intro _ _ h; rw [h1] at h; cases h
  · refine ⟨by simp [h1, h2], ?_⟩
    intro v w hv hw
    rw [h1] at hv; rw [h2] at hw
    cases hv; cases hw
    refine ⟨?_, rfl⟩
    obtain ⟨y, hy, hy'⟩ := hp s hs e _ h1
    cases hy'
    have hs0 := hS s hs
    have : 1 ≤ t / s := by rwa [le_div_iff₀ hs0, one_mul]
    have hy : 0 < x := hy
    simp only [fin_le_fin]
    nlinarith

theorem C53_rgamma_scale {shape : ℝ} (hk : 0 < shape) :
    DrawRisesO (E := E) (Set.Ici Lib.eps) fun scale => rgamma (fin shape) (fin scale) := by
  have pos : ∀ s ∈ Set.Ici (Lib.eps : ℝ), 0 < s := fun s hs => Lib.eps_pos.trans_le hs
  refine drawRisesO_scale pos ?_ fun s hs e v h => C28_rgamma hk hs e h
  intro s hs t ht
  have := pos s hs
  have e : t / s * s = t := by field_simp
  have k := C51_rgamma (S := E) hk hs (div_pos (pos t ht) (pos s hs)) (by rw [e]; exact ht)
  rwa [e] at k
example (e : E) : rgamma (fin 5) (fin 2) e = none ↔ rgamma (fin 5) (fin 3) e = none :=
  (C53_rgamma_scale (by meets) 2 (Set.mem_Ici.2 (by meets)) 3 (Set.mem_Ici.2 (by meets)) (by meets) e).1

end draws
end Stats
