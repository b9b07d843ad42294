import Verif.Lemmas.ProbIdeal
import Verif.Model.Quant
import Verif.Spec.Quant

/-! The quantile functions at the values of the distribution functions, exact arithmetic. -/

set_option linter.unusedSectionVars false
open Classical
namespace Stats
open Fl Spec

section real
open MeasureTheory Set Filter Topology

theorem IsCdf.continuous {F f : ℝ → ℝ} (h : IsCdf F f) : Continuous F := by
  have : F = fun x => (∫ t in Iic (0 : ℝ), f t) + ∫ t in (0 : ℝ)..x, f t := by
    funext x
    rw [← h.running x, ← intervalIntegral.integral_Iic_sub_Iic h.integrable.integrableOn h.integrable.integrableOn]
    ring
  rw [this]
  exact continuous_const.add (intervalIntegral.continuous_primitive
    (fun a b => h.integrable.intervalIntegrable) 0)

theorem IsCdf.tendsto_atTop {F f : ℝ → ℝ} (h : IsCdf F f) : Tendsto F atTop (𝓝 1) := by
  have := (aecover_Iic (μ := volume) (tendsto_id (α := ℝ) (x := atTop))).integral_tendsto_of_countably_generated
    h.integrable
  rw [h.total] at this
  exact this.congr fun x => h.running x

theorem IsCdf.tendsto_atBot {F f : ℝ → ℝ} (h : IsCdf F f) : Tendsto F atBot (𝓝 0) := by
  have := (aecover_Ioi (μ := volume) (tendsto_id (α := ℝ) (x := atBot))).integral_tendsto_of_countably_generated
    h.integrable
  rw [h.total] at this
  have h2 := this.const_sub 1
  rw [sub_self] at h2
  refine h2.congr fun x => ?_
  rw [← h.running x, ← h.total, sub_eq_iff_eq_add, ← compl_Iic]
  exact (integral_add_compl measurableSet_Iic h.integrable).symm

theorem IsCdf.exists_eq {F f : ℝ → ℝ} (h : IsCdf F f) {u : ℝ} (h0 : 0 < u) (h1 : u < 1) : ∃ x, F x = u := by
  have a : ∃ a, F a ≤ u := ((h.tendsto_atBot.eventually (gt_mem_nhds h0)).exists).imp fun _ h => h.le
  have b : ∃ b, u ≤ F b := ((h.tendsto_atTop.eventually (lt_mem_nhds h1)).exists).imp fun _ h => h.le
  obtain ⟨a, ha⟩ := a
  obtain ⟨b, hb⟩ := b
  exact mem_range_of_exists_le_of_exists_ge h.continuous ⟨a, ha⟩ ⟨b, hb⟩

end real

/-- `q` returns the point whose distribution function value it is given. -/
def IsInv (q : Fl → Fl) (F : ℝ → ℝ) : Prop := ∀ x : ℝ, 0 < F x → F x < 1 → q (fin (F x)) = fin x

theorem cdfOfQuantOn_of {p : Fl → Bool → Fl} {q : Fl → Fl} {F f : ℝ → ℝ} {s : Set ℝ} (hF : IsCdf F f)
    (hq : IsInv q F) (hp : ∀ x ∈ s, p (fin x) false = fin (F x)) : CdfOfQuantOn p q s := by
  intro u h0 h1
  obtain ⟨x, rfl⟩ := hF.exists_eq h0 h1
  exact ⟨x, hq x h0 h1, fun hx => hp x hx⟩

theorem cdfOfQuant_of {p : Fl → Bool → Fl} {q : Fl → Fl} {F f : ℝ → ℝ} (hF : IsCdf F f)
    (hq : IsInv q F) (hp : ∀ x, p (fin x) false = fin (F x)) : CdfOfQuant p q := by
  intro u h0 h1
  obtain ⟨x, rfl⟩ := hF.exists_eq h0 h1
  rw [hq x h0 h1, hp]

theorem quantOfCdfOn_of {p : Fl → Bool → Fl} {q : Fl → Fl} {F : ℝ → ℝ} {s : Set ℝ}
    (hq : IsInv q F) (hs : ∀ x ∈ s, 0 < F x ∧ F x < 1) (hp : ∀ x ∈ s, p (fin x) false = fin (F x)) :
    QuantOfCdfOn p q s := by
  intro x hx
  rw [hp x hx, hq x (hs x hx).1 (hs x hx).2]

theorem monoQuant_of {q : Fl → Fl} {F f : ℝ → ℝ} {lo hi : Fl} (hF : IsCdf F f) (hq : IsInv q F)
    (h0 : q (fin 0) = lo) (h1 : q (fin 1) = hi) (hlo : ∀ x, 0 < F x → F x < 1 → lo ≤ fin x)
    (hhi : ∀ x, 0 < F x → F x < 1 → fin x ≤ hi) (hlh : lo ≤ hi) : MonoQuant q lo hi := by
  refine ⟨h0, h1, fun u v hu huv hv => ?_⟩
  rcases hu.eq_or_lt with rfl | hu
  · rw [h0]
    rcases hv.eq_or_lt with rfl | hv
    · rw [h1]; exact hlh
    · rcases huv.eq_or_lt with rfl | hv0
      · rw [h0]; exact le_refl' (ne_nan_of_le_left hlh)
      · obtain ⟨x, rfl⟩ := hF.exists_eq hv0 hv
        rw [hq x hv0 hv]; exact hlo x hv0 hv
  · rcases hv.eq_or_lt with rfl | hv
    · rw [h1]
      rcases huv.eq_or_lt with rfl | hu1
      · rw [h1]; exact le_refl' (ne_nan_of_le_right hlh)
      · obtain ⟨x, rfl⟩ := hF.exists_eq hu hu1
        rw [hq x hu hu1]; exact hhi x hu hu1
    · have hv0 := hu.trans_le huv
      have hu1 := huv.trans_lt hv
      obtain ⟨x, rfl⟩ := hF.exists_eq hu hu1
      obtain ⟨y, rfl⟩ := hF.exists_eq hv0 hv
      rw [hq x hu hu1, hq y hv0 hv, fin_le_fin]
      by_contra hc
      have e : F x = F y := le_antisymm huv (hF.mono (not_le.1 hc).le)
      have := hq x hu hu1
      rw [e, hq y hv0 hv] at this
      injection this with this
      exact hc this.ge

variable [Lib] [Ideal]

theorem qnorm_inv (mu : ℝ) {sigma : ℝ} (h : 0 < sigma) :
    IsInv (fun u => qnorm u (fin mu) (fin sigma)) (fun x => Phi ((x - mu) / sigma)) := by
  intro x h0 h1
  have a : ¬ sigma < 0 := by linarith
  have b : ¬ sigma = 0 := by linarith
  have e : 2 * Phi ((x - mu) / sigma) - 1 = Spec.erf ((x - mu) / sigma / √2) := by rw [Phi]; ring
  have h2 : √(2 : ℝ) ≠ 0 := by positivity
  simp only at h0 h1 ⊢
  simp only [qnorm, norm_ok, prob_val_ok, qnorm_compute, ideal, e, ierfInv]
  simp [a, b, h0.ne', h1.ne, not_lt.2 h0.le, not_lt.2 h1.le]
  field_simp
  ring

theorem qlnorm_inv (mu : ℝ) {sigma : ℝ} (h : 0 < sigma) :
    IsInv (fun u => qlnorm u (fin mu) (fin sigma))
      (fun x => if 0 < x then Phi ((Real.log x - mu) / sigma) else 0) := by
  intro x h0 h1
  have a : ¬ sigma < 0 := by linarith
  simp only at h0 h1 ⊢
  have hx : 0 < x := by by_contra hc; rw [if_neg hc] at h0; exact lt_irrefl _ h0
  rw [if_pos hx] at h0 h1 ⊢
  have := qnorm_inv mu h (Real.log x) h0 h1
  simp only at this
  simp only [qlnorm, lnorm_ok, prob_val_ok, qlnorm_compute, this, ideal, Real.exp_log hx]
  simp [a, not_lt.2 h0.le, not_lt.2 h1.le]

theorem qunif_inv {a b : ℝ} (h : a < b) : IsInv (fun u => qunif u (fin a) (fin b)) (unifCdf a b) := by
  intro x h0 h1
  have hb : b - a ≠ 0 := by linarith
  have h2 : ¬ b ≤ a := by linarith
  have e : unifCdf a b x = (x - a) / (b - a) := by
    rw [unifCdf] at h0 h1 ⊢
    split_ifs at h0 h1 ⊢ <;> first | rfl | (exfalso; linarith)
  simp only [qunif, unif_ok, prob_val_ok, qunif_compute, ideal]
  simp [h2, not_lt.2 h0.le, not_lt.2 h1.le, h0.ne', h1.ne]
  rw [e]; field_simp; ring

theorem qexp_inv {rate : ℝ} (h : 0 < rate) :
    IsInv (fun u => qexp u (fin rate)) (fun x => if 0 < x then 1 - Real.exp (-rate * x) else 0) := by
  intro x h0 h1
  have a : ¬ rate < 0 := by linarith
  simp only at h0 h1 ⊢
  have hx : 0 < x := by by_contra hc; rw [if_neg hc] at h0; exact lt_irrefl _ h0
  rw [if_pos hx] at h0 h1 ⊢
  have e : 1 - (1 - Real.exp (-rate * x)) = Real.exp (-rate * x) := by ring
  simp only [qexp, exp_ok, prob_val_ok, qexp_compute, ideal, e, ilog (Real.exp_pos _), Real.log_exp,
    ifin_div _ h.ne', fin_feq_fin, h0.ne', h1.ne]
  simp only [gt_iff_lt, fin_lt_fin, not_lt.2 h0.le, not_lt.2 h1.le, a]
  simp
  field_simp

theorem qcauchy_inv (mu : ℝ) {sigma : ℝ} (h : 0 < sigma) :
    IsInv (fun u => qcauchy u (fin mu) (fin sigma))
      (fun x => 1 / 2 + Real.arctan ((x - mu) / sigma) / Real.pi) := by
  intro x h0 h1
  have a : ¬ sigma < 0 := by linarith
  have b : ¬ sigma = 0 := by linarith
  have hpi := Real.pi_ne_zero
  have e : Real.pi * (1 / 2 + Real.arctan ((x - mu) / sigma) / Real.pi - 1 / 2) = Real.arctan ((x - mu) / sigma) := by
    field_simp; ring
  simp only at h0 h1 ⊢
  simp only [qcauchy, cauchy_ok, prob_val_ok, qcauchy_compute, ideal, e, Real.tan_arctan, fin_feq_fin, h0.ne', h1.ne]
  simp only [gt_iff_lt, fin_lt_fin, not_lt.2 h0.le, not_lt.2 h1.le, a, b]
  simp
  field_simp; ring

theorem qlogis_inv (mu : ℝ) {sigma : ℝ} (h : 0 < sigma) :
    IsInv (fun u => qlogis u (fin mu) (fin sigma)) (fun x => 1 / (1 + Real.exp (-((x - mu) / sigma)))) := by
  intro x h0 h1
  have a : ¬ sigma < 0 := by linarith
  have b : ¬ sigma = 0 := by linarith
  have he := Real.exp_pos (-((x - mu) / sigma))
  simp only at h0 h1 ⊢
  have e : 1 / (1 + Real.exp (-((x - mu) / sigma))) / (1 - 1 / (1 + Real.exp (-((x - mu) / sigma)))) =
      Real.exp ((x - mu) / sigma) := by
    rw [Real.exp_neg] at *
    have := Real.exp_pos ((x - mu) / sigma)
    field_simp
    ring
  simp only [qlogis, logis_ok, prob_val_ok, qlogis_compute, ideal, ifin_div _ (show
    1 - 1 / (1 + Real.exp (-((x - mu) / sigma))) ≠ 0 by linarith), e, ilog (Real.exp_pos _), Real.log_exp,
    fin_feq_fin, h0.ne', h1.ne]
  simp only [gt_iff_lt, fin_lt_fin, not_lt.2 h0.le, not_lt.2 h1.le, a, b]
  simp
  field_simp; ring

theorem qlaplace_inv (mu : ℝ) {sigma : ℝ} (h : 0 < sigma) :
    IsInv (fun u => qlaplace u (fin mu) (fin sigma)) (laplaceCdf mu sigma) := by
  intro x h0 h1
  have a : ¬ sigma < 0 := by linarith
  have b : ¬ sigma = 0 := by linarith
  simp only
  simp only [qlaplace, laplace_ok, prob_val_ok, qlaplace_compute, ideal, sgn_fin, fin_feq_fin, h0.ne', h1.ne]
  simp only [gt_iff_lt, fin_lt_fin, not_lt.2 h0.le, not_lt.2 h1.le, a, b]
  rcases lt_trichotomy x mu with h2 | rfl | h2
  · have e : laplaceCdf mu sigma x = 1 / 2 * Real.exp ((x - mu) / sigma) := if_pos h2
    have h3 : Real.exp ((x - mu) / sigma) < 1 := Real.exp_lt_one_iff.2 (div_neg_of_neg_of_pos (by linarith) h)
    have h4 := Real.exp_pos ((x - mu) / sigma)
    have e2 : 1 - 2 * |1 / 2 * Real.exp ((x - mu) / sigma) - 1 / 2| = Real.exp ((x - mu) / sigma) := by
      rw [abs_of_neg (by linarith)]; ring
    rw [e]
    simp only [ideal, e2, ilog h4, Real.log_exp]
    rw [if_neg (show ¬ (0 : ℝ) < 1 / 2 * Real.exp ((x - mu) / sigma) - 1 / 2 by linarith),
      if_pos (show 1 / 2 * Real.exp ((x - mu) / sigma) - 1 / 2 < (0 : ℝ) by linarith)]
    simp [ideal]
    field_simp; ring
  · have e : laplaceCdf x sigma x = 1 / 2 := by rw [laplaceCdf, if_neg (lt_irrefl _)]; norm_num
    rw [e]
    simp [ideal]
  · have e : laplaceCdf mu sigma x = 1 - 1 / 2 * Real.exp (-((x - mu) / sigma)) := if_neg (by linarith)
    have h3 : Real.exp (-((x - mu) / sigma)) < 1 := Real.exp_lt_one_iff.2 (by
      have : 0 < (x - mu) / sigma := div_pos (by linarith) h
      linarith)
    have h4 := Real.exp_pos (-((x - mu) / sigma))
    have e2 : 1 - 2 * |1 - 1 / 2 * Real.exp (-((x - mu) / sigma)) - 1 / 2| = Real.exp (-((x - mu) / sigma)) := by
      rw [abs_of_pos (by linarith)]; ring
    rw [e]
    simp only [ideal, e2, ilog h4, Real.log_exp]
    rw [if_pos (show (0 : ℝ) < 1 - 1 / 2 * Real.exp (-((x - mu) / sigma)) - 1 / 2 by linarith)]
    simp [ideal]
    field_simp; ring

theorem qbeta_inv {a b : ℝ} (ha : 0 < a) (hb : 0 < b) :
    IsInv (fun u => qbeta u (fin a) (fin b)) (betaCdf a b) := by
  intro x h0 h1
  have e : 0 < x ∧ x < 1 ∧ betaCdf a b x = betaI a b x := by
    rw [betaCdf] at h0 h1 ⊢
    split_ifs at h0 h1 ⊢ <;> first | exact ⟨not_le.1 ‹_›, not_le.1 ‹_›, rfl⟩ | (exfalso; linarith)
  obtain ⟨hx0, hx1, e⟩ := e
  rw [e] at h0 h1 ⊢
  simp only [qbeta, beta_ok, prob_val_ok, qbeta_compute, ideal, iibetaInv ha hb hx0.le hx1.le, fin_feq_fin,
    h0.ne', h1.ne, gt_iff_lt, fin_lt_fin, not_lt.2 h0.le, not_lt.2 h1.le, not_lt.2 ha.le, not_lt.2 hb.le, ha.ne', hb.ne']
  simp

theorem qgamma_inv {k θ : ℝ} (hk : 0 < k) (hθ : Lib.eps ≤ θ) :
    IsInv (fun u => qgamma u (fin k) (fin θ)) (fun x => if 0 < x then gammaP k (x / θ) else 0) := by
  intro x h0 h1
  have hθ0 := Lib.eps_pos.trans_le hθ
  simp only at h0 h1 ⊢
  have hx : 0 < x := by by_contra hc; rw [if_neg hc] at h0; exact lt_irrefl _ h0
  rw [if_pos hx] at h0 h1 ⊢
  simp only [qgamma, gamma_ok, prob_val_ok, qgamma_compute, ideal, iigammaInv hk (div_pos hx hθ0).le, fin_feq_fin,
    h0.ne', h1.ne, gt_iff_lt, fin_lt_fin, not_lt.2 h0.le, not_lt.2 h1.le, not_lt.2 hk.le, hk.ne', eps,
    not_lt.2 hθ]
  simp
  field_simp

theorem qchisq_inv {k : ℝ} (hk : 0 < k) :
    IsInv (fun u => qchisq u (fin k)) (fun x => if 0 < x then gammaP (k / 2) (x / 2) else 0) := by
  intro x h0 h1
  simp only at h0 h1 ⊢
  have hx : 0 < x := by by_contra hc; rw [if_neg hc] at h0; exact lt_irrefl _ h0
  rw [if_pos hx] at h0 h1 ⊢
  simp only [qchisq, chisq_ok, prob_val_ok, qchisq_compute, ideal, iigammaInv (half_pos hk) (half_pos hx).le,
    fin_feq_fin, h0.ne', h1.ne, gt_iff_lt, fin_lt_fin, not_lt.2 h0.le, not_lt.2 h1.le, not_lt.2 hk.le]
  simp
  field_simp

theorem qinvgamma_inv {α β : ℝ} (ha : 0 < α) (hb : 0 < β) :
    IsInv (fun u => qinvgamma u (fin α) (fin β)) (fun x => if 0 < x then 1 - gammaP α (β / x) else 0) := by
  intro x h0 h1
  simp only at h0 h1 ⊢
  have hx : 0 < x := by by_contra hc; rw [if_neg hc] at h0; exact lt_irrefl _ h0
  rw [if_pos hx] at h0 h1 ⊢
  have hbx := div_pos hb hx
  have e : 1 - (1 - gammaP α (β / x)) = gammaP α (β / x) := by ring
  simp only [qinvgamma, invgamma_ok, prob_val_ok, qinvgamma_compute, ideal, e, iigammaInv ha hbx.le,
    ifin_div _ hbx.ne', fin_feq_fin, h0.ne', h1.ne, gt_iff_lt, fin_lt_fin, not_lt.2 h0.le, not_lt.2 h1.le,
    not_lt.2 ha.le, ha.ne', not_lt.2 hb.le, hb.ne']
  simp
  field_simp

theorem qf_inv {d₁ d₂ : ℝ} (h1' : Lib.eps ≤ d₁) (h2' : Lib.eps ≤ d₂) :
    IsInv (fun u => qf u (fin d₁) (fin d₂)) (fun x => if 0 < x then fCdf d₁ d₂ x else 0) := by
  intro x h0 h1
  have p1 := Lib.eps_pos.trans_le h1'
  have p2 := Lib.eps_pos.trans_le h2'
  simp only at h0 h1 ⊢
  have hx : 0 < x := by by_contra hc; rw [if_neg hc] at h0; exact lt_irrefl _ h0
  rw [if_pos hx] at h0 h1 ⊢
  have hw : 0 < d₁ * x / d₂ := by positivity
  obtain ⟨m0, m1⟩ := div_one_add_mem hw
  have e1 : d₁ / 2 / (d₂ / 2) = d₁ / d₂ := by field_simp
  have e2 : d₁ / d₂ * (1 - d₁ * x / d₂ / (1 + d₁ * x / d₂)) ≠ 0 :=
    (mul_pos (div_pos p1 p2) (by linarith)).ne'
  have e3 : d₁ * x / d₂ / (1 + d₁ * x / d₂) / (d₁ / d₂ * (1 - d₁ * x / d₂ / (1 + d₁ * x / d₂))) = x := by
    have : (1 : ℝ) + d₁ * x / d₂ ≠ 0 := by positivity
    have : d₂ + d₁ * x ≠ 0 := by positivity
    field_simp
    ring_nf
    field_simp
  rw [fCdf] at h0 h1 ⊢
  simp only [qf, f_ok, prob_val_ok, qf_compute, qf_compute_adj, ideal, iibetaInv (half_pos p1) (half_pos p2) m0.le m1.le,
    ifin_div _ (half_pos p2).ne', e1, ifin_div _ e2, e3,
    fin_feq_fin, h0.ne', h1.ne, gt_iff_lt, fin_lt_fin, not_lt.2 h0.le, not_lt.2 h1.le, eps, not_lt.2 h1', not_lt.2 h2']
  simp

theorem qweibull_inv {k θ : ℝ} (hk : Lib.eps ≤ k) (hθ : Lib.eps ≤ θ) :
    IsInv (fun u => qweibull u (fin k) (fin θ)) (fun x => if 0 < x then 1 - Real.exp (-(x / θ) ^ k) else 0) := by
  intro x h0 h1
  have p1 := Lib.eps_pos.trans_le hk
  have p2 := Lib.eps_pos.trans_le hθ
  simp only at h0 h1 ⊢
  have hx : 0 < x := by by_contra hc; rw [if_neg hc] at h0; exact lt_irrefl _ h0
  rw [if_pos hx] at h0 h1 ⊢
  have hz := div_pos hx p2
  have e : 1 + -(1 - Real.exp (-(x / θ) ^ k)) = Real.exp (-(x / θ) ^ k) := by ring
  have e2 : -(-(x / θ) ^ k) = (x / θ) ^ k := neg_neg _
  have e3 : ((x / θ) ^ k) ^ (1 / k) = x / θ := by
    rw [← Real.rpow_mul hz.le, mul_one_div_cancel p1.ne', Real.rpow_one]
  simp only [qweibull, weibull_ok, prob_val_ok, qweibull_compute, ideal, ilog1p (show
    -1 < -(1 - Real.exp (-(x / θ) ^ k)) by linarith), e, Real.log_exp, e2, ifin_div _ p1.ne',
    ipow _ (Real.rpow_pos_of_pos hz k), e3,
    fin_feq_fin, h0.ne', h1.ne, gt_iff_lt, fin_lt_fin, not_lt.2 h0.le, not_lt.2 h1.le, eps, not_lt.2 hk, not_lt.2 hθ,
    p1.ne']
  simp
  field_simp

end Stats
