import Verif.Spec.Hazard
import Verif.Props.C12
import Verif.Props.C70
import Verif.Props.C71

/-!
# C72: hazard rates of the coded densities and distribution functions
-/

set_option linter.unusedSectionVars false
set_option linter.unusedVariables false
open Classical MeasureTheory Set
namespace Stats
open Fl Spec

theorem IsCdf.upper {F f : ℝ → ℝ} (h : IsCdf F f) (x : ℝ) : ∫ t in Ioi x, f t = 1 - F x := by
  have := intervalIntegral.integral_Iic_add_Ioi (b := x) h.integrable.integrableOn h.integrable.integrableOn
  rw [h.total, h.running] at this
  linarith

/-- A density and a distribution function as coded, with their real counterparts. -/
structure Pair (d p : Fl → Bool → Fl) (f F : ℝ → ℝ) (s c : Set ℝ) : Prop where
  dens : IsDensityOn d f s
  cdf : IsCdf F f
  zero : ∀ x ∉ s, f x = 0
  prob : ∀ x ∈ c, p (fin x) false = fin (F x)
  sub : c ⊆ s

section
variable [Lib] [Ideal]

theorem Pair.nonneg {d p : Fl → Bool → Fl} {f F : ℝ → ℝ} {s c : Set ℝ} (h : Pair d p f F s c) (x : ℝ) : 0 ≤ f x := by
  by_cases hx : x ∈ s
  · exact (h.dens x hx).1.le
  · exact (h.zero x hx).ge

theorem both_eq {v : Bool → Fl} {a b : ℝ} (h : Both v a) (e : v false = fin b) : a = b := by
  have := h.2.1.symm.trans e
  injection this

theorem hazardOrder_of {d₁ p₁ d₂ p₂ : Fl → Bool → Fl} {f₁ F₁ f₂ F₂ : ℝ → ℝ} {s c : Set ℝ} (h₁ : Pair d₁ p₁ f₁ F₁ s c)
    (h₂ : Pair d₂ p₂ f₂ F₂ s c) (h : MonoLR d₁ d₂ s) : HazardOrder d₁ p₁ d₂ p₂ c := by
  have lr : ∀ x y : ℝ, x ≤ y → f₂ x * f₁ y ≤ f₁ x * f₂ y := fun x y hxy => by
    by_cases hx : x ∈ s
    · by_cases hy : y ∈ s
      · obtain ⟨a, b, a', b', ha, hb, ha', hb', hh⟩ := h x hx y hy hxy
        rw [both_eq ha (h₁.dens x hx).2.1, both_eq hb (h₂.dens x hx).2.1, both_eq ha' (h₁.dens y hy).2.1,
          both_eq hb' (h₂.dens y hy).2.1, div_le_div_iff₀ (h₁.dens x hx).1 (h₁.dens y hy).1] at hh
        linarith
      · rw [h₁.zero y hy, h₂.zero y hy]; simp
    · rw [h₁.zero x hx, h₂.zero x hx]; simp
  intro x hc
  have hx := h₁.sub hc
  refine ⟨f₁ x, f₂ x, F₁ x, F₂ x, (h₁.dens x hx).2.1, (h₂.dens x hx).2.1, h₁.prob x hc, h₂.prob x hc, (h₁.dens x hx).1,
    (h₂.dens x hx).1, ?_, ?_⟩
  · rw [← h₁.cdf.upper, ← h₂.cdf.upper, ← integral_const_mul, ← integral_const_mul]
    exact setIntegral_mono_on (h₁.cdf.integrable.const_mul _).integrableOn (h₂.cdf.integrable.const_mul _).integrableOn
      measurableSet_Ioi fun y hy => lr x y (le_of_lt hy)
  · rw [← h₁.cdf.running, ← h₂.cdf.running, ← integral_const_mul, ← integral_const_mul]
    refine setIntegral_mono_on (h₂.cdf.integrable.const_mul _).integrableOn (h₁.cdf.integrable.const_mul _).integrableOn
      measurableSet_Iic fun y hy => ?_
    have := lr y x hy
    linarith

/-- shifting a log-concave function by `u` lowers the ratio -/
theorem logConcave_shift {d : Fl → Bool → Fl} {f : ℝ → ℝ} {s : Set ℝ} (hd : IsDensityOn d f s) (hz : ∀ x ∉ s, f x = 0)
    (hs : s.OrdConnected) (h : LogConcave d s) {x y u : ℝ} (hxy : x ≤ y) (hu : 0 ≤ u) : f x * f (y + u) ≤ f y * f (x + u) := by
  have n : ∀ z, 0 ≤ f z := fun z => by
    by_cases hz' : z ∈ s
    · exact (hd z hz').1.le
    · exact (hz z hz').ge
  by_cases hx : x ∈ s
  swap
  · rw [hz x hx, zero_mul]; exact mul_nonneg (n _) (n _)
  by_cases hy : y + u ∈ s
  swap
  · rw [hz _ hy, mul_zero]; exact mul_nonneg (n _) (n _)
  rcases eq_or_lt_of_le (show x ≤ y + u by linarith) with e | l
  · have e1 : y = x := by linarith
    have e2 : u = 0 := by linarith
    rw [e1, e2]
  have w : 0 < y + u - x := by linarith
  have m1 : y ∈ s := hs.out hx hy ⟨hxy, by linarith⟩
  have m2 : x + u ∈ s := hs.out hx hy ⟨by linarith, by linarith⟩
  have key : ∀ r t : ℝ, 0 ≤ r → 0 ≤ t → r + t = 1 → ∀ z, z ∈ s → r * x + t * (y + u) = z →
      r * Real.log (f x) + t * Real.log (f (y + u)) ≤ Real.log (f z) := by
    intro r t hr ht hrt z hz' ez
    obtain ⟨a, b, c, ha, hb, hc, hh⟩ := h x hx (y + u) hy r t hr ht hrt
    rw [ez] at hc
    rwa [both_eq ha (hd x hx).2.1, both_eq hb (hd _ hy).2.1, both_eq hc (hd z hz').2.1] at hh
  have k1 := key (u / (y + u - x)) ((y - x) / (y + u - x)) (div_nonneg hu w.le) (div_nonneg (by linarith) w.le)
    (by field_simp; ring) y m1 (by field_simp; ring)
  have k2 := key ((y - x) / (y + u - x)) (u / (y + u - x)) (div_nonneg (by linarith) w.le) (div_nonneg hu w.le)
    (by field_simp; ring) (x + u) m2 (by field_simp; ring)
  have e : u / (y + u - x) + (y - x) / (y + u - x) = 1 := by field_simp; ring
  have p1 := (hd x hx).1
  have p2 := (hd _ hy).1
  have p3 := (hd y m1).1
  have p4 := (hd _ m2).1
  rw [← Real.log_le_log_iff (mul_pos p1 p2) (mul_pos p3 p4), Real.log_mul p1.ne' p2.ne', Real.log_mul p3.ne' p4.ne']
  generalize u / (y + u - x) = r at *
  generalize (y - x) / (y + u - x) = t at *
  obtain rfl : t = 1 - r := by linarith
  linarith

theorem monoHazard_of {d p : Fl → Bool → Fl} {f F : ℝ → ℝ} {s c : Set ℝ} (h : Pair d p f F s c) (hs : s.OrdConnected)
    (hl : LogConcave d s) : MonoHazard d p c := by
  intro x hcx y hcy hxy
  have hx := h.sub hcx
  have hy := h.sub hcy
  refine ⟨f x, f y, F x, F y, (h.dens x hx).2.1, (h.dens y hy).2.1, h.prob x hcx, h.prob y hcy, (h.dens x hx).1, (h.dens y hy).1,
    ?_, ?_⟩
  · have e : ∫ t in Ioi y, f t = ∫ t in Ioi x, f (t + (y - x)) := by
      rw [← integral_indicator measurableSet_Ioi, ← integral_indicator measurableSet_Ioi,
        ← integral_add_right_eq_self _ (y - x)]
      refine integral_congr_ae (Filter.Eventually.of_forall fun t => ?_)
      simp only [indicator, mem_Ioi]
      have : y < t + (y - x) ↔ x < t := by constructor <;> intro <;> linarith
      simp [this]
    rw [← h.cdf.upper, ← h.cdf.upper, e, ← integral_const_mul, ← integral_const_mul]
    refine setIntegral_mono_on ((h.cdf.integrable.comp_add_right _).const_mul _).integrableOn
      (h.cdf.integrable.const_mul _).integrableOn measurableSet_Ioi fun t ht => ?_
    have := logConcave_shift h.dens h.zero hs hl hxy (show 0 ≤ t - x from sub_nonneg.2 (le_of_lt ht))
    rwa [show y + (t - x) = t + (y - x) by ring, show x + (t - x) = t by ring] at this
  · have e : ∫ t in Iic y, f t = ∫ t in Iic x, f (t + (y - x)) := by
      rw [← integral_indicator measurableSet_Iic, ← integral_indicator measurableSet_Iic,
        ← integral_add_right_eq_self _ (y - x)]
      refine integral_congr_ae (Filter.Eventually.of_forall fun t => ?_)
      simp only [indicator, mem_Iic]
      have : t + (y - x) ≤ y ↔ t ≤ x := by constructor <;> intro <;> linarith
      simp [this]
    rw [← h.cdf.running, ← h.cdf.running, e, ← integral_const_mul, ← integral_const_mul]
    refine setIntegral_mono_on (h.cdf.integrable.const_mul _).integrableOn
      ((h.cdf.integrable.comp_add_right _).const_mul _).integrableOn measurableSet_Iic fun t ht => ?_
    have := logConcave_shift h.dens h.zero hs hl (show t ≤ x from ht) (sub_nonneg.2 hxy)
    rw [show x + (y - x) = y by ring] at this
    linarith

/-! ### the coded pairs -/

theorem pair_norm (mu : ℝ) {sigma : ℝ} (h : 0 < sigma) : Pair (fun x => dnorm x (fin mu) (fin sigma))
    (fun x => pnorm x (fin mu) (fin sigma)) (normPdf mu sigma) (fun x => Phi ((x - mu) / sigma)) univ univ :=
  ⟨C08_dnorm mu h, isCdf_norm mu h, fun x hx => absurd trivial hx, fun x _ => pnorm_fin mu h x, subset_rfl⟩

theorem pair_laplace (mu : ℝ) {sigma : ℝ} (h : 0 < sigma) : Pair (fun x => dlaplace x (fin mu) (fin sigma))
    (fun x => plaplace x (fin mu) (fin sigma)) (laplacePdf mu sigma) (laplaceCdf mu sigma) univ univ :=
  ⟨C08_dlaplace mu h, isCdf_laplace mu h, fun x hx => absurd trivial hx, fun x _ => plaplace_fin mu h x, subset_rfl⟩

theorem pair_logis (mu : ℝ) {sigma : ℝ} (h : 0 < sigma) : Pair (fun x => dlogis x (fin mu) (fin sigma))
    (fun x => plogis x (fin mu) (fin sigma)) (logisPdf mu sigma) (fun x => 1 / (1 + Real.exp (-((x - mu) / sigma)))) univ univ :=
  ⟨C08_dlogis mu h, isCdf_logis mu h, fun x hx => absurd trivial hx, fun x _ => plogis_fin mu h x, subset_rfl⟩

theorem eps_sub : Ici Lib.eps ⊆ Ioi (0 : ℝ) := fun _ hx => Lib.eps_pos.trans_le hx

theorem pair_lnorm (mu : ℝ) {sigma : ℝ} (h : 0 < sigma) : Pair (fun x => dlnorm x (fin mu) (fin sigma))
    (fun x => plnorm x (fin mu) (fin sigma)) (lnormPdf mu sigma)
    (fun x => if 0 < x then Phi ((Real.log x - mu) / sigma) else 0) (Ioi 0) (Ici Lib.eps) :=
  ⟨C08_dlnorm mu h, isCdf_lnorm mu h, fun x hx => if_neg hx, fun x hx => plnorm_fin mu h x (Or.inl hx), eps_sub⟩

theorem pair_exp {rate : ℝ} (h : 0 < rate) : Pair (fun x => dexp x (fin rate)) (fun x => pexp x (fin rate)) (expPdf rate)
    (fun x => if 0 < x then 1 - Real.exp (-rate * x) else 0)
    (Ici 0) (Ici 0) :=
  ⟨C08_dexp h, isCdf_exp h, fun x hx => if_neg hx, fun x _ => pexp_fin h x, subset_rfl⟩

theorem pair_unif {a b : ℝ} (h : a < b) : Pair (fun x => dunif x (fin a) (fin b)) (fun x => punif x (fin a) (fin b)) (unifPdf a b)
    (unifCdf a b)
    (Icc a b) (Icc a b) :=
  ⟨C08_dunif h, isCdf_unif h, fun x hx => if_neg hx, fun x _ => punif_fin h x, subset_rfl⟩

theorem pair_gamma {shape scale : ℝ} (hk : 0 < shape) (hs : Lib.eps ≤ scale) : Pair (fun x => dgamma x (fin shape) (fin scale))
    (fun x => pgamma x (fin shape) (fin scale)) (gammaPdf shape scale)
    (fun x => if 0 < x then gammaP shape (x / scale) else 0) (Ioi 0) (Ici Lib.eps) :=
  ⟨C08_dgamma hk hs, isCdf_gamma hk (Lib.eps_pos.trans_le hs), fun x hx => if_neg hx, fun x hx => pgamma_fin hk hs x (Or.inl hx),
    eps_sub⟩

theorem pair_chisq {dof : ℝ} (hk : 0 < dof) : Pair (fun x => dchisq x (fin dof)) (fun x => pchisq x (fin dof)) (chisqPdf dof)
    (fun x => if 0 < x then gammaP (dof / 2) (x / 2) else 0)
    (Ioi 0) (Ici Lib.eps) :=
  ⟨C08_dchisq hk, isCdf_chisq hk, fun x hx => if_neg hx, fun x hx => pchisq_fin hk x (Or.inl hx), eps_sub⟩

theorem pair_beta {a b : ℝ} (ha : 0 < a) (hb : 0 < b) : Pair (fun x => dbeta x (fin a) (fin b)) (fun x => pbeta x (fin a) (fin b))
    (betaPdf a b) (betaCdf a b) (Ioo 0 1) (Ioo 0 1) :=
  ⟨C08_dbeta ha hb, isCdf_beta ha hb, fun x hx => if_neg hx, fun x _ => pbeta_fin ha hb x, subset_rfl⟩

theorem pair_weibull {shape scale : ℝ} (hk : Lib.eps ≤ shape) (hs : Lib.eps ≤ scale) :
    Pair (fun x => dweibull x (fin shape) (fin scale)) (fun x => pweibull x (fin shape) (fin scale)) (weibullPdf shape scale)
      (fun x => if 0 < x then 1 - Real.exp (-(x / scale) ^ shape) else 0)
      (Ioi 0) (Ici Lib.eps) :=
  ⟨C08_dweibull hk hs, isCdf_weibull (Lib.eps_pos.trans_le hk) (Lib.eps_pos.trans_le hs), fun x hx => if_neg hx,
    fun x hx => pweibull_fin hk hs x (Or.inl hx), eps_sub⟩

theorem pair_invgamma {shape rate : ℝ} (hk : 0 < shape) (hr : 0 < rate) (hr' : Lib.eps ≤ 1 / rate) :
    Pair (fun x => dinvgamma x (fin shape) (fin rate)) (fun x => pinvgamma x (fin shape) (fin rate)) (invgammaPdf shape rate)
      (fun x => if 0 < x then 1 - gammaP shape (rate / x) else 0)
      (Ioi 0) (Ioc 0 (1 / Lib.eps)) :=
  ⟨C08_dinvgamma hk hr, isCdf_invgamma hk hr, fun x hx => if_neg hx, fun x hx => pinvgamma_fin hk hr hr' x (Or.inl (by
    have := Lib.eps_pos
    rw [le_div_iff₀ hx.1]
    have := (le_div_iff₀ this).1 hx.2
    linarith)), fun x hx => hx.1⟩

theorem pair_invgauss {mu lambda : ℝ} (hm : 0 < mu) (hl : 0 < lambda) : Pair (fun x => dinvgauss x (fin mu) (fin lambda))
    (fun x => pinvgauss x (fin mu) (fin lambda)) (invgaussPdf mu lambda)
    (fun x => if 0 < x then invgaussCdf mu lambda x else 0) (Ioi 0) (Ioi 0) :=
  ⟨C08_dinvgauss hm hl, isCdf_invgauss hm hl, fun x hx => if_neg hx, fun x _ => pinvgauss_fin hm hl x, subset_rfl⟩

/-! ### larger parameter, smaller hazard rate -/

theorem C72_norm_order {mu₁ mu₂ sigma : ℝ} (h : 0 < sigma) (hm : mu₁ ≤ mu₂) :
    HazardOrder (fun x => dnorm x (fin mu₁) (fin sigma)) (fun x => pnorm x (fin mu₁) (fin sigma))
      (fun x => dnorm x (fin mu₂) (fin sigma)) (fun x => pnorm x (fin mu₂) (fin sigma)) univ :=
  hazardOrder_of (pair_norm mu₁ h) (pair_norm mu₂ h) (C70_norm h hm)
example := C72_norm_order (mu₁ := 1) (mu₂ := 3) (sigma := 2) (by norm_num) (by norm_num)

theorem C72_lnorm_order {mu₁ mu₂ sigma : ℝ} (h : 0 < sigma) (hm : mu₁ ≤ mu₂) :
    HazardOrder (fun x => dlnorm x (fin mu₁) (fin sigma)) (fun x => plnorm x (fin mu₁) (fin sigma))
      (fun x => dlnorm x (fin mu₂) (fin sigma)) (fun x => plnorm x (fin mu₂) (fin sigma)) (Ici Lib.eps) :=
  hazardOrder_of (pair_lnorm mu₁ h) (pair_lnorm mu₂ h) (C70_lnorm h hm)
example := C72_lnorm_order (mu₁ := 1) (mu₂ := 3) (sigma := 2) (by norm_num) (by norm_num)

theorem C72_laplace_order {mu₁ mu₂ sigma : ℝ} (h : 0 < sigma) (hm : mu₁ ≤ mu₂) :
    HazardOrder (fun x => dlaplace x (fin mu₁) (fin sigma)) (fun x => plaplace x (fin mu₁) (fin sigma))
      (fun x => dlaplace x (fin mu₂) (fin sigma)) (fun x => plaplace x (fin mu₂) (fin sigma)) univ :=
  hazardOrder_of (pair_laplace mu₁ h) (pair_laplace mu₂ h) (C70_laplace h hm)
example := C72_laplace_order (mu₁ := 1) (mu₂ := 3) (sigma := 2) (by norm_num) (by norm_num)

theorem C72_logis_order {mu₁ mu₂ sigma : ℝ} (h : 0 < sigma) (hm : mu₁ ≤ mu₂) :
    HazardOrder (fun x => dlogis x (fin mu₁) (fin sigma)) (fun x => plogis x (fin mu₁) (fin sigma))
      (fun x => dlogis x (fin mu₂) (fin sigma)) (fun x => plogis x (fin mu₂) (fin sigma)) univ :=
  hazardOrder_of (pair_logis mu₁ h) (pair_logis mu₂ h) (C70_logis h hm)
example := C72_logis_order (mu₁ := 1) (mu₂ := 3) (sigma := 2) (by norm_num) (by norm_num)

theorem C72_exp_order {rate₁ rate₂ : ℝ} (h : 0 < rate₁) (hr : rate₁ ≤ rate₂) :
    HazardOrder (fun x => dexp x (fin rate₂)) (fun x => pexp x (fin rate₂)) (fun x => dexp x (fin rate₁))
      (fun x => pexp x (fin rate₁)) (Ici 0) :=
  hazardOrder_of (pair_exp (h.trans_le hr)) (pair_exp h) (C70_exp h hr)
example := C72_exp_order (rate₁ := 2) (rate₂ := 3) (by norm_num) (by norm_num)

theorem C72_gamma_order {shape₁ shape₂ scale₁ scale₂ : ℝ} (hk : 0 < shape₁) (hk' : shape₁ ≤ shape₂) (hs : Lib.eps ≤ scale₁)
    (hs' : scale₁ ≤ scale₂) :
    HazardOrder (fun x => dgamma x (fin shape₁) (fin scale₁)) (fun x => pgamma x (fin shape₁) (fin scale₁))
      (fun x => dgamma x (fin shape₂) (fin scale₂)) (fun x => pgamma x (fin shape₂) (fin scale₂)) (Ici Lib.eps) :=
  hazardOrder_of (pair_gamma hk hs) (pair_gamma (hk.trans_le hk') (hs.trans hs')) (C70_gamma hk hk' hs hs')
example := C72_gamma_order (shape₁ := 1) (shape₂ := 3) (scale₁ := 2) (scale₂ := 4) (by norm_num) (by norm_num) (by meets) (by norm_num)

theorem C72_chisq_order {dof₁ dof₂ : ℝ} (hk : 0 < dof₁) (hk' : dof₁ ≤ dof₂) :
    HazardOrder (fun x => dchisq x (fin dof₁)) (fun x => pchisq x (fin dof₁)) (fun x => dchisq x (fin dof₂))
      (fun x => pchisq x (fin dof₂)) (Ici Lib.eps) :=
  hazardOrder_of (pair_chisq hk) (pair_chisq (hk.trans_le hk')) (C70_chisq hk hk')
example := C72_chisq_order (dof₁ := 1) (dof₂ := 5) (by norm_num) (by norm_num)

theorem C72_beta_order {a₁ a₂ b₁ b₂ : ℝ} (ha : 0 < a₁) (ha' : a₁ ≤ a₂) (hb : 0 < b₁) (hb' : b₁ ≤ b₂) :
    HazardOrder (fun x => dbeta x (fin a₁) (fin b₂)) (fun x => pbeta x (fin a₁) (fin b₂)) (fun x => dbeta x (fin a₂) (fin b₁))
      (fun x => pbeta x (fin a₂) (fin b₁)) (Ioo 0 1) :=
  hazardOrder_of (pair_beta ha (hb.trans_le hb')) (pair_beta (ha.trans_le ha') hb) (C70_beta ha ha' hb hb')
example := C72_beta_order (a₁ := 1) (a₂ := 2) (b₁ := 1 / 2) (b₂ := 3) (by norm_num) (by norm_num) (by norm_num) (by norm_num)

theorem C72_invgauss_order {mu₁ mu₂ lambda : ℝ} (hm : 0 < mu₁) (hm' : mu₁ ≤ mu₂) (hl : 0 < lambda) :
    HazardOrder (fun x => dinvgauss x (fin mu₁) (fin lambda)) (fun x => pinvgauss x (fin mu₁) (fin lambda))
      (fun x => dinvgauss x (fin mu₂) (fin lambda)) (fun x => pinvgauss x (fin mu₂) (fin lambda)) (Ioi 0) :=
  hazardOrder_of (pair_invgauss hm hl) (pair_invgauss (hm.trans_le hm') hl) (C70_invgauss hm hm' hl)
example := C72_invgauss_order (mu₁ := 1) (mu₂ := 3) (lambda := 2) (by norm_num) (by norm_num) (by norm_num)

theorem C72_invgamma_order {shape₁ shape₂ rate₁ rate₂ : ℝ} (hk : 0 < shape₁) (hk' : shape₁ ≤ shape₂) (hr : 0 < rate₁)
    (hr' : rate₁ ≤ rate₂) (he : Lib.eps ≤ 1 / rate₂) :
    HazardOrder (fun x => dinvgamma x (fin shape₂) (fin rate₁)) (fun x => pinvgamma x (fin shape₂) (fin rate₁))
      (fun x => dinvgamma x (fin shape₁) (fin rate₂)) (fun x => pinvgamma x (fin shape₁) (fin rate₂)) (Ioc 0 (1 / Lib.eps)) :=
  hazardOrder_of (pair_invgamma (hk.trans_le hk') hr (he.trans (one_div_le_one_div_of_le hr hr')))
    (pair_invgamma hk (hr.trans_le hr') he) (C70_invgamma hk hk' hr hr')
example := C72_invgamma_order (shape₁ := 2) (shape₂ := 3) (rate₁ := 1) (rate₂ := 5) (by norm_num) (by norm_num) (by norm_num)
  (by norm_num) (by meets)

theorem C72_weibull_order {shape scale₁ scale₂ : ℝ} (hk : Lib.eps ≤ shape) (hs : Lib.eps ≤ scale₁) (hs' : scale₁ ≤ scale₂) :
    HazardOrder (fun x => dweibull x (fin shape) (fin scale₁)) (fun x => pweibull x (fin shape) (fin scale₁))
      (fun x => dweibull x (fin shape) (fin scale₂)) (fun x => pweibull x (fin shape) (fin scale₂)) (Ici Lib.eps) :=
  hazardOrder_of (pair_weibull hk hs) (pair_weibull hk (hs.trans hs')) (C70_weibull hk hs hs')
example := C72_weibull_order (shape := 1 / 2) (scale₁ := 1) (scale₂ := 2) (by meets) (by meets) (by norm_num)

/-! ### hazard rates that do not decrease -/

theorem C72_norm_mono (mu : ℝ) {sigma : ℝ} (h : 0 < sigma) :
    MonoHazard (fun x => dnorm x (fin mu) (fin sigma)) (fun x => pnorm x (fin mu) (fin sigma)) univ :=
  monoHazard_of (pair_norm mu h) ordConnected_univ (C71_norm mu h)
example := C72_norm_mono 1 (sigma := 2) (by norm_num)

theorem C72_laplace_mono (mu : ℝ) {sigma : ℝ} (h : 0 < sigma) :
    MonoHazard (fun x => dlaplace x (fin mu) (fin sigma)) (fun x => plaplace x (fin mu) (fin sigma)) univ :=
  monoHazard_of (pair_laplace mu h) ordConnected_univ (C71_laplace mu h)
example := C72_laplace_mono 1 (sigma := 2) (by norm_num)

theorem C72_logis_mono (mu : ℝ) {sigma : ℝ} (h : 0 < sigma) :
    MonoHazard (fun x => dlogis x (fin mu) (fin sigma)) (fun x => plogis x (fin mu) (fin sigma)) univ :=
  monoHazard_of (pair_logis mu h) ordConnected_univ (C71_logis mu h)
example := C72_logis_mono 1 (sigma := 2) (by norm_num)

theorem C72_unif_mono {a b : ℝ} (h : a < b) :
    MonoHazard (fun x => dunif x (fin a) (fin b)) (fun x => punif x (fin a) (fin b)) (Icc a b) :=
  monoHazard_of (pair_unif h) ordConnected_Icc (C71_unif h)
example := C72_unif_mono (a := 1) (b := 4) (by norm_num)

theorem C72_gamma_mono {shape scale : ℝ} (hk : 1 ≤ shape) (hs : Lib.eps ≤ scale) :
    MonoHazard (fun x => dgamma x (fin shape) (fin scale)) (fun x => pgamma x (fin shape) (fin scale)) (Ici Lib.eps) :=
  monoHazard_of (pair_gamma (by linarith) hs) ordConnected_Ioi (C71_gamma hk hs)
example := C72_gamma_mono (shape := 3) (scale := 2) (by norm_num) (by meets)

theorem C72_chisq_mono {dof : ℝ} (hk : 2 ≤ dof) :
    MonoHazard (fun x => dchisq x (fin dof)) (fun x => pchisq x (fin dof)) (Ici Lib.eps) :=
  monoHazard_of (pair_chisq (by linarith)) ordConnected_Ioi (C71_chisq hk)
example := C72_chisq_mono (dof := 5) (by norm_num)

theorem C72_beta_mono {a b : ℝ} (ha : 1 ≤ a) (hb : 1 ≤ b) :
    MonoHazard (fun x => dbeta x (fin a) (fin b)) (fun x => pbeta x (fin a) (fin b)) (Ioo 0 1) :=
  monoHazard_of (pair_beta (by linarith) (by linarith)) ordConnected_Ioo (C71_beta ha hb)
example := C72_beta_mono (a := 2) (b := 3) (by norm_num) (by norm_num)

theorem C72_weibull_mono {shape scale : ℝ} (hk : 1 ≤ shape) (hs : Lib.eps ≤ scale) :
    MonoHazard (fun x => dweibull x (fin shape) (fin scale)) (fun x => pweibull x (fin shape) (fin scale)) (Ici Lib.eps) :=
  monoHazard_of (pair_weibull (by have := Lib.eps_le; linarith) hs) ordConnected_Ioi (C71_weibull hk hs)
example := C72_weibull_mono (shape := 3) (scale := 2) (by norm_num) (by meets)

/-! ### explicit hazard rates -/

theorem C72_exp_rate {rate : ℝ} (h : 0 < rate) :
    HazardIs (fun x => dexp x (fin rate)) (fun x => pexp x (fin rate)) (fun _ => rate) (Ici 0) := by
  intro x hx
  refine ⟨_, _, (C08_dexp h x hx).2.1, pexp_fin h x, ?_⟩
  have p := Real.exp_pos (-rate * x)
  rw [expPdf, if_pos (show 0 ≤ x from hx)]
  rcases eq_or_lt_of_le (show 0 ≤ x from hx) with rfl | hx'
  · simp
  · rw [if_pos hx']
    exact ⟨by linarith, by field_simp; ring⟩
example := C72_exp_rate (rate := 2) (by norm_num)

theorem C72_exp_memoryless {rate : ℝ} (h : 0 < rate) : Memoryless (fun x => pexp x (fin rate)) (Ici 0) := by
  have e : ∀ x : ℝ, 0 ≤ x → pexp (fin x) (fin rate) false = fin (1 - Real.exp (-rate * x)) := fun x hx => by
    rw [pexp_fin h x]
    rcases eq_or_lt_of_le hx with rfl | hx'
    · simp
    · rw [if_pos hx']
  intro x hx y hy
  refine ⟨_, _, _, e x hx, e y hy, e (x + y) (add_nonneg hx hy), ?_, ?_⟩
  · have := Real.exp_pos (-rate * (x + y)); linarith
  · rw [sub_sub_cancel, sub_sub_cancel, sub_sub_cancel, ← Real.exp_add]
    congr 1; ring
example := C72_exp_memoryless (rate := 2) (by norm_num)

theorem C72_weibull_rate {shape scale : ℝ} (hk : Lib.eps ≤ shape) (hs : Lib.eps ≤ scale) :
    HazardIs (fun x => dweibull x (fin shape) (fin scale)) (fun x => pweibull x (fin shape) (fin scale))
      (fun x => shape / scale * (x / scale) ^ (shape - 1)) (Ici Lib.eps) := by
  intro x hx
  have hx0 : (0 : ℝ) < x := eps_sub hx
  refine ⟨_, _, (C08_dweibull hk hs x hx0).2.1, pweibull_fin hk hs x (Or.inl hx), ?_⟩
  have p := Real.exp_pos (-(x / scale) ^ shape)
  rw [weibullPdf, if_pos hx0, if_pos hx0]
  exact ⟨by linarith, by rw [sub_sub_cancel, mul_div_assoc, div_self p.ne', mul_one]⟩
example := C72_weibull_rate (shape := 1 / 2) (scale := 2) (by meets) (by meets)

theorem C72_logis_rate (mu : ℝ) {sigma : ℝ} (h : 0 < sigma) :
    HazardIs (fun x => dlogis x (fin mu) (fin sigma)) (fun x => plogis x (fin mu) (fin sigma))
      (fun x => 1 / (sigma * (1 + Real.exp (-((x - mu) / sigma))))) univ := by
  intro x _
  refine ⟨_, _, (C08_dlogis mu h x trivial).2.1, plogis_fin mu h x, ?_⟩
  have p := Real.exp_pos (-((x - mu) / sigma))
  rw [logisPdf]
  beta_reduce
  generalize Real.exp (-((x - mu) / sigma)) = t at *
  refine ⟨by rw [div_lt_one (by linarith)]; linarith, ?_⟩
  have e : 1 - 1 / (1 + t) = t / (1 + t) := by field_simp; ring
  rw [e]
  field_simp
example := C72_logis_rate 1 (sigma := 2) (by norm_num)

theorem C72_unif_rate {a b : ℝ} (h : a < b) :
    HazardIs (fun x => dunif x (fin a) (fin b)) (fun x => punif x (fin a) (fin b)) (fun x => 1 / (b - x)) (Ico a b) := by
  intro x hx
  refine ⟨_, _, (C08_dunif h x ⟨hx.1, hx.2.le⟩).2.1, punif_fin h x, ?_⟩
  have p : 0 < b - a := by linarith
  have q : 0 < b - x := by linarith [hx.2]
  rw [unifPdf, if_pos ⟨hx.1, hx.2.le⟩, unifCdf]
  have e : 1 - (x - a) / (b - a) = (b - x) / (b - a) := by field_simp; ring
  rcases eq_or_lt_of_le hx.1 with rfl | hx'
  · rw [if_pos le_rfl]; simp
  · rw [if_neg (not_le.2 hx'), if_neg (not_le.2 hx.2)]
    refine ⟨by rw [div_lt_one p]; linarith [hx.2], ?_⟩
    rw [e]
    field_simp
example := C72_unif_rate (a := 1) (b := 4) (by norm_num)

theorem C72_laplace_rate (mu : ℝ) {sigma : ℝ} (h : 0 < sigma) :
    HazardIs (fun x => dlaplace x (fin mu) (fin sigma)) (fun x => plaplace x (fin mu) (fin sigma)) (fun _ => 1 / sigma) (Ici mu) := by
  intro x hx
  have hx' : mu ≤ x := hx
  refine ⟨_, _, (C08_dlaplace mu h x trivial).2.1, plaplace_fin mu h x, ?_⟩
  have p := Real.exp_pos (-((x - mu) / sigma))
  rw [laplaceCdf, if_neg (not_lt.2 hx'), laplacePdf, abs_of_nonneg (sub_nonneg.2 hx'), neg_div]
  generalize Real.exp (-((x - mu) / sigma)) = t at *
  refine ⟨by linarith, ?_⟩
  rw [sub_sub_cancel]
  field_simp
example := C72_laplace_rate 1 (sigma := 2) (by norm_num)

end
end Stats
