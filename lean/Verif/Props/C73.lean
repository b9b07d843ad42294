import Verif.Spec.Entropy
import Verif.Lemmas.Moment
import Verif.Lemmas.Moment2
import Verif.Props.C08D
import Verif.Props.C12
import Verif.Props.C70

/-!
# C73: the expected difference of two log densities is the relative entropy of the textbooks
-/

set_option linter.unusedSectionVars false
set_option linter.unusedVariables false
open Classical MeasureTheory Set
namespace Stats
open Fl Spec
section
variable [Lib] [Ideal]

/-- `a log(a/b) ≥ a - b` -/
theorem gibbs_point {a b : ℝ} (ha : 0 < a) (hb : 0 < b) : 0 ≤ (Real.log a - Real.log b) * a - a + b ∧
    ((Real.log a - Real.log b) * a - a + b = 0 → a = b) := by
  have e : (Real.log a - Real.log b) * a - a + b = a * (b / a - 1 - Real.log (b / a)) := by
    rw [Real.log_div hb.ne' ha.ne']; field_simp; ring
  rw [e]
  have q : 0 < b / a := by positivity
  refine ⟨mul_nonneg ha.le (by have := Real.log_le_sub_one_of_pos q; linarith), fun h => ?_⟩
  rcases mul_eq_zero.1 h with h | h
  · exact absurd h ha.ne'
  · by_contra hne
    have : b / a ≠ 1 := fun c => hne (by rw [div_eq_one_iff_eq ha.ne'] at c; exact c.symm)
    have := Real.log_lt_sub_one_of_pos q this
    linarith

theorem divergence_of {d₁ d₂ : Fl → Bool → Fl} {f₁ F₁ f₂ F₂ : ℝ → ℝ} {s : Set ℝ} (h₁ : IsDensityOn d₁ f₁ s)
    (h₂ : IsDensityOn d₂ f₂ s) (c₁ : IsCdf F₁ f₁) (c₂ : IsCdf F₂ f₂) (z : ∀ x ∉ s, f₁ x = 0)
    (ae₁ : ∀ᵐ x : ℝ, d₁ (fin x) false = fin (f₁ x)) (ae₂ : ∀ᵐ x : ℝ, d₂ (fin x) false = fin (f₂ x)) {g : ℝ → ℝ} {k : ℝ}
    (hg : ∀ x ∈ s, Real.log (f₁ x) - Real.log (f₂ x) = g x)
    (hi : Integrable g (densLaw f₁) ∧ ∫ x, g x ∂densLaw f₁ = k) : Divergence d₁ d₂ k := by
  have e : (fun x : ℝ => toR (d₁ (fin x) false) * (toR (d₁ (fin x) true) - toR (d₂ (fin x) true))) =ᵐ[volume]
      fun x => g x * f₁ x := by
    filter_upwards [ae₁] with x hx
    by_cases hs : x ∈ s
    · rw [(h₁ x hs).2.1, (h₁ x hs).2.2, (h₂ x hs).2.2, ← hg x hs, mul_comm]; rfl
    · rw [hx, z x hs, mul_zero]; exact zero_mul _
  rw [c₁.integrable_dens, c₁.integral_dens] at hi
  have hn : 0 ≤ᵐ[volume] fun x => g x * f₁ x - f₁ x + f₂ x := by
    filter_upwards [c₂.nonneg] with x h2
    by_cases hs : x ∈ s
    · have := (gibbs_point (h₁ x hs).1 (h₂ x hs).1).1
      rwa [hg x hs] at this
    · show 0 ≤ _
      rw [z x hs]; simpa using h2
  have hint : Integrable fun x => g x * f₁ x - f₁ x + f₂ x := (hi.1.sub c₁.integrable).add c₂.integrable
  have hk : ∫ x, (g x * f₁ x - f₁ x + f₂ x) = k := by
    have i : Integrable fun x => g x * f₁ x - f₁ x := hi.1.sub c₁.integrable
    rw [integral_add i c₂.integrable, integral_sub hi.1 c₁.integrable, hi.2, c₁.total, c₂.total]; ring
  refine ⟨?_, hi.1.congr e.symm, (integral_congr_ae e).trans hi.2, hk ▸ integral_nonneg_of_ae hn, fun h0 => ?_⟩
  · filter_upwards [ae₁, c₁.nonneg] with x hx h0
    refine ⟨f₁ x, h0, hx, ?_⟩
    by_cases hs : x ∈ s
    · exact Or.inr ⟨_, _, (h₁ x hs).2.2, (h₂ x hs).2.2⟩
    · exact Or.inl (z x hs)
  · rw [h0] at hk
    have := (integral_eq_zero_iff_of_nonneg_ae hn hint).1 hk
    filter_upwards [this, ae₁, ae₂] with x hx e1 e2
    rw [e1, e2]
    by_cases hs : x ∈ s
    · rw [(gibbs_point (h₁ x hs).1 (h₂ x hs).1).2 (by rw [hg x hs]; exact hx)]
    · have : (0 : ℝ) = f₂ x := by
        have hx' : g x * f₁ x - f₁ x + f₂ x = 0 := hx
        rw [z x hs] at hx'; linarith
      rw [z x hs, this]

/-- densities of the form `c * exp` -/
theorem divergence_exp {d₁ d₂ : Fl → Bool → Fl} {f₁ F₁ f₂ F₂ : ℝ → ℝ} {s : Set ℝ} (h₁ : IsDensityOn d₁ f₁ s)
    (h₂ : IsDensityOn d₂ f₂ s) (c₁ : IsCdf F₁ f₁) (c₂ : IsCdf F₂ f₂) (z : ∀ x ∉ s, f₁ x = 0)
    (ae₁ : ∀ᵐ x : ℝ, d₁ (fin x) false = fin (f₁ x)) (ae₂ : ∀ᵐ x : ℝ, d₂ (fin x) false = fin (f₂ x)) {g g₁ g₂ : ℝ → ℝ} {m a₁ a₂ k : ℝ}
    (p₁ : 0 < a₁) (p₂ : 0 < a₂) (e₁ : ∀ x ∈ s, f₁ x = a₁ * Real.exp (g₁ x)) (e₂ : ∀ x ∈ s, f₂ x = a₂ * Real.exp (g₂ x))
    (hg : ∀ x ∈ s, g₁ x - g₂ x = g x) (hi : Integrable g (densLaw f₁) ∧ ∫ x, g x ∂densLaw f₁ = m)
    (hk : k = Real.log (a₁ / a₂) + m) : Divergence d₁ d₂ k := by
  have := c₁.isProb
  refine divergence_of h₁ h₂ c₁ c₂ z ae₁ ae₂ (g := fun x => Real.log (a₁ / a₂) + g x) (fun x hx => ?_)
    ⟨(integrable_const _).add hi.1, ?_⟩
  · rw [e₁ x hx, e₂ x hx, Real.log_mul p₁.ne' (Real.exp_pos _).ne', Real.log_mul p₂.ne' (Real.exp_pos _).ne', Real.log_exp,
      Real.log_exp, Real.log_div p₁.ne' p₂.ne', ← hg x hx]
    ring
  · rw [integral_add (integrable_const _) hi.1, hi.2, hk]; simp

theorem Moments.quad {D : Measure ℝ} [IsProbabilityMeasure D] {m v : ℝ} (h : Moments D m v) (a b c : ℝ) :
    Integrable (fun x : ℝ => a + b * x + c * x ^ 2) D ∧ ∫ x, (a + b * x + c * x ^ 2) ∂D = a + b * m + c * (v + m ^ 2) := by
  have i1 : Integrable (fun x : ℝ => a + b * x) D := (integrable_const a).add (h.int1.const_mul b)
  refine ⟨i1.add (h.int2.const_mul c), ?_⟩
  rw [integral_add i1 (h.int2.const_mul c), integral_add (integrable_const a) (h.int1.const_mul b), integral_const_mul,
    integral_const_mul, h.raw, h.mean]
  simp

theorem lin_int {D : Measure ℝ} [IsProbabilityMeasure D] {u : ℝ → ℝ} {m : ℝ} (h : Integrable u D ∧ ∫ x, u x ∂D = m) (a b : ℝ) :
    Integrable (fun x : ℝ => a + b * u x) D ∧ ∫ x, (a + b * u x) ∂D = a + b * m := by
  refine ⟨(integrable_const a).add (h.1.const_mul b), ?_⟩
  rw [integral_add (integrable_const a) (h.1.const_mul b), integral_const_mul, h.2]
  simp

theorem C73_norm (mu₁ mu₂ : ℝ) {sigma₁ sigma₂ : ℝ} (h₁ : 0 < sigma₁) (h₂ : 0 < sigma₂) :
    Divergence (fun x => dnorm x (fin mu₁) (fin sigma₁)) (fun x => dnorm x (fin mu₂) (fin sigma₂))
      (Real.log (sigma₂ / sigma₁) + (sigma₁ ^ 2 + (mu₁ - mu₂) ^ 2) / (2 * sigma₂ ^ 2) - 1 / 2) := by
  have := (isCdf_norm mu₁ h₁).isProb
  have pi : 0 < √(2 * Real.pi) := Real.sqrt_pos.2 (by have := Real.pi_pos; positivity)
  refine divergence_exp (C08_dnorm mu₁ h₁) (C08_dnorm mu₂ h₂) (isCdf_norm mu₁ h₁) (isCdf_norm mu₂ h₂) (fun x hx => absurd trivial hx)
    (dnorm_ae mu₁ h₁) (dnorm_ae mu₂ h₂) (a₁ := 1 / (√(2 * Real.pi) * sigma₁)) (a₂ := 1 / (√(2 * Real.pi) * sigma₂)) (by positivity)
    (by positivity) (fun x _ => rfl) (fun x _ => rfl) (fun x _ => ?_)
    ((moments_norm mu₁ h₁).quad (mu₂ ^ 2 / (2 * sigma₂ ^ 2) - mu₁ ^ 2 / (2 * sigma₁ ^ 2)) (mu₁ / sigma₁ ^ 2 - mu₂ / sigma₂ ^ 2)
      (1 / (2 * sigma₂ ^ 2) - 1 / (2 * sigma₁ ^ 2))) ?_
  · field_simp; ring
  · have e : 1 / (√(2 * Real.pi) * sigma₁) / (1 / (√(2 * Real.pi) * sigma₂)) = sigma₂ / sigma₁ := by field_simp
    rw [e]
    field_simp
    ring
example := C73_norm 1 3 (sigma₁ := 2) (sigma₂ := 5) (by norm_num) (by norm_num)

theorem C73_lnorm (mu₁ mu₂ : ℝ) {sigma₁ sigma₂ : ℝ} (h₁ : 0 < sigma₁) (h₂ : 0 < sigma₂) :
    Divergence (fun x => dlnorm x (fin mu₁) (fin sigma₁)) (fun x => dlnorm x (fin mu₂) (fin sigma₂))
      (Real.log (sigma₂ / sigma₁) + (sigma₁ ^ 2 + (mu₁ - mu₂) ^ 2) / (2 * sigma₂ ^ 2) - 1 / 2) := by
  have := (isCdf_norm mu₁ h₁).isProb
  have pi : 0 < √(2 * Real.pi) := Real.sqrt_pos.2 (by have := Real.pi_pos; positivity)
  have q := (moments_norm mu₁ h₁).quad (mu₂ ^ 2 / (2 * sigma₂ ^ 2) - mu₁ ^ 2 / (2 * sigma₁ ^ 2)) (mu₁ / sigma₁ ^ 2 - mu₂ / sigma₂ ^ 2)
      (1 / (2 * sigma₂ ^ 2) - 1 / (2 * sigma₁ ^ 2))
  have e : ∀ mu sigma : ℝ, ∀ x ∈ Ioi (0 : ℝ), lnormPdf mu sigma x =
      1 / (√(2 * Real.pi) * sigma) * Real.exp (-((Real.log x - mu) ^ 2) / (2 * sigma ^ 2) - Real.log x) := fun mu sigma x hx => by
    have hx : 0 < x := hx
    rw [lnormPdf, if_pos hx, Real.exp_sub, Real.exp_log hx]
    ring
  refine divergence_exp (C08_dlnorm mu₁ h₁) (C08_dlnorm mu₂ h₂) (isCdf_lnorm mu₁ h₁) (isCdf_lnorm mu₂ h₂) (fun x hx => if_neg hx)
    (dlnorm_ae mu₁ h₁) (dlnorm_ae mu₂ h₂) (a₁ := 1 / (√(2 * Real.pi) * sigma₁)) (a₂ := 1 / (√(2 * Real.pi) * sigma₂)) (by positivity)
    (by positivity) (e _ _) (e _ _) (g := fun x => mu₂ ^ 2 / (2 * sigma₂ ^ 2) - mu₁ ^ 2 / (2 * sigma₁ ^ 2) +
      (mu₁ / sigma₁ ^ 2 - mu₂ / sigma₂ ^ 2) * Real.log x + (1 / (2 * sigma₂ ^ 2) - 1 / (2 * sigma₁ ^ 2)) * Real.log x ^ 2)
    (m := mu₂ ^ 2 / (2 * sigma₂ ^ 2) - mu₁ ^ 2 / (2 * sigma₁ ^ 2) + (mu₁ / sigma₁ ^ 2 - mu₂ / sigma₂ ^ 2) * mu₁ +
      (1 / (2 * sigma₂ ^ 2) - 1 / (2 * sigma₁ ^ 2)) * (sigma₁ ^ 2 + mu₁ ^ 2)) (fun x _ => ?_) ⟨?_, ?_⟩ ?_
  · field_simp; ring
  · rw [← lnorm_exp mu₁ h₁, integrable_map_measure (by fun_prop) (by fun_prop)]
    simpa [Function.comp_def] using q.1
  · rw [← lnorm_exp mu₁ h₁, integral_map (by fun_prop) (by fun_prop)]
    simpa using q.2
  · have e : 1 / (√(2 * Real.pi) * sigma₁) / (1 / (√(2 * Real.pi) * sigma₂)) = sigma₂ / sigma₁ := by field_simp
    rw [e]
    field_simp
    ring
example := C73_lnorm 1 3 (sigma₁ := 2) (sigma₂ := 5) (by norm_num) (by norm_num)

theorem C73_exp {rate₁ rate₂ : ℝ} (h₁ : 0 < rate₁) (h₂ : 0 < rate₂) :
    Divergence (fun x => dexp x (fin rate₁)) (fun x => dexp x (fin rate₂)) (Real.log (rate₁ / rate₂) + rate₂ / rate₁ - 1) := by
  have := (isCdf_exp h₁).isProb
  refine divergence_exp (C08_dexp h₁) (C08_dexp h₂) (isCdf_exp h₁) (isCdf_exp h₂) (fun x hx => if_neg hx) (dexp_ae h₁) (dexp_ae h₂)
    h₁ h₂ (fun x hx => if_pos hx) (fun x hx => if_pos hx) (fun x _ => ?_)
    (lin_int ⟨(moments_exp h₁).int1, (moments_exp h₁).mean⟩ 0 (rate₂ - rate₁)) ?_
  · ring
  · field_simp; ring
example := C73_exp (rate₁ := 2) (rate₂ := 3) (by norm_num) (by norm_num)

theorem C73_unif {a b c d : ℝ} (h : a < b) (hc : c ≤ a) (hd : b ≤ d) :
    Divergence (fun x => dunif x (fin a) (fin b)) (fun x => dunif x (fin c) (fin d)) (Real.log ((d - c) / (b - a))) := by
  have h' : c < d := by linarith
  have := (isCdf_unif h).isProb
  have p1 : 0 < b - a := by linarith
  have p2 : 0 < d - c := by linarith
  refine divergence_exp (C08_dunif h) (fun x hx => C08_dunif h' x ⟨hc.trans hx.1, hx.2.trans hd⟩) (isCdf_unif h) (isCdf_unif h')
    (fun x hx => if_neg hx) (dunif_ae h) (dunif_ae h') (a₁ := 1 / (b - a)) (a₂ := 1 / (d - c)) (g₁ := fun _ => 0) (g₂ := fun _ => 0)
    (g := fun _ => 0) (m := 0) (by positivity) (by positivity) (fun x hx => ?_) (fun x hx => ?_) (fun x _ => sub_zero _) ⟨by simp, by simp⟩ ?_
  · rw [unifPdf, if_pos (show a ≤ x ∧ x ≤ b from hx)]; simp
  · rw [unifPdf, if_pos ⟨hc.trans hx.1, hx.2.trans hd⟩]; simp
  · rw [add_zero]; congr 1; field_simp
example := C73_unif (a := 1) (b := 2) (c := 0) (d := 5) (by norm_num) (by norm_num) (by norm_num)

theorem C73_gamma {shape scale₁ scale₂ : ℝ} (hk : 0 < shape) (h₁ : Lib.eps ≤ scale₁) (h₂ : Lib.eps ≤ scale₂) :
    Divergence (fun x => dgamma x (fin shape) (fin scale₁)) (fun x => dgamma x (fin shape) (fin scale₂))
      (shape * (Real.log (scale₂ / scale₁) + scale₁ / scale₂ - 1)) := by
  have s1 := Lib.eps_pos.trans_le h₁
  have s2 := Lib.eps_pos.trans_le h₂
  have G := Real.Gamma_pos_of_pos hk
  have := (isCdf_gamma hk s1).isProb
  refine divergence_exp (C08_dgamma hk h₁) (C08_dgamma hk h₂) (isCdf_gamma hk s1) (isCdf_gamma hk s2) (fun x hx => if_neg hx)
    (dgamma_ae hk h₁) (dgamma_ae hk h₂) (by positivity) (by positivity) (gammaPdf_exp shape scale₁) (gammaPdf_exp shape scale₂)
    (fun x _ => ?_) (lin_int ⟨(moments_gamma hk s1).int1, (moments_gamma hk s1).mean⟩ 0 (1 / scale₂ - 1 / scale₁)) ?_
  · ring
  · have e : 1 / (scale₁ ^ shape * Real.Gamma shape) / (1 / (scale₂ ^ shape * Real.Gamma shape)) = (scale₂ / scale₁) ^ shape := by
      rw [Real.div_rpow s2.le s1.le]; field_simp
    rw [e, Real.log_rpow (by positivity)]
    field_simp; ring
example := C73_gamma (shape := 3) (scale₁ := 2) (scale₂ := 5) (by norm_num) (by meets) (by meets)

theorem C73_invgamma {shape rate₁ rate₂ : ℝ} (hk : 0 < shape) (h₁ : 0 < rate₁) (h₂ : 0 < rate₂) :
    Divergence (fun x => dinvgamma x (fin shape) (fin rate₁)) (fun x => dinvgamma x (fin shape) (fin rate₂))
      (shape * (Real.log (rate₁ / rate₂) + rate₂ / rate₁ - 1)) := by
  have G := Real.Gamma_pos_of_pos hk
  have := (isCdf_invgamma hk h₁).isProb
  have e : ∀ β, ∀ x ∈ Set.Ioi (0 : ℝ), invgammaPdf shape β x =
      β ^ shape / Real.Gamma shape * Real.exp ((-shape - 1) * Real.log x - β / x) := fun β x hx => by
    have hx : 0 < x := hx
    rw [invgammaPdf, if_pos hx, Real.rpow_def_of_pos hx, mul_assoc, ← Real.exp_add, mul_comm (Real.log x)]
    congr 2; ring
  refine divergence_exp (C08_dinvgamma hk h₁) (C08_dinvgamma hk h₂) (isCdf_invgamma hk h₁) (isCdf_invgamma hk h₂) (fun x hx => if_neg hx)
    (dinvgamma_ae hk h₁) (dinvgamma_ae hk h₂) (by positivity) (by positivity) (e rate₁) (e rate₂)
    (fun x hx => ?_) (lin_int (invgamma_pow (r := -1) hk h₁ (by linarith)) 0 (rate₂ - rate₁)) ?_
  · rw [Real.rpow_neg_one]; ring
  · have e : rate₁ ^ shape / Real.Gamma shape / (rate₂ ^ shape / Real.Gamma shape) = (rate₁ / rate₂) ^ shape := by
      rw [Real.div_rpow h₁.le h₂.le]; field_simp
    rw [e, Real.log_rpow (by positivity), sub_neg_eq_add, Real.Gamma_add_one hk.ne', Real.rpow_neg_one]
    field_simp; ring
example := C73_invgamma (shape := 3) (rate₁ := 2) (rate₂ := 5) (by norm_num) (by norm_num) (by norm_num)

theorem C73_weibull {shape scale₁ scale₂ : ℝ} (hk : Lib.eps ≤ shape) (h₁ : Lib.eps ≤ scale₁) (h₂ : Lib.eps ≤ scale₂) :
    Divergence (fun x => dweibull x (fin shape) (fin scale₁)) (fun x => dweibull x (fin shape) (fin scale₂))
      (shape * Real.log (scale₂ / scale₁) + (scale₁ / scale₂) ^ shape - 1) := by
  have k0 := Lib.eps_pos.trans_le hk
  have s1 := Lib.eps_pos.trans_le h₁
  have s2 := Lib.eps_pos.trans_le h₂
  have := (isCdf_weibull k0 s1).isProb
  have e : ∀ θ, 0 < θ → ∀ x ∈ Set.Ioi (0 : ℝ), weibullPdf shape θ x =
      shape * (1 / θ) ^ shape * Real.exp ((shape - 1) * Real.log x - x ^ shape * (1 / θ) ^ shape) := fun θ hθ x hx => by
    have hx : 0 < x := hx
    have t : (1 / θ) ^ shape = 1 / θ * (1 / θ) ^ (shape - 1) := by
      rw [Real.rpow_sub_one (by positivity)]; field_simp
    rw [weibullPdf, if_pos hx, div_eq_mul_one_div x θ, Real.mul_rpow hx.le (by positivity), Real.mul_rpow hx.le (by positivity),
      Real.exp_sub, mul_comm (shape - 1) (Real.log x), ← Real.rpow_def_of_pos hx, Real.exp_neg]
    conv_rhs => rw [show shape * (1 / θ) ^ shape = shape / θ * (1 / θ) ^ (shape - 1) by rw [t]; ring]
    ring
  have b1 : 0 < (1 / scale₁) ^ shape := Real.rpow_pos_of_pos (by positivity) _
  have b2 : 0 < (1 / scale₂) ^ shape := Real.rpow_pos_of_pos (by positivity) _
  refine divergence_exp (C08_dweibull hk h₁) (C08_dweibull hk h₂) (isCdf_weibull k0 s1) (isCdf_weibull k0 s2) (fun x hx => if_neg hx)
    (dweibull_ae hk h₁) (dweibull_ae hk h₂) (by positivity) (by positivity) (e _ s1) (e _ s2)
    (fun x hx => ?_) (lin_int (weibull_pow (r := shape) k0 s1 (by linarith)) 0 ((1 / scale₂) ^ shape - (1 / scale₁) ^ shape)) ?_
  · ring
  · have g : Real.Gamma (1 + shape / shape) = 1 := by rw [div_self k0.ne', one_add_one_eq_two, Real.Gamma_two]
    have e1 : scale₁ ^ shape * (1 / scale₁) ^ shape = 1 := by
      rw [← Real.mul_rpow s1.le (by positivity), mul_one_div_cancel s1.ne', Real.one_rpow]
    have e2 : scale₁ ^ shape * (1 / scale₂) ^ shape = (scale₁ / scale₂) ^ shape := by
      rw [← Real.mul_rpow s1.le (by positivity), mul_one_div]
    have e3 : shape * (1 / scale₁) ^ shape / (shape * (1 / scale₂) ^ shape) = (scale₂ / scale₁) ^ shape := by
      rw [mul_div_mul_left _ _ k0.ne', ← Real.div_rpow (by positivity) (by positivity)]
      congr 1; field_simp
    rw [e3, Real.log_rpow (by positivity), g, ← e2]
    linear_combination e1
example := C73_weibull (shape := 3) (scale₁ := 2) (scale₂ := 5) (by meets) (by meets) (by meets)

theorem C73_invgauss {mu₁ mu₂ lambda : ℝ} (h₁ : 0 < mu₁) (h₂ : 0 < mu₂) (hl : 0 < lambda) :
    Divergence (fun x => dinvgauss x (fin mu₁) (fin lambda)) (fun x => dinvgauss x (fin mu₂) (fin lambda))
      (lambda * (mu₁ - mu₂) ^ 2 / (2 * mu₁ * mu₂ ^ 2)) := by
  have := (isCdf_invgauss h₁ hl).isProb
  refine divergence_of (C08_dinvgauss h₁ hl) (C08_dinvgauss h₂ hl) (isCdf_invgauss h₁ hl) (isCdf_invgauss h₂ hl) (fun x hx => if_neg hx)
    (dinvgauss_ae h₁ hl) (dinvgauss_ae h₂ hl)
    (g := fun x => lambda * (1 / mu₁ - 1 / mu₂) + lambda / 2 * (1 / mu₂ ^ 2 - 1 / mu₁ ^ 2) * x) (fun x hx => ?_) ?_
  · have hx : 0 < x := hx
    have p : √(lambda / (2 * Real.pi * x ^ 3)) ≠ 0 := (Real.sqrt_pos.2 (by have := Real.pi_pos; positivity)).ne'
    rw [invgaussPdf, invgaussPdf, if_pos hx, if_pos hx, Real.log_mul p (Real.exp_pos _).ne', Real.log_mul p (Real.exp_pos _).ne',
      Real.log_exp, Real.log_exp]
    field_simp
    ring
  · have := lin_int ⟨(moments_invgauss h₁ hl).int1, (moments_invgauss h₁ hl).mean⟩ (lambda * (1 / mu₁ - 1 / mu₂))
      (lambda / 2 * (1 / mu₂ ^ 2 - 1 / mu₁ ^ 2))
    refine ⟨this.1, this.2.trans ?_⟩
    field_simp
    ring
example := C73_invgauss (mu₁ := 1) (mu₂ := 3) (lambda := 2) (by norm_num) (by norm_num) (by norm_num)

theorem laplace_abs (mu : ℝ) {sigma : ℝ} (h : 0 < sigma) : Integrable (fun x : ℝ => |x - mu|) (densLaw (laplacePdf mu sigma)) ∧
    ∫ x, |x - mu| ∂densLaw (laplacePdf mu sigma) = sigma := by
  have hl := isCdf_laplace 0 one_pos
  have e : ∀ x, laplacePdf 0 1 x = 1 / 2 * Real.exp (-|x|) := fun x => by rw [laplacePdf]; simp
  have i1 := exp_pow 1 (by norm_num)
  simp only [Real.rpow_one] at i1
  have c : ∀ x : ℝ, x ∈ Ioi (0 : ℝ) → |x| = x := fun x hx => abs_of_pos hx
  have e1 := even_half (f := fun x => |x| * laplacePdf 0 1 x) (fun x => by simp only [e, abs_neg])
    (by
      refine IntegrableOn.congr_fun (i1.1.const_mul (1 / 2)) (fun x hx => ?_) measurableSet_Ioi
      simp only [e, c x hx]; ring)
  have b : ∫ x, |x| * laplacePdf 0 1 x = 1 := by
    rw [e1.2]
    have : ∀ x ∈ Ioi (0 : ℝ), |x| * laplacePdf 0 1 x = 1 / 2 * (x * Real.exp (-x)) := fun x hx => by
      simp only [e, c x hx]; ring
    rw [setIntegral_congr_fun measurableSet_Ioi this, integral_const_mul, i1.2, one_add_one_eq_two, Real.Gamma_two]
    norm_num
  rw [← locscale mu h (f := laplacePdf 0 1) (g := laplacePdf mu sigma) fun x => by
    rw [laplacePdf, laplacePdf, sub_zero, abs_div, abs_of_pos h]
    rw [div_one, neg_div]
    field_simp]
  have k : ∀ z : ℝ, |mu + sigma * z - mu| = sigma * |z| := fun z => by
    rw [add_sub_cancel_left, abs_mul, abs_of_pos h]
  constructor
  · rw [integrable_map_measure (by fun_prop) (by fun_prop)]
    simp only [Function.comp_def, k]
    exact ((hl.integrable_dens _).2 e1.1).const_mul _
  · rw [integral_map (by fun_prop) (by fun_prop)]
    simp only [k]
    rw [integral_const_mul, hl.integral_dens, b, mul_one]

theorem C73_laplace (mu : ℝ) {sigma₁ sigma₂ : ℝ} (h₁ : 0 < sigma₁) (h₂ : 0 < sigma₂) :
    Divergence (fun x => dlaplace x (fin mu) (fin sigma₁)) (fun x => dlaplace x (fin mu) (fin sigma₂))
      (Real.log (sigma₂ / sigma₁) + sigma₁ / sigma₂ - 1) := by
  have := (isCdf_laplace mu h₁).isProb
  refine divergence_exp (C08_dlaplace mu h₁) (C08_dlaplace mu h₂) (isCdf_laplace mu h₁) (isCdf_laplace mu h₂)
    (fun x hx => absurd trivial hx) (dlaplace_ae mu h₁) (dlaplace_ae mu h₂) (a₁ := 1 / (2 * sigma₁)) (a₂ := 1 / (2 * sigma₂))
    (by positivity) (by positivity) (fun x _ => rfl) (fun x _ => rfl) (fun x _ => ?_)
    (lin_int (laplace_abs mu h₁) 0 (1 / sigma₂ - 1 / sigma₁)) ?_
  · ring
  · have e : 1 / (2 * sigma₁) / (1 / (2 * sigma₂)) = sigma₂ / sigma₁ := by field_simp
    rw [e]; field_simp; ring
example := C73_laplace 1 (sigma₁ := 2) (sigma₂ := 5) (by norm_num) (by norm_num)

/-! ### counts -/

theorem divergenceInt_of {d₁ d₂ : ℤ → Bool → Fl} {p₁ p₂ : ℤ → ℝ} (h₁ : ∀ x, IsValue (d₁ x) (p₁ x)) (h₂ : ∀ x, IsValue (d₂ x) (p₂ x))
    (s₁ : HasSum p₁ 1) (s₂ : HasSum p₂ 1) (hp : ∀ x, p₁ x ≠ 0 → p₂ x ≠ 0) {g : ℤ → ℝ} {k : ℝ}
    (hg : ∀ x, p₁ x ≠ 0 → Real.log (p₁ x) - Real.log (p₂ x) = g x) (hi : HasSum (fun x => g x * p₁ x) k) : DivergenceInt d₁ d₂ k := by
  have e : ∀ x, toR (d₁ x false) * (toR (d₁ x true) - toR (d₂ x true)) = g x * p₁ x := fun x => by
    by_cases hx : p₁ x = 0
    · rw [(h₁ x).2.1, hx, mul_zero]; exact zero_mul _
    · rw [(h₁ x).2.1, (h₁ x).2.2, (h₂ x).2.2, if_neg hx, if_neg (hp x hx), ← hg x hx, mul_comm]; rfl
  have n : ∀ x, 0 ≤ g x * p₁ x - p₁ x + p₂ x ∧ (g x * p₁ x - p₁ x + p₂ x = 0 → p₁ x = p₂ x) := fun x => by
    by_cases hx : p₁ x = 0
    · rw [hx]; simp only [mul_zero, sub_zero, zero_add]; exact ⟨(h₂ x).1, fun h => h.symm⟩
    · have := gibbs_point (lt_of_le_of_ne (h₁ x).1 (Ne.symm hx)) (lt_of_le_of_ne (h₂ x).1 (Ne.symm (hp x hx)))
      rwa [hg x hx] at this
  have hs : HasSum (fun x => g x * p₁ x - p₁ x + p₂ x) k := by
    have := (hi.sub s₁).add s₂
    rwa [sub_add_cancel] at this
  refine ⟨fun x => ⟨p₁ x, (h₁ x).1, (h₁ x).2.1, ?_⟩, ?_, hs.nonneg fun x => (n x).1, fun h0 x => ?_⟩
  · by_cases hx : p₁ x = 0
    · exact Or.inl hx
    · exact Or.inr ⟨_, _, by rw [(h₁ x).2.2, if_neg hx], by rw [(h₂ x).2.2, if_neg (hp x hx)]⟩
  · simpa only [e] using hi
  · rw [h0] at hs
    have := (hasSum_zero_iff_of_nonneg fun x => (n x).1).1 hs
    rw [(h₁ x).2.1, (h₂ x).2.1, (n x).2 (congrFun this x)]

theorem C73_pois {rate₁ rate₂ : ℝ} (h₁ : 0 < rate₁) (h₂ : 0 < rate₂) :
    DivergenceInt (fun x => dpois x (fin rate₁)) (fun x => dpois x (fin rate₂)) (rate₁ * Real.log (rate₁ / rate₂) - rate₁ + rate₂) := by
  have M := massMom_pois h₁.le
  have key : ∀ r : ℝ, 0 < r → ∀ x : ℤ, 0 ≤ x → 0 < poisPmf r x ∧
      Real.log (poisPmf r x) = x * Real.log r - r - Real.log x.toNat.factorial := fun r hr x hx => by
    have f : (0 : ℝ) < x.toNat.factorial := by positivity
    have c : ((x.toNat : ℕ) : ℝ) = (x : ℝ) := by
      have := Int.toNat_of_nonneg hx
      exact_mod_cast this
    rw [poisPmf, if_pos hx]
    refine ⟨by positivity, ?_⟩
    rw [Real.log_div (by positivity) f.ne', Real.log_mul (by positivity) (by positivity), Real.log_pow, Real.log_exp, c]
    ring
  have pos : ∀ x : ℤ, poisPmf rate₁ x ≠ 0 → 0 ≤ x := fun x hx => by
    by_contra hc
    exact hx (if_neg hc)
  refine divergenceInt_of (C08_dpois h₁.le) (C08_dpois h₂.le) M.total (massMom_pois h₂.le).total
    (fun x hx => (key _ h₂ x (pos x hx)).1.ne') (g := fun x => x * Real.log (rate₁ / rate₂) - rate₁ + rate₂) (fun x hx => ?_) ?_
  · rw [(key _ h₁ x (pos x hx)).2, (key _ h₂ x (pos x hx)).2, Real.log_div h₁.ne' h₂.ne']
    ring
  · have := (M.mean.mul_right (Real.log (rate₁ / rate₂))).add (M.total.mul_left (rate₂ - rate₁))
    refine HasSum.like this (fun x => by ring) (by ring)
example := C73_pois (rate₁ := 2) (rate₂ := 3) (by norm_num) (by norm_num)

theorem C73_binom (n : ℕ) {p₁ p₂ : ℝ} (h₁ : 0 < p₁) (h₁' : p₁ < 1) (h₂ : 0 < p₂) (h₂' : p₂ < 1) :
    DivergenceInt (fun x => dbinom x n (fin p₁)) (fun x => dbinom x n (fin p₂))
      (n * (p₁ * Real.log (p₁ / p₂) + (1 - p₁) * Real.log ((1 - p₁) / (1 - p₂)))) := by
  have M := massMom_binom n h₁.le h₁'.le
  have q1 : 0 < 1 - p₁ := by linarith
  have q2 : 0 < 1 - p₂ := by linarith
  have key : ∀ p : ℝ, 0 < p → p < 1 → ∀ x : ℤ, 0 ≤ x ∧ x ≤ n → 0 < binomPmf n p x ∧
      Real.log (binomPmf n p x) = Real.log (n.choose x.toNat) + x * Real.log p + (n - x) * Real.log (1 - p) := fun p hp hp' x hx => by
    have q : 0 < 1 - p := by linarith
    have hx' : x.toNat ≤ n := by omega
    have f : (0 : ℝ) < n.choose x.toNat := by exact_mod_cast Nat.choose_pos hx'
    have c : ((x.toNat : ℕ) : ℝ) = (x : ℝ) := by
      have := Int.toNat_of_nonneg hx.1
      exact_mod_cast this
    rw [binomPmf, if_pos hx]
    refine ⟨by positivity, ?_⟩
    rw [Real.log_mul (by positivity) (by positivity), Real.log_mul (by positivity) (by positivity), Real.log_pow, Real.log_pow,
      Nat.cast_sub hx', c]
  have pos : ∀ x : ℤ, binomPmf n p₁ x ≠ 0 → 0 ≤ x ∧ x ≤ n := fun x hx => by
    by_contra hc
    exact hx (if_neg hc)
  refine divergenceInt_of (C08_dbinom n h₁.le h₁'.le) (C08_dbinom n h₂.le h₂'.le) M.total (massMom_binom n h₂.le h₂'.le).total
    (fun x hx => (key _ h₂ h₂' x (pos x hx)).1.ne')
    (g := fun x => x * Real.log (p₁ / p₂) + (n - x) * Real.log ((1 - p₁) / (1 - p₂))) (fun x hx => ?_) ?_
  · rw [(key _ h₁ h₁' x (pos x hx)).2, (key _ h₂ h₂' x (pos x hx)).2, Real.log_div h₁.ne' h₂.ne', Real.log_div q1.ne' q2.ne']
    ring
  · have := (M.mean.mul_right (Real.log (p₁ / p₂) - Real.log ((1 - p₁) / (1 - p₂)))).add
      (M.total.mul_left (n * Real.log ((1 - p₁) / (1 - p₂))))
    refine HasSum.like this (fun x => by ring) (by ring)
example := C73_binom 5 (p₁ := 1 / 2) (p₂ := 1 / 3) (by norm_num) (by norm_num) (by norm_num) (by norm_num)

theorem C73_bern {p₁ p₂ : ℝ} (h₁ : 0 < p₁) (h₁' : p₁ < 1) (h₂ : 0 < p₂) (h₂' : p₂ < 1) :
    DivergenceInt (fun x => dbern x (fin p₁)) (fun x => dbern x (fin p₂))
      (p₁ * Real.log (p₁ / p₂) + (1 - p₁) * Real.log ((1 - p₁) / (1 - p₂))) := by
  have M := massMom_bern h₁.le h₁'.le
  have q1 : 0 < 1 - p₁ := by linarith
  have q2 : 0 < 1 - p₂ := by linarith
  have pos : ∀ x : ℤ, bernPmf p₁ x ≠ 0 → x = 1 ∨ x = 0 := fun x hx => by
    by_contra hc
    rw [not_or] at hc
    exact hx (by rw [bernPmf, if_neg hc.1, if_neg hc.2])
  refine divergenceInt_of (C08_dbern h₁.le h₁'.le) (C08_dbern h₂.le h₂'.le) M.total (massMom_bern h₂.le h₂'.le).total (fun x hx => ?_)
    (g := fun x => x * Real.log (p₁ / p₂) + (1 - x) * Real.log ((1 - p₁) / (1 - p₂))) (fun x hx => ?_) ?_
  · rcases pos x hx with rfl | rfl
    · simpa [bernPmf] using h₂.ne'
    · simpa [bernPmf] using q2.ne'
  · rcases pos x hx with rfl | rfl
    · simp [bernPmf, Real.log_div h₁.ne' h₂.ne']
    · simp [bernPmf, Real.log_div q1.ne' q2.ne']
  · have := (M.mean.mul_right (Real.log (p₁ / p₂) - Real.log ((1 - p₁) / (1 - p₂)))).add
      (M.total.mul_left (Real.log ((1 - p₁) / (1 - p₂))))
    refine HasSum.like this (fun x => by ring) (by ring)
example := C73_bern (p₁ := 1 / 2) (p₂ := 1 / 3) (by norm_num) (by norm_num) (by norm_num) (by norm_num)

theorem C73_radem {p₁ p₂ : ℝ} (h₁ : 0 < p₁) (h₁' : p₁ < 1) (h₂ : 0 < p₂) (h₂' : p₂ < 1) :
    DivergenceInt (fun x => dradem x (fin p₁)) (fun x => dradem x (fin p₂))
      (p₁ * Real.log (p₁ / p₂) + (1 - p₁) * Real.log ((1 - p₁) / (1 - p₂))) := by
  have M := massMom_radem h₁.le h₁'.le
  have q1 : 0 < 1 - p₁ := by linarith
  have q2 : 0 < 1 - p₂ := by linarith
  have pos : ∀ x : ℤ, rademPmf p₁ x ≠ 0 → x = 1 ∨ x = -1 := fun x hx => by
    by_contra hc
    rw [not_or] at hc
    exact hx (by rw [rademPmf, if_neg hc.1, if_neg hc.2])
  refine divergenceInt_of (C08_dradem h₁.le h₁'.le) (C08_dradem h₂.le h₂'.le) M.total (massMom_radem h₂.le h₂'.le).total (fun x hx => ?_)
    (g := fun x => (1 + x) / 2 * Real.log (p₁ / p₂) + (1 - x) / 2 * Real.log ((1 - p₁) / (1 - p₂))) (fun x hx => ?_) ?_
  · rcases pos x hx with rfl | rfl
    · simpa [rademPmf] using h₂.ne'
    · simpa [rademPmf] using q2.ne'
  · rcases pos x hx with rfl | rfl
    · norm_num [rademPmf, Real.log_div h₁.ne' h₂.ne']
    · norm_num [rademPmf, Real.log_div q1.ne' q2.ne']
  · have := (M.mean.mul_right ((Real.log (p₁ / p₂) - Real.log ((1 - p₁) / (1 - p₂))) / 2)).add
      (M.total.mul_left ((Real.log (p₁ / p₂) + Real.log ((1 - p₁) / (1 - p₂))) / 2))
    refine HasSum.like this (fun x => by ring) (by ring)
example := C73_radem (p₁ := 1 / 2) (p₂ := 1 / 3) (by norm_num) (by norm_num) (by norm_num) (by norm_num)

end
end Stats
