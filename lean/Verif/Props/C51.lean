import Verif.Props.C08
import Verif.Props.C40
import Verif.Props.C17
import Verif.Props.C14
import Verif.Spec.Scale
import Verif.Lemmas.Limits2
import Verif.Lemmas.Meets

/-!
# C51: scaling and reflection of the families on the half line and the unit interval; exact arithmetic
-/

set_option linter.unusedSectionVars false
open Classical
namespace Stats
open Fl Spec
variable [Lib] [Ideal]

/-! ### from real identities -/

theorem scaledDensOn_of {d₀ d : Fl → Bool → Fl} {f₀ f : ℝ → ℝ} {c : ℝ} {s : Set ℝ} (hc : 0 < c)
    (h0 : IsDensityOn d₀ f₀ s) (h : IsDensityOn d f s) (hs : ∀ x ∈ s, c * x ∈ s)
    (hf : ∀ x ∈ s, f (c * x) = f₀ x / c) : ScaledDensOn d₀ d c s := by
  intro x hx
  obtain ⟨hp, h1, h2⟩ := h0 x hx
  obtain ⟨-, h3, h4⟩ := h (c * x) (hs x hx)
  refine ⟨f₀ x, hp, h1, by rw [h3, hf x hx], h2, by rw [h4, hf x hx, Real.log_div hp.ne' hc.ne']⟩

theorem scaledCdfOn_of {p₀ p : Fl → Bool → Fl} {F₀ F : ℝ → ℝ} {c : ℝ} {s : Set ℝ}
    (h0 : ∀ x ∈ s, p₀ (fin x) false = fin (F₀ x)) (h : ∀ x ∈ s, p (fin x) false = fin (F x))
    (hF : ∀ x ∈ s, F (c * x) = F₀ x) : ScaledCdfOn p₀ p c s :=
  fun x hx hcx => ⟨F₀ x, h0 x hx, by rw [h _ hcx, hF x hx]⟩

theorem scaledQuant_zero {q₀ q : Fl → Fl} {F₀ F f : ℝ → ℝ} {c : ℝ} (hc : IsCdf F₀ f)
    (h0 : IsInv q₀ F₀) (h : IsInv q F) (hF : ∀ x, F (c * x) = F₀ x) : ScaledQuant q₀ q 0 c :=
  scaledQuant_of hc h0 h fun x => by rw [zero_add, hF]

theorem mul_pos_iff_left {c x : ℝ} (hc : 0 < c) : 0 < c * x ↔ 0 < x := mul_pos_iff_of_pos_left hc

/-! ### exponential -/

theorem C51_dexp {rate c : ℝ} (h : 0 < rate) (hc : 0 < c) :
    ScaledDensOn (fun x => dexp x (fin rate)) (fun x => dexp x (fin (rate / c))) c (Set.Ici 0) := by
  refine scaledDensOn_of hc (C08_dexp h) (C08_dexp (by positivity)) (fun x hx => ?_) fun x hx => ?_
  · exact mul_nonneg hc.le hx
  · have hx : 0 ≤ x := hx
    rw [expPdf, expPdf, if_pos hx, if_pos (by positivity), show -(rate / c) * (c * x) = -rate * x by field_simp]
    ring
example : ScaledDensOn (fun x => dexp x (fin 2)) (fun x => dexp x (fin (2 / 2))) 2 (Set.Ici 0) :=
  C51_dexp (rate := 2) (c := 2) (h := by meets) (hc := by meets)

theorem C51_pexp {rate c : ℝ} (h : 0 < rate) (hc : 0 < c) :
    ScaledCdf (fun x => pexp x (fin rate)) (fun x => pexp x (fin (rate / c))) 0 c :=
  scaledCdf_of (pexp_fin h) (pexp_fin (by positivity)) fun x => by
    simp only [zero_add, mul_pos_iff_left hc, show -(rate / c) * (c * x) = -rate * x by field_simp]
example : ScaledCdf (fun x => pexp x (fin 2)) (fun x => pexp x (fin (2 / 2))) 0 2 :=
  C51_pexp (rate := 2) (c := 2) (h := by meets) (hc := by meets)

theorem C51_qexp {rate c : ℝ} (h : 0 < rate) (hc : 0 < c) :
    ScaledQuant (fun u => qexp u (fin rate)) (fun u => qexp u (fin (rate / c))) 0 c :=
  scaledQuant_zero (isCdf_exp h) (qexp_inv h) (qexp_inv (by positivity)) fun x => by
    simp only [mul_pos_iff_left hc, show -(rate / c) * (c * x) = -rate * x by field_simp]
example : ScaledQuant (fun u => qexp u (fin 2)) (fun u => qexp u (fin (2 / 2))) 0 2 :=
  C51_qexp (rate := 2) (c := 2) (h := by meets) (hc := by meets)

/-! ### gamma -/

theorem C51_dgamma {shape scale c : ℝ} (hk : 0 < shape) (hs : Lib.eps ≤ scale) (hc : 0 < c)
    (hs' : Lib.eps ≤ c * scale) :
    ScaledDensOn (fun x => dgamma x (fin shape) (fin scale)) (fun x => dgamma x (fin shape) (fin (c * scale))) c
      (Set.Ioi 0) := by
  have hs0 := Lib.eps_pos.trans_le hs
  refine scaledDensOn_of hc (C08_dgamma hk hs) (C08_dgamma hk hs') (fun x hx => mul_pos hc hx) fun x hx => ?_
  have hx : 0 < x := hx
  rw [gammaPdf, gammaPdf, if_pos hx, if_pos (by positivity), Real.mul_rpow hc.le hx.le, Real.mul_rpow hc.le hs0.le,
    Real.rpow_sub_one hc.ne', show -(c * x) / (c * scale) = -x / scale by field_simp]
  have := Real.Gamma_pos_of_pos hk
  have := Real.rpow_pos_of_pos hc shape
  have := Real.rpow_pos_of_pos hs0 shape
  field_simp
example : ScaledDensOn (fun x => dgamma x (fin 3) (fin 2)) (fun x => dgamma x (fin 3) (fin (2 * 2))) 2
      (Set.Ioi 0) :=
  C51_dgamma (shape := 3) (scale := 2) (c := 2) (hk := by meets) (hs := by meets) (hc := by meets) (hs' := by meets)

/-- missing: points below `eps`, see `C51_cut_violated` -/
theorem C51_pgamma_partial {shape scale c : ℝ} (hk : 0 < shape) (hs : Lib.eps ≤ scale) (hc : 0 < c)
    (hs' : Lib.eps ≤ c * scale) :
    ScaledCdfOn (fun x => pgamma x (fin shape) (fin scale)) (fun x => pgamma x (fin shape) (fin (c * scale))) c
      {x | Lib.eps ≤ x ∨ x ≤ 0} :=
  scaledCdfOn_of (fun x hx => pgamma_fin hk hs x hx) (fun x hx => pgamma_fin hk hs' x hx) fun x _ => by
    have hs0 := Lib.eps_pos.trans_le hs
    simp only [mul_pos_iff_left hc, mul_div_mul_left x scale hc.ne']
example : ScaledCdfOn (fun x => pgamma x (fin 3) (fin 2)) (fun x => pgamma x (fin 3) (fin (2 * 2))) 2
      {x | Lib.eps ≤ x ∨ x ≤ 0} :=
  C51_pgamma_partial (shape := 3) (scale := 2) (c := 2) (hk := by meets) (hs := by meets) (hc := by meets) (hs' := by meets)

theorem C51_qgamma {shape scale c : ℝ} (hk : 0 < shape) (hs : Lib.eps ≤ scale) (hc : 0 < c)
    (hs' : Lib.eps ≤ c * scale) :
    ScaledQuant (fun u => qgamma u (fin shape) (fin scale)) (fun u => qgamma u (fin shape) (fin (c * scale))) 0 c :=
  scaledQuant_zero (isCdf_gamma hk (Lib.eps_pos.trans_le hs)) (qgamma_inv hk hs) (qgamma_inv hk hs') fun x => by
    simp only [mul_pos_iff_left hc, mul_div_mul_left x scale hc.ne']
example : ScaledQuant (fun u => qgamma u (fin 3) (fin 2)) (fun u => qgamma u (fin 3) (fin (2 * 2))) 0 2 :=
  C51_qgamma (shape := 3) (scale := 2) (c := 2) (hk := by meets) (hs := by meets) (hc := by meets) (hs' := by meets)

/-! ### Weibull -/

theorem C51_dweibull {shape scale c : ℝ} (hk : Lib.eps ≤ shape) (hs : Lib.eps ≤ scale) (hc : 0 < c)
    (hs' : Lib.eps ≤ c * scale) :
    ScaledDensOn (fun x => dweibull x (fin shape) (fin scale)) (fun x => dweibull x (fin shape) (fin (c * scale))) c
      (Set.Ioi 0) := by
  have hs0 := Lib.eps_pos.trans_le hs
  refine scaledDensOn_of hc (C08_dweibull hk hs) (C08_dweibull hk hs') (fun x hx => mul_pos hc hx) fun x hx => ?_
  have hx : 0 < x := hx
  rw [weibullPdf, weibullPdf, if_pos hx, if_pos (by positivity), mul_div_mul_left x scale hc.ne']
  field_simp
example : ScaledDensOn (fun x => dweibull x (fin 3) (fin 2)) (fun x => dweibull x (fin 3) (fin (2 * 2))) 2
      (Set.Ioi 0) :=
  C51_dweibull (shape := 3) (scale := 2) (c := 2) (hk := by meets) (hs := by meets) (hc := by meets) (hs' := by meets)

/-- missing: points below `eps`, see `C51_cut_violated` -/
theorem C51_pweibull_partial {shape scale c : ℝ} (hk : Lib.eps ≤ shape) (hs : Lib.eps ≤ scale) (hc : 0 < c)
    (hs' : Lib.eps ≤ c * scale) :
    ScaledCdfOn (fun x => pweibull x (fin shape) (fin scale)) (fun x => pweibull x (fin shape) (fin (c * scale))) c
      {x | Lib.eps ≤ x ∨ x ≤ 0} :=
  scaledCdfOn_of (fun x hx => pweibull_fin hk hs x hx) (fun x hx => pweibull_fin hk hs' x hx) fun x _ => by
    simp only [mul_pos_iff_left hc, mul_div_mul_left x scale hc.ne']
example : ScaledCdfOn (fun x => pweibull x (fin 3) (fin 2)) (fun x => pweibull x (fin 3) (fin (2 * 2))) 2
      {x | Lib.eps ≤ x ∨ x ≤ 0} :=
  C51_pweibull_partial (shape := 3) (scale := 2) (c := 2) (hk := by meets) (hs := by meets) (hc := by meets) (hs' := by meets)

theorem C51_qweibull {shape scale c : ℝ} (hk : Lib.eps ≤ shape) (hs : Lib.eps ≤ scale) (hc : 0 < c)
    (hs' : Lib.eps ≤ c * scale) :
    ScaledQuant (fun u => qweibull u (fin shape) (fin scale)) (fun u => qweibull u (fin shape) (fin (c * scale))) 0 c :=
  scaledQuant_zero (isCdf_weibull (Lib.eps_pos.trans_le hk) (Lib.eps_pos.trans_le hs)) (qweibull_inv hk hs)
    (qweibull_inv hk hs') fun x => by
    simp only [mul_pos_iff_left hc, mul_div_mul_left x scale hc.ne']
example : ScaledQuant (fun u => qweibull u (fin 3) (fin 2)) (fun u => qweibull u (fin 3) (fin (2 * 2))) 0 2 :=
  C51_qweibull (shape := 3) (scale := 2) (c := 2) (hk := by meets) (hs := by meets) (hc := by meets) (hs' := by meets)

/-! ### inverse gamma -/

theorem C51_dinvgamma {shape rate c : ℝ} (hk : 0 < shape) (hr : 0 < rate) (hc : 0 < c) :
    ScaledDensOn (fun x => dinvgamma x (fin shape) (fin rate)) (fun x => dinvgamma x (fin shape) (fin (c * rate))) c
      (Set.Ioi 0) := by
  refine scaledDensOn_of hc (C08_dinvgamma hk hr) (C08_dinvgamma hk (by positivity)) (fun x hx => mul_pos hc hx)
    fun x hx => ?_
  have hx : 0 < x := hx
  rw [invgammaPdf, invgammaPdf, if_pos hx, if_pos (by positivity), Real.mul_rpow hc.le hx.le, Real.mul_rpow hc.le hr.le,
    Real.rpow_sub_one hc.ne', Real.rpow_neg hc.le, show -(c * rate) / (c * x) = -rate / x by field_simp]
  have := Real.Gamma_pos_of_pos hk
  have := Real.rpow_pos_of_pos hc shape
  field_simp
example : ScaledDensOn (fun x => dinvgamma x (fin 3) (fin 2)) (fun x => dinvgamma x (fin 3) (fin (2 * 2))) 2
      (Set.Ioi 0) :=
  C51_dinvgamma (shape := 3) (rate := 2) (c := 2) (hk := by meets) (hr := by meets) (hc := by meets)

/-- missing: rates above `1/eps`, where the code gives NaN (C04), and points above `1/eps`, where it gives 1 -/
theorem C51_pinvgamma_partial {shape rate c : ℝ} (hk : 0 < shape) (hr : 0 < rate) (hc : 0 < c) (hr' : Lib.eps ≤ 1 / rate)
    (hcr : Lib.eps ≤ 1 / (c * rate)) :
    ScaledCdfOn (fun x => pinvgamma x (fin shape) (fin rate)) (fun x => pinvgamma x (fin shape) (fin (c * rate))) c
      {x | Lib.eps ≤ 1 / x ∨ x ≤ 0} :=
  scaledCdfOn_of (fun x hx => pinvgamma_fin hk hr hr' x hx)
    (fun x hx => pinvgamma_fin hk (by positivity) hcr x hx) fun x _ => by
    simp only [mul_pos_iff_left hc, mul_div_mul_left rate x hc.ne']
example : ScaledCdfOn (fun x => pinvgamma x (fin 3) (fin 2)) (fun x => pinvgamma x (fin 3) (fin (2 * 2))) 2
      {x | Lib.eps ≤ 1 / x ∨ x ≤ 0} :=
  C51_pinvgamma_partial (shape := 3) (rate := 2) (c := 2) (hk := by meets) (hr := by meets) (hc := by meets) (hr' := by meets) (hcr := by meets)

theorem C51_qinvgamma {shape rate c : ℝ} (hk : 0 < shape) (hr : 0 < rate) (hc : 0 < c) :
    ScaledQuant (fun u => qinvgamma u (fin shape) (fin rate)) (fun u => qinvgamma u (fin shape) (fin (c * rate))) 0 c :=
  scaledQuant_zero (isCdf_invgamma hk hr) (qinvgamma_inv hk hr) (qinvgamma_inv hk (by positivity)) fun x => by
    simp only [mul_pos_iff_left hc, mul_div_mul_left rate x hc.ne']
example : ScaledQuant (fun u => qinvgamma u (fin 3) (fin 2)) (fun u => qinvgamma u (fin 3) (fin (2 * 2))) 0 2 :=
  C51_qinvgamma (shape := 3) (rate := 2) (c := 2) (hk := by meets) (hr := by meets) (hc := by meets)

/-! ### inverse Gaussian -/

theorem C51_dinvgauss {mu lambda c : ℝ} (hm : 0 < mu) (hl : 0 < lambda) (hc : 0 < c) :
    ScaledDensOn (fun x => dinvgauss x (fin mu) (fin lambda)) (fun x => dinvgauss x (fin (c * mu)) (fin (c * lambda))) c
      (Set.Ioi 0) := by
  refine scaledDensOn_of hc (C08_dinvgauss hm hl) (C08_dinvgauss (by positivity) (by positivity))
    (fun x hx => mul_pos hc hx) fun x hx => ?_
  have hx : 0 < x := hx
  have := Real.pi_pos
  rw [invgaussPdf, invgaussPdf, if_pos hx, if_pos (by positivity)]
  rw [show -(c * lambda * (c * x - c * mu) ^ 2) / (2 * (c * mu) ^ 2 * (c * x)) =
      -(lambda * (x - mu) ^ 2) / (2 * mu ^ 2 * x) by field_simp]
  rw [show c * lambda / (2 * Real.pi * (c * x) ^ 3) = lambda / (2 * Real.pi * x ^ 3) / c ^ 2 by field_simp,
    Real.sqrt_div (by positivity), Real.sqrt_sq hc.le]
  ring
example : ScaledDensOn (fun x => dinvgauss x (fin 3) (fin 2)) (fun x => dinvgauss x (fin (2 * 3)) (fin (2 * 2))) 2
      (Set.Ioi 0) :=
  C51_dinvgauss (mu := 3) (lambda := 2) (c := 2) (hm := by meets) (hl := by meets) (hc := by meets)

theorem C51_pinvgauss {mu lambda c : ℝ} (hm : 0 < mu) (hl : 0 < lambda) (hc : 0 < c) :
    ScaledCdf (fun x => pinvgauss x (fin mu) (fin lambda)) (fun x => pinvgauss x (fin (c * mu)) (fin (c * lambda))) 0 c :=
  scaledCdf_of (pinvgauss_fin hm hl) (pinvgauss_fin (by positivity) (by positivity)) fun x => by
    have e : 2 * (c * lambda) / (c * mu) = 2 * lambda / mu := by field_simp
    simp only [zero_add, mul_pos_iff_left hc, invgaussCdf, mul_div_mul_left _ _ hc.ne', e]
example : ScaledCdf (fun x => pinvgauss x (fin 3) (fin 2)) (fun x => pinvgauss x (fin (2 * 3)) (fin (2 * 2))) 0 2 :=
  C51_pinvgauss (mu := 3) (lambda := 2) (c := 2) (hm := by meets) (hl := by meets) (hc := by meets)

/-! ### log-normal: the location moves by `log c` -/

theorem C51_dlnorm (mu : ℝ) {sigma c : ℝ} (h : 0 < sigma) (hc : 0 < c) :
    ScaledDensOn (fun x => dlnorm x (fin mu) (fin sigma)) (fun x => dlnorm x (fin (mu + Real.log c)) (fin sigma)) c
      (Set.Ioi 0) := by
  refine scaledDensOn_of hc (C08_dlnorm mu h) (C08_dlnorm _ h) (fun x hx => mul_pos hc hx) fun x hx => ?_
  have hx : 0 < x := hx
  rw [lnormPdf, lnormPdf, if_pos hx, if_pos (by positivity), Real.log_mul hc.ne' hx.ne',
    show Real.log c + Real.log x - (mu + Real.log c) = Real.log x - mu by ring]
  field_simp
example : ScaledDensOn (fun x => dlnorm x (fin 3) (fin 2)) (fun x => dlnorm x (fin (3 + Real.log 2)) (fin 2)) 2
      (Set.Ioi 0) :=
  C51_dlnorm (mu := 3) (sigma := 2) (c := 2) (h := by meets) (hc := by meets)

/-- missing: points below `eps`, see `C51_cut_violated` -/
theorem C51_plnorm_partial (mu : ℝ) {sigma c : ℝ} (h : 0 < sigma) (hc : 0 < c) :
    ScaledCdfOn (fun x => plnorm x (fin mu) (fin sigma)) (fun x => plnorm x (fin (mu + Real.log c)) (fin sigma)) c
      {x | Lib.eps ≤ x ∨ x ≤ 0} :=
  scaledCdfOn_of (fun x hx => plnorm_fin mu h x hx) (fun x hx => plnorm_fin _ h x hx) fun x _ => by
    simp only [mul_pos_iff_left hc]
    split_ifs with hx
    · rw [Real.log_mul hc.ne' hx.ne', show Real.log c + Real.log x - (mu + Real.log c) = Real.log x - mu by ring]
    · rfl
example : ScaledCdfOn (fun x => plnorm x (fin 3) (fin 2)) (fun x => plnorm x (fin (3 + Real.log 2)) (fin 2)) 2
      {x | Lib.eps ≤ x ∨ x ≤ 0} :=
  C51_plnorm_partial (mu := 3) (sigma := 2) (c := 2) (h := by meets) (hc := by meets)

theorem C51_qlnorm (mu : ℝ) {sigma c : ℝ} (h : 0 < sigma) (hc : 0 < c) :
    ScaledQuant (fun u => qlnorm u (fin mu) (fin sigma)) (fun u => qlnorm u (fin (mu + Real.log c)) (fin sigma)) 0 c :=
  scaledQuant_zero (isCdf_lnorm mu h) (qlnorm_inv mu h) (qlnorm_inv _ h) fun x => by
    simp only [mul_pos_iff_left hc]
    split_ifs with hx
    · rw [Real.log_mul hc.ne' hx.ne', show Real.log c + Real.log x - (mu + Real.log c) = Real.log x - mu by ring]
    · rfl
example : ScaledQuant (fun u => qlnorm u (fin 3) (fin 2)) (fun u => qlnorm u (fin (3 + Real.log 2)) (fin 2)) 0 2 :=
  C51_qlnorm (mu := 3) (sigma := 2) (c := 2) (h := by meets) (hc := by meets)

/-! ### uniform -/

theorem C51_dunif {a b : ℝ} (h : a < b) {x : ℝ} (hx : x ∈ Set.Icc a b) (mu : ℝ) {sigma : ℝ} (hs : 0 < sigma) :
    ∃ r : ℝ, 0 < r ∧ dunif (fin x) (fin a) (fin b) false = fin r ∧
      dunif (fin (mu + sigma * x)) (fin (mu + sigma * a)) (fin (mu + sigma * b)) false = fin (r / sigma) ∧
      dunif (fin x) (fin a) (fin b) true = fin (Real.log r) ∧
      dunif (fin (mu + sigma * x)) (fin (mu + sigma * a)) (fin (mu + sigma * b)) true =
        fin (Real.log r - Real.log sigma) := by
  have h' : mu + sigma * a < mu + sigma * b := by nlinarith
  have hx' : mu + sigma * x ∈ Set.Icc (mu + sigma * a) (mu + sigma * b) :=
    ⟨by nlinarith [hx.1], by nlinarith [hx.2]⟩
  obtain ⟨hp, h1, h2⟩ := C08_dunif h x hx
  obtain ⟨-, h3, h4⟩ := C08_dunif h' _ hx'
  have e : unifPdf (mu + sigma * a) (mu + sigma * b) (mu + sigma * x) = unifPdf a b x / sigma := by
    rw [unifPdf, unifPdf, if_pos (And.intro hx.1 hx.2), if_pos (And.intro hx'.1 hx'.2), show mu + sigma * b - (mu + sigma * a) = sigma * (b - a) by ring]
    have : b - a ≠ 0 := by linarith
    field_simp
  exact ⟨_, hp, h1, by rw [← e]; exact h3, h2, by rw [← Real.log_div hp.ne' hs.ne', ← e]; exact h4⟩
example : ∃ r : ℝ, 0 < r ∧ dunif (fin 2) (fin 1) (fin 4) false = fin r ∧
      dunif (fin (3 + 2 * 2)) (fin (3 + 2 * 1)) (fin (3 + 2 * 4)) false = fin (r / 2) ∧
      dunif (fin 2) (fin 1) (fin 4) true = fin (Real.log r) ∧
      dunif (fin (3 + 2 * 2)) (fin (3 + 2 * 1)) (fin (3 + 2 * 4)) true =
        fin (Real.log r - Real.log 2) :=
  C51_dunif (a := 1) (b := 4) (h := by meets) (x := 2) (hx := by meets) (mu := 3) (sigma := 2) (hs := by meets)

theorem unifCdf_affine {a b : ℝ} (h : a < b) (mu : ℝ) {sigma : ℝ} (hs : 0 < sigma) (x : ℝ) :
    unifCdf (mu + sigma * a) (mu + sigma * b) (mu + sigma * x) = unifCdf a b x := by
  have e1 : mu + sigma * x ≤ mu + sigma * a ↔ x ≤ a := by
    rw [add_le_add_iff_left]; exact mul_le_mul_iff_right₀ hs
  have e2 : mu + sigma * b ≤ mu + sigma * x ↔ b ≤ x := by
    rw [add_le_add_iff_left]; exact mul_le_mul_iff_right₀ hs
  have e3 : (mu + sigma * x - (mu + sigma * a)) / (mu + sigma * b - (mu + sigma * a)) = (x - a) / (b - a) := by
    have : b - a ≠ 0 := by linarith
    rw [show mu + sigma * b - (mu + sigma * a) = sigma * (b - a) by ring]
    field_simp; ring
  simp only [unifCdf, e1, e2, e3]

theorem C51_punif {a b : ℝ} (h : a < b) (mu : ℝ) {sigma : ℝ} (hs : 0 < sigma) :
    ScaledCdf (fun x => punif x (fin a) (fin b)) (fun x => punif x (fin (mu + sigma * a)) (fin (mu + sigma * b))) mu sigma :=
  scaledCdf_of (punif_fin h) (punif_fin (by nlinarith)) (unifCdf_affine h mu hs)
example : ScaledCdf (fun x => punif x (fin 1) (fin 4)) (fun x => punif x (fin (3 + 2 * 1)) (fin (3 + 2 * 4))) 3 2 :=
  C51_punif (a := 1) (b := 4) (h := by meets) (mu := 3) (sigma := 2) (hs := by meets)

theorem C51_qunif {a b : ℝ} (h : a < b) (mu : ℝ) {sigma : ℝ} (hs : 0 < sigma) :
    ScaledQuant (fun u => qunif u (fin a) (fin b)) (fun u => qunif u (fin (mu + sigma * a)) (fin (mu + sigma * b)))
      mu sigma :=
  scaledQuant_of (isCdf_unif h) (qunif_inv h) (qunif_inv (by nlinarith)) (unifCdf_affine h mu hs)
example : ScaledQuant (fun u => qunif u (fin 1) (fin 4)) (fun u => qunif u (fin (3 + 2 * 1)) (fin (3 + 2 * 4)))
      3 2 :=
  C51_qunif (a := 1) (b := 4) (h := by meets) (mu := 3) (sigma := 2) (hs := by meets)

/-- Across the cut-off at `eps` scaling fails: at `x` the code gives 0, at `c x` it gives a positive probability. -/
theorem C51_cut_violated {shape scale c x : ℝ} (hk : Lib.eps ≤ shape) (hs : Lib.eps ≤ scale) (_hc : 0 < c)
    (hs' : Lib.eps ≤ c * scale) (mu : ℝ) {sigma : ℝ} (hsi : 0 < sigma) (hx : x < Lib.eps) (hcx : Lib.eps ≤ c * x) :
    (pgamma (fin x) (fin shape) (fin scale) false = fin 0 ∧
      ∃ r : ℝ, 0 < r ∧ pgamma (fin (c * x)) (fin shape) (fin (c * scale)) false = fin r) ∧
    (pweibull (fin x) (fin shape) (fin scale) false = fin 0 ∧
      ∃ r : ℝ, 0 < r ∧ pweibull (fin (c * x)) (fin shape) (fin (c * scale)) false = fin r) ∧
    (plnorm (fin x) (fin mu) (fin sigma) false = fin 0 ∧
      ∃ r : ℝ, 0 < r ∧ plnorm (fin (c * x)) (fin (mu + Real.log c)) (fin sigma) false = fin r) := by
  have hk0 := Lib.eps_pos.trans_le hk
  have hs0 := Lib.eps_pos.trans_le hs'
  have hx0 := Lib.eps_pos.trans_le hcx
  refine ⟨⟨gamma_cut hx hk0 hs, _, ?_, by rw [pgamma_fin hk0 hs' _ (Or.inl hcx), if_pos hx0]⟩,
    ⟨weibull_cut hx hk hs, _, ?_, by rw [pweibull_fin hk hs' _ (Or.inl hcx), if_pos hx0]⟩,
    ⟨lnorm_cut hx mu hsi, _, Phi_pos _, by rw [plnorm_fin _ hsi _ (Or.inl hcx), if_pos hx0]⟩⟩
  · have := strictMonoOn_gammaP hk0 (Set.self_mem_Ici) (show c * x / (c * scale) ∈ Set.Ici 0 from (div_pos hx0 hs0).le)
      (div_pos hx0 hs0)
    rwa [gammaP_zero] at this
  · rw [sub_pos, Real.exp_lt_one_iff]
    exact neg_neg_of_pos (Real.rpow_pos_of_pos (div_pos hx0 hs0) _)
example : plnorm (fin (Lib.eps / 2)) (fin 0) (fin 1) false = fin 0 ∧
    ∃ r : ℝ, 0 < r ∧ plnorm (fin (2 * (Lib.eps / 2))) (fin (0 + Real.log 2)) (fin 1) false = fin r :=
  (C51_cut_violated (shape := 2) (scale := 1) (c := 2) (by meets) (by meets) (by meets) (by meets) 0 (by meets)
    (by have := Lib.eps_pos; linarith) (by linarith)).2.2

end Stats
