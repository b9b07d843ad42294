import Verif.Lemmas.InvGaussMode
import Verif.Lemmas.Order

/-! Real analysis: where the textbook densities rise and fall. -/

open Set Filter Topology
namespace Stats.Mode
open Spec Real

/-- rising up to `m`, falling after it, on `s` -/
def Peak (s : Set ℝ) (m : ℝ) (f : ℝ → ℝ) : Prop := StrictMonoOn f (s ∩ Iic m) ∧ StrictAntiOn f (s ∩ Ici m)

theorem peak_of_deriv {s : Set ℝ} (hs : Convex ℝ s) {m : ℝ} {g g' : ℝ → ℝ} (h : ∀ x ∈ s, HasDerivAt g (g' x) x)
    (hl : ∀ x ∈ s, x < m → 0 < g' x) (hr : ∀ x ∈ s, m < x → g' x < 0) : Peak s m g := by
  constructor
  · refine strictMonoOn_of_deriv_pos (hs.inter (convex_Iic m))
      (fun x hx => (h x hx.1).continuousAt.continuousWithinAt) fun x hx => ?_
    rw [interior_inter, interior_Iic] at hx
    have h1 := interior_subset hx.1
    rw [(h x h1).deriv]; exact hl x h1 hx.2
  · refine strictAntiOn_of_deriv_neg (hs.inter (convex_Ici m))
      (fun x hx => (h x hx.1).continuousAt.continuousWithinAt) fun x hx => ?_
    rw [interior_inter, interior_Ici] at hx
    have h1 := interior_subset hx.1
    rw [(h x h1).deriv]; exact hr x h1 hx.2

theorem Peak.exp {s : Set ℝ} {m c : ℝ} (hc : 0 < c) {f g : ℝ → ℝ} (h : Peak s m g)
    (e : ∀ x ∈ s, f x = c * Real.exp (g x)) : Peak s m f := by
  constructor
  · intro x hx y hy hxy
    rw [e x hx.1, e y hy.1]
    exact mul_lt_mul_of_pos_left (Real.exp_lt_exp.2 (h.1 hx hy hxy)) hc
  · intro x hx y hy hxy
    rw [e x hx.1, e y hy.1]
    exact mul_lt_mul_of_pos_left (Real.exp_lt_exp.2 (h.2 hx hy hxy)) hc

theorem norm (mu : ℝ) {sigma : ℝ} (h : 0 < sigma) : Peak univ mu (normPdf mu sigma) := by
  refine Peak.exp (c := 1 / (√(2 * π) * sigma)) (g := fun x => -((x - mu) ^ 2) / (2 * sigma ^ 2)) (by positivity) ?_
    fun x _ => rfl
  refine peak_of_deriv convex_univ (g' := fun x => -(x - mu) / sigma ^ 2) (fun x _ => ?_) ?_ ?_
  · refine ((((hasDerivAt_id x).sub_const mu).pow 2).neg.div_const (2 * sigma ^ 2)).congr_deriv ?_
    simp; field_simp; ring
  · intro x _ hx; exact div_pos (by linarith) (by positivity)
  · intro x _ hx; exact div_neg_of_neg_of_pos (by linarith) (by positivity)

theorem logis (mu : ℝ) {sigma : ℝ} (h : 0 < sigma) : Peak univ mu (logisPdf mu sigma) := by
  refine Peak.exp (c := 1 / sigma)
    (g := fun x => -((x - mu) / sigma) - 2 * Real.log (1 + Real.exp (-((x - mu) / sigma)))) (by positivity) ?_ ?_
  · refine peak_of_deriv convex_univ
      (g' := fun x => (Real.exp (-((x - mu) / sigma)) - 1) / (1 + Real.exp (-((x - mu) / sigma))) / sigma)
      (fun x _ => ?_) ?_ ?_
    · have h1 : HasDerivAt (fun x : ℝ => -((x - mu) / sigma)) (-(1 / sigma)) x :=
        (((hasDerivAt_id x).sub_const mu).div_const sigma).neg
      have hp := Real.exp_pos (-((x - mu) / sigma))
      refine (h1.sub (((h1.exp.const_add 1).log (by positivity)).const_mul 2)).congr_deriv ?_
      field_simp
      ring
    · intro x _ hx
      have : 1 < Real.exp (-((x - mu) / sigma)) := by
        rw [Real.one_lt_exp_iff, ← neg_div]; exact div_pos (by linarith) h
      exact div_pos (div_pos (by linarith) (by positivity)) h
    · intro x _ hx
      have : Real.exp (-((x - mu) / sigma)) < 1 := by
        rw [Real.exp_lt_one_iff, ← neg_div]; exact div_neg_of_neg_of_pos (by linarith) h
      exact div_neg_of_neg_of_pos (div_neg_of_neg_of_pos (by linarith) (by positivity)) h
  · intro x _
    have hp := Real.exp_pos (-((x - mu) / sigma))
    rw [logisPdf, Real.exp_sub, two_mul, Real.exp_add, Real.exp_log (by positivity)]
    field_simp

theorem cauchy (mu : ℝ) {sigma : ℝ} (h : 0 < sigma) : Peak univ mu (cauchyPdf mu sigma) := by
  have hpi := Real.pi_pos
  have key : ∀ x y : ℝ, (x - mu) ^ 2 < (y - mu) ^ 2 → cauchyPdf mu sigma y < cauchyPdf mu sigma x := by
    intro x y hxy
    unfold cauchyPdf
    have : ((x - mu) / sigma) ^ 2 < ((y - mu) / sigma) ^ 2 := by
      rw [div_pow, div_pow]; gcongr
    gcongr
  constructor
  · intro x hx y hy hxy
    have h1 : y ≤ mu := hy.2
    exact key y x (by nlinarith)
  · intro x hx y hy hxy
    have h1 : mu ≤ x := hx.2
    exact key x y (by nlinarith)

theorem laplace (mu : ℝ) {sigma : ℝ} (h : 0 < sigma) : Peak univ mu (laplacePdf mu sigma) := by
  have key : ∀ x y : ℝ, |x - mu| < |y - mu| → laplacePdf mu sigma y < laplacePdf mu sigma x := by
    intro x y hxy
    unfold laplacePdf
    refine mul_lt_mul_of_pos_left (Real.exp_lt_exp.2 ?_) (by positivity)
    exact div_lt_div_of_pos_right (by linarith) h
  constructor
  · intro x hx y hy hxy
    have h1 : y ≤ mu := hy.2
    exact key y x (by rw [abs_of_nonpos (by linarith), abs_of_nonpos (by linarith)]; linarith)
  · intro x hx y hy hxy
    have h1 : mu ≤ x := hx.2
    exact key x y (by rw [abs_of_nonneg (by linarith), abs_of_nonneg (by linarith)]; linarith)

theorem t {ν : ℝ} (h : 0 < ν) : Peak univ 0 (tPdf ν) := by
  have key : ∀ x y : ℝ, x ^ 2 < y ^ 2 → tPdf ν y < tPdf ν x := by
    intro x y hxy
    rw [Ord.tPdf_at ν x, Ord.tPdf_at ν y]
    refine mul_lt_mul_of_pos_left ?_ (Ord.tPdf_pos h 0)
    exact Real.rpow_lt_rpow_of_neg (by positivity) (by gcongr) (by linarith)
  constructor
  · intro x hx y hy hxy
    have h1 : y ≤ 0 := hy.2
    exact key y x (by nlinarith)
  · intro x hx y hy hxy
    have h1 : 0 ≤ x := hx.2
    exact key x y (by nlinarith)

theorem gamma {k θ : ℝ} (hk : 0 < k) (hθ : 0 < θ) : Peak (Ioi 0) ((k - 1) * θ) (gammaPdf k θ) := by
  have hG := Real.Gamma_pos_of_pos hk
  refine Peak.exp (c := 1 / (θ ^ k * Real.Gamma k)) (g := fun x => (k - 1) * Real.log x - x / θ) (by positivity) ?_ ?_
  · refine peak_of_deriv (convex_Ioi 0) (g' := fun x => (k - 1) * x⁻¹ - 1 / θ) (fun x hx => ?_) ?_ ?_
    · have hx : 0 < x := hx
      exact ((Real.hasDerivAt_log hx.ne').const_mul (k - 1)).sub ((hasDerivAt_id x).div_const θ)
    · intro x hx hm
      have hx : 0 < x := hx
      have e : (k - 1) * x⁻¹ - 1 / θ = ((k - 1) * θ - x) / (x * θ) := by field_simp
      rw [e]; exact div_pos (by linarith) (by positivity)
    · intro x hx hm
      have hx : 0 < x := hx
      have e : (k - 1) * x⁻¹ - 1 / θ = ((k - 1) * θ - x) / (x * θ) := by field_simp
      rw [e]; exact div_neg_of_neg_of_pos (by linarith) (by positivity)
  · intro x hx
    have hx : 0 < x := hx
    rw [gammaPdf, if_pos hx, Real.exp_sub, mul_comm (k - 1), ← Real.rpow_def_of_pos hx, neg_div, Real.exp_neg]
    field_simp

theorem chisq {k : ℝ} (hk : 0 < k) : Peak (Ioi 0) (k - 2) (chisqPdf k) := by
  have := gamma (half_pos hk) two_pos
  rw [show (k / 2 - 1) * 2 = k - 2 by ring] at this
  exact this

theorem invgamma {α β : ℝ} (ha : 0 < α) (hb : 0 < β) : Peak (Ioi 0) (β / (α + 1)) (invgammaPdf α β) := by
  have hG := Real.Gamma_pos_of_pos ha
  refine Peak.exp (c := β ^ α / Real.Gamma α) (g := fun x => (-α - 1) * Real.log x - β * x⁻¹) (by positivity) ?_ ?_
  · refine peak_of_deriv (convex_Ioi 0) (g' := fun x => (β - (α + 1) * x) / x ^ 2) (fun x hx => ?_) ?_ ?_
    · have hx : 0 < x := hx
      refine (((Real.hasDerivAt_log hx.ne').const_mul (-α - 1)).sub ((hasDerivAt_inv hx.ne').const_mul β)).congr_deriv ?_
      field_simp; ring
    · intro x hx hm
      have hx : 0 < x := hx
      rw [lt_div_iff₀ (by linarith)] at hm
      exact div_pos (by linarith) (by positivity)
    · intro x hx hm
      have hx : 0 < x := hx
      rw [div_lt_iff₀ (by linarith)] at hm
      exact div_neg_of_neg_of_pos (by linarith) (by positivity)
  · intro x hx
    have hx : 0 < x := hx
    rw [invgammaPdf, if_pos hx, Real.exp_sub, mul_comm (-α - 1), ← Real.rpow_def_of_pos hx, neg_div, Real.exp_neg,
      ← div_eq_mul_inv]
    field_simp

theorem invgauss {μ l : ℝ} (hm : 0 < μ) (hl : 0 < l) : Peak (Ioi 0) (igMode μ l) (invgaussPdf μ l) := by
  obtain ⟨hp, hr⟩ := igMode_root hm hl
  refine Peak.exp (c := 1) (g := igLog μ l) one_pos ?_ fun x hx => by rw [one_mul, invgaussPdf_exp hl hx]
  refine peak_of_deriv (convex_Ioi 0) (fun x hx => hasDerivAt_igLog hm hx) ?_ ?_
  · intro x hx hx'
    have hx : 0 < x := hx
    refine div_pos ?_ (by positivity)
    nlinarith [mul_pos hl (sub_pos.2 hx'), mul_pos (pow_pos hm 2) (sub_pos.2 hx'),
      mul_pos (mul_pos hl (sub_pos.2 hx')) (add_pos hx hp)]
  · intro x hx hx'
    have hx : 0 < x := hx
    refine div_neg_of_neg_of_pos ?_ (by positivity)
    nlinarith [mul_pos hl (sub_pos.2 hx'), mul_pos (pow_pos hm 2) (sub_pos.2 hx'),
      mul_pos (mul_pos hl (sub_pos.2 hx')) (add_pos hx hp)]

theorem lnorm (mu : ℝ) {sigma : ℝ} (h : 0 < sigma) : Peak (Ioi 0) (Real.exp (mu - sigma ^ 2)) (lnormPdf mu sigma) := by
  refine Peak.exp (c := 1 / (√(2 * π) * sigma))
    (g := fun x => -((Real.log x - mu) ^ 2) / (2 * sigma ^ 2) - Real.log x) (by positivity) ?_ ?_
  · refine peak_of_deriv (convex_Ioi 0) (g' := fun x => (mu - sigma ^ 2 - Real.log x) / (x * sigma ^ 2))
      (fun x hx => ?_) ?_ ?_
    · have hx : 0 < x := hx
      have h1 := Real.hasDerivAt_log hx.ne'
      refine (((((h1.sub_const mu).pow 2).neg).div_const (2 * sigma ^ 2)).sub h1).congr_deriv ?_
      simp; field_simp; ring
    · intro x hx hm
      have hx : 0 < x := hx
      have := (Real.log_lt_iff_lt_exp hx).2 hm
      exact div_pos (by linarith) (by positivity)
    · intro x hx hm
      have hx : 0 < x := hx
      have := (Real.lt_log_iff_exp_lt hx).2 hm
      exact div_neg_of_neg_of_pos (by linarith) (by positivity)
  · intro x hx
    have hx : 0 < x := hx
    rw [lnormPdf, if_pos hx, Real.exp_sub, Real.exp_log hx]
    field_simp

theorem f {d₁ d₂ : ℝ} (h1 : 0 < d₁) (h2 : 0 < d₂) :
    Peak (Ioi 0) ((d₁ - 2) / d₁ * (d₂ / (d₂ + 2))) (fPdf d₁ d₂) := by
  have hB : 0 < Spec.beta (d₁ / 2) (d₂ / 2) := beta_pos (half_pos h1) (half_pos h2)
  refine Peak.exp (c := 1 / Spec.beta (d₁ / 2) (d₂ / 2) * (d₁ / d₂) ^ (d₁ / 2))
    (g := fun x => (d₁ / 2 - 1) * Real.log x - (d₁ + d₂) / 2 * Real.log (1 + d₁ / d₂ * x)) (by positivity) ?_ ?_
  · have e : ∀ x : ℝ, 0 < x → (d₁ / 2 - 1) * x⁻¹ - (d₁ + d₂) / 2 * ((d₁ / d₂) / (1 + d₁ / d₂ * x)) =
        ((d₁ - 2) * d₂ - x * (d₁ * (d₂ + 2))) / (2 * x * (d₂ + d₁ * x)) := by
      intro x hx
      have : 1 + d₁ / d₂ * x = (d₂ + d₁ * x) / d₂ := by field_simp
      have : 0 < d₂ + d₁ * x := by positivity
      field_simp
      ring
    have em : (d₁ - 2) / d₁ * (d₂ / (d₂ + 2)) = (d₁ - 2) * d₂ / (d₁ * (d₂ + 2)) := by field_simp
    refine peak_of_deriv (convex_Ioi 0)
      (g' := fun x => (d₁ / 2 - 1) * x⁻¹ - (d₁ + d₂) / 2 * ((d₁ / d₂) / (1 + d₁ / d₂ * x))) (fun x hx => ?_) ?_ ?_
    · have hx : 0 < x := hx
      have hl : HasDerivAt (fun x : ℝ => 1 + d₁ / d₂ * x) (d₁ / d₂) x :=
        (((hasDerivAt_id x).const_mul (d₁ / d₂)).const_add 1).congr_deriv (by simp)
      exact ((Real.hasDerivAt_log hx.ne').const_mul _).sub ((hl.log (by positivity)).const_mul _)
    · intro x hx hm
      have hx : 0 < x := hx
      rw [em, lt_div_iff₀ (by positivity)] at hm
      rw [e x hx]; exact div_pos (by linarith) (by positivity)
    · intro x hx hm
      have hx : 0 < x := hx
      rw [em, div_lt_iff₀ (by positivity)] at hm
      rw [e x hx]; exact div_neg_of_neg_of_pos (by linarith) (by positivity)
  · intro x hx
    have hx : 0 < x := hx
    have hp : 0 < 1 + d₁ / d₂ * x := by positivity
    rw [fPdf, if_pos hx, Real.exp_sub, mul_comm (d₁ / 2 - 1), ← Real.rpow_def_of_pos hx, mul_comm ((d₁ + d₂) / 2),
      ← Real.rpow_def_of_pos hp, Real.rpow_neg hp.le]
    field_simp

theorem weibull_deriv {k θ : ℝ} (hk : 0 < k) (hθ : 0 < θ) {m : ℝ}
    (hl : ∀ x, 0 < x → x < m → k * (x / θ) ^ k < k - 1) (hr : ∀ x, 0 < x → m < x → k - 1 < k * (x / θ) ^ k) :
    Peak (Ioi 0) m (weibullPdf k θ) := by
  refine Peak.exp (c := k / θ) (g := fun x => (k - 1) * Real.log (x / θ) - (x / θ) ^ k) (by positivity) ?_ ?_
  · refine peak_of_deriv (convex_Ioi 0) (g' := fun x => ((k - 1) - k * (x / θ) ^ k) / x) (fun x hx => ?_) ?_ ?_
    · have hx : 0 < x := hx
      have hd : HasDerivAt (fun x : ℝ => x / θ) (1 / θ) x := (hasDerivAt_id x).div_const θ
      have hq : 0 < x / θ := by positivity
      refine (((hd.log hq.ne').const_mul (k - 1)).sub (hd.rpow_const (p := k) (Or.inl hq.ne'))).congr_deriv ?_
      rw [Real.rpow_sub_one hq.ne']
      field_simp
    · intro x hx hm; exact div_pos (by linarith [hl x hx hm]) hx
    · intro x hx hm; exact div_neg_of_neg_of_pos (by linarith [hr x hx hm]) hx
  · intro x hx
    have hx : 0 < x := hx
    have hq : 0 < x / θ := by positivity
    rw [weibullPdf, if_pos hx, Real.exp_sub, mul_comm (k - 1), ← Real.rpow_def_of_pos hq, Real.exp_neg]
    field_simp

/-- shape above 1 -/
theorem weibull_big {k θ : ℝ} (hk : 1 < k) (hθ : 0 < θ) :
    Peak (Ioi 0) (θ * ((k - 1) / k) ^ (1 / k)) (weibullPdf k θ) := by
  have hk0 : 0 < k := by linarith
  have hq : 0 < (k - 1) / k := div_pos (by linarith) hk0
  have hp : 0 < ((k - 1) / k) ^ (1 / k) := by positivity
  have e : (((k - 1) / k) ^ (1 / k)) ^ k = (k - 1) / k := by
    rw [← Real.rpow_mul hq.le, one_div_mul_cancel hk0.ne', Real.rpow_one]
  refine weibull_deriv hk0 hθ (fun x hx hm => ?_) fun x hx hm => ?_
  · have h1 : x / θ < ((k - 1) / k) ^ (1 / k) := by rw [div_lt_iff₀ hθ]; linarith
    have h2 := Real.rpow_lt_rpow (by positivity) h1 hk0
    rw [e, lt_div_iff₀ hk0] at h2
    linarith
  · have h1 : ((k - 1) / k) ^ (1 / k) < x / θ := by rw [lt_div_iff₀ hθ]; linarith
    have h2 := Real.rpow_lt_rpow hp.le h1 hk0
    rw [e, div_lt_iff₀ hk0] at h2
    linarith

theorem weibull_small {k θ : ℝ} (hk : 0 < k) (hk1 : k ≤ 1) (hθ : 0 < θ) : Peak (Ioi 0) 0 (weibullPdf k θ) := by
  refine weibull_deriv hk hθ (fun x hx hm => absurd hm (not_lt.2 hx.le)) fun x hx hm => ?_
  have : 0 < k * (x / θ) ^ k := by positivity
  linarith

theorem beta_deriv {a b : ℝ} (ha : 0 < a) (hb : 0 < b) {m : ℝ}
    (hl : ∀ x, 0 < x → x < 1 → x < m → 0 < (a - 1) - (a + b - 2) * x)
    (hr : ∀ x, 0 < x → x < 1 → m < x → (a - 1) - (a + b - 2) * x < 0) : Peak (Ioo 0 1) m (betaPdf a b) := by
  have hB : 0 < Spec.beta a b := beta_pos ha hb
  refine Peak.exp (c := 1 / Spec.beta a b) (g := fun x => (a - 1) * Real.log x + (b - 1) * Real.log (1 - x))
    (by positivity) ?_ ?_
  · refine peak_of_deriv (convex_Ioo 0 1) (g' := fun x => ((a - 1) - (a + b - 2) * x) / (x * (1 - x)))
      (fun x hx => ?_) ?_ ?_
    · have h0 := hx.1
      have h1 : 0 < 1 - x := by linarith [hx.2]
      have hd : HasDerivAt (fun x : ℝ => 1 - x) (-1) x := (hasDerivAt_id x).const_sub 1
      refine (((Real.hasDerivAt_log h0.ne').const_mul (a - 1)).add ((hd.log h1.ne').const_mul (b - 1))).congr_deriv ?_
      field_simp
      ring
    · intro x hx hm; exact div_pos (hl x hx.1 hx.2 hm) (mul_pos hx.1 (by linarith [hx.2]))
    · intro x hx hm; exact div_neg_of_neg_of_pos (hr x hx.1 hx.2 hm) (mul_pos hx.1 (by linarith [hx.2]))
  · intro x hx
    rw [betaPdf, if_pos ⟨hx.1, hx.2⟩, Real.exp_add, mul_comm (a - 1), ← Real.rpow_def_of_pos hx.1, mul_comm (b - 1),
      ← Real.rpow_def_of_pos (by linarith [hx.2])]
    ring

/-- both parameters at least 1, not both 1 -/
theorem beta {a b : ℝ} (ha : 1 ≤ a) (hb : 1 ≤ b) (h : 2 < a + b) :
    Peak (Ioo 0 1) ((a - 1) / (a + b - 2)) (betaPdf a b) := by
  have hs : 0 < a + b - 2 := by linarith
  refine beta_deriv (by linarith) (by linarith) (fun x _ _ hm => ?_) fun x _ _ hm => ?_
  · rw [lt_div_iff₀ hs] at hm; linarith
  · rw [div_lt_iff₀ hs] at hm; linarith

theorem beta_left {a b : ℝ} (ha : 0 < a) (ha1 : a ≤ 1) (hb : 1 ≤ b) (h : a < b) : Peak (Ioo 0 1) 0 (betaPdf a b) :=
  beta_deriv ha (by linarith) (fun x hx _ hm => absurd hm (not_lt.2 hx.le)) fun x h0 h1 _ => by
    rcases ha1.lt_or_eq with h' | rfl
    · nlinarith [mul_pos (sub_pos.2 h') (sub_pos.2 h1), mul_nonneg (sub_nonneg.2 hb) h0.le]
    · nlinarith [mul_pos (sub_pos.2 h) h0]

theorem beta_right {a b : ℝ} (hb0 : 0 < b) (hb : b ≤ 1) (ha : 1 ≤ a) (h : b < a) : Peak (Ioo 0 1) 1 (betaPdf a b) :=
  beta_deriv (by linarith) hb0 (fun x h0 h1 _ => by
    rcases hb.lt_or_eq with h' | rfl
    · nlinarith [mul_pos (sub_pos.2 h') h0, mul_nonneg (sub_nonneg.2 ha) (sub_nonneg.2 h1.le)]
    · nlinarith [mul_pos (sub_pos.2 h) (sub_pos.2 h1)])
    fun x _ hx hm => absurd hm (not_lt.2 hx.le)

/-- The density with both parameters below 1 is a constant over one with both above 1. -/
theorem beta_recip {a b : ℝ} (ha : a < 1) (hb : b < 1) {x : ℝ} (hx : x ∈ Ioo (0 : ℝ) 1) :
    betaPdf a b x = 1 / Spec.beta a b * (1 / Spec.beta (2 - a) (2 - b)) / betaPdf (2 - a) (2 - b) x := by
  have h0 := hx.1
  have h1 : 0 < 1 - x := by linarith [hx.2]
  have hB : 0 < Spec.beta (2 - a) (2 - b) := beta_pos (by linarith) (by linarith)
  rw [betaPdf, betaPdf, if_pos ⟨hx.1, hx.2⟩, if_pos ⟨hx.1, hx.2⟩, show 2 - a - 1 = -(a - 1) by ring,
    show 2 - b - 1 = -(b - 1) by ring, Real.rpow_neg h0.le, Real.rpow_neg h1.le]
  field_simp

theorem betaPdf_pos {a b : ℝ} (ha : 0 < a) (hb : 0 < b) {x : ℝ} (hx : x ∈ Ioo (0 : ℝ) 1) : 0 < betaPdf a b x := by
  have h0 := hx.1
  have h1 : 0 < 1 - x := by linarith [hx.2]
  have hB : 0 < Spec.beta a b := beta_pos ha hb
  rw [betaPdf, if_pos ⟨hx.1, hx.2⟩]
  positivity

/-- both parameters below 1: a valley -/
theorem beta_valley {a b : ℝ} (ha : 0 < a) (ha1 : a < 1) (hb : 0 < b) (hb1 : b < 1) :
    StrictAntiOn (betaPdf a b) (Ioo 0 1 ∩ Iic ((1 - a) / (2 - a - b))) ∧
      StrictMonoOn (betaPdf a b) (Ioo 0 1 ∩ Ici ((1 - a) / (2 - a - b))) := by
  have hp : Peak (Ioo 0 1) ((2 - a - 1) / (2 - a + (2 - b) - 2)) (betaPdf (2 - a) (2 - b)) :=
    beta (by linarith) (by linarith) (by linarith)
  rw [show (2 - a - 1) / (2 - a + (2 - b) - 2) = (1 - a) / (2 - a - b) by ring_nf] at hp
  have hB : 0 < Spec.beta (2 - a) (2 - b) := beta_pos (by linarith) (by linarith)
  have hB' : 0 < Spec.beta a b := beta_pos ha hb
  constructor
  · intro x hx y hy hxy
    rw [beta_recip ha1 hb1 hx.1, beta_recip ha1 hb1 hy.1]
    exact div_lt_div_of_pos_left (by positivity) (betaPdf_pos (by linarith) (by linarith) hx.1) (hp.1 hx hy hxy)
  · intro x hx y hy hxy
    rw [beta_recip ha1 hb1 hx.1, beta_recip ha1 hb1 hy.1]
    exact div_lt_div_of_pos_left (by positivity) (betaPdf_pos (by linarith) (by linarith) hy.1) (hp.2 hx hy hxy)

/-! ### Probabilities on the integers -/

theorem int_rise {g : ℤ → ℝ} {m : ℤ} (h : ∀ k ≤ m, g (k - 1) ≤ g k) {j k : ℤ} (hjk : j ≤ k) (hk : k ≤ m) :
    g j ≤ g k := by
  induction k, hjk using Int.leInduction with
  | base => exact le_rfl
  | succ k _ ih =>
    refine (ih (by omega)).trans ?_
    have := h (k + 1) hk
    rwa [add_sub_cancel_right] at this

theorem int_fall {g : ℤ → ℝ} {m : ℤ} (h : ∀ k, m < k → g k ≤ g (k - 1)) {j k : ℤ} (hj : m ≤ j) (hjk : j ≤ k) :
    g k ≤ g j := by
  induction k, hjk using Int.leInduction with
  | base => exact le_rfl
  | succ k hk ih =>
    refine le_trans ?_ ih
    have := h (k + 1) (by omega)
    rwa [add_sub_cancel_right] at this

theorem poisPmf_nonneg {r : ℝ} (hr : 0 ≤ r) (x : ℤ) : 0 ≤ poisPmf r x := by
  unfold poisPmf; split_ifs <;> positivity

theorem pois_step {r : ℝ} {k : ℤ} (hk : 1 ≤ k) : poisPmf r k * k = poisPmf r (k - 1) * r := by
  obtain ⟨n, rfl⟩ : ∃ n : ℕ, k = n + 1 := ⟨(k - 1).toNat, by omega⟩
  rw [poisPmf, poisPmf, if_pos (by omega), if_pos (by omega), add_sub_cancel_right,
    show ((n : ℤ) + 1).toNat = n + 1 by omega, Int.toNat_natCast, Nat.factorial_succ]
  have : ((n.factorial : ℕ) : ℝ) ≠ 0 := by positivity
  have : (n : ℝ) + 1 ≠ 0 := by positivity
  push_cast
  field_simp
  ring

theorem pois_rise {r : ℝ} (hr : 0 ≤ r) {k : ℤ} (hk : k ≤ ⌊r⌋) : poisPmf r (k - 1) ≤ poisPmf r k := by
  rcases le_or_gt k 0 with h | h
  · rw [poisPmf, if_neg (by omega)]; exact poisPmf_nonneg hr k
  · have h1 := pois_step (r := r) (show 1 ≤ k by omega)
    have h2 : (k : ℝ) ≤ r := Int.le_floor.1 hk
    have h3 : (0 : ℝ) < k := by exact_mod_cast h
    have h4 := poisPmf_nonneg hr (k - 1)
    refine le_of_mul_le_mul_right ?_ h3
    rw [h1]
    gcongr

theorem pois_fall {r : ℝ} (hr : 0 ≤ r) {k : ℤ} (hk : ⌊r⌋ < k) : poisPmf r k ≤ poisPmf r (k - 1) := by
  have h0 : 0 ≤ ⌊r⌋ := Int.floor_nonneg.2 hr
  have h1 := pois_step (r := r) (show 1 ≤ k by omega)
  have h2 : r < k := Int.floor_lt.1 hk
  have h3 : (0 : ℝ) < k := by linarith
  have h4 := poisPmf_nonneg hr (k - 1)
  refine le_of_mul_le_mul_right ?_ h3
  rw [h1]
  gcongr

theorem binomPmf_nonneg (n : ℕ) {p : ℝ} (h0 : 0 ≤ p) (h1 : p ≤ 1) (x : ℤ) : 0 ≤ binomPmf n p x := by
  have : 0 ≤ 1 - p := by linarith
  unfold binomPmf; split_ifs <;> positivity

theorem binom_step (n : ℕ) (p : ℝ) {k : ℤ} (hk : 1 ≤ k) (hn : k ≤ n) :
    binomPmf n p k * (k * (1 - p)) = binomPmf n p (k - 1) * ((n + 1 - k) * p) := by
  obtain ⟨j, rfl⟩ : ∃ j : ℕ, k = j + 1 := ⟨(k - 1).toNat, by omega⟩
  have hj : j + 1 ≤ n := by omega
  rw [binomPmf, binomPmf, if_pos (by omega), if_pos (by omega), add_sub_cancel_right,
    show ((j : ℤ) + 1).toNat = j + 1 by omega, Int.toNat_natCast]
  obtain ⟨i, rfl⟩ := Nat.exists_eq_add_of_le hj
  have hc : ((j + 1 + i).choose (j + 1) : ℝ) * (j + 1) = (j + 1 + i).choose j * (i + 1) := by
    have := Nat.choose_succ_right_eq (j + 1 + i) j
    rw [show j + 1 + i - j = i + 1 by omega] at this
    exact_mod_cast this
  rw [show j + 1 + i - (j + 1) = i by omega, show j + 1 + i - j = i + 1 by omega]
  push_cast
  linear_combination p ^ (j + 1) * (1 - p) ^ (i + 1) * hc

theorem binom_rise (n : ℕ) {p : ℝ} (h0 : 0 ≤ p) (h1 : p ≤ 1) {k : ℤ} (hk : k ≤ min (n : ℤ) ⌊(n + 1) * p⌋) :
    binomPmf n p (k - 1) ≤ binomPmf n p k := by
  obtain ⟨hn, hk⟩ := le_min_iff.1 hk
  rcases le_or_gt k 0 with h | h
  · rw [binomPmf, if_neg (by omega)]; exact binomPmf_nonneg n h0 h1 k
  · have h2 := binom_step n p (show 1 ≤ k by omega) hn
    have h3 : (k : ℝ) ≤ (n + 1) * p := Int.le_floor.1 hk
    have h4 : (0 : ℝ) < k := by exact_mod_cast h
    have h5 := binomPmf_nonneg n h0 h1 (k - 1)
    rcases h1.eq_or_lt with rfl | h1
    · rw [binomPmf, if_pos (by omega), sub_self, zero_pow (by omega), mul_zero]
      exact binomPmf_nonneg n h0 h1 k
    · refine le_of_mul_le_mul_right ?_ (mul_pos h4 (sub_pos.2 h1))
      rw [h2]
      exact mul_le_mul_of_nonneg_left (by linarith) h5

theorem binom_fall (n : ℕ) {p : ℝ} (h0 : 0 ≤ p) (h1 : p ≤ 1) {k : ℤ} (hk : min (n : ℤ) ⌊(n + 1) * p⌋ < k) :
    binomPmf n p k ≤ binomPmf n p (k - 1) := by
  have h5 := binomPmf_nonneg n h0 h1 (k - 1)
  rcases lt_or_ge (n : ℤ) k with hn | hn
  · rw [binomPmf, if_neg (by omega)]; exact h5
  · have hk : ⌊(n + 1) * p⌋ < k := by omega
    have h3 : (n + 1) * p < k := Int.floor_lt.1 hk
    have h6 : 0 ≤ (n + 1) * p := by positivity
    have h4 : (0 : ℝ) < k := by linarith
    have h7 : 1 ≤ k := by exact_mod_cast h4
    have hnr : (k : ℝ) ≤ n := by exact_mod_cast hn
    have h8 : p < 1 := by nlinarith
    refine le_of_mul_le_mul_right ?_ (mul_pos h4 (sub_pos.2 h8))
    rw [binom_step n p h7 hn]
    exact mul_le_mul_of_nonneg_left (by linarith) h5

end Stats.Mode
