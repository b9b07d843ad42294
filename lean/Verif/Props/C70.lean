import Verif.Spec.Lr
import Verif.Lemmas.Meets
import Verif.Props.C08
import Verif.Props.C08D

/-!
# C70: likelihood ratios are monotone

For two parameters in order, the ratio of the densities at `x` does not decrease with `x`.
-/

set_option linter.unusedSectionVars false
open Classical
namespace Stats
open Fl Spec

section
variable [Lib] [Ideal]

theorem dens_both {d : Fl → Bool → Fl} {f : ℝ → ℝ} {s : Set ℝ} (h : IsDensityOn d f s) {x : ℝ} (hx : x ∈ s) :
    Both (d (fin x)) (f x) := h x hx

/-- Densities `c * h x * exp (g x)` with a common factor `h`. -/
theorem monoLR_of {d₁ d₂ : Fl → Bool → Fl} {f₁ f₂ : ℝ → ℝ} {s : Set ℝ} (h₁ : IsDensityOn d₁ f₁ s) (h₂ : IsDensityOn d₂ f₂ s)
    {c₁ c₂ : ℝ} {g₁ g₂ : ℝ → ℝ} (e₁ : ∀ x ∈ s, f₁ x = c₁ * Real.exp (g₁ x))
    (e₂ : ∀ x ∈ s, f₂ x = c₂ * Real.exp (g₂ x)) (h : ∀ x ∈ s, ∀ y ∈ s, x ≤ y → g₂ x - g₁ x ≤ g₂ y - g₁ y) : MonoLR d₁ d₂ s := by
  intro x hx y hy hxy
  refine ⟨f₁ x, f₂ x, f₁ y, f₂ y, dens_both h₁ hx, dens_both h₂ hx, dens_both h₁ hy, dens_both h₂ hy, ?_⟩
  have key : ∀ x ∈ s, f₂ x / f₁ x = c₂ / c₁ * Real.exp (g₂ x - g₁ x) := fun x hx => by
    rw [e₁ x hx, e₂ x hx, Real.exp_sub, mul_div_mul_comm]
  have p : ∀ x ∈ s, 0 < c₁ ∧ 0 < c₂ := fun x hx => by
    have a := (h₁ x hx).1
    have b := (h₂ x hx).1
    rw [e₁ x hx] at a
    rw [e₂ x hx] at b
    exact ⟨pos_of_mul_pos_left a (Real.exp_pos _).le, pos_of_mul_pos_left b (Real.exp_pos _).le⟩
  obtain ⟨p1, p2⟩ := p x hx
  rw [key x hx, key y hy]
  exact mul_le_mul_of_nonneg_left (Real.exp_le_exp.2 (h x hx y hy hxy)) (by positivity)

/-! ### location families -/

theorem C70_norm {mu₁ mu₂ sigma : ℝ} (h : 0 < sigma) (hm : mu₁ ≤ mu₂) :
    MonoLR (fun x => dnorm x (fin mu₁) (fin sigma)) (fun x => dnorm x (fin mu₂) (fin sigma)) Set.univ := by
  refine monoLR_of (C08_dnorm mu₁ h) (C08_dnorm mu₂ h) (fun x _ => rfl) (fun x _ => rfl) fun x _ y _ hxy => ?_
  have p : 0 < 2 * sigma ^ 2 := by positivity
  rw [← sub_div, ← sub_div]
  refine div_le_div_of_nonneg_right ?_ p.le
  nlinarith [mul_nonneg (sub_nonneg.2 hm) (sub_nonneg.2 hxy)]
example : MonoLR (fun x => dnorm x (fin 1) (fin 2)) (fun x => dnorm x (fin 3) (fin 2)) Set.univ :=
  C70_norm (by norm_num) (by norm_num)

theorem C70_lnorm {mu₁ mu₂ sigma : ℝ} (h : 0 < sigma) (hm : mu₁ ≤ mu₂) :
    MonoLR (fun x => dlnorm x (fin mu₁) (fin sigma)) (fun x => dlnorm x (fin mu₂) (fin sigma)) (Set.Ioi 0) := by
  have e : ∀ mu, ∀ x ∈ Set.Ioi (0 : ℝ), lnormPdf mu sigma x =
      1 / (√(2 * Real.pi) * sigma) * Real.exp (-Real.log x + -((Real.log x - mu) ^ 2) / (2 * sigma ^ 2)) := fun mu x hx => by
    have hx : 0 < x := hx
    rw [lnormPdf, if_pos hx, Real.exp_add, Real.exp_neg, Real.exp_log hx]; ring
  refine monoLR_of (C08_dlnorm mu₁ h) (C08_dlnorm mu₂ h) (e mu₁) (e mu₂) fun x hx y hy hxy => ?_
  have hl := Real.log_le_log hx hxy
  have p : 0 < 2 * sigma ^ 2 := by positivity
  rw [add_sub_add_left_eq_sub, add_sub_add_left_eq_sub, ← sub_div, ← sub_div]
  refine div_le_div_of_nonneg_right ?_ p.le
  nlinarith [mul_nonneg (sub_nonneg.2 hm) (sub_nonneg.2 hl)]
example : MonoLR (fun x => dlnorm x (fin 1) (fin 2)) (fun x => dlnorm x (fin 3) (fin 2)) (Set.Ioi 0) :=
  C70_lnorm (by norm_num) (by norm_num)

theorem C70_laplace {mu₁ mu₂ sigma : ℝ} (h : 0 < sigma) (hm : mu₁ ≤ mu₂) :
    MonoLR (fun x => dlaplace x (fin mu₁) (fin sigma)) (fun x => dlaplace x (fin mu₂) (fin sigma)) Set.univ := by
  refine monoLR_of (C08_dlaplace mu₁ h) (C08_dlaplace mu₂ h) (fun x _ => rfl) (fun x _ => rfl) fun x _ y _ hxy => ?_
  rw [← sub_div, ← sub_div]
  refine div_le_div_of_nonneg_right ?_ h.le
  rcases abs_cases (x - mu₁) with a | a <;> rcases abs_cases (x - mu₂) with b | b <;>
    rcases abs_cases (y - mu₁) with c | c <;> rcases abs_cases (y - mu₂) with d | d <;> linarith [a.1, b.1, c.1, d.1]
example : MonoLR (fun x => dlaplace x (fin 1) (fin 2)) (fun x => dlaplace x (fin 3) (fin 2)) Set.univ :=
  C70_laplace (by norm_num) (by norm_num)

theorem C70_logis {mu₁ mu₂ sigma : ℝ} (h : 0 < sigma) (hm : mu₁ ≤ mu₂) :
    MonoLR (fun x => dlogis x (fin mu₁) (fin sigma)) (fun x => dlogis x (fin mu₂) (fin sigma)) Set.univ := by
  have e : ∀ mu, ∀ x ∈ (Set.univ : Set ℝ), logisPdf mu sigma x =
      1 / sigma * Real.exp (-((x - mu) / sigma) - 2 * Real.log (1 + Real.exp (-((x - mu) / sigma)))) := fun mu x _ => by
    have p : 0 < 1 + Real.exp (-((x - mu) / sigma)) := by positivity
    rw [logisPdf, Real.exp_sub, show 2 * Real.log (1 + Real.exp (-((x - mu) / sigma))) =
      Real.log ((1 + Real.exp (-((x - mu) / sigma))) ^ 2) by rw [Real.log_pow]; norm_num, Real.exp_log (by positivity)]
    field_simp
  refine monoLR_of (C08_dlogis mu₁ h) (C08_dlogis mu₂ h) (e mu₁) (e mu₂) fun x _ y _ hxy => ?_
  -- (1 + u t)(1 + v) ≤ ... with u, v the exponentials
  have key : Real.log (1 + Real.exp (-((x - mu₁) / sigma))) + Real.log (1 + Real.exp (-((y - mu₂) / sigma))) ≤
      Real.log (1 + Real.exp (-((y - mu₁) / sigma))) + Real.log (1 + Real.exp (-((x - mu₂) / sigma))) := by
    rw [← Real.log_mul (by positivity) (by positivity), ← Real.log_mul (by positivity) (by positivity)]
    refine Real.log_le_log (by positivity) ?_
    set A := Real.exp (-((y - mu₁) / sigma))
    have hp : ∀ x mu : ℝ, Real.exp (-((x - mu) / sigma)) = Real.exp (-x / sigma) * Real.exp (mu / sigma) := fun x mu => by
      rw [← Real.exp_add]; congr 1; ring
    have h1 : Real.exp (-y / sigma) ≤ Real.exp (-x / sigma) :=
      Real.exp_le_exp.2 (div_le_div_of_nonneg_right (by linarith) h.le)
    have h2 : Real.exp (mu₁ / sigma) ≤ Real.exp (mu₂ / sigma) := Real.exp_le_exp.2 (div_le_div_of_nonneg_right hm h.le)
    simp only [A, hp]
    nlinarith [mul_nonneg (sub_nonneg.2 h1) (sub_nonneg.2 h2)]
  have r : ∀ x mu : ℝ, (x - mu) / sigma = x / sigma - mu / sigma := fun x mu => sub_div _ _ _
  have l1 := r x mu₁
  have l2 := r x mu₂
  have l3 := r y mu₁
  have l4 := r y mu₂
  linarith
example : MonoLR (fun x => dlogis x (fin 1) (fin 2)) (fun x => dlogis x (fin 3) (fin 2)) Set.univ :=
  C70_logis (by norm_num) (by norm_num)

/-! ### the other families -/

theorem C70_exp {rate₁ rate₂ : ℝ} (h : 0 < rate₁) (hr : rate₁ ≤ rate₂) :
    MonoLR (fun x => dexp x (fin rate₂)) (fun x => dexp x (fin rate₁)) (Set.Ici 0) := by
  refine monoLR_of (C08_dexp (h.trans_le hr)) (C08_dexp h) (fun x hx => if_pos hx) (fun x hx => if_pos hx) fun x _ y _ hxy => ?_
  nlinarith [mul_nonneg (sub_nonneg.2 hr) (sub_nonneg.2 hxy)]
example : MonoLR (fun x => dexp x (fin 3)) (fun x => dexp x (fin 2)) (Set.Ici 0) := C70_exp (by norm_num) (by norm_num)

theorem gammaPdf_exp (k θ : ℝ) : ∀ x ∈ Set.Ioi (0 : ℝ), gammaPdf k θ x =
    1 / (θ ^ k * Real.Gamma k) * Real.exp ((k - 1) * Real.log x - x / θ) := fun x hx => by
  have hx : 0 < x := hx
  rw [gammaPdf, if_pos hx, Real.rpow_def_of_pos hx, ← Real.exp_add, mul_comm (Real.log x), div_eq_inv_mul, one_div]
  congr 2; ring

theorem C70_gamma {shape₁ shape₂ scale₁ scale₂ : ℝ} (hk : 0 < shape₁) (hk' : shape₁ ≤ shape₂) (hs : Lib.eps ≤ scale₁)
    (hs' : scale₁ ≤ scale₂) :
    MonoLR (fun x => dgamma x (fin shape₁) (fin scale₁)) (fun x => dgamma x (fin shape₂) (fin scale₂)) (Set.Ioi 0) := by
  refine monoLR_of (C08_dgamma hk hs) (C08_dgamma (hk.trans_le hk') (hs.trans hs')) (gammaPdf_exp _ _) (gammaPdf_exp _ _)
    fun x hx y hy hxy => ?_
  have hl := Real.log_le_log hx hxy
  have s0 := Lib.eps_pos.trans_le hs
  have hi : 1 / scale₂ ≤ 1 / scale₁ := one_div_le_one_div_of_le s0 hs'
  have r : ∀ z s : ℝ, z / s = z * (1 / s) := fun z s => div_eq_mul_one_div z s
  rw [r x scale₁, r x scale₂, r y scale₁, r y scale₂]
  nlinarith [mul_nonneg (sub_nonneg.2 hk') (sub_nonneg.2 hl), mul_nonneg (sub_nonneg.2 hi) (sub_nonneg.2 hxy)]
example : MonoLR (fun x => dgamma x (fin 1) (fin 2)) (fun x => dgamma x (fin 3) (fin 4)) (Set.Ioi 0) :=
  C70_gamma (by norm_num) (by norm_num) (by meets) (by norm_num)

theorem C70_chisq {dof₁ dof₂ : ℝ} (hk : 0 < dof₁) (hk' : dof₁ ≤ dof₂) :
    MonoLR (fun x => dchisq x (fin dof₁)) (fun x => dchisq x (fin dof₂)) (Set.Ioi 0) := by
  have e : ∀ k, ∀ x ∈ Set.Ioi (0 : ℝ), chisqPdf k x =
      1 / (2 ^ (k / 2) * Real.Gamma (k / 2)) * Real.exp ((k / 2 - 1) * Real.log x - x / 2) := fun k x hx => by
    rw [← gammaPdf_exp (k / 2) 2 x hx, chisqPdf, gammaPdf]
  refine monoLR_of (C08_dchisq hk) (C08_dchisq (hk.trans_le hk')) (e _) (e _) fun x hx y hy hxy => ?_
  have hl := Real.log_le_log hx hxy
  nlinarith [mul_nonneg (sub_nonneg.2 hk') (sub_nonneg.2 hl)]
example : MonoLR (fun x => dchisq x (fin 1)) (fun x => dchisq x (fin 5)) (Set.Ioi 0) := C70_chisq (by norm_num) (by norm_num)

theorem betaPdf_exp (a b : ℝ) : ∀ x ∈ Set.Ioo (0 : ℝ) 1, betaPdf a b x =
    1 / beta a b * Real.exp ((a - 1) * Real.log x + (b - 1) * Real.log (1 - x)) := fun x hx => by
  have h1 : 0 < 1 - x := by linarith [hx.2]
  rw [betaPdf, if_pos ⟨hx.1, hx.2⟩, Real.rpow_def_of_pos hx.1, Real.rpow_def_of_pos h1, Real.exp_add, mul_comm (Real.log x),
    mul_comm (Real.log (1 - x)), mul_assoc]

theorem C70_beta {a₁ a₂ b₁ b₂ : ℝ} (ha : 0 < a₁) (ha' : a₁ ≤ a₂) (hb : 0 < b₁) (hb' : b₁ ≤ b₂) :
    MonoLR (fun x => dbeta x (fin a₁) (fin b₂)) (fun x => dbeta x (fin a₂) (fin b₁)) (Set.Ioo 0 1) := by
  refine monoLR_of (C08_dbeta ha (hb.trans_le hb')) (C08_dbeta (ha.trans_le ha') hb) (betaPdf_exp _ _) (betaPdf_exp _ _)
    fun x hx y hy hxy => ?_
  have hl := Real.log_le_log hx.1 hxy
  have hl' := Real.log_le_log (by linarith [hy.2] : 0 < 1 - y) (by linarith : 1 - y ≤ 1 - x)
  nlinarith [mul_nonneg (sub_nonneg.2 ha') (sub_nonneg.2 hl), mul_nonneg (sub_nonneg.2 hb') (sub_nonneg.2 hl')]
example : MonoLR (fun x => dbeta x (fin 1) (fin 3)) (fun x => dbeta x (fin 2) (fin (1 / 2))) (Set.Ioo 0 1) :=
  C70_beta (by norm_num) (by norm_num) (by norm_num) (by norm_num)

theorem C70_invgamma {shape₁ shape₂ rate₁ rate₂ : ℝ} (hk : 0 < shape₁) (hk' : shape₁ ≤ shape₂) (hr : 0 < rate₁)
    (hr' : rate₁ ≤ rate₂) :
    MonoLR (fun x => dinvgamma x (fin shape₂) (fin rate₁)) (fun x => dinvgamma x (fin shape₁) (fin rate₂)) (Set.Ioi 0) := by
  have e : ∀ α β, ∀ x ∈ Set.Ioi (0 : ℝ), invgammaPdf α β x =
      β ^ α / Real.Gamma α * Real.exp ((-α - 1) * Real.log x - β / x) := fun α β x hx => by
    have hx : 0 < x := hx
    rw [invgammaPdf, if_pos hx, Real.rpow_def_of_pos hx, mul_assoc, ← Real.exp_add, mul_comm (Real.log x)]
    congr 2; ring
  refine monoLR_of (C08_dinvgamma (hk.trans_le hk') hr) (C08_dinvgamma hk (hr.trans_le hr')) (e _ _) (e _ _)
    fun x hx y hy hxy => ?_
  have hl := Real.log_le_log hx hxy
  have hi : 1 / y ≤ 1 / x := one_div_le_one_div_of_le hx hxy
  have r : ∀ z s : ℝ, z / s = z * (1 / s) := fun z s => div_eq_mul_one_div z s
  rw [r rate₁ x, r rate₂ x, r rate₁ y, r rate₂ y]
  nlinarith [mul_nonneg (sub_nonneg.2 hk') (sub_nonneg.2 hl), mul_nonneg (sub_nonneg.2 hr') (sub_nonneg.2 hi)]
example : MonoLR (fun x => dinvgamma x (fin 3) (fin 1)) (fun x => dinvgamma x (fin 2) (fin 5)) (Set.Ioi 0) :=
  C70_invgamma (by norm_num) (by norm_num) (by norm_num) (by norm_num)

theorem C70_invgauss {mu₁ mu₂ lambda : ℝ} (hm : 0 < mu₁) (hm' : mu₁ ≤ mu₂) (hl : 0 < lambda) :
    MonoLR (fun x => dinvgauss x (fin mu₁) (fin lambda)) (fun x => dinvgauss x (fin mu₂) (fin lambda)) (Set.Ioi 0) := by
  have m2 := hm.trans_le hm'
  intro x hx y hy hxy
  have hx' : 0 < x := hx
  have hy' : 0 < y := hy
  have b₁ := C08_dinvgauss hm hl
  have b₂ := C08_dinvgauss m2 hl
  refine ⟨_, _, _, _, dens_both b₁ hx, dens_both b₂ hx, dens_both b₁ hy, dens_both b₂ hy, ?_⟩
  have key : ∀ x, 0 < x → invgaussPdf mu₂ lambda x / invgaussPdf mu₁ lambda x =
      Real.exp (lambda * (1 / mu₂ - 1 / mu₁) + lambda / 2 * (1 / mu₁ ^ 2 - 1 / mu₂ ^ 2) * x) := fun x hx => by
    have p : √(lambda / (2 * Real.pi * x ^ 3)) ≠ 0 := (Real.sqrt_pos.2 (by have := Real.pi_pos; positivity)).ne'
    rw [invgaussPdf, invgaussPdf, if_pos hx, if_pos hx, mul_div_mul_left _ _ p, ← Real.exp_sub]
    congr 1
    field_simp
    ring
  rw [key x hx', key y hy']
  refine Real.exp_le_exp.2 (by
    have : 1 / mu₂ ^ 2 ≤ 1 / mu₁ ^ 2 := one_div_le_one_div_of_le (by positivity) (pow_le_pow_left₀ hm.le hm' 2)
    have : 0 ≤ lambda / 2 * (1 / mu₁ ^ 2 - 1 / mu₂ ^ 2) := mul_nonneg (by positivity) (by linarith)
    nlinarith)
example : MonoLR (fun x => dinvgauss x (fin 1) (fin 2)) (fun x => dinvgauss x (fin 3) (fin 2)) (Set.Ioi 0) :=
  C70_invgauss (by norm_num) (by norm_num) (by norm_num)

theorem C70_weibull {shape scale₁ scale₂ : ℝ} (hk : Lib.eps ≤ shape) (hs : Lib.eps ≤ scale₁) (hs' : scale₁ ≤ scale₂) :
    MonoLR (fun x => dweibull x (fin shape) (fin scale₁)) (fun x => dweibull x (fin shape) (fin scale₂)) (Set.Ioi 0) := by
  have k0 := Lib.eps_pos.trans_le hk
  have s1 := Lib.eps_pos.trans_le hs
  have s2 := s1.trans_le hs'
  have e : ∀ θ, 0 < θ → ∀ x ∈ Set.Ioi (0 : ℝ), weibullPdf shape θ x =
      shape / θ * (1 / θ) ^ (shape - 1) * Real.exp ((shape - 1) * Real.log x - x ^ shape * (1 / θ) ^ shape) := fun θ hθ x hx => by
    have hx : 0 < x := hx
    rw [weibullPdf, if_pos hx, div_eq_mul_one_div x θ, Real.mul_rpow hx.le (by positivity), Real.mul_rpow hx.le (by positivity),
      Real.exp_sub, mul_comm (shape - 1) (Real.log x), ← Real.rpow_def_of_pos hx, Real.exp_neg]
    ring
  refine monoLR_of (C08_dweibull hk hs) (C08_dweibull hk (hs.trans hs')) (e _ s1) (e _ s2) fun x hx y hy hxy => ?_
  have hx : 0 < x := hx
  have hp : x ^ shape ≤ y ^ shape := Real.rpow_le_rpow hx.le hxy k0.le
  have hi : (1 / scale₂) ^ shape ≤ (1 / scale₁) ^ shape :=
    Real.rpow_le_rpow (by positivity) (one_div_le_one_div_of_le s1 hs') k0.le
  nlinarith [mul_nonneg (sub_nonneg.2 hi) (sub_nonneg.2 hp)]
example : MonoLR (fun x => dweibull x (fin 2) (fin 1)) (fun x => dweibull x (fin 2) (fin 3)) (Set.Ioi 0) :=
  C70_weibull (by meets) (by meets) (by norm_num)

/-! ### discrete families -/

theorem monoLRInt_of {d₁ d₂ : ℤ → Bool → Fl} {f₁ f₂ : ℤ → ℝ} (h₁ : ∀ x, IsValue (d₁ x) (f₁ x)) (h₂ : ∀ x, IsValue (d₂ x) (f₂ x))
    (h : ∀ x y, x ≤ y → f₂ x * f₁ y ≤ f₁ x * f₂ y) : MonoLRInt d₁ d₂ := fun x y hxy =>
  ⟨_, _, _, _, (h₁ x).2.1, (h₂ x).2.1, (h₁ y).2.1, (h₂ y).2.1, h x y hxy⟩

theorem C70_bern {p₁ p₂ : ℝ} (h0 : 0 ≤ p₁) (h : p₁ ≤ p₂) (h1 : p₂ ≤ 1) :
    MonoLRInt (fun x => dbern x (fin p₁)) (fun x => dbern x (fin p₂)) := by
  refine monoLRInt_of (C08_dbern h0 (h.trans h1)) (C08_dbern (h0.trans h) h1) fun x y hxy => ?_
  simp only [bernPmf]
  split_ifs <;> first | omega | nlinarith
example : MonoLRInt (fun x => dbern x (fin (1 / 4))) (fun x => dbern x (fin (1 / 2))) :=
  C70_bern (by norm_num) (by norm_num) (by norm_num)

theorem C70_radem {p₁ p₂ : ℝ} (h0 : 0 ≤ p₁) (h : p₁ ≤ p₂) (h1 : p₂ ≤ 1) :
    MonoLRInt (fun x => dradem x (fin p₁)) (fun x => dradem x (fin p₂)) := by
  refine monoLRInt_of (C08_dradem h0 (h.trans h1)) (C08_dradem (h0.trans h) h1) fun x y hxy => ?_
  simp only [rademPmf]
  split_ifs <;> first | omega | nlinarith
example : MonoLRInt (fun x => dradem x (fin (1 / 4))) (fun x => dradem x (fin (1 / 2))) :=
  C70_radem (by norm_num) (by norm_num) (by norm_num)

/-- `p^x q^(n-x)` against `P^x Q^(n-x)` with `p ≤ P`, `Q ≤ q` -/
theorem power_mlr {p P q Q : ℝ} (p0 : 0 ≤ p) (hp : p ≤ P) (Q0 : 0 ≤ Q) (hq : Q ≤ q) {n x y : ℕ} (hxy : x ≤ y) (hy : y ≤ n) :
    P ^ x * Q ^ (n - x) * (p ^ y * q ^ (n - y)) ≤ p ^ x * q ^ (n - x) * (P ^ y * Q ^ (n - y)) := by
  obtain ⟨k, rfl⟩ := Nat.exists_eq_add_of_le hxy
  obtain ⟨m, rfl⟩ := Nat.exists_eq_add_of_le hy
  have P0 := p0.trans hp
  have q0 := Q0.trans hq
  have e1 : x + k + m - x = k + m := by omega
  have e2 : x + k + m - (x + k) = m := by omega
  rw [e1, e2]
  have h1 : p ^ k * Q ^ k ≤ P ^ k * q ^ k := by gcongr
  calc P ^ x * Q ^ (k + m) * (p ^ (x + k) * q ^ m) = P ^ x * Q ^ m * p ^ x * q ^ m * (p ^ k * Q ^ k) := by ring
    _ ≤ P ^ x * Q ^ m * p ^ x * q ^ m * (P ^ k * q ^ k) := by gcongr
    _ = _ := by ring

theorem C70_binom (n : ℕ) {p₁ p₂ : ℝ} (h0 : 0 ≤ p₁) (h : p₁ ≤ p₂) (h1 : p₂ ≤ 1) :
    MonoLRInt (fun x => dbinom x n (fin p₁)) (fun x => dbinom x n (fin p₂)) := by
  refine monoLRInt_of (C08_dbinom n h0 (h.trans h1)) (C08_dbinom n (h0.trans h) h1) fun x y hxy => ?_
  by_cases c1 : 0 ≤ x ∧ x ≤ n
  · by_cases c2 : 0 ≤ y ∧ y ≤ n
    · simp only [binomPmf, if_pos c1, if_pos c2]
      have := power_mlr h0 h (by linarith : 0 ≤ 1 - p₂) (by linarith : 1 - p₂ ≤ 1 - p₁)
        (by omega : x.toNat ≤ y.toNat) (by omega : y.toNat ≤ n)
      have hc : (0 : ℝ) ≤ n.choose x.toNat * n.choose y.toNat := by positivity
      calc _ = (n.choose x.toNat * n.choose y.toNat : ℝ) * (p₂ ^ x.toNat * (1 - p₂) ^ (n - x.toNat) *
            (p₁ ^ y.toNat * (1 - p₁) ^ (n - y.toNat))) := by ring
        _ ≤ _ := mul_le_mul_of_nonneg_left this hc
        _ = _ := by ring
    · simp [binomPmf, if_neg c2]
  · simp [binomPmf, if_neg c1]
example : MonoLRInt (fun x => dbinom x (5 : ℕ) (fin (1 / 4))) (fun x => dbinom x (5 : ℕ) (fin (1 / 2))) :=
  C70_binom 5 (by norm_num) (by norm_num) (by norm_num)

theorem C70_pois {rate₁ rate₂ : ℝ} (h0 : 0 ≤ rate₁) (h : rate₁ ≤ rate₂) :
    MonoLRInt (fun x => dpois x (fin rate₁)) (fun x => dpois x (fin rate₂)) := by
  refine monoLRInt_of (C08_dpois h0) (C08_dpois (h0.trans h)) fun x y hxy => ?_
  by_cases c1 : 0 ≤ x
  · have c2 : 0 ≤ y := c1.trans hxy
    simp only [poisPmf, if_pos c1, if_pos c2]
    have := power_mlr (n := y.toNat) h0 h zero_le_one le_rfl (by omega : x.toNat ≤ y.toNat) le_rfl
    simp only [one_pow, mul_one] at this
    have hc : 0 ≤ Real.exp (-rate₁) * Real.exp (-rate₂) / (x.toNat.factorial * y.toNat.factorial) := by positivity
    calc _ = Real.exp (-rate₁) * Real.exp (-rate₂) / (x.toNat.factorial * y.toNat.factorial) *
          (rate₂ ^ x.toNat * rate₁ ^ y.toNat) := by field_simp
      _ ≤ _ := mul_le_mul_of_nonneg_left this hc
      _ = _ := by field_simp
  · simp [poisPmf, if_neg c1]
example : MonoLRInt (fun x => dpois x (fin (1 / 4))) (fun x => dpois x (fin 7)) := C70_pois (by norm_num) (by norm_num)

/-! ### where it fails -/

/-- The Cauchy family in its location has no monotone likelihood ratio: the claim is about the families above only. -/
theorem C70_cauchy_not : ¬ MonoLR (fun x => dcauchy x (fin 0) (fin 1)) (fun x => dcauchy x (fin 1) (fin 1)) Set.univ := by
  intro h
  obtain ⟨a, b, a', b', h1, h2, h3, h4, h5⟩ := h 2 trivial 8 trivial (by norm_num)
  have e : ∀ x mu : ℝ, ∀ r, Both (dcauchy (fin x) (fin mu) (fin 1)) r → r = cauchyPdf mu 1 x := fun x mu r h => by
    have := h.2.1
    have e : dcauchy (fin x) (fin mu) (fin 1) false = fin (cauchyPdf mu 1 x) := (C08_dcauchy mu one_pos x trivial).2.1
    rw [e] at this
    exact (fin.inj this).symm
  rw [e _ _ _ h1, e _ _ _ h2, e _ _ _ h3, e _ _ _ h4] at h5
  simp only [cauchyPdf] at h5
  have hp := Real.pi_pos
  field_simp at h5
  norm_num at h5

end
end Stats
