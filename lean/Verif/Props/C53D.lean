import Verif.Spec.Cross
import Verif.Spec.Order
import Verif.Props.C72

/-!
# C53: parameters in which the families are not ordered

The inverse Gaussian distribution in lambda (every pair), the F distribution in either number of degrees of freedom.
-/

set_option linter.unusedSectionVars false
open Classical MeasureTheory Set
namespace Stats
open Fl Spec
section
variable [Lib] [Ideal]

theorem not_falls_of_cross {S : Set ℝ} {p : ℝ → Fl → Bool → Fl} {s t : ℝ} (hs : s ∈ S) (ht : t ∈ S) (hst : s ≤ t)
    (h : Cross (p s) (p t)) : ¬ FallsWith S p ∧ ¬ RisesWith S p := by
  obtain ⟨⟨x, hx⟩, y, hy⟩ := h
  have key : ∀ a b : Fl, a < b → ¬ b ≤ a := fun a b => by cases a <;> cases b <;> simp
  exact ⟨fun h => key _ _ hy (h s hs t ht hst (fin y) (by simp) false), fun h => key _ _ hx (h s hs t ht hst (fin x) (by simp) false)⟩

theorem int_lt {f g : ℝ → ℝ} (hf : Integrable f) (hg : Integrable g) {s u : Set ℝ} (hs : MeasurableSet s) (h : ∀ x ∈ s, f x ≤ g x)
    (hu : u ⊆ s) (hlt : ∀ x ∈ u, f x < g x) (hv : 0 < volume u) : ∫ x in s, f x < ∫ x in s, g x := by
  have h1 : 0 < ∫ x in s, (g x - f x) := by
    rw [setIntegral_pos_iff_support_of_nonneg_ae]
    · exact hv.trans_le (measure_mono fun x hx => ⟨(sub_pos.2 (hlt x hx)).ne', hu hx⟩)
    · exact (ae_restrict_iff' hs).2 (Filter.Eventually.of_forall fun x hx => sub_nonneg.2 (h x hx))
    · exact (hg.sub hf).integrableOn
  rw [integral_sub hg.integrableOn hf.integrableOn] at h1
  linarith

theorem invgauss_lt {mu l₁ l₂ x : ℝ} (hm : 0 < mu) (h1 : 0 < l₁) (h : l₁ < l₂) (hx : 0 < x)
    (hK : Real.log (l₂ / l₁) * mu ^ 2 / (l₂ - l₁) < (x - mu) ^ 2 / x) : invgaussPdf mu l₂ x < invgaussPdf mu l₁ x := by
  have h2 := h1.trans h
  have d : 0 < l₂ - l₁ := by linarith
  have pi := Real.pi_pos
  rw [invgaussPdf, invgaussPdf, if_pos hx, if_pos hx, ← Real.exp_log (Real.sqrt_pos.2 (show 0 < l₂ / (2 * Real.pi * x ^ 3) by positivity)),
    ← Real.exp_log (Real.sqrt_pos.2 (show 0 < l₁ / (2 * Real.pi * x ^ 3) by positivity)), ← Real.exp_add, ← Real.exp_add,
    Real.exp_lt_exp, Real.log_sqrt (by positivity), Real.log_sqrt (by positivity), Real.log_div h2.ne' (by positivity),
    Real.log_div h1.ne' (by positivity)]
  rw [Real.log_div h2.ne' h1.ne', div_lt_div_iff₀ d hx] at hK
  generalize Real.log (2 * Real.pi * x ^ 3) = L
  generalize Real.log l₁ = A at *
  generalize Real.log l₂ = B at *
  have e : -(l₁ * (x - mu) ^ 2) / (2 * mu ^ 2 * x) - -(l₂ * (x - mu) ^ 2) / (2 * mu ^ 2 * x) =
      (l₂ - l₁) * (x - mu) ^ 2 / (mu ^ 2 * x) / 2 := by field_simp; ring
  have : B - A < (l₂ - l₁) * (x - mu) ^ 2 / (mu ^ 2 * x) := by
    rw [lt_div_iff₀ (by positivity)]; linarith
  linarith

/-- With one mean, no two inverse Gaussian distributions are ordered. -/
theorem C53_pinvgauss_lambda_cross {mu l₁ l₂ : ℝ} (hm : 0 < mu) (h1 : 0 < l₁) (h : l₁ < l₂) :
    Cross (fun x => pinvgauss x (fin mu) (fin l₁)) (fun x => pinvgauss x (fin mu) (fin l₂)) := by
  have h2 := h1.trans h
  have c1 := isCdf_invgauss hm h1
  have c2 := isCdf_invgauss hm h2
  have K0 : 0 < Real.log (l₂ / l₁) * mu ^ 2 / (l₂ - l₁) :=
    div_pos (mul_pos (Real.log_pos (by rw [one_lt_div h1]; exact h)) (by positivity)) (by linarith)
  have lt := fun x : ℝ => invgauss_lt (x := x) hm h1 h
  generalize Real.log (l₂ / l₁) * mu ^ 2 / (l₂ - l₁) = K at *
  have q : ∀ x : ℝ, 0 < x → (x - mu) ^ 2 / x = x - 2 * mu + mu ^ 2 / x := fun x hx => by field_simp; ring
  have M0 : 0 < K + 2 * mu + 1 := by positivity
  have z : ∀ l x : ℝ, ¬ 0 < x → invgaussPdf mu l x = 0 := fun l x hx => if_neg hx
  constructor
  · refine ⟨mu ^ 2 / (K + 2 * mu + 1), ?_⟩
    have d0 : 0 < mu ^ 2 / (K + 2 * mu + 1) := by positivity
    have small : ∀ x : ℝ, 0 < x → x ≤ mu ^ 2 / (K + 2 * mu + 1) → invgaussPdf mu l₂ x < invgaussPdf mu l₁ x := fun x hx hx' => by
      refine lt x hx ?_
      rw [q x hx]
      have : K + 2 * mu + 1 ≤ mu ^ 2 / x := by
        rw [le_div_iff₀ hx]; rw [le_div_iff₀ M0] at hx'; linarith
      linarith
    simp only [pinvgauss_fin hm h1, pinvgauss_fin hm h2, fin_lt_fin]
    rw [← c1.running, ← c2.running]
    refine int_lt c2.integrable c1.integrable measurableSet_Iic (fun x hx => ?_) (u := Ioc 0 (mu ^ 2 / (K + 2 * mu + 1)))
      (fun x hx => hx.2) (fun x hx => small x hx.1 hx.2) (by simpa using d0)
    by_cases hx0 : 0 < x
    · exact (small x hx0 hx).le
    · rw [z _ x hx0, z _ x hx0]
  · refine ⟨K + 2 * mu + 1, ?_⟩
    have big : ∀ x : ℝ, K + 2 * mu + 1 < x → invgaussPdf mu l₂ x < invgaussPdf mu l₁ x := fun x hx => by
      have hx0 := M0.trans hx
      refine lt x hx0 ?_
      rw [q x hx0]
      have : 0 < mu ^ 2 / x := by positivity
      linarith
    simp only [pinvgauss_fin hm h1, pinvgauss_fin hm h2, fin_lt_fin]
    have u1 := c1.upper (K + 2 * mu + 1)
    have u2 := c2.upper (K + 2 * mu + 1)
    have := int_lt c2.integrable c1.integrable measurableSet_Ioi (fun x hx => (big x hx).le) subset_rfl big (by simp)
    linarith
example : Cross (fun x => pinvgauss x (fin 1) (fin 2)) (fun x => pinvgauss x (fin 1) (fin 3)) :=
  C53_pinvgauss_lambda_cross one_pos two_pos (by norm_num)

theorem C53_pinvgauss_lambda_not {mu : ℝ} (hm : 0 < mu) : ¬ FallsWith (Ioi 0) (fun l x => pinvgauss x (fin mu) (fin l)) ∧
    ¬ RisesWith (Ioi 0) (fun l x => pinvgauss x (fin mu) (fin l)) :=
  not_falls_of_cross (s := 1) (t := 2) (show (0 : ℝ) < 1 by norm_num) (show (0 : ℝ) < 2 by norm_num) (by norm_num)
    (C53_pinvgauss_lambda_cross hm one_pos (by norm_num))
example := C53_pinvgauss_lambda_not (mu := 2) two_pos

/-! ### F -/

theorem gamma_two : Real.Gamma 2 = 1 := by
  have := Real.Gamma_nat_eq_factorial 1
  norm_num at this ⊢

theorem betaI_12 (z : ℝ) : betaI 1 2 z = 2 * z - z ^ 2 := by
  have e : ∫ t in (0 : ℝ)..z, t ^ ((1 : ℝ) - 1) * (1 - t) ^ ((2 : ℝ) - 1) = ∫ t in (0 : ℝ)..z, (1 - t) := by
    refine intervalIntegral.integral_congr fun t _ => ?_
    norm_num
  have g : Real.Gamma 3 = 2 := by
    have := Real.Gamma_nat_eq_factorial 2
    norm_num [Nat.factorial] at this ⊢
  rw [betaI, e, intervalIntegral.integral_sub (by simp) (by simp), integral_id, beta, show (1 : ℝ) + 2 = 3 by norm_num, g, gamma_two,
    Real.Gamma_one]
  simp
  ring

theorem betaI_21 (z : ℝ) : betaI 2 1 z = z ^ 2 := by
  have e : ∫ t in (0 : ℝ)..z, t ^ ((2 : ℝ) - 1) * (1 - t) ^ ((1 : ℝ) - 1) = ∫ t in (0 : ℝ)..z, t := by
    refine intervalIntegral.integral_congr fun t _ => ?_
    norm_num
  have g : Real.Gamma 3 = 2 := by
    have := Real.Gamma_nat_eq_factorial 2
    norm_num [Nat.factorial] at this ⊢
  rw [betaI, e, integral_id, beta, show (2 : ℝ) + 1 = 3 by norm_num, g, gamma_two, Real.Gamma_one]
  ring

theorem betaI_22 (z : ℝ) : betaI 2 2 z = 3 * z ^ 2 - 2 * z ^ 3 := by
  have e : ∫ t in (0 : ℝ)..z, t ^ ((2 : ℝ) - 1) * (1 - t) ^ ((2 : ℝ) - 1) = ∫ t in (0 : ℝ)..z, (t - t ^ 2) := by
    refine intervalIntegral.integral_congr fun t _ => ?_
    norm_num
    ring
  have g : Real.Gamma 4 = 6 := by
    have := Real.Gamma_nat_eq_factorial 3
    norm_num [Nat.factorial] at this ⊢
  rw [betaI, e, intervalIntegral.integral_sub (by simp) (by simp), integral_id, integral_pow, beta, show (2 : ℝ) + 2 = 4 by norm_num, g,
    gamma_two]
  norm_num
  ring

theorem pf_24 {x : ℝ} (hx : Lib.eps ≤ x) : pf (fin x) (fin 2) (fin 4) false =
    fin (2 * (2 * x / 4 / (1 + 2 * x / 4)) - (2 * x / 4 / (1 + 2 * x / 4)) ^ 2) := by
  rw [pf_fin (by meets) (by meets) x (Or.inl hx), if_pos (Lib.eps_pos.trans_le hx), fCdf, show (2 : ℝ) / 2 = 1 by norm_num,
    show (4 : ℝ) / 2 = 2 by norm_num, betaI_12]

theorem pf_42 {x : ℝ} (hx : Lib.eps ≤ x) : pf (fin x) (fin 4) (fin 2) false = fin ((4 * x / 2 / (1 + 4 * x / 2)) ^ 2) := by
  rw [pf_fin (by meets) (by meets) x (Or.inl hx), if_pos (Lib.eps_pos.trans_le hx), fCdf, show (2 : ℝ) / 2 = 1 by norm_num,
    show (4 : ℝ) / 2 = 2 by norm_num, betaI_21]

theorem pf_44 {x : ℝ} (hx : Lib.eps ≤ x) : pf (fin x) (fin 4) (fin 4) false =
    fin (3 * (4 * x / 4 / (1 + 4 * x / 4)) ^ 2 - 2 * (4 * x / 4 / (1 + 4 * x / 4)) ^ 3) := by
  rw [pf_fin (by meets) (by meets) x (Or.inl hx), if_pos (Lib.eps_pos.trans_le hx), fCdf, show (4 : ℝ) / 2 = 2 by norm_num, betaI_22]

/-- `pf` is not ordered in the first degrees of freedom: 2 and 4 with 4 in the denominator. -/
theorem C53_pf_df1_cross : Cross (fun x => pf x (fin 2) (fin 4)) (fun x => pf x (fin 4) (fin 4)) := by
  refine ⟨⟨2, ?_⟩, 18, ?_⟩
  · beta_reduce
    rw [pf_24 (by meets), pf_44 (by meets), fin_lt_fin]
    norm_num
  · beta_reduce
    rw [pf_24 (by meets), pf_44 (by meets), fin_lt_fin]
    norm_num

/-- `pf` is not ordered in the second degrees of freedom: 2 and 4 with 4 in the numerator. -/
theorem C53_pf_df2_cross : Cross (fun x => pf x (fin 4) (fin 2)) (fun x => pf x (fin 4) (fin 4)) := by
  refine ⟨⟨1 / 20, ?_⟩, 1 / 2, ?_⟩
  · beta_reduce
    rw [pf_42 (by meets), pf_44 (by meets), fin_lt_fin]
    norm_num
  · beta_reduce
    rw [pf_42 (by meets), pf_44 (by meets), fin_lt_fin]
    norm_num

theorem C53_pf_not : (¬ FallsWith (Ici Lib.eps) (fun d x => pf x (fin d) (fin 4)) ∧ ¬ RisesWith (Ici Lib.eps) (fun d x => pf x (fin d) (fin 4))) ∧
    ¬ FallsWith (Ici Lib.eps) (fun d x => pf x (fin 4) (fin d)) ∧ ¬ RisesWith (Ici Lib.eps) (fun d x => pf x (fin 4) (fin d)) :=
  ⟨not_falls_of_cross (s := 2) (t := 4) (show Lib.eps ≤ 2 by meets) (show Lib.eps ≤ 4 by meets) (by norm_num) C53_pf_df1_cross,
    not_falls_of_cross (s := 2) (t := 4) (show Lib.eps ≤ 2 by meets) (show Lib.eps ≤ 4 by meets) (by norm_num) C53_pf_df2_cross⟩

end
end Stats
