import Verif.Props.C63C

/-!
# C63: the start of the refinement in the tail

The number from which the tail branch of `qt` starts its refinement has the requested tail probability up to the factor by
which the coefficient `d` is off, and a relative error of order `p^(8/dof)`.
-/

set_option linter.unusedSectionVars false
open Classical MeasureTheory Filter Topology Asymptotics
namespace Stats
open Fl Spec
variable [Lib] [Ideal]

section
variable (ν κ : ℝ)

/-- the coefficients of the series of the start value -/
noncomputable def sA : ℝ := (ν + 1) / (ν + 2)
noncomputable def sB : ℝ := (ν + 1) / (2 * (ν + 2) * (ν + 4))
noncomputable def sE : ℝ := ν * (ν + 1) / (3 * (ν + 2) ^ 2 * (ν + 6))
noncomputable def sk (y : ℝ) : ℝ := (1 - κ * y)⁻¹
noncomputable def sJ (y : ℝ) : ℝ := sE ν * κ * sk κ y
noncomputable def sJ1 (y : ℝ) : ℝ := sE ν * κ ^ 2 * sk κ y ^ 2
noncomputable def sJ2 (y : ℝ) : ℝ := 2 * sE ν * κ ^ 3 * sk κ y ^ 3
/-- `y` times the start value -/
noncomputable def sP3 (y : ℝ) : ℝ := 1 - sA ν * y + sB ν * y ^ 2 + sE ν * y ^ 3 + y ^ 4 * sJ ν κ y
noncomputable def sP3' (y : ℝ) : ℝ := -sA ν + 2 * sB ν * y + 3 * sE ν * y ^ 2 + 4 * y ^ 3 * sJ ν κ y + y ^ 4 * sJ1 ν κ y
noncomputable def sP2 (y : ℝ) : ℝ := 1 + (1 - sA ν) * y + sB ν * y ^ 2 + sE ν * y ^ 3 + y ^ 4 * sJ ν κ y
noncomputable def sP2' (y : ℝ) : ℝ := (1 - sA ν) + 2 * sB ν * y + 3 * sE ν * y ^ 2 + 4 * y ^ 3 * sJ ν κ y + y ^ 4 * sJ1 ν κ y
noncomputable def sP1 (y : ℝ) : ℝ := 1 - sB ν * y ^ 2 - 2 * sE ν * y ^ 3 - 3 * y ^ 4 * sJ ν κ y - y ^ 5 * sJ1 ν κ y
noncomputable def sP1' (y : ℝ) : ℝ := -2 * sB ν * y - 6 * sE ν * y ^ 2 - y ^ 3 * (12 * sJ ν κ y + 8 * y * sJ1 ν κ y + y ^ 2 * sJ2 ν κ y)
/-- the logarithm of the quotient of the derivatives -/
noncomputable def sL (y : ℝ) : ℝ := Real.log (sP1 ν κ y) - (ν + 1) / 2 * Real.log (sP2 ν κ y) - 1 / 2 * Real.log (sP3 ν κ y)

theorem sk_tendsto : Tendsto (sk κ) (𝓝 0) (𝓝 1) := by
  have h1 : Tendsto (fun y : ℝ => 1 - κ * y) (𝓝 0) (𝓝 (1 - κ * 0)) := (by fun_prop : Continuous fun y : ℝ => 1 - κ * y).tendsto 0
  have := h1.inv₀ (by norm_num)
  simp only [mul_zero, sub_zero, inv_one] at this
  exact this

theorem sJ_tendsto : Tendsto (sJ ν κ) (𝓝 0) (𝓝 (sE ν * κ * 1)) := (sk_tendsto κ).const_mul _
theorem sJ1_tendsto : Tendsto (sJ1 ν κ) (𝓝 0) (𝓝 (sE ν * κ ^ 2 * 1 ^ 2)) := ((sk_tendsto κ).pow 2).const_mul _
theorem sJ2_tendsto : Tendsto (sJ2 ν κ) (𝓝 0) (𝓝 (2 * sE ν * κ ^ 3 * 1 ^ 3)) := ((sk_tendsto κ).pow 3).const_mul _

theorem poly_tendsto {g : ℝ → ℝ → ℝ → ℝ → ℝ} (hg : Continuous fun t : ℝ × ℝ × ℝ × ℝ => g t.1 t.2.1 t.2.2.1 t.2.2.2) :
    Tendsto (fun y => g y (sJ ν κ y) (sJ1 ν κ y) (sJ2 ν κ y)) (𝓝 0)
      (𝓝 (g 0 (sE ν * κ * 1) (sE ν * κ ^ 2 * 1 ^ 2) (2 * sE ν * κ ^ 3 * 1 ^ 3))) := by
  have h1 : Tendsto (fun y : ℝ => (y, sJ ν κ y, sJ1 ν κ y, sJ2 ν κ y)) (𝓝 0)
      (𝓝 (0, sE ν * κ * 1, sE ν * κ ^ 2 * 1 ^ 2, 2 * sE ν * κ ^ 3 * 1 ^ 3)) :=
    (tendsto_id (α := ℝ) (x := 𝓝 0)).prodMk_nhds ((sJ_tendsto ν κ).prodMk_nhds ((sJ1_tendsto ν κ).prodMk_nhds (sJ2_tendsto ν κ)))
  exact (hg.tendsto _).comp h1

theorem sP1_tendsto : Tendsto (sP1 ν κ) (𝓝 0) (𝓝 1) := by
  have := poly_tendsto ν κ (g := fun y j j1 _ => 1 - sB ν * y ^ 2 - 2 * sE ν * y ^ 3 - 3 * y ^ 4 * j - y ^ 5 * j1) (by fun_prop)
  simp at this
  exact this
theorem sP2_tendsto : Tendsto (sP2 ν κ) (𝓝 0) (𝓝 1) := by
  have := poly_tendsto ν κ (g := fun y j _ _ => 1 + (1 - sA ν) * y + sB ν * y ^ 2 + sE ν * y ^ 3 + y ^ 4 * j) (by fun_prop)
  simp at this
  exact this
theorem sP3_tendsto : Tendsto (sP3 ν κ) (𝓝 0) (𝓝 1) := by
  have := poly_tendsto ν κ (g := fun y j _ _ => 1 - sA ν * y + sB ν * y ^ 2 + sE ν * y ^ 3 + y ^ 4 * j) (by fun_prop)
  simp at this
  exact this

theorem sk_ne : ∀ᶠ y in 𝓝 (0 : ℝ), 1 - κ * y ≠ 0 := by
  have h1 : Tendsto (fun y : ℝ => 1 - κ * y) (𝓝 0) (𝓝 (1 - κ * 0)) := (by fun_prop : Continuous fun y : ℝ => 1 - κ * y).tendsto 0
  rw [mul_zero, sub_zero] at h1
  exact (h1.eventually_const_lt one_pos).mono fun y h => h.ne'

variable {ν κ}

theorem sk_deriv {y : ℝ} (h : 1 - κ * y ≠ 0) : HasDerivAt (sk κ) (κ * sk κ y ^ 2) y := by
  have := (((hasDerivAt_id' y).const_mul κ).const_sub 1).inv h
  refine this.congr_deriv ?_
  rw [sk]; field_simp

theorem sJ_deriv {y : ℝ} (h : 1 - κ * y ≠ 0) : HasDerivAt (sJ ν κ) (sJ1 ν κ y) y := by
  refine ((sk_deriv h).const_mul (sE ν * κ)).congr_deriv ?_
  rw [sJ1]; ring

theorem sJ1_deriv {y : ℝ} (h : 1 - κ * y ≠ 0) : HasDerivAt (sJ1 ν κ) (sJ2 ν κ y) y := by
  refine (((sk_deriv h).pow 2).const_mul (sE ν * κ ^ 2)).congr_deriv ?_
  rw [sJ2]; simp; ring

theorem sP3_deriv {y : ℝ} (h : 1 - κ * y ≠ 0) : HasDerivAt (sP3 ν κ) (sP3' ν κ y) y := by
  have h1 := hasDerivAt_id' y
  have := ((((h1.const_mul (sA ν)).const_sub 1).add ((hasDerivAt_pow 2 y).const_mul (sB ν))).add ((hasDerivAt_pow 3 y).const_mul (sE ν))).add
    ((hasDerivAt_pow 4 y).mul (sJ_deriv (ν := ν) h))
  refine this.congr_deriv ?_
  rw [sP3']; push_cast; ring

theorem sP2_deriv {y : ℝ} (h : 1 - κ * y ≠ 0) : HasDerivAt (sP2 ν κ) (sP2' ν κ y) y := by
  have h1 := hasDerivAt_id' y
  have := ((((h1.const_mul (1 - sA ν)).const_add 1).add ((hasDerivAt_pow 2 y).const_mul (sB ν))).add ((hasDerivAt_pow 3 y).const_mul (sE ν))).add
    ((hasDerivAt_pow 4 y).mul (sJ_deriv (ν := ν) h))
  refine this.congr_deriv ?_
  rw [sP2']; push_cast; ring

theorem sP1_deriv {y : ℝ} (h : 1 - κ * y ≠ 0) : HasDerivAt (sP1 ν κ) (sP1' ν κ y) y := by
  have := (((((hasDerivAt_pow 2 y).const_mul (sB ν)).const_sub 1).sub ((hasDerivAt_pow 3 y).const_mul (2 * sE ν))).sub
    (((hasDerivAt_pow 4 y).const_mul 3).mul (sJ_deriv (ν := ν) h))).sub ((hasDerivAt_pow 5 y).mul (sJ1_deriv (ν := ν) h))
  refine this.congr_deriv ?_
  rw [sP1']; push_cast; ring

/-- the derivative of the logarithm of a cubic polynomial, to the second order -/
theorem log_quot {c B E y J J' : ℝ} :
    c + 2 * B * y + 3 * E * y ^ 2 + 4 * y ^ 3 * J + y ^ 4 * J' =
      (c + (2 * B - c ^ 2) * y + (3 * E - 3 * B * c + c ^ 3) * y ^ 2) * (1 + c * y + B * y ^ 2 + E * y ^ 3 + y ^ 4 * J) +
      y ^ 3 * (4 * J + y * J' - (c * E + (2 * B - c ^ 2) * B + (3 * E - 3 * B * c + c ^ 3) * c) -
        y * (c * J + (2 * B - c ^ 2) * E + (3 * E - 3 * B * c + c ^ 3) * B) - y ^ 2 * ((2 * B - c ^ 2) * J + (3 * E - 3 * B * c + c ^ 3) * E) -
        y ^ 3 * (3 * E - 3 * B * c + c ^ 3) * J) := by
  ring

/-- The coefficients are such that the first three orders cancel. -/
theorem sL_cancel (h : 0 < ν) (y : ℝ) : -2 * sB ν * y - 6 * sE ν * y ^ 2 -
    (ν + 1) / 2 * ((1 - sA ν) + (2 * sB ν - (1 - sA ν) ^ 2) * y + (3 * sE ν - 3 * sB ν * (1 - sA ν) + (1 - sA ν) ^ 3) * y ^ 2) -
    1 / 2 * (-sA ν + (2 * sB ν - (-sA ν) ^ 2) * y + (3 * sE ν - 3 * sB ν * (-sA ν) + (-sA ν) ^ 3) * y ^ 2) = 0 := by
  have h2 : ν + 2 ≠ 0 := by positivity
  have h4 : ν + 4 ≠ 0 := by positivity
  have h6 : ν + 6 ≠ 0 := by positivity
  rw [sA, sB, sE]
  field_simp
  ring

theorem sL_bound (h : 0 < ν) (κ : ℝ) : ∃ C δ : ℝ, 0 < C ∧ 0 < δ ∧ ∀ y ∈ Set.Icc 0 δ, 1 - κ * y ≠ 0 ∧ 0 < sP1 ν κ y ∧ 0 < sP2 ν κ y ∧ 0 < sP3 ν κ y ∧
    |sL ν κ y| ≤ C * y ^ 4 ∧ C * y ^ 4 ≤ 1 := by
  set M1 : ℝ → ℝ := fun y => -(12 * sJ ν κ y + 8 * y * sJ1 ν κ y + y ^ 2 * sJ2 ν κ y) +
    (-2 * sB ν - 6 * sE ν * y) * (sB ν + 2 * sE ν * y + 3 * y ^ 2 * sJ ν κ y + y ^ 3 * sJ1 ν κ y) with hM1
  set N : ℝ → ℝ → ℝ := fun c y => 4 * sJ ν κ y + y * sJ1 ν κ y - (c * sE ν + (2 * sB ν - c ^ 2) * sB ν + (3 * sE ν - 3 * sB ν * c + c ^ 3) * c) -
        y * (c * sJ ν κ y + (2 * sB ν - c ^ 2) * sE ν + (3 * sE ν - 3 * sB ν * c + c ^ 3) * sB ν) - y ^ 2 * ((2 * sB ν - c ^ 2) * sJ ν κ y + (3 * sE ν - 3 * sB ν * c + c ^ 3) * sE ν) -
        y ^ 3 * (3 * sE ν - 3 * sB ν * c + c ^ 3) * sJ ν κ y with hN
  have tM1 := (poly_tendsto ν κ (g := fun y j j1 j2 => -(12 * j + 8 * y * j1 + y ^ 2 * j2) +
    (-2 * sB ν - 6 * sE ν * y) * (sB ν + 2 * sE ν * y + 3 * y ^ 2 * j + y ^ 3 * j1)) (by fun_prop)).div (sP1_tendsto ν κ) one_ne_zero
  have tN := fun c : ℝ => poly_tendsto ν κ (g := fun y j j1 _ => 4 * j + y * j1 - (c * sE ν + (2 * sB ν - c ^ 2) * sB ν + (3 * sE ν - 3 * sB ν * c + c ^ 3) * c) -
        y * (c * j + (2 * sB ν - c ^ 2) * sE ν + (3 * sE ν - 3 * sB ν * c + c ^ 3) * sB ν) - y ^ 2 * ((2 * sB ν - c ^ 2) * j + (3 * sE ν - 3 * sB ν * c + c ^ 3) * sE ν) -
        y ^ 3 * (3 * sE ν - 3 * sB ν * c + c ^ 3) * j) (by fun_prop)
  have t2 := (tN (1 - sA ν)).div (sP2_tendsto ν κ) one_ne_zero
  have t3 := (tN (-sA ν)).div (sP3_tendsto ν κ) one_ne_zero
  have tt := (tM1.sub (t2.const_mul ((ν + 1) / 2))).sub (t3.const_mul (1 / 2))
  obtain ⟨K, hK⟩ := (tt.isBigO_one ℝ).bound
  have hev := ((sk_ne κ).and (((sP1_tendsto ν κ).eventually_const_lt one_pos).and (((sP2_tendsto ν κ).eventually_const_lt one_pos).and
    (((sP3_tendsto ν κ).eventually_const_lt one_pos).and hK))))
  obtain ⟨ε, hε, hball⟩ := Metric.eventually_nhds_iff.1 hev
  set C := |K| + 1 with hC
  have hC0 : 0 < C := by positivity
  set δ := Min.min (ε / 2) (Min.min 1 (1 / C)) with hδ
  have hδ0 : 0 < δ := by positivity
  have hin : ∀ y ∈ Set.Icc 0 δ, dist y 0 < ε := fun y hy => by
    rw [Real.dist_eq, sub_zero, abs_of_nonneg hy.1]
    have := hy.2.trans (min_le_left _ _)
    linarith
  refine ⟨C, δ, hC0, hδ0, fun y hy => ?_⟩
  obtain ⟨a1, a2, a3, a4, -⟩ := hball (hin y hy)
  refine ⟨a1, a2, a3, a4, ?_, ?_⟩
  · have hd : ∀ x ∈ Set.Icc 0 y, HasDerivWithinAt (sL ν κ) (x ^ 3 * (M1 x / sP1 ν κ x - (ν + 1) / 2 * (N (1 - sA ν) x / sP2 ν κ x) - 1 / 2 * (N (-sA ν) x / sP3 ν κ x))) (Set.Icc 0 y) x := fun x hx => by
      obtain ⟨b1, b2, b3, b4, -⟩ := hball (hin x ⟨hx.1, hx.2.trans hy.2⟩)
      have hD := (((sP1_deriv (ν := ν) b1).log b2.ne').sub (((sP2_deriv (ν := ν) b1).log b3.ne').const_mul ((ν + 1) / 2))).sub
        (((sP3_deriv (ν := ν) b1).log b4.ne').const_mul (1 / 2))
      refine (hD.congr_deriv ?_).hasDerivWithinAt
      have e1 : sP1' ν κ x / sP1 ν κ x = -2 * sB ν * x - 6 * sE ν * x ^ 2 + x ^ 3 * (M1 x / sP1 ν κ x) := by
        rw [← mul_div_assoc, div_eq_iff b2.ne', add_mul, div_mul_cancel₀ _ b2.ne', sP1', sP1, hM1]; ring
      have e2 : sP2' ν κ x / sP2 ν κ x = ((1 - sA ν) + (2 * sB ν - (1 - sA ν) ^ 2) * x + (3 * sE ν - 3 * sB ν * (1 - sA ν) + (1 - sA ν) ^ 3) * x ^ 2) + x ^ 3 * (N (1 - sA ν) x / sP2 ν κ x) := by
        rw [← mul_div_assoc, div_eq_iff b3.ne', add_mul, div_mul_cancel₀ _ b3.ne', sP2', sP2, hN]
        exact log_quot
      have e3 : sP3' ν κ x / sP3 ν κ x = (-sA ν + (2 * sB ν - (-sA ν) ^ 2) * x + (3 * sE ν - 3 * sB ν * (-sA ν) + (-sA ν) ^ 3) * x ^ 2) + x ^ 3 * (N (-sA ν) x / sP3 ν κ x) := by
        rw [← mul_div_assoc, div_eq_iff b4.ne', add_mul, div_mul_cancel₀ _ b4.ne', sP3', sP3, hN, sub_eq_add_neg (1 : ℝ) (sA ν * x), ← neg_mul]
        exact log_quot
      rw [e1, e2, e3]
      linear_combination sL_cancel h x
    have hb : ∀ x ∈ Set.Icc 0 y, ‖x ^ 3 * (M1 x / sP1 ν κ x - (ν + 1) / 2 * (N (1 - sA ν) x / sP2 ν κ x) - 1 / 2 * (N (-sA ν) x / sP3 ν κ x))‖ ≤ y ^ 3 * C := fun x hx => by
      obtain ⟨-, -, -, -, b5⟩ := hball (hin x ⟨hx.1, hx.2.trans hy.2⟩)
      rw [norm_mul, norm_pow, Real.norm_eq_abs x, abs_of_nonneg hx.1]
      refine mul_le_mul (pow_le_pow_left₀ hx.1 hx.2 3) ?_ (norm_nonneg _) (pow_nonneg hy.1 3)
      rw [norm_one, mul_one] at b5
      refine le_trans b5 ?_
      have := le_abs_self K
      linarith
    have := Convex.norm_image_sub_le_of_norm_hasDerivWithin_le hd hb (convex_Icc 0 y) ⟨le_rfl, hy.1⟩ ⟨hy.1, le_rfl⟩
    have e0 : sL ν κ 0 = 0 := by simp [sL, sP1, sP2, sP3]
    rw [e0, sub_zero, sub_zero, Real.norm_eq_abs, Real.norm_eq_abs, abs_of_nonneg hy.1] at this
    calc _ ≤ _ := this
      _ = _ := by ring
  · have h1 : y ≤ 1 := hy.2.trans ((min_le_right _ _).trans (min_le_left _ _))
    have h2 : y ≤ 1 / C := hy.2.trans ((min_le_right _ _).trans (min_le_right _ _))
    have h4 : y ^ 4 ≤ y := by
      calc y ^ 4 ≤ y ^ 1 := pow_le_pow_of_le_one hy.1 h1 (by norm_num)
        _ = y := pow_one y
    calc C * y ^ 4 ≤ C * (1 / C) := mul_le_mul_of_nonneg_left (h4.trans h2) hC0.le
      _ = 1 := by field_simp

end

/-- the code's start value -/
theorem hillS_eq {ν d y : ℝ} (h : 0 < ν) (hy : 0 < y) (hk : 1 - ν * (0.089 * d + 0.822) / (ν + 6) * y ≠ 0) :
    hillS ν d y = sP3 ν (ν * (0.089 * d + 0.822) / (ν + 6)) y / y := by
  set κ := ν * (0.089 * d + 0.822) / (ν + 6) with hκ
  have h2 : ν + 2 ≠ 0 := by positivity
  have h4 : ν + 4 ≠ 0 := by positivity
  have h6 : ν + 6 ≠ 0 := by positivity
  have e1 : (ν + 6) / (ν * y) - 0.089 * d - 0.822 = (ν + 6) / (ν * y) * (1 - κ * y) := by
    rw [hκ]; field_simp; ring
  clear_value κ
  obtain ⟨u, hu⟩ : ∃ u, u = 1 - κ * y := ⟨_, rfl⟩
  have hu0 : u ≠ 0 := by rw [hu]; exact hk
  have hκ2 : κ = (1 - u) / y := by rw [hu]; field_simp; ring
  rw [hillS, hillM, e1, sP3, sJ, sk, sA, sB, sE, ← hu, hκ2]
  field_simp
  ring

/-- The tail probability of the start value, times twice the exact coefficient, as a function of `y`. -/
theorem start_deriv {ν κ y : ℝ} (h : 0 < ν) (hy : 0 < y) (hk : 1 - κ * y ≠ 0) (h1 : 0 < sP1 ν κ y) (h2 : 0 < sP2 ν κ y) (h3 : 0 < sP3 ν κ y) :
    HasDerivAt (fun y => 2 * tD ν * tUp ν √(ν * (sP3 ν κ y / y))) (ν / 2 * y ^ (ν / 2 - 1) * Real.exp (sL ν κ y)) y := by
  have hV : 0 < sP3 ν κ y / y := div_pos h3 hy
  have dV := ((sP3_deriv (ν := ν) hk).div (hasDerivAt_id' y) hy.ne').const_mul ν
  have dT := dV.sqrt (by positivity)
  have dF := ((tUp_hasDerivAt h √(ν * (sP3 ν κ y / y))).comp y dT).const_mul (2 * tD ν)
  refine dF.congr_deriv ?_
  have hD := (tD_sq h).1
  have hn := Real.sqrt_pos.2 h
  have hpdf : tPdf ν √(ν * (sP3 ν κ y / y)) = ν / (2 * √ν * tD ν) * (sP2 ν κ y / y) ^ (-((ν + 1) / 2)) := by
    have g1 := Real.Gamma_pos_of_pos (half_pos h)
    have g2 := Real.Gamma_pos_of_pos (show 0 < (ν + 1) / 2 by linarith)
    have g4 := Real.sqrt_pos.2 Real.pi_pos
    have e : 1 + √(ν * (sP3 ν κ y / y)) ^ 2 / ν = sP2 ν κ y / y := by
      rw [Real.sq_sqrt (by positivity), mul_div_cancel_left₀ _ h.ne', sP2, sP3]; field_simp; ring
    rw [tPdf, e, tD_eq h, Real.sqrt_mul h.le]
    congr 1
    field_simp
  have hP1 : sP3' ν κ y * y - sP3 ν κ y = -sP1 ν κ y := by rw [sP3', sP3, sP1]; ring
  have hy' := Real.exp_log hy
  have eR : (sP2 ν κ y / y) ^ (-((ν + 1) / 2)) = Real.exp (-((ν + 1) / 2) * Real.log (sP2 ν κ y)) * Real.exp ((ν + 1) / 2 * Real.log y) := by
    rw [Real.rpow_def_of_pos (by positivity), Real.log_div h2.ne' hy.ne', ← Real.exp_add]; congr 1; ring
  have eS : √(sP3 ν κ y / y) = Real.exp (1 / 2 * Real.log (sP3 ν κ y)) * Real.exp (-(1 / 2 * Real.log y)) := by
    rw [Real.sqrt_eq_rpow, Real.rpow_def_of_pos hV, Real.log_div h3.ne' hy.ne', ← Real.exp_add]; congr 1; ring
  have eL : Real.exp (sL ν κ y) = sP1 ν κ y * Real.exp (-((ν + 1) / 2) * Real.log (sP2 ν κ y)) * (Real.exp (1 / 2 * Real.log (sP3 ν κ y)))⁻¹ := by
    rw [← Real.exp_neg]
    conv_rhs => rw [← Real.exp_log h1]
    rw [← Real.exp_add, ← Real.exp_add, sL]; congr 1; ring
  have eY : y ^ (ν / 2 - 1) = Real.exp ((ν + 1) / 2 * Real.log y) * (Real.exp (-(1 / 2 * Real.log y)))⁻¹ * (y ^ 2)⁻¹ := by
    have : (y ^ 2)⁻¹ = Real.exp (-(2 * Real.log y)) := by
      rw [Real.exp_neg, show (2 : ℝ) * Real.log y = ((2 : ℕ) : ℝ) * Real.log y by norm_num, Real.exp_nat_mul, hy']
    rw [this, Real.rpow_def_of_pos hy, ← Real.exp_neg, ← Real.exp_add, ← Real.exp_add]; congr 1; ring
  have eP : (sP3 ν κ / fun x : ℝ => x : ℝ → ℝ) y = sP3 ν κ y / y := rfl
  rw [mul_one, hP1, hpdf, eP, eR, Real.sqrt_mul h.le, eS, eL, eY]
  have x1 := Real.exp_pos (1 / 2 * Real.log (sP3 ν κ y))
  have x2 := Real.exp_pos (-(1 / 2 * Real.log y))
  have hnn : √ν * √ν = ν := Real.mul_self_sqrt h.le
  generalize Real.exp (1 / 2 * Real.log (sP3 ν κ y)) = A1 at *
  generalize Real.exp (-(1 / 2 * Real.log y)) = A2 at *
  generalize Real.exp (-((ν + 1) / 2) * Real.log (sP2 ν κ y)) = A3 at *
  generalize Real.exp ((ν + 1) / 2 * Real.log y) = A4 at *
  generalize tD ν = D at *
  generalize sP1 ν κ y = Q at *
  generalize √ν = s at *
  clear dV dT dF hpdf hP1 eR eS eL eY eP hV
  field_simp
  rw [sq, hnn]

/-- The two-sided tail probability of the start value, up to the fourth order in `y`. -/
theorem start_prob {ν : ℝ} (h : 0 < ν) (κ : ℝ) :
    ∃ C, ∀ᶠ y in 𝓝[>] 0, |2 * tD ν * tUp ν √(ν * (sP3 ν κ y / y)) / y ^ (ν / 2) - 1| ≤ C * y ^ 4 := by
  obtain ⟨C, δ, hC, hδ, hb⟩ := sL_bound h κ
  refine ⟨2 * C, ?_⟩
  have hlim : Tendsto (fun y => 2 * tD ν * tUp ν √(ν * (sP3 ν κ y / y))) (𝓝[>] 0) (𝓝 0) := by
    have h1 : Tendsto (fun y => sP3 ν κ y / y) (𝓝[>] 0) atTop := by
      have := ((sP3_tendsto ν κ).mono_left (nhdsWithin_le_nhds (s := Set.Ioi 0))).pos_mul_atTop one_pos tendsto_inv_nhdsGT_zero
      exact this
    have h2 : Tendsto (fun y => √(ν * (sP3 ν κ y / y))) (𝓝[>] 0) atTop := Real.tendsto_sqrt_atTop.comp (h1.const_mul_atTop h)
    have := ((tUp_zero h).comp h2).const_mul (2 * tD ν)
    rwa [mul_zero] at this
  filter_upwards [Ioo_mem_nhdsGT hδ] with y hy
  have hG : ∀ x ∈ Set.Ioo 0 y, HasDerivAt (fun x : ℝ => x ^ (ν / 2)) (ν / 2 * x ^ (ν / 2 - 1)) x := fun x hx =>
    Real.hasDerivAt_rpow_const (Or.inl hx.1.ne')
  have hF : ∀ x, x ∈ Set.Ioc 0 y → HasDerivAt (fun y => 2 * tD ν * tUp ν √(ν * (sP3 ν κ y / y))) (ν / 2 * x ^ (ν / 2 - 1) * Real.exp (sL ν κ x)) x := fun x hx => by
    obtain ⟨a1, a2, a3, a4, -⟩ := hb x ⟨hx.1.le, hx.2.trans hy.2.le⟩
    exact start_deriv h hx.1 a1 a2 a3 a4
  have cF := (hF y ⟨hy.1, le_rfl⟩).continuousAt
  have cG : ContinuousAt (fun x : ℝ => x ^ (ν / 2)) y := (Real.hasDerivAt_rpow_const (Or.inl hy.1.ne')).continuousAt
  have lG : Tendsto (fun x : ℝ => x ^ (ν / 2)) (𝓝[>] 0) (𝓝 0) := by
    have : ContinuousAt (fun x : ℝ => x ^ (ν / 2)) 0 := Real.continuousAt_rpow_const 0 (ν / 2) (Or.inr (by positivity))
    have := this.tendsto
    rw [Real.zero_rpow (by positivity)] at this
    exact this.mono_left nhdsWithin_le_nhds
  obtain ⟨ξ, hξ, e⟩ := exists_ratio_hasDerivAt_eq_ratio_slope' (lfa := 0) (lga := 0)
    (lfb := 2 * tD ν * tUp ν √(ν * (sP3 ν κ y / y))) (lgb := y ^ (ν / 2)) _ _ hy.1 _ _ (fun x hx => hF x ⟨hx.1, hx.2.le⟩) hG hlim lG
    (cF.tendsto.mono_left nhdsWithin_le_nhds) (cG.tendsto.mono_left nhdsWithin_le_nhds)
  have hξ0 := Real.rpow_pos_of_pos hξ.1 (ν / 2 - 1)
  have hyp := Real.rpow_pos_of_pos hy.1 (ν / 2)
  have e2 : 2 * tD ν * tUp ν √(ν * (sP3 ν κ y / y)) / y ^ (ν / 2) = Real.exp (sL ν κ ξ) := by
    rw [div_eq_iff hyp.ne']
    have : (ν / 2 * ξ ^ (ν / 2 - 1)) * (2 * tD ν * tUp ν √(ν * (sP3 ν κ y / y))) = (ν / 2 * ξ ^ (ν / 2 - 1)) * (Real.exp (sL ν κ ξ) * y ^ (ν / 2)) := by
      linear_combination -e
    exact mul_left_cancel₀ (by positivity) this
  obtain ⟨-, -, -, -, b1, b2⟩ := hb ξ ⟨hξ.1.le, hξ.2.le.trans hy.2.le⟩
  rw [e2]
  have hx4 : ξ ^ 4 ≤ y ^ 4 := pow_le_pow_left₀ hξ.1.le hξ.2.le 4
  calc |Real.exp (sL ν κ ξ) - 1| ≤ 2 * |sL ν κ ξ| := Real.abs_exp_sub_one_le (b1.trans b2)
    _ ≤ 2 * C * y ^ 4 := by nlinarith

theorem hill_start {ν p : ℝ} (hν : 1 ≤ ν) (hp : 0 < p) {y : ℝ} (hy : y = (hillDt ν * p) ^ (2 / ν)) (hb : y ≤ 0.05 + hillAt ν)
    (hden : ((ν + 6) / (ν * y) - 0.089 * hillDt ν - 0.822) * (ν + 2) * 3 ≠ 0) :
    qt_int_main_iter (fin p) (fin ν) = qt_int_y_2_iter_begin (fin p) (fin ν) (fin (hillS ν (hillDt ν) y)) := by
  obtain ⟨ha0, ha2⟩ := hillAt_mem hν
  have hB := hillBt_ge ha0 ha2
  have hC := hillCt_ge ha0 ha2
  have hd := (hillDt_sq hν).1
  have hν0 : 0 < ν := by linarith
  have hyp : 0 < y := by rw [hy]; exact Real.rpow_pos_of_pos (by positivity) _
  have n1 : ν - 1 / 2 ≠ 0 := by linarith
  have n2 : hillAt ν * hillAt ν ≠ 0 := by positivity
  have n3 : hillBt (hillAt ν) ≠ 0 := by linarith
  have n4 : hillBt (hillAt ν) + hillCt (hillAt ν) (hillBt (hillAt ν)) ≠ 0 := by linarith
  have eA : qt_int_coef_a (fin ν) = fin (hillAt ν) := by simp only [qt_int_coef_a, ideal, ifin_div _ n1, hillAt]
  have eB : qt_int_coef_b (fin (hillAt ν)) = fin (hillBt (hillAt ν)) := by simp only [qt_int_coef_b, ideal, ifin_div _ n2, hillBt]
  have eC : qt_int_coef_c (fin (hillAt ν)) (fin (hillBt (hillAt ν))) = fin (hillCt (hillAt ν) (hillBt (hillAt ν))) := by
    simp only [qt_int_coef_c, ideal, ifin_div _ n3, hillCt]
  have eD : qt_int_coef_d (fin ν) (fin (hillAt ν)) (fin (hillBt (hillAt ν))) (fin (hillCt (hillAt ν) (hillBt (hillAt ν)))) = fin (hillDt ν) := by
    simp only [qt_int_coef_d, SQRTHALFPI, Ideal.sqrtHalfPi, ideal, isqrt ha0.le, ifin_div _ n4, ifin_div _ n3, hillDt, hillKt]
  have eY : qt_int_y_init (fin p) (fin ν) (fin (hillDt ν)) = fin y := by
    simp only [qt_int_y_init, ideal, ifin_div _ hν0.ne', ipow _ (show 0 < hillDt ν * p by positivity), hy]
  have eM : qt_int_y_2_mterm (fin y) (fin ν) (fin (hillDt ν)) = fin (hillM ν (hillDt ν) y) := by
    simp only [qt_int_y_2_mterm, ideal, ifin_div _ (show ν + 4 ≠ 0 by positivity), ifin_div _ (show ν * y ≠ 0 by positivity),
      ifin_div _ hden, hillM]
  have e05 : lit 0.05 + fin (hillAt ν) = fin (0.05 + hillAt ν) := by simp only [ideal]
  simp only [qt_int_main_iter, eA, eB, eC, eD, eY, qt_int_choose, e05, gt_iff_lt, fin_lt_fin, if_neg (not_lt.2 hb), qt_int_y_2, eM]
  have eS : (1 : Fl) / fin y + (fin ν + 1) * (fin (hillM ν (hillDt ν) y) * fin y - 1) / (fin ν + 2) = fin (hillS ν (hillDt ν) y) := by
    simp only [ideal, ifin_div _ hyp.ne', ifin_div _ (show ν + 2 ≠ 0 by positivity), hillS]
  rw [eS]

/-- In the tail the refinement starts from a number whose two-sided tail probability is `p` times the factor `d / D` by which the
coefficient is off (see `C63_coef_d`), up to a relative error of order `p^(8/dof)`. -/
theorem C63_qt_start {ν : ℝ} (hν : 1 ≤ ν) : ∃ C d : ℝ,
    qt_int_coef_d (fin ν) (qt_int_coef_a (fin ν)) (qt_int_coef_b (qt_int_coef_a (fin ν)))
        (qt_int_coef_c (qt_int_coef_a (fin ν)) (qt_int_coef_b (qt_int_coef_a (fin ν)))) = fin d ∧
    ∀ᶠ p in 𝓝[>] 0, ∃ V : ℝ, qt_int_main_iter (fin p) (fin ν) = qt_int_y_2_iter_begin (fin p) (fin ν) (fin V) ∧ 0 < V ∧
      |2 * (∫ t in Set.Ioi √(ν * V), tPdf ν t) / (p * (d / (ν * √Real.pi * Real.Gamma (ν / 2) / (2 * Real.Gamma ((ν + 1) / 2))))) - 1| ≤ C * p ^ (8 / ν) := by
  have h : 0 < ν := by linarith
  have hd := (hillDt_sq hν).1
  obtain ⟨ha0, ha2⟩ := hillAt_mem hν
  have hB := hillBt_ge ha0 ha2
  have hC := hillCt_ge ha0 ha2
  set κ := ν * (0.089 * hillDt ν + 0.822) / (ν + 6) with hκ
  obtain ⟨C, hC'⟩ := start_prob h κ
  refine ⟨C * hillDt ν ^ (8 / ν), hillDt ν, ?_, ?_⟩
  · have n1 : ν - 1 / 2 ≠ 0 := by linarith
    have n2 : hillAt ν * hillAt ν ≠ 0 := by positivity
    have n3 : hillBt (hillAt ν) ≠ 0 := by linarith
    have n4 : hillBt (hillAt ν) + hillCt (hillAt ν) (hillBt (hillAt ν)) ≠ 0 := by linarith
    have eA : qt_int_coef_a (fin ν) = fin (hillAt ν) := by simp only [qt_int_coef_a, ideal, ifin_div _ n1, hillAt]
    have eB : qt_int_coef_b (fin (hillAt ν)) = fin (hillBt (hillAt ν)) := by simp only [qt_int_coef_b, ideal, ifin_div _ n2, hillBt]
    have eC : qt_int_coef_c (fin (hillAt ν)) (fin (hillBt (hillAt ν))) = fin (hillCt (hillAt ν) (hillBt (hillAt ν))) := by
      simp only [qt_int_coef_c, ideal, ifin_div _ n3, hillCt]
    rw [eA, eB, eC]
    simp only [qt_int_coef_d, SQRTHALFPI, Ideal.sqrtHalfPi, ideal, isqrt ha0.le, ifin_div _ n4, ifin_div _ n3, hillDt, hillKt]
  set y : ℝ → ℝ := fun p => (hillDt ν * p) ^ (2 / ν) with hy
  have hp0 : ∀ᶠ p : ℝ in 𝓝[>] 0, 0 < p := self_mem_nhdsWithin
  have hy0 : Tendsto y (𝓝[>] 0) (𝓝[>] 0) := by
    refine tendsto_nhdsWithin_iff.2 ⟨?_, ?_⟩
    · have hpp : Tendsto (fun p : ℝ => hillDt ν * p) (𝓝[>] 0) (𝓝 0) := by
        have : Tendsto (fun p : ℝ => hillDt ν * p) (𝓝 0) (𝓝 (hillDt ν * 0)) := (by fun_prop : Continuous fun p : ℝ => hillDt ν * p).tendsto 0
        rw [mul_zero] at this
        exact tendsto_nhdsWithin_of_tendsto_nhds this
      have := hpp.rpow_const (p := 2 / ν) (Or.inr (by positivity))
      rwa [Real.zero_rpow (by positivity)] at this
    · filter_upwards [hp0] with p hp
      exact Real.rpow_pos_of_pos (by positivity) _
  have hy0' := hy0.mono_right nhdsWithin_le_nhds
  have c1 := hy0.eventually hC'
  have c2 := hy0.eventually ((hill_den h (hillDt ν)).eventually_gt_atTop 0)
  have c3 := hy0'.eventually_lt_const (show (0 : ℝ) < 0.05 by norm_num)
  have c4 := hy0'.eventually (sk_ne κ)
  have c5 := hy0'.eventually ((sP3_tendsto ν κ).eventually_const_lt one_pos)
  filter_upwards [hp0, c1, c2, c3, c4, c5] with p hp k1 k2 k3 k4 k5
  have hyp : 0 < y p := Real.rpow_pos_of_pos (by positivity) _
  have eS := hillS_eq h hyp k4
  refine ⟨hillS ν (hillDt ν) (y p), hill_start hν hp rfl (by linarith) k2.ne', by rw [eS]; exact div_pos k5 hyp, ?_⟩
  have g1 := Real.Gamma_pos_of_pos (half_pos h)
  have g2 := Real.Gamma_pos_of_pos (show 0 < (ν + 1) / 2 by linarith)
  have e1 : ν * √Real.pi * Real.Gamma (ν / 2) / (2 * Real.Gamma ((ν + 1) / 2)) = tD ν := by
    rw [tD_eq h]; field_simp
  have hD := (tD_sq h).1
  have eI : ∀ v, ∫ t in Set.Ioi v, tPdf ν t = tUp ν v := fun v => by
    have hc := isCdf_tCoded h
    have h1 := hc.running v
    have h2 := integral_add_compl (μ := volume) (s := Set.Iic v) (f := tPdf ν) measurableSet_Iic hc.integrable
    rw [Set.compl_Iic, h1, hc.total] at h2
    rw [tUp]; linarith
  have ey : y p ^ (ν / 2) = hillDt ν * p := by
    simp only [hy]
    rw [← Real.rpow_mul (by positivity), show 2 / ν * (ν / 2) = 1 by field_simp, Real.rpow_one]
  have ey4 : y p ^ 4 = hillDt ν ^ (8 / ν) * p ^ (8 / ν) := by
    simp only [hy]
    rw [← Real.rpow_natCast, ← Real.rpow_mul (by positivity), ← Real.mul_rpow hd.le hp.le]
    congr 1; push_cast; ring
  rw [eI, e1, eS]
  rw [ey, ey4] at k1
  have e3 : 2 * tUp ν √(ν * (sP3 ν κ (y p) / y p)) / (p * (hillDt ν / tD ν)) = 2 * tD ν * tUp ν √(ν * (sP3 ν κ (y p) / y p)) / (hillDt ν * p) := by
    field_simp
  rw [e3]
  calc _ ≤ _ := k1
    _ = _ := by ring

end Stats

namespace Stats.ExamplesC63
open scoped Stats.Exact

example := C63_qt_start (ν := 7) (by norm_num)

end Stats.ExamplesC63
