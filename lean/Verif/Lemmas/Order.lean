import Verif.Lemmas.RealCdf2
import Verif.Lemmas.RealDisc
import Verif.Lemmas.Limits2
import Verif.Props.C51B

/-! # How the textbook distribution functions move with their parameters -/

set_option linter.unusedSectionVars false
namespace Stats.Ord
open MeasureTheory Set Filter Topology Stats Stats.Spec

/-- Likelihood ratio of `g` to `f` larger to the right of `x` than to the left: `g` lies higher. -/
theorem of_ratio {F f G g : ℝ → ℝ} (hF : IsCdf F f) (hG : IsCdf G g) {x : ℝ}
    (h : ∀ s ≤ x, ∀ y, x < y → g s * f y ≤ f s * g y) : G x ≤ F x := by
  have tail : ∀ {F f : ℝ → ℝ}, IsCdf F f → ∫ y in Ioi x, f y = 1 - F x := by
    intro F f h
    rw [← h.total, ← h.running x, eq_sub_iff_add_eq, add_comm, ← compl_Iic]
    exact integral_add_compl measurableSet_Iic h.integrable
  have h1 : ∀ s ≤ x, g s * (1 - F x) ≤ f s * (1 - G x) := by
    intro s hs
    rw [← tail hF, ← tail hG, ← integral_const_mul, ← integral_const_mul]
    exact setIntegral_mono_on (hF.integrable.integrableOn.const_mul _) (hG.integrable.integrableOn.const_mul _)
      measurableSet_Ioi fun y hy => h s hs y hy
  have h2 : G x * (1 - F x) ≤ F x * (1 - G x) := by
    rw [← hF.running x, ← hG.running x, ← integral_mul_const, ← integral_mul_const, hF.running, hG.running]
    exact setIntegral_mono_on (hG.integrable.integrableOn.mul_const _) (hF.integrable.integrableOn.mul_const _)
      measurableSet_Iic fun s hs => h1 s hs
  linarith

/-- powers on the positive axis -/
theorem rpow_cross {s y a b : ℝ} (hs : 0 < s) (hy : s ≤ y) (hab : a ≤ b) : s ^ b * y ^ a ≤ s ^ a * y ^ b := by
  have hy0 := hs.trans_le hy
  have e1 : s ^ b = s ^ a * s ^ (b - a) := by rw [← Real.rpow_add hs]; congr 1; ring
  have e2 : y ^ b = y ^ a * y ^ (b - a) := by rw [← Real.rpow_add hy0]; congr 1; ring
  rw [e1, e2]
  have h := Real.rpow_le_rpow hs.le hy (sub_nonneg.2 hab)
  calc s ^ a * s ^ (b - a) * y ^ a = s ^ a * y ^ a * s ^ (b - a) := by ring
    _ ≤ s ^ a * y ^ a * y ^ (b - a) := by gcongr
    _ = _ := by ring

theorem gammaP_anti {k l z : ℝ} (hk : 0 < k) (hkl : k ≤ l) (hz : 0 < z) : gammaP l z ≤ gammaP k z := by
  have hl := hk.trans_le hkl
  have h := of_ratio (isCdf_gamma hk one_pos) (isCdf_gamma hl one_pos) (x := z) ?_
  · simpa [hz] using h
  · intro s hs y hy
    unfold gammaPdf
    have hy0 : 0 < y := hz.trans hy
    by_cases hs0 : 0 < s
    · simp only [if_pos hs0, if_pos hy0, Real.one_rpow, one_mul]
      have c := rpow_cross hs0 (hs.trans hy.le) (sub_le_sub_right hkl 1)
      have g1 := Real.Gamma_pos_of_pos hk
      have g2 := Real.Gamma_pos_of_pos hl
      rw [div_mul_div_comm, div_mul_div_comm, mul_comm (Real.Gamma l)]
      gcongr ?_ / _
      calc s ^ (l - 1) * Real.exp (-s / 1) * (y ^ (k - 1) * Real.exp (-y / 1))
          = s ^ (l - 1) * y ^ (k - 1) * (Real.exp (-s / 1) * Real.exp (-y / 1)) := by ring
        _ ≤ s ^ (k - 1) * y ^ (l - 1) * (Real.exp (-s / 1) * Real.exp (-y / 1)) := by gcongr
        _ = _ := by ring
    · simp [hs0]

theorem betaCdf_anti {a c b : ℝ} (ha : 0 < a) (hac : a ≤ c) (hb : 0 < b) (x : ℝ) : betaCdf c b x ≤ betaCdf a b x := by
  have hc := ha.trans_le hac
  refine of_ratio (isCdf_beta ha hb) (isCdf_beta hc hb) ?_
  intro s hs y hy
  unfold betaPdf
  by_cases hs0 : 0 < s ∧ s < 1
  · by_cases hy0 : 0 < y ∧ y < 1
    · simp only [if_pos hs0, if_pos hy0]
      have h := rpow_cross hs0.1 (hs.trans hy.le) (sub_le_sub_right hac 1)
      have g1 := beta_pos ha hb
      have g2 := beta_pos hc hb
      have k1 : 0 ≤ (1 - s) ^ (b - 1) := Real.rpow_nonneg (by linarith [hs0.2]) _
      have k2 : 0 ≤ (1 - y) ^ (b - 1) := Real.rpow_nonneg (by linarith [hy0.2]) _
      calc _ = s ^ (c - 1) * y ^ (a - 1) * (1 / beta c b * (1 / beta a b) * (1 - s) ^ (b - 1) * (1 - y) ^ (b - 1)) := by
            ring
        _ ≤ s ^ (a - 1) * y ^ (c - 1) * (1 / beta c b * (1 / beta a b) * (1 - s) ^ (b - 1) * (1 - y) ^ (b - 1)) := by
            gcongr
        _ = _ := by ring
    · simp [hy0]
  · simp [hs0]

theorem betaCdf_mono {a b c : ℝ} (ha : 0 < a) (hb : 0 < b) (hbc : b ≤ c) (x : ℝ) : betaCdf a b x ≤ betaCdf a c x := by
  have hc := hb.trans_le hbc
  refine of_ratio (isCdf_beta ha hc) (isCdf_beta ha hb) ?_
  intro s hs y hy
  unfold betaPdf
  by_cases hs0 : 0 < s ∧ s < 1
  · by_cases hy0 : 0 < y ∧ y < 1
    · simp only [if_pos hs0, if_pos hy0]
      have h := rpow_cross (show 0 < 1 - y by linarith [hy0.2]) (show 1 - y ≤ 1 - s by linarith)
        (sub_le_sub_right hbc 1)
      have g1 := beta_pos ha hb
      have g2 := beta_pos ha hc
      have k1 : 0 ≤ s ^ (a - 1) := Real.rpow_nonneg hs0.1.le _
      have k2 : 0 ≤ y ^ (a - 1) := Real.rpow_nonneg hy0.1.le _
      calc _ = (1 - y) ^ (c - 1) * (1 - s) ^ (b - 1) * (1 / beta a b * (1 / beta a c) * s ^ (a - 1) * y ^ (a - 1)) := by
            ring
        _ ≤ (1 - y) ^ (b - 1) * (1 - s) ^ (c - 1) * (1 / beta a b * (1 / beta a c) * s ^ (a - 1) * y ^ (a - 1)) := by
            gcongr
        _ = _ := by ring
    · simp [hy0]
  · simp [hs0]

theorem invgauss_anti {m n l x : ℝ} (hm : 0 < m) (hmn : m ≤ n) (hl : 0 < l) (hx : 0 < x) :
    invgaussCdf n l x ≤ invgaussCdf m l x := by
  have hn := hm.trans_le hmn
  have h := of_ratio (isCdf_invgauss hm hl) (isCdf_invgauss hn hl) (x := x) ?_
  · simpa [hx] using h
  · intro s hs y hy
    unfold invgaussPdf
    have hy0 : 0 < y := hx.trans hy
    by_cases hs0 : 0 < s
    · simp only [if_pos hs0, if_pos hy0]
      have hsy : s ≤ y := hs.trans hy.le
      calc _ = √(l / (2 * Real.pi * s ^ 3)) * √(l / (2 * Real.pi * y ^ 3)) *
            (Real.exp (-(l * (s - n) ^ 2) / (2 * n ^ 2 * s)) * Real.exp (-(l * (y - m) ^ 2) / (2 * m ^ 2 * y))) := by ring
        _ ≤ √(l / (2 * Real.pi * s ^ 3)) * √(l / (2 * Real.pi * y ^ 3)) *
            (Real.exp (-(l * (s - m) ^ 2) / (2 * m ^ 2 * s)) * Real.exp (-(l * (y - n) ^ 2) / (2 * n ^ 2 * y))) := by
          gcongr ?_ * ?_
          rw [← Real.exp_add, ← Real.exp_add]
          apply Real.exp_le_exp.2
          have e : ∀ m t : ℝ, 0 < m → 0 < t →
              -(l * (t - m) ^ 2) / (2 * m ^ 2 * t) = -(l / 2) * (t * (1 / m ^ 2)) + l / m - l / (2 * t) := by
            intro m t hm ht; field_simp; ring
          rw [e n s hn hs0, e m y hm hy0, e m s hm hs0, e n y hn hy0]
          have h1 : 1 / n ^ 2 ≤ 1 / m ^ 2 := one_div_le_one_div_of_le (by positivity) (by gcongr)
          nlinarith [mul_nonneg (mul_nonneg hl.le (sub_nonneg.2 hsy)) (sub_nonneg.2 h1)]
        _ = _ := by ring
    · simp [hs0]

/-! ### Student's t -/

/-- `√x Γ(x) h(x) = Γ(x + 1/2)`; twice the value of the t density at 0, up to constants -/
noncomputable def tH (x : ℝ) : ℝ := Real.Gamma (x + 1 / 2) / (√x * Real.Gamma x)

theorem tH_pos {x : ℝ} (hx : 0 < x) : 0 < tH x := by
  have := Real.Gamma_pos_of_pos hx
  have := Real.Gamma_pos_of_pos (show 0 < x + 1 / 2 by linarith)
  unfold tH; positivity

theorem tPdf_zero {ν : ℝ} (hν : 0 < ν) : tPdf ν 0 = 1 / √(2 * Real.pi) * tH (ν / 2) := by
  have := Real.Gamma_pos_of_pos (half_pos hν)
  have e : √(ν * Real.pi) = √(2 * Real.pi) * √(ν / 2) := by
    rw [← Real.sqrt_mul (by positivity)]; congr 1; ring
  rw [tPdf, tH, e]
  simp
  rw [show (ν + 1) / 2 = ν / 2 + 2⁻¹ by ring]
  field_simp

theorem tH_step {x : ℝ} (hx : 0 < x) : tH (x + 1) = tH x * ((x + 1 / 2) / √(x * (x + 1))) := by
  have := Real.Gamma_pos_of_pos hx
  have e1 : Real.Gamma (x + 1 + 1 / 2) = (x + 1 / 2) * Real.Gamma (x + 1 / 2) := by
    rw [← Real.Gamma_add_one (by positivity)]; congr 1; ring
  have e2 : Real.Gamma (x + 1) = x * Real.Gamma x := Real.Gamma_add_one hx.ne'
  rw [tH, tH, e1, e2, Real.sqrt_mul hx.le]
  have h1 : √x * √x = x := Real.mul_self_sqrt hx.le
  have h2 : √x ≠ 0 := by positivity
  have h3 : √(x + 1) ≠ 0 := by positivity
  rw [div_mul_div_comm, div_eq_div_iff (by positivity) (by positivity)]
  calc _ = (x + 1 / 2) * Real.Gamma (x + 1 / 2) * √(x + 1) * Real.Gamma x * (√x * √x) := by ring
    _ = _ := by rw [h1]; ring

theorem tH_ratio {x y : ℝ} (hx : 0 < x) (hxy : x ≤ y) :
    (y + 1 / 2) / √(y * (y + 1)) ≤ (x + 1 / 2) / √(x * (x + 1)) := by
  have hy := hx.trans_le hxy
  have e : ∀ z : ℝ, 0 < z → (z + 1 / 2) / √(z * (z + 1)) = √(1 + 1 / (4 * (z * (z + 1)))) := by
    intro z hz
    rw [eq_comm, Real.sqrt_eq_iff_eq_sq (by positivity) (by positivity), div_pow, Real.sq_sqrt (by positivity)]
    field_simp; ring
  rw [e x hx, e y hy]
  gcongr

theorem tH_cross {x y : ℝ} (hx : 0 < x) (hxy : x ≤ y) (n : ℕ) : tH x * tH (y + n) ≤ tH y * tH (x + n) := by
  induction n with
  | zero => simp; exact (mul_comm _ _).le
  | succ n ih =>
    have hx' : 0 < x + n := by positivity
    have hy' : 0 < y + n := by have := hx.trans_le hxy; positivity
    have s1 := tH_step hx'
    have s2 := tH_step hy'
    rw [show x + ((n + 1 : ℕ) : ℝ) = x + n + 1 by push_cast; ring, s1,
      show y + ((n + 1 : ℕ) : ℝ) = y + n + 1 by push_cast; ring, s2, ← mul_assoc, ← mul_assoc]
    have := tH_pos (hx.trans_le hxy)
    have := tH_pos hx'
    exact mul_le_mul ih (tH_ratio hx' (by linarith)) (by positivity) (by positivity)

theorem tH_mono {x y : ℝ} (hx : 0 < x) (hxy : x ≤ y) : tH x ≤ tH y := by
  have lim : ∀ z : ℝ, 0 < z → Tendsto (fun n : ℕ => tH (z + n)) atTop (𝓝 1) := by
    intro z hz
    have h1 := (Lim.t_dof 0).comp (tendsto_atTop_add_const_left atTop (2 * z)
      (tendsto_natCast_atTop_atTop.const_mul_atTop (show (0 : ℝ) < 2 by norm_num)))
    have h2 := h1.const_mul (√(2 * Real.pi))
    have e : √(2 * Real.pi) * normPdf 0 1 0 = 1 := by
      simp [normPdf]
      have : √2 ≠ 0 := by positivity
      have : √Real.pi ≠ 0 := by have := Real.pi_pos; positivity
      field_simp
    rw [e] at h2
    refine h2.congr fun n => ?_
    simp only [Function.comp]
    rw [tPdf_zero (by positivity)]
    have : √(2 * Real.pi) ≠ 0 := by have := Real.pi_pos; positivity
    rw [show (2 * z + 2 * (n : ℝ)) / 2 = z + n by ring]
    field_simp
  have h := le_of_tendsto_of_tendsto ((lim y (hx.trans_le hxy)).const_mul (tH x)) ((lim x hx).const_mul (tH y))
    (Eventually.of_forall fun n => tH_cross hx hxy n)
  simpa using h

theorem tPdf_zero_mono {ν ξ : ℝ} (hν : 0 < ν) (h : ν ≤ ξ) : tPdf ν 0 ≤ tPdf ξ 0 := by
  rw [tPdf_zero hν, tPdf_zero (hν.trans_le h)]
  exact mul_le_mul_of_nonneg_left (tH_mono (half_pos hν) (by linarith)) (by positivity)

theorem tPdf_at (ν x : ℝ) : tPdf ν x = tPdf ν 0 * (1 + x ^ 2 / ν) ^ (-((ν + 1) / 2)) := by
  simp [tPdf]

theorem tPdf_pos {ν : ℝ} (hν : 0 < ν) (x : ℝ) : 0 < tPdf ν x := by
  have := Real.Gamma_pos_of_pos (half_pos hν)
  have := Real.Gamma_pos_of_pos (show 0 < (ν + 1) / 2 by linarith)
  have := Real.pi_pos
  unfold tPdf; positivity

/-- logarithm of the ratio of two t densities, as a function of the square -/
noncomputable def tL (ν ξ w : ℝ) : ℝ := (ξ + 1) / 2 * Real.log (1 + w / ξ) - (ν + 1) / 2 * Real.log (1 + w / ν)

theorem tL_deriv {ν ξ w : ℝ} (hν : 0 < ν) (hξ : 0 < ξ) (hw : 0 ≤ w) :
    HasDerivAt (tL ν ξ) ((ξ - ν) * (w - 1) / (2 * (ξ + w) * (ν + w))) w := by
  have e : ∀ k : ℝ, 0 < k → HasDerivAt (fun w => (k + 1) / 2 * Real.log (1 + w / k)) ((k + 1) / (2 * (k + w))) w := by
    intro k hk
    have h1 : HasDerivAt (fun w : ℝ => 1 + w / k) (1 / k) w := ((hasDerivAt_id w).div_const k).const_add 1
    refine ((h1.log (by positivity)).const_mul ((k + 1) / 2)).congr_deriv ?_
    field_simp
  refine ((e ξ hξ).sub (e ν hν)).congr_deriv ?_
  field_simp
  ring

theorem tL_anti {ν ξ : ℝ} (hν : 0 < ν) (h : ν ≤ ξ) : AntitoneOn (tL ν ξ) (Icc 0 1) := by
  have hξ := hν.trans_le h
  refine antitoneOn_of_deriv_nonpos (convex_Icc _ _)
    (fun w hw => (tL_deriv hν hξ hw.1).continuousAt.continuousWithinAt) ?_ ?_
  · intro w hw
    rw [interior_Icc] at hw
    exact (tL_deriv hν hξ hw.1.le).differentiableAt.differentiableWithinAt
  · intro w hw
    rw [interior_Icc] at hw
    have := hw.1
    rw [(tL_deriv hν hξ hw.1.le).deriv]
    exact div_nonpos_of_nonpos_of_nonneg (mul_nonpos_of_nonneg_of_nonpos (sub_nonneg.2 h) (by linarith [hw.2]))
      (by positivity)

theorem tL_mono {ν ξ : ℝ} (hν : 0 < ν) (h : ν ≤ ξ) : MonotoneOn (tL ν ξ) (Ici 1) := by
  have hξ := hν.trans_le h
  have p : ∀ w : ℝ, 1 ≤ w → 0 ≤ w := fun w hw => by linarith
  refine monotoneOn_of_deriv_nonneg (convex_Ici _)
    (fun w hw => (tL_deriv hν hξ (p w hw)).continuousAt.continuousWithinAt) ?_ ?_
  · intro w hw
    rw [interior_Ici] at hw
    exact (tL_deriv hν hξ (p w (mem_Ioi.1 hw).le)).differentiableAt.differentiableWithinAt
  · intro w hw
    rw [interior_Ici] at hw
    have hw : 1 < w := hw
    rw [(tL_deriv hν hξ (by linarith)).deriv]
    exact div_nonneg (mul_nonneg (sub_nonneg.2 h) (by linarith)) (by positivity)

theorem tPdf_le_iff {ν ξ : ℝ} (hν : 0 < ν) (hξ : 0 < ξ) (x : ℝ) :
    tPdf ν x ≤ tPdf ξ x ↔ tL ν ξ (x ^ 2) ≤ Real.log (tPdf ξ 0 / tPdf ν 0) := by
  have p1 := tPdf_pos hν 0
  have p2 := tPdf_pos hξ 0
  have q1 : 0 < 1 + x ^ 2 / ν := by positivity
  have q2 : 0 < 1 + x ^ 2 / ξ := by positivity
  rw [← Real.log_le_log_iff (tPdf_pos hν x) (tPdf_pos hξ x), tPdf_at ν, tPdf_at ξ,
    Real.log_mul p1.ne' (by positivity), Real.log_mul p2.ne' (by positivity), Real.log_rpow q1, Real.log_rpow q2,
    Real.log_div p2.ne' p1.ne', tL]
  constructor <;> intro h <;> linarith

theorem tCdf_zero {ν : ℝ} (h : 0 < ν) : tCdf ν 0 = 1 / 2 := by
  rw [tCdf, if_neg (lt_irrefl _), tTail_zero h]

theorem tCdf_neg {ν : ℝ} (h : 0 < ν) (x : ℝ) : tCdf ν (-x) = 1 - tCdf ν x := by
  rcases lt_trichotomy x 0 with hx | rfl | hx
  · rw [tCdf, tCdf, if_pos (by linarith), if_neg (by linarith), tTail_neg]
  · rw [neg_zero, tCdf_zero h]; norm_num
  · rw [tCdf, tCdf, if_neg (by linarith), if_pos hx, tTail_neg]; ring

/-- more degrees of freedom concentrate the t distribution about 0 -/
theorem tCdf_mono {ν ξ x : ℝ} (hν : 0 < ν) (h : ν ≤ ξ) (hx : 0 ≤ x) : tCdf ν x ≤ tCdf ξ x := by
  have hξ := hν.trans_le h
  have c1 := isCdf_t hν
  have c2 := isCdf_t hξ
  by_cases hall : ∀ y, x < y → tPdf ξ y ≤ tPdf ν y
  · have tail : ∀ {F f : ℝ → ℝ}, IsCdf F f → F x = 1 - ∫ y in Ioi x, f y := by
      intro F f h
      rw [← h.total, ← h.running x, eq_sub_iff_add_eq, ← compl_Iic]
      exact integral_add_compl measurableSet_Iic h.integrable
    rw [tail c1, tail c2]
    have := setIntegral_mono_on c2.integrable.integrableOn c1.integrable.integrableOn measurableSet_Ioi
      (fun y hy => hall y hy)
    linarith
  · push Not at hall
    obtain ⟨y, hy, hlt⟩ := hall
    have k : ∀ z ∈ Icc 0 x, tPdf ν z ≤ tPdf ξ z := by
      intro z hz
      rw [tPdf_le_iff hν hξ]
      have h0 : tL ν ξ 0 ≤ Real.log (tPdf ξ 0 / tPdf ν 0) := by
        have := (tPdf_le_iff hν hξ 0).1 (tPdf_zero_mono hν h)
        simpa using this
      have hy' := (tPdf_le_iff hν hξ y).1 hlt.le
      rcases le_total (z ^ 2) 1 with h1 | h1
      · exact (tL_anti hν h ⟨le_rfl, zero_le_one⟩ ⟨by positivity, h1⟩ (by positivity)).trans h0
      · have hzy : z ^ 2 ≤ y ^ 2 := by have := hz.1; gcongr; linarith [hz.2]
        exact (tL_mono hν h h1 (h1.trans hzy) hzy).trans hy'
    have half : ∀ {ν : ℝ}, 0 < ν → tCdf ν x = 1 / 2 + ∫ t in (0 : ℝ)..x, tPdf ν t := by
      intro ν hν
      have c := isCdf_t hν
      have z : tCdf ν 0 = 1 / 2 := tCdf_zero hν
      rw [← z, ← c.running x, ← c.running 0,
        ← intervalIntegral.integral_Iic_sub_Iic c.integrable.integrableOn c.integrable.integrableOn]
      ring
    rw [half hν, half hξ]
    have := intervalIntegral.integral_mono_on hx c1.integrable.intervalIntegrable c2.integrable.intervalIntegrable k
    linarith

theorem tCdf_anti {ν ξ x : ℝ} (hν : 0 < ν) (h : ν ≤ ξ) (hx : x ≤ 0) : tCdf ξ x ≤ tCdf ν x := by
  have := tCdf_mono hν h (show 0 ≤ -x by linarith)
  rw [tCdf_neg hν, tCdf_neg (hν.trans_le h)] at this
  linarith

/-! ### The discrete families -/

theorem gammaP_le {k y z : ℝ} (hk : 0 < k) (hy : 0 ≤ y) (hyz : y ≤ z) : gammaP k y ≤ gammaP k z := by
  rcases hy.eq_or_lt with rfl | hy
  · have : gammaP k 0 = 0 := by simp [gammaP]
    rw [this]; exact gammaP_nonneg hk hyz
  · have := (isCdf_gamma hk one_pos).mono hyz
    simpa [hy, hy.trans_le hyz] using this

theorem pois_anti {r s : ℝ} (hr : 0 ≤ r) (hrs : r ≤ s) (k : ℤ) : cumZ (poisPmf s) k ≤ cumZ (poisPmf r) k := by
  rcases lt_or_ge k 0 with hk | hk
  · rw [cumZ_neg hk, cumZ_neg hk]
  · lift k to ℕ using hk
    rw [cumZ_pois hr, cumZ_pois (hr.trans hrs)]
    have := gammaP_le (show (0 : ℝ) < k + 1 by positivity) hr hrs
    linarith

theorem betaI_le {a b y z : ℝ} (ha : 0 < a) (hb : 0 < b) (hy : 0 ≤ y) (hyz : y ≤ z) (hz : z ≤ 1) :
    betaI a b y ≤ betaI a b z := by
  have e : ∀ t : ℝ, 0 ≤ t → t ≤ 1 → betaCdf a b t = betaI a b t := by
    intro t h0 h1
    rw [betaCdf]
    split_ifs with c1 c2
    · have : t = 0 := le_antisymm c1 h0
      subst this; simp [betaI]
    · have : t = 1 := le_antisymm h1 c2
      rw [this, betaI_one ha hb]
    · rfl
  have := (isCdf_beta ha hb).mono hyz
  rwa [e y hy (hyz.trans hz), e z (hy.trans hyz) hz] at this

theorem binom_anti {n : ℕ} {p q : ℝ} (hp : 0 ≤ p) (hpq : p ≤ q) (hq : q ≤ 1) (k : ℤ) :
    cumZ (binomPmf n q) k ≤ cumZ (binomPmf n p) k := by
  rcases lt_or_ge k 0 with hk | hk
  · rw [cumZ_neg hk, cumZ_neg hk]
  · rcases le_or_gt (n : ℤ) k with hn | hn
    · rw [cumZ_binom hn, cumZ_binom hn]
    · lift k to ℕ using hk
      have hn : k < n := by exact_mod_cast hn
      have hn' : (k : ℝ) < n := by exact_mod_cast hn
      rw [cumZ_binom_beta hn hp (hpq.trans hq), cumZ_binom_beta hn (hp.trans hpq) hq]
      have := betaI_le (show (0 : ℝ) < k + 1 by positivity) (show (0 : ℝ) < n - k by linarith) hp hpq hq
      linarith

theorem binom_size {m n : ℕ} (hmn : m ≤ n) {p : ℝ} (h0 : 0 ≤ p) (h1 : p ≤ 1) (k : ℤ) :
    cumZ (binomPmf n p) k ≤ cumZ (binomPmf m p) k := by
  rcases lt_or_ge k 0 with hk | hk
  · rw [cumZ_neg hk, cumZ_neg hk]
  · rcases le_or_gt (m : ℤ) k with hm | hm
    · rw [cumZ_binom hm]
      have h : cumZ (binomPmf n p) k ≤ cumZ (binomPmf n p) (Max.max k n) :=
        cumZ_mono (binomPmf_nonneg h0 h1) (le_max_left _ _)
      rwa [cumZ_binom (le_max_right k (n : ℤ))] at h
    · lift k to ℕ using hk
      have hm : k < m := by exact_mod_cast hm
      have hm' : (k : ℝ) < m := by exact_mod_cast hm
      have hmn' : (m : ℝ) ≤ n := by exact_mod_cast hmn
      rw [cumZ_binom_beta hm h0 h1, cumZ_binom_beta (hm.trans_le hmn) h0 h1]
      have := betaCdf_mono (show (0 : ℝ) < k + 1 by positivity) (show (0 : ℝ) < m - k by linarith)
        (show (m : ℝ) - k ≤ n - k by linarith) p
      rw [betaCdf, betaCdf] at this
      split_ifs at this with c1 c2
      · have : p = 0 := le_antisymm c1 h0
        subst this; simp [betaI]
      · have e : p = 1 := le_antisymm h1 c2
        rw [e, betaI_one (by positivity) (by linarith), betaI_one (by positivity) (by linarith)]
      · linarith

end Stats.Ord
