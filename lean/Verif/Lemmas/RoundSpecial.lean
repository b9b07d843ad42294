import Verif.Lemmas.Round
import Verif.Lemmas.Special

/-!
# Relative errors through the incomplete gamma and beta functions

If the argument of `P(a, ·)` is off by `k` roundings, the value is off by `a k` roundings; `I(a, b, ·)` behaves alike
away from 1, and for `b ≥ 1` everywhere.
-/

open Set MeasureTheory
namespace Stats
open Spec
variable {u k x y : ℝ}

/-- A nondecreasing function that shrinks by at most `t^c` when its argument shrinks by `t`. -/
theorem Spec.Rel.scale (h0 : 0 ≤ u) (hu : u < 1) (hk : 0 ≤ k) {f : ℝ → ℝ} {c m : ℝ} (hc : 0 ≤ c)
    (hm : MonotoneOn f (Icc 0 m)) (hpos : ∀ z ∈ Ioc 0 m, 0 < f z)
    (hs : ∀ z ∈ Ioc 0 m, ∀ t, 0 < t → t ≤ 1 → t ^ c * f z ≤ f (t * z)) (h : Rel u k x y) (hx : 0 < x) (hxm : x ≤ m)
    (hym : y ≤ m) : Rel u (k * c) (f x) (f y) := by
  have hy := h.pos hu hx
  obtain ⟨t, h1, h2, rfl⟩ := h
  have hb : 0 < 1 - u := by linarith
  have ht : 0 < t := (Real.rpow_pos_of_pos hb k).trans_le h1
  have fx := hpos x ⟨hx, hxm⟩
  have fy := hpos _ ⟨hy, hym⟩
  have lo : (1 - u) ^ (k * c) ≤ 1 := Real.rpow_le_one hb.le (by linarith) (mul_nonneg hk hc)
  have hi : 1 ≤ (1 - u) ^ (-(k * c)) := Real.one_le_rpow_of_pos_of_le_one_of_nonpos hb (by linarith) (by
    have := mul_nonneg hk hc; linarith)
  have e : f (x * t) = f x * (f (x * t) / f x) := by field_simp
  refine ⟨f (x * t) / f x, ?_, ?_, e⟩
  · rw [le_div_iff₀ fx]
    rcases le_total t 1 with h | h
    · have := hs x ⟨hx, hxm⟩ t ht h
      rw [mul_comm x t]
      refine le_trans (mul_le_mul_of_nonneg_right ?_ fx.le) this
      rw [Real.rpow_mul hb.le]
      exact Real.rpow_le_rpow (by positivity) h1 hc
    · have := hm ⟨hx.le, hxm⟩ ⟨hy.le, hym⟩ (by nlinarith : x ≤ x * t)
      nlinarith
  · rw [div_le_iff₀ fx]
    rcases le_total t 1 with h | h
    · have := hm ⟨hy.le, hym⟩ ⟨hx.le, hxm⟩ (by nlinarith : x * t ≤ x)
      nlinarith
    · have := hs (x * t) ⟨hy, hym⟩ t⁻¹ (by positivity) (inv_le_one_of_one_le₀ h)
      rw [show t⁻¹ * (x * t) = x by field_simp] at this
      have h3 : t ^ c ≤ (1 - u) ^ (-(k * c)) := by
        rw [← neg_mul, Real.rpow_mul hb.le]
        exact Real.rpow_le_rpow ht.le h2 hc
      rw [Real.inv_rpow ht.le, inv_mul_le_iff₀ (by positivity)] at this
      exact this.trans (mul_le_mul_of_nonneg_right h3 fx.le)

/-- scaling of an integral from 0 -/
theorem integral_scale {f : ℝ → ℝ} {z t c : ℝ} (hz : 0 ≤ z) (ht : 0 < t)
    (hi : IntervalIntegrable f volume 0 z) (hi' : IntervalIntegrable f volume 0 (t * z))
    (h : ∀ s ∈ Ioo 0 z, c * f s ≤ t * f (t * s)) : c * ∫ s in (0 : ℝ)..z, f s ≤ ∫ s in (0 : ℝ)..(t * z), f s := by
  have e : ∫ s in (0 : ℝ)..(t * z), f s = ∫ s in (0 : ℝ)..z, t * f (t * s) := by
    rw [intervalIntegral.integral_const_mul, intervalIntegral.integral_comp_mul_left f ht.ne', mul_zero, smul_eq_mul,
      mul_inv_cancel_left₀ ht.ne']
  rw [e, ← intervalIntegral.integral_const_mul]
  have hi2 : IntervalIntegrable (fun s => t * f (t * s)) volume 0 z := by
    have := hi'.comp_mul_left (c := t)
    simp only [zero_div, mul_div_cancel_left₀ _ ht.ne'] at this
    exact this.const_mul t
  exact intervalIntegral.integral_mono_on_of_le_Ioo hz (hi.const_mul c) hi2 h

theorem gammaP_shrink {a z t : ℝ} (ha : 0 < a) (hz : 0 < z) (ht : 0 < t) (ht1 : t ≤ 1) :
    t ^ a * gammaP a z ≤ gammaP a (t * z) := by
  have hG := Real.Gamma_pos_of_pos ha
  rw [gammaP, gammaP, ← mul_div_assoc]
  refine div_le_div_of_nonneg_right (integral_scale hz.le ht ?_ ?_ fun s hs => ?_) hG.le
  · exact gammaInt_intervalIntegrable ha le_rfl hz.le
  · exact gammaInt_intervalIntegrable ha le_rfl (by positivity)
  · have e : t * ((t * s) ^ (a - 1) * Real.exp (-(t * s))) = t ^ a * (s ^ (a - 1) * Real.exp (-(t * s))) := by
      rw [Real.mul_rpow ht.le hs.1.le, Real.rpow_sub_one ht.ne']; field_simp
    rw [e]
    have := hs.1
    have : -s ≤ -(t * s) := by nlinarith
    gcongr

theorem gammaP_pos {a z : ℝ} (ha : 0 < a) (hz : 0 < z) : 0 < gammaP a z := by
  have := strictMonoOn_gammaP ha (mem_Ici.2 le_rfl) (mem_Ici.2 hz.le) hz
  rwa [gammaP_zero] at this

theorem Spec.Rel.gammaP (h0 : 0 ≤ u) (hu : u < 1) (hk : 0 ≤ k) {a : ℝ} (ha : 0 < a) (h : Rel u k x y) (hx : 0 < x) :
    Rel u (k * a) (gammaP a x) (gammaP a y) :=
  h.scale h0 hu hk ha.le (m := Max.max x y) ((strictMonoOn_gammaP ha).monotoneOn.mono Icc_subset_Ici_self)
    (fun _ hz => gammaP_pos ha hz.1) (fun _ hz _ ht ht1 => gammaP_shrink ha hz.1 ht ht1) hx (le_max_left _ _)
    (le_max_right _ _)

theorem betaI_shrink {a b z t c : ℝ} (ha : 0 < a) (hb : 0 < b) (hz : 0 < z) (hz1 : z ≤ 1) (ht : 0 < t) (ht1 : t ≤ 1)
    (hs : ∀ s ∈ Ioo 0 z, t ^ c * (1 - s) ^ (b - 1) ≤ (1 - t * s) ^ (b - 1)) :
    t ^ (a + c) * betaI a b z ≤ betaI a b (t * z) := by
  have hB := beta_pos ha hb
  have htz : t * z ≤ 1 := by nlinarith
  rw [betaI, betaI, ← mul_div_assoc]
  refine div_le_div_of_nonneg_right (integral_scale hz.le ht ?_ ?_ fun s h => ?_) hB.le
  · exact betaInt_intervalIntegrable ha hb ⟨le_rfl, zero_le_one⟩ ⟨hz.le, hz1⟩
  · exact betaInt_intervalIntegrable ha hb ⟨le_rfl, zero_le_one⟩ ⟨by positivity, htz⟩
  · have e : t * ((t * s) ^ (a - 1) * (1 - t * s) ^ (b - 1)) = t ^ a * s ^ (a - 1) * (1 - t * s) ^ (b - 1) := by
      rw [Real.mul_rpow ht.le h.1.le, Real.rpow_sub_one ht.ne']; field_simp
    have e' : t ^ (a + c) * (s ^ (a - 1) * (1 - s) ^ (b - 1)) = t ^ a * s ^ (a - 1) * (t ^ c * (1 - s) ^ (b - 1)) := by
      rw [Real.rpow_add ht]; ring
    rw [e, e']
    have := h.1
    exact mul_le_mul_of_nonneg_left (hs s h) (by positivity)

theorem betaI_pos {a b z : ℝ} (ha : 0 < a) (hb : 0 < b) (hz : 0 < z) (h1 : z ≤ 1) : 0 < betaI a b z := by
  have := strictMonoOn_betaI ha hb ⟨le_rfl, zero_le_one⟩ ⟨hz.le, h1⟩ hz
  rwa [betaI_zero] at this

/-- `b ≥ 1`: everywhere -/
theorem Spec.Rel.betaI (h0 : 0 ≤ u) (hu : u < 1) (hk : 0 ≤ k) {a b : ℝ} (ha : 0 < a) (hb : 1 ≤ b) (h : Rel u k x y)
    (hx : 0 < x) (hx1 : x ≤ 1) (hy1 : y ≤ 1) : Rel u (k * a) (betaI a b x) (betaI a b y) := by
  have hb0 : 0 < b := by linarith
  refine h.scale h0 hu hk ha.le (m := 1) (strictMonoOn_betaI ha hb0).monotoneOn
    (fun _ hz => betaI_pos ha hb0 hz.1 hz.2) (fun z hz t ht ht1 => ?_) hx hx1 hy1
  have := betaI_shrink (c := 0) ha hb0 hz.1 hz.2 ht ht1 fun s hs => by
    rw [Real.rpow_zero, one_mul]
    have := hs.1
    have := hs.2.trans_le hz.2
    exact Real.rpow_le_rpow (by linarith) (by nlinarith) (by linarith)
  rwa [add_zero] at this

/-- any `b`, up to 2/3 -/
theorem Spec.Rel.betaI_lower (h0 : 0 ≤ u) (hu : u < 1) (hk : 0 ≤ k) {a b : ℝ} (ha : 0 < a) (hb : 0 < b) (h : Rel u k x y)
    (hx : 0 < x) (hx1 : x ≤ 2 / 3) (hy1 : y ≤ 2 / 3) : Rel u (k * (a + 2)) (Stats.Spec.betaI a b x) (Stats.Spec.betaI a b y) := by
  refine h.scale h0 hu hk (by positivity) (m := 2 / 3)
    ((strictMonoOn_betaI ha hb).monotoneOn.mono (Icc_subset_Icc_right (by norm_num)))
    (fun _ hz => betaI_pos ha hb hz.1 (by linarith [hz.2])) (fun z hz t ht ht1 => ?_) hx hx1 hy1
  refine betaI_shrink ha hb hz.1 (by linarith [hz.2]) ht ht1 fun s hs => ?_
  have s0 := hs.1
  have s1 := hs.2.trans_le hz.2
  have p : 0 < 1 - s := by linarith
  have q : 0 < 1 - t * s := by nlinarith
  rcases le_total 1 b with hb1 | hb1
  · have h1 : (1 - s) ^ (b - 1) ≤ (1 - t * s) ^ (b - 1) := Real.rpow_le_rpow p.le (by nlinarith) (by linarith)
    have h2 : t ^ (2 : ℝ) ≤ 1 := Real.rpow_le_one ht.le ht1 (by norm_num)
    have h3 : 0 ≤ (1 - s) ^ (b - 1) := by positivity
    nlinarith
  · -- `1 - t s ≤ (1 - s) / t^2`
    have h1 : t ^ 2 * (1 - t * s) ≤ 1 - s := by
      have e : 1 - s - t ^ 2 * (1 - t * s) = (1 - t) * ((1 + t) - s * (1 + t + t ^ 2)) := by ring
      have : s * (1 + t + t ^ 2) ≤ 2 / 3 * (1 + t + t ^ 2) := by gcongr
      have : 0 ≤ (1 - t) * ((1 + t) - s * (1 + t + t ^ 2)) := mul_nonneg (by linarith) (by nlinarith)
      linarith
    have h2 : (1 - s) ^ (b - 1) ≤ (t ^ 2 * (1 - t * s)) ^ (b - 1) :=
      Real.rpow_le_rpow_of_nonpos (by positivity) h1 (by linarith)
    rw [Real.mul_rpow (by positivity) q.le] at h2
    have h3 : (t ^ 2) ^ (b - 1) * t ^ (2 : ℝ) ≤ 1 := by
      rw [← Real.rpow_natCast, ← Real.rpow_mul ht.le, ← Real.rpow_add ht]
      exact Real.rpow_le_one ht.le ht1 (by push_cast; linarith)
    have h4 : 0 ≤ (1 - t * s) ^ (b - 1) := by positivity
    calc t ^ (2 : ℝ) * (1 - s) ^ (b - 1) ≤ t ^ (2 : ℝ) * ((t ^ 2) ^ (b - 1) * (1 - t * s) ^ (b - 1)) := by gcongr
      _ = ((t ^ 2) ^ (b - 1) * t ^ (2 : ℝ)) * (1 - t * s) ^ (b - 1) := by ring
      _ ≤ 1 * (1 - t * s) ^ (b - 1) := by gcongr
      _ = _ := one_mul _

end Stats
