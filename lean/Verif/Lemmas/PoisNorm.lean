import Verif.Lemmas.RealDisc
import Verif.Lemmas.RealCdf
import Mathlib.Analysis.Calculus.Deriv.MeanValue

/-! The Poisson distribution function lies below the continuity-corrected normal approximation
`P(X ≤ k) ≤ Φ((k + 3/2 - λ)/√λ)` (real analysis; used for the starting point of `qpois`). -/

open Set Filter Topology Finset
namespace Stats
open Spec

/-- the argument of `Φ` -/
noncomputable def pnV (M l : ℝ) : ℝ := (M - l) / √l
noncomputable def pnG (M l : ℝ) : ℝ := -(M - l) ^ 2 / (2 * l) + l + Real.log (M + l) - M * Real.log l

theorem pnG_mono {M : ℝ} (hM : 0 < M) : MonotoneOn (pnG M) (Ioi 0) := by
  have hd : ∀ l ∈ Ioi (0 : ℝ), HasDerivAt (pnG M) ((M - l) ^ 2 / (2 * l ^ 2) + 1 / (M + l)) l := by
    intro l hl
    have hl : 0 < l := hl
    have h1 : HasDerivAt (fun l : ℝ => -(M - l) ^ 2 / (2 * l)) _ l :=
      (((hasDerivAt_id l).const_sub M).pow 2).neg.div ((hasDerivAt_id l).const_mul 2) (by simp; exact hl.ne')
    have h2 : HasDerivAt (fun l : ℝ => Real.log (M + l)) _ l :=
      ((hasDerivAt_id l).const_add M).log (by simp; positivity)
    have h3 := (Real.hasDerivAt_log hl.ne').const_mul M
    refine (((h1.add (hasDerivAt_id l)).add h2).sub h3).congr_deriv ?_
    have : M + l ≠ 0 := by positivity
    simp
    field_simp
    ring
  apply monotoneOn_of_deriv_nonneg (convex_Ioi 0)
  · exact fun l hl => (hd l hl).continuousAt.continuousWithinAt
  · rw [interior_Ioi]; exact fun l hl => (hd l hl).differentiableAt.differentiableWithinAt
  · rw [interior_Ioi]
    intro l hl
    have hl' : 0 < l := hl
    rw [(hd l hl).deriv]; positivity

noncomputable def pnD (k : ℕ) (l : ℝ) : ℝ := Phi (pnV (k + 3 / 2) l) - (1 - gammaP (k + 1) l)

theorem hasDerivAt_pnD (k : ℕ) {l : ℝ} (hl : 0 < l) : HasDerivAt (pnD k)
    (l ^ k * Real.exp (-l) / k.factorial *
      (1 - k.factorial / (2 * √(2 * Real.pi)) * Real.exp (pnG (k + 3 / 2) l))) l := by
  have hs : 0 < √l := Real.sqrt_pos.2 hl
  have hss : √l ^ 2 = l := Real.sq_sqrt hl.le
  have hM : (0 : ℝ) < k + 3 / 2 := by positivity
  have hv : HasDerivAt (pnV (k + 3 / 2)) _ l :=
    ((hasDerivAt_id l).const_sub _).div (Real.hasDerivAt_sqrt hl.ne') hs.ne'
  have hp : (0 : ℝ) < (k : ℝ) + 1 := by positivity
  have h1 := (hasDerivAt_Phi (pnV (k + 3 / 2) l)).comp l hv
  have h2 := (hasDerivAt_gammaP hp hl).const_sub 1
  refine (h1.sub h2).congr_deriv ?_
  have e1 : l ^ ((k : ℝ) + 1 - 1) = l ^ k := by rw [add_sub_cancel_right, Real.rpow_natCast]
  have e2 : Real.exp (pnG (k + 3 / 2) l) =
      Real.exp (-(pnV (k + 3 / 2) l) ^ 2 / 2) * Real.exp l * (k + 3 / 2 + l) / (l ^ k * l * √l) := by
    have hv2 : -(pnV (k + 3 / 2) l) ^ 2 / 2 = -((k : ℝ) + 3 / 2 - l) ^ 2 / (2 * l) := by
      rw [pnV, div_pow, hss]; field_simp
    have e3 : Real.exp (((k : ℝ) + 3 / 2) * Real.log l) = l ^ k * l * √l := by
      rw [mul_comm, ← Real.rpow_def_of_pos hl, show (k : ℝ) + 3 / 2 = k + 1 + 1 / 2 by ring,
        Real.rpow_add hl, Real.rpow_add hl, Real.rpow_natCast, Real.rpow_one, Real.sqrt_eq_rpow]
    rw [hv2, pnG, Real.exp_sub, Real.exp_add, Real.exp_add, Real.exp_log (by positivity), e3]
  have e4 : normPdf 0 1 (pnV (k + 3 / 2) l) = 1 / √(2 * Real.pi) * Real.exp (-(pnV (k + 3 / 2) l) ^ 2 / 2) := by
    rw [normPdf]; simp
  rw [e1, e2, e4, Real.Gamma_nat_eq_factorial]
  set E := Real.exp (-(pnV (k + 3 / 2) l) ^ 2 / 2)
  have hk : (0 : ℝ) < k.factorial := by positivity
  have hpi : 0 < √(2 * Real.pi) := by positivity
  have hle : Real.exp (-l) * Real.exp l = 1 := by rw [← Real.exp_add]; simp
  have hlk : 0 < l ^ k := by positivity
  rw [mul_sub, mul_one]
  have e5 : l ^ k * Real.exp (-l) / k.factorial * (k.factorial / (2 * √(2 * Real.pi)) *
      (E * Real.exp l * (k + 3 / 2 + l) / (l ^ k * l * √l))) =
      E * (k + 3 / 2 + l) / (2 * √(2 * Real.pi) * l * √l) * (Real.exp (-l) * Real.exp l) := by
    field_simp
  rw [e5, hle]
  simp only [id]
  rw [hss]
  field_simp
  rw [hss]
  ring

theorem tendsto_pnD_zero (k : ℕ) : Tendsto (pnD k) (𝓝[>] 0) (𝓝 0) := by
  have hp : (0 : ℝ) < (k : ℝ) + 1 := by positivity
  have hM : (0 : ℝ) < k + 3 / 2 := by positivity
  have h1 : Tendsto (pnV (k + 3 / 2)) (𝓝[>] 0) atTop := by
    have a : Tendsto (fun l : ℝ => (k : ℝ) + 3 / 2 - l) (𝓝[>] 0) (𝓝 ((k : ℝ) + 3 / 2 - 0)) :=
      (tendsto_const_nhds.sub tendsto_id).mono_left nhdsWithin_le_nhds
    have b : Tendsto (fun l : ℝ => (√l)⁻¹) (𝓝[>] 0) atTop := by
      apply tendsto_inv_nhdsGT_zero.comp
      rw [tendsto_nhdsWithin_iff]
      refine ⟨?_, eventually_mem_nhdsWithin.mono fun l hl => Real.sqrt_pos.2 hl⟩
      have := Real.continuous_sqrt.tendsto 0
      rw [Real.sqrt_zero] at this
      exact this.mono_left nhdsWithin_le_nhds
    exact Tendsto.pos_mul_atTop (by simpa using hM) a b
  have h2 := tendsto_Phi_atTop.comp h1
  have h3 := h2.sub (tendsto_const_nhds (x := (1 : ℝ)).sub (tendsto_gammaP_zero hp))
  change Tendsto (fun x => Phi (pnV (k + 3 / 2) x) - (1 - gammaP (k + 1) x)) _ _
  simpa using h3

theorem tendsto_pnD_atTop (k : ℕ) : Tendsto (pnD k) atTop (𝓝 0) := by
  have hp : (0 : ℝ) < (k : ℝ) + 1 := by positivity
  have hM : (0 : ℝ) < k + 3 / 2 := by positivity
  have h1 : Tendsto (pnV (k + 3 / 2)) atTop atBot := by
    have b : Tendsto (fun l : ℝ => √l) atTop atTop := Real.tendsto_sqrt_atTop
    have c : Tendsto (fun l : ℝ => (k + 3 / 2) + -√l) atTop atBot :=
      tendsto_atBot_add_const_left _ _ (tendsto_neg_atTop_atBot.comp b)
    refine tendsto_atBot_mono' _ ?_ c
    filter_upwards [eventually_ge_atTop (1 : ℝ)] with l hl
    have hs : 1 ≤ √l := Real.one_le_sqrt.2 hl
    have hss : √l * √l = l := Real.mul_self_sqrt (by linarith)
    rw [pnV, div_le_iff₀ (by linarith)]
    nlinarith
  have h2 := tendsto_Phi_atBot.comp h1
  have h3 := h2.sub (tendsto_const_nhds (x := (1 : ℝ)).sub (tendsto_gammaP hp))
  change Tendsto (fun x => Phi (pnV (k + 3 / 2) x) - (1 - gammaP (k + 1) x)) _ _
  simpa using h3

theorem pnD_nonneg (k : ℕ) {l : ℝ} (hl : 0 < l) : 0 ≤ pnD k l := by
  have hM : (0 : ℝ) < k + 3 / 2 := by positivity
  have hC : (0 : ℝ) < k.factorial / (2 * √(2 * Real.pi)) := by positivity
  by_contra hneg
  rw [not_le] at hneg
  by_cases hg : 1 ≤ k.factorial / (2 * √(2 * Real.pi)) * Real.exp (pnG (k + 3 / 2) l)
  · have hanti : AntitoneOn (pnD k) (Ici l) := by
      apply antitoneOn_of_deriv_nonpos (convex_Ici l)
      · exact fun x hx => (hasDerivAt_pnD k (hl.trans_le hx)).continuousAt.continuousWithinAt
      · rw [interior_Ici]
        exact fun x hx => (hasDerivAt_pnD k (hl.trans hx)).differentiableAt.differentiableWithinAt
      · rw [interior_Ici]
        intro x hx
        have hx0 : 0 < x := hl.trans hx
        rw [(hasDerivAt_pnD k hx0).deriv]
        have := Real.exp_le_exp.2 (pnG_mono hM hl hx0 (le_of_lt hx))
        have : 1 ≤ k.factorial / (2 * √(2 * Real.pi)) * Real.exp (pnG (k + 3 / 2) x) :=
          hg.trans (mul_le_mul_of_nonneg_left this hC.le)
        apply mul_nonpos_of_nonneg_of_nonpos (by positivity) (by linarith)
    have : (0 : ℝ) ≤ pnD k l := by
      refine le_of_tendsto (tendsto_pnD_atTop k) ?_
      filter_upwards [eventually_ge_atTop l] with x hx
      exact hanti self_mem_Ici hx hx
    linarith
  · rw [not_le] at hg
    have hmono : MonotoneOn (pnD k) (Ioc 0 l) := by
      apply monotoneOn_of_deriv_nonneg (convex_Ioc 0 l)
      · exact fun x hx => (hasDerivAt_pnD k hx.1).continuousAt.continuousWithinAt
      · rw [interior_Ioc]
        exact fun x hx => (hasDerivAt_pnD k hx.1).differentiableAt.differentiableWithinAt
      · rw [interior_Ioc]
        intro x hx
        rw [(hasDerivAt_pnD k hx.1).deriv]
        have := Real.exp_le_exp.2 (pnG_mono hM hx.1 hl hx.2.le)
        have : k.factorial / (2 * √(2 * Real.pi)) * Real.exp (pnG (k + 3 / 2) x) ≤ 1 :=
          (mul_le_mul_of_nonneg_left this hC.le).trans hg.le
        have hx0 := hx.1
        exact mul_nonneg (by positivity) (by linarith)
    have : (0 : ℝ) ≤ pnD k l := by
      refine le_of_tendsto (tendsto_pnD_zero k) ?_
      filter_upwards [Ioc_mem_nhdsGT hl] with x hx
      exact hmono hx ⟨hl, le_rfl⟩ hx.2
    linarith

/-- the Poisson distribution function is at most the normal one with continuity correction 3/2 -/
theorem cumZ_pois_le_Phi (k : ℕ) {l : ℝ} (hl : 0 < l) :
    cumZ (poisPmf l) k ≤ Phi ((k + 3 / 2 - l) / √l) := by
  have := pnD_nonneg k hl
  rw [pnD, pnV] at this
  rw [cumZ_pois hl.le]; linarith

end Stats
