import Verif.Props.C42C
import Verif.Lemmas.Order
import Mathlib.Analysis.Calculus.LHopital
import Mathlib.Analysis.SpecialFunctions.Pow.Asymptotics

/-!
# C63: the Student-t quantile in the far lower tail

Hill's start value and the six rounds of refinement together: as the probability goes to 0, the relative error of `qt` falls
below `10^-50`, for every number of degrees of freedom from 1 on.
-/

set_option linter.unusedSectionVars false
open Classical MeasureTheory Filter Topology
namespace Stats
open Fl Spec
variable [Lib] [Ideal]

/-! ### the tail of the distribution -/

/-- the leading coefficient of the density -/
noncomputable def tLead (ν : ℝ) : ℝ := Real.Gamma ((ν + 1) / 2) / (√(ν * Real.pi) * Real.Gamma (ν / 2)) * ν ^ ((ν + 1) / 2)

/-- the probability of a value above `v` -/
noncomputable def tUp (ν v : ℝ) : ℝ := 1 - tCdfCoded ν v

theorem tLead_pos {ν : ℝ} (h : 0 < ν) : 0 < tLead ν := by
  have h1 := Real.Gamma_pos_of_pos (half_pos h)
  have h2 := Real.Gamma_pos_of_pos (show 0 < (ν + 1) / 2 by linarith)
  have := Real.pi_pos
  rw [tLead]
  positivity

theorem tPdf_far {ν : ℝ} (h : 0 < ν) : Tendsto (fun v => v ^ (ν + 1) * tPdf ν v) atTop (𝓝 (tLead ν)) := by
  have h1 : Tendsto (fun v : ℝ => (1 / v ^ 2 + 1 / ν)⁻¹) atTop (𝓝 ν) := by
    have h2 : Tendsto (fun v : ℝ => 1 / v ^ 2 + 1 / ν) atTop (𝓝 (0 + 1 / ν)) := by
      refine Tendsto.add ?_ tendsto_const_nhds
      simp only [one_div]
      exact tendsto_inv_atTop_zero.comp (tendsto_pow_atTop two_ne_zero)
    have := h2.inv₀ (by rw [zero_add]; positivity)
    simpa using this
  have h2 := ((h1.rpow_const (p := (ν + 1) / 2) (Or.inl h.ne')).const_mul
    (Real.Gamma ((ν + 1) / 2) / (√(ν * Real.pi) * Real.Gamma (ν / 2))))
  refine h2.congr' ?_
  filter_upwards [eventually_gt_atTop 0] with v hv
  have e1 : v ^ (ν + 1) = (v ^ 2) ^ ((ν + 1) / 2) := by
    rw [← Real.rpow_natCast v 2, ← Real.rpow_mul hv.le]
    congr 1; push_cast; ring
  have hp : 0 < 1 + v ^ 2 / ν := by positivity
  have e2 : (1 / v ^ 2 + 1 / ν)⁻¹ = v ^ 2 / (1 + v ^ 2 / ν) := by field_simp
  rw [tPdf, e1, Real.rpow_neg hp.le, e2, Real.div_rpow (by positivity) hp.le]
  ring

theorem tUp_hasDerivAt {ν : ℝ} (h : 0 < ν) (v : ℝ) : HasDerivAt (tUp ν) (-tPdf ν v) v :=
  ((isCdf_tCoded h).hasDerivAt (continuous_tPdf h) v).const_sub 1

theorem tUp_zero {ν : ℝ} (h : 0 < ν) : Tendsto (tUp ν) atTop (𝓝 0) := by
  have := (isCdf_tCoded h).tendsto_atTop.const_sub 1
  rwa [sub_self] at this

theorem tUp_far {ν : ℝ} (h : 0 < ν) : Tendsto (fun v => v ^ ν * tUp ν v) atTop (𝓝 (tLead ν / ν)) := by
  have hg : ∀ᶠ v : ℝ in atTop, HasDerivAt (fun v : ℝ => v ^ (-ν)) (-ν * v ^ (-ν - 1)) v :=
    (eventually_gt_atTop 0).mono fun v hv => Real.hasDerivAt_rpow_const (Or.inl hv.ne')
  have hl := HasDerivAt.lhopital_zero_atTop (f := tUp ν) (f' := fun v => -tPdf ν v) (l := 𝓝 (tLead ν / ν))
    (.of_forall (tUp_hasDerivAt h)) hg
    ((eventually_gt_atTop 0).mono fun v hv => by
      have := Real.rpow_pos_of_pos hv (-ν - 1)
      exact (mul_neg_of_neg_of_pos (by linarith) this).ne) (tUp_zero h) (tendsto_rpow_neg_atTop h) ?_
  · refine hl.congr' ?_
    filter_upwards [eventually_gt_atTop 0] with v hv
    rw [Real.rpow_neg hv.le, div_inv_eq_mul, mul_comm]
  · refine ((tPdf_far h).div_const ν).congr' ?_
    filter_upwards [eventually_gt_atTop 0] with v hv
    rw [show -ν - 1 = -(ν + 1) by ring, Real.rpow_neg hv.le]
    have := Real.rpow_pos_of_pos hv (ν + 1)
    field_simp

theorem tUp_pos {ν : ℝ} (h : 0 < ν) (v : ℝ) : 0 < tUp ν v := by
  have hs : StrictAnti (tUp ν) := strictAnti_of_deriv_neg fun x => by
    rw [(tUp_hasDerivAt h x).deriv]; linarith [tPdf_pos h x]
  have h1 : tUp ν (v + 1) < tUp ν v := hs (by linarith)
  have h2 := (isCdf_tCoded h).le_one (v + 1)
  unfold tUp at h1 ⊢
  linarith

/-- the quantiles go to infinity -/
theorem tUp_quantile {ν : ℝ} (h : 0 < ν) {q : ℝ → ℝ} (hq : ∀ᶠ p in 𝓝[>] 0, tUp ν (q p) = p) : Tendsto q (𝓝[>] 0) atTop := by
  refine tendsto_atTop.2 fun M => ?_
  have hM := tUp_pos h M
  filter_upwards [hq, Ioo_mem_nhdsGT hM] with p hp hpM
  by_contra hc
  have := (isCdf_tCoded h).mono (not_le.1 hc).le
  have h2 : tUp ν M ≤ tUp ν (q p) := by unfold tUp; linarith
  rw [hp] at h2
  linarith [hpM.2]

/-! ### one round in the tail -/

/-- what a round does to the ratio of value and quantile, far out -/
noncomputable def farMap (ν r : ℝ) : ℝ := r * (1 + (1 - r ^ ν) / ν + ((1 - r ^ ν) / ν) ^ 2 * (1 + ν) / 2)

theorem farMap_pos {ν r : ℝ} (h : 0 < ν) (hr : 0 < r) : 0 < farMap ν r := by
  refine mul_pos hr ?_
  set e := (1 - r ^ ν) / ν
  nlinarith [sq_nonneg (e * (1 + ν) + 1), sq_nonneg e]

theorem round_ratio {ι : Type*} {l : Filter ι} {ν ρ : ℝ} (h : 0 < ν) {p v q : ι → ℝ} (hq : Tendsto q l atTop)
    (hp : ∀ᶠ i in l, tUp ν (q i) = p i) (hv : Tendsto (fun i => v i / q i) l (𝓝 ρ)) (hρ : 0 < ρ) :
    Tendsto (fun i => tRound ν (p i) (v i) / q i) l (𝓝 (farMap ν ρ)) := by
  have hA := tLead_pos h
  have hq0 := hq.eventually_gt_atTop 0
  have hvt : Tendsto v l atTop := by
    have := hv.pos_mul_atTop hρ hq
    refine this.congr' ?_
    filter_upwards [hq0] with i hi
    exact div_mul_cancel₀ _ hi.ne'
  have hv0 := hvt.eventually_gt_atTop 0
  have a1 := (tUp_far h).comp hvt
  have a2 := (tPdf_far h).comp hvt
  have a3 := (tUp_far h).comp hq
  have a4 := hv.rpow_const (p := ν) (Or.inl hρ.ne')
  have hX : Tendsto (fun i => tCorr ν (p i) (v i) / v i) l (𝓝 ((1 - ρ ^ ν) / ν)) := by
    have := (a1.sub (a4.mul a3)).div a2 hA.ne'
    have e : (tLead ν / ν - ρ ^ ν * (tLead ν / ν)) / tLead ν = (1 - ρ ^ ν) / ν := by field_simp
    rw [e] at this
    refine this.congr' ?_
    filter_upwards [hp, hq0, hv0] with i hi hqi hvi
    have f0 := tPdf_pos h (v i)
    have v1 := Real.rpow_pos_of_pos hvi ν
    have q1 := Real.rpow_pos_of_pos hqi ν
    simp only [Function.comp_apply, Pi.div_apply]
    rw [hi, tCorr, Real.div_rpow hvi.le hqi.le, Real.rpow_add_one hvi.ne', show 1 - tCdfCoded ν (v i) - p i = tUp ν (v i) - p i from rfl]
    field_simp
  have hS : Tendsto (fun i => v i ^ 2 / (ν + v i ^ 2)) l (𝓝 1) := by
    have h2 : Tendsto (fun v : ℝ => (ν * (v ^ 2)⁻¹ + 1)⁻¹) atTop (𝓝 1) := by
      have : Tendsto (fun v : ℝ => ν * (v ^ 2)⁻¹ + 1) atTop (𝓝 (ν * 0 + 1)) :=
        ((tendsto_inv_atTop_zero.comp (tendsto_pow_atTop two_ne_zero)).const_mul ν).add tendsto_const_nhds
      have := this.inv₀ (by norm_num)
      simpa using this
    refine (h2.comp hvt).congr' ?_
    filter_upwards [hv0] with i hi
    simp only [Function.comp_apply]
    field_simp
  have := hv.mul ((hX.const_add 1).add (((hX.pow 2).mul ((hS.mul_const (1 + ν)))).div_const 2))
  rw [one_mul] at this
  refine this.congr' ?_
  filter_upwards [hq0, hv0] with i hqi hvi
  have : ν + v i ^ 2 ≠ 0 := by positivity
  rw [tRound_eq h, tSlope]
  field_simp

/-- `n` rounds -/
theorem rounds_ratio {ι : Type*} {l : Filter ι} {ν ρ : ℝ} (h : 0 < ν) {p v q : ι → ℝ} (hq : Tendsto q l atTop)
    (hp : ∀ᶠ i in l, tUp ν (q i) = p i) (hv : Tendsto (fun i => v i / q i) l (𝓝 ρ)) (hρ : 0 < ρ) (n : ℕ) :
    Tendsto (fun i => (tRound ν (p i))^[n] (v i) / q i) l (𝓝 ((farMap ν)^[n] ρ)) ∧ 0 < (farMap ν)^[n] ρ := by
  induction n with
  | zero => exact ⟨hv, hρ⟩
  | succ n ih =>
    simp only [Function.iterate_succ_apply']
    exact ⟨round_ratio h hq hp ih.1 ih.2, farMap_pos h ih.2⟩

/-! ### the rounds bring the ratio to 1 -/

theorem log_cubic {ν : ℝ} (hν : 1 ≤ ν) {η : ℝ} (h0 : -(83 / 200) ≤ η) (h1 : η ≤ 59 / 200) :
    |Real.log (1 - η) + ν * Real.log (1 + η / ν + (η / ν) ^ 2 * (1 + ν) / 2)| ≤ 2 * |η| ^ 3 := by
  have hν0 : 0 < ν := by linarith
  have hQ : ∀ t : ℝ, 3 / 4 ≤ 1 + t / ν + (t / ν) ^ 2 * (1 + ν) / 2 := fun t => by
    nlinarith [sq_nonneg (t / ν * 2 + 1), mul_nonneg (sq_nonneg (t / ν)) (show 0 ≤ ν - 1 by linarith)]
  set g : ℝ → ℝ := fun t => Real.log (1 - t) + ν * Real.log (1 + t / ν + (t / ν) ^ 2 * (1 + ν) / 2) with hg
  have hd : ∀ t ∈ Set.Icc (-(83 / 200) : ℝ) (59 / 200), HasDerivAt g
      (-(t ^ 2 * ((1 + ν) * (2 * ν + 1) / (2 * ν ^ 2))) / ((1 - t) * (1 + t / ν + (t / ν) ^ 2 * (1 + ν) / 2))) t := by
    rintro t ⟨ht0, ht1⟩
    have p1 : 0 < 1 - t := by linarith
    have p2 := (by norm_num : (0 : ℝ) < 3 / 4).trans_le (hQ t)
    have d1 := ((hasDerivAt_id t).const_sub 1).log p1.ne'
    have d2 : HasDerivAt (fun t : ℝ => 1 + t / ν + (t / ν) ^ 2 * (1 + ν) / 2) (1 / ν + (2 * (t / ν) ^ 1 * (1 / ν)) * (1 + ν) / 2) t := by
      have e := (hasDerivAt_id t).div_const ν
      exact (e.const_add 1).add (((e.pow 2).mul_const (1 + ν)).div_const 2)
    refine (d1.add ((d2.log p2.ne').const_mul ν)).congr_deriv ?_
    simp only [id_eq]
    generalize hQt : 1 + t / ν + (t / ν) ^ 2 * (1 + ν) / 2 = Q at p2 ⊢
    field_simp
    rw [← hQt]
    field_simp
    ring
  have hs : ∀ t ∈ Set.Icc (-(83 / 200) : ℝ) (59 / 200),
      0 ≤ t ^ 2 * ((1 + ν) * (2 * ν + 1) / (2 * ν ^ 2)) / ((1 - t) * (1 + t / ν + (t / ν) ^ 2 * (1 + ν) / 2)) ∧
      t ^ 2 * ((1 + ν) * (2 * ν + 1) / (2 * ν ^ 2)) / ((1 - t) * (1 + t / ν + (t / ν) ^ 2 * (1 + ν) / 2)) ≤ 6 * t ^ 2 := by
    rintro t ⟨ht0, ht1⟩
    have p1 : 141 / 200 ≤ 1 - t := by linarith
    have p2 := hQ t
    have p3 : (1 + ν) * (2 * ν + 1) / (2 * ν ^ 2) ≤ 3 := by
      rw [div_le_iff₀ (by positivity)]; nlinarith
    have p4 : 141 / 200 * (3 / 4) ≤ (1 - t) * (1 + t / ν + (t / ν) ^ 2 * (1 + ν) / 2) :=
      mul_le_mul p1 p2 (by norm_num) (by linarith)
    have p5 : 0 < (1 - t) * (1 + t / ν + (t / ν) ^ 2 * (1 + ν) / 2) := by linarith
    refine ⟨by positivity, ?_⟩
    rw [div_le_iff₀ p5]
    have : t ^ 2 * ((1 + ν) * (2 * ν + 1) / (2 * ν ^ 2)) ≤ t ^ 2 * 3 := mul_le_mul_of_nonneg_left p3 (sq_nonneg t)
    nlinarith [mul_le_mul_of_nonneg_left p4 (sq_nonneg t), sq_nonneg t]
  have hanti : AntitoneOn g (Set.Icc (-(83 / 200) : ℝ) (59 / 200)) := by
    refine antitoneOn_of_deriv_nonpos (convex_Icc _ _) (fun t ht => (hd t ht).continuousAt.continuousWithinAt) (fun t ht => ?_) fun t ht => ?_
    · exact (hd t (interior_subset ht)).differentiableAt.differentiableWithinAt
    · rw [(hd t (interior_subset ht)).deriv, neg_div]
      linarith [(hs t (interior_subset ht)).1]
  have hk : ∀ t ∈ Set.Icc (-(83 / 200) : ℝ) (59 / 200), HasDerivAt (fun t => g t + 2 * t ^ 3)
      (-(t ^ 2 * ((1 + ν) * (2 * ν + 1) / (2 * ν ^ 2))) / ((1 - t) * (1 + t / ν + (t / ν) ^ 2 * (1 + ν) / 2)) + 6 * t ^ 2) t := fun t ht => by
    refine ((hd t ht).add ((hasDerivAt_pow 3 t).const_mul 2)).congr_deriv ?_
    push_cast; ring
  have hmono : MonotoneOn (fun t => g t + 2 * t ^ 3) (Set.Icc (-(83 / 200) : ℝ) (59 / 200)) := by
    refine monotoneOn_of_deriv_nonneg (convex_Icc _ _) (fun t ht => (hk t ht).continuousAt.continuousWithinAt) (fun t ht => ?_) fun t ht => ?_
    · exact (hk t (interior_subset ht)).differentiableAt.differentiableWithinAt
    · rw [(hk t (interior_subset ht)).deriv, neg_div]
      linarith [(hs t (interior_subset ht)).2]
  have g0 : g 0 = 0 := by simp [hg]
  have m0 : (0 : ℝ) ∈ Set.Icc (-(83 / 200) : ℝ) (59 / 200) := by constructor <;> norm_num
  have mη : η ∈ Set.Icc (-(83 / 200) : ℝ) (59 / 200) := ⟨h0, h1⟩
  show |g η| ≤ _
  rcases le_total 0 η with hη | hη
  · have b1 := hanti m0 mη hη
    have b2 := hmono m0 mη hη
    simp only [g0] at b1 b2
    rw [abs_of_nonneg hη, abs_le]
    constructor <;> nlinarith [pow_nonneg hη 3]
  · have b1 := hanti mη m0 hη
    have b2 := hmono mη m0 hη
    simp only [g0] at b1 b2
    have e : |η| ^ 3 = -η ^ 3 := by rw [abs_of_nonpos hη]; ring
    rw [e, abs_le]
    constructor <;> nlinarith

/-- a round cubes the error of the `ν`-th power of the ratio -/
theorem farMap_cubic {ν : ℝ} (hν : 1 ≤ ν) {r : ℝ} (hr : 0 < r) (h0 : -(83 / 200) ≤ 1 - r ^ ν) (h1 : 1 - r ^ ν ≤ 59 / 200) :
    |1 - farMap ν r ^ ν| ≤ 4 * |1 - r ^ ν| ^ 3 := by
  have hν0 : 0 < ν := by linarith
  have hc := log_cubic hν h0 h1
  set η := 1 - r ^ ν with hη
  have hb : |η| ≤ 83 / 200 := abs_le.2 ⟨h0, by linarith⟩
  have hb3 : |η| ^ 3 ≤ (83 / 200) ^ 3 := pow_le_pow_left₀ (abs_nonneg _) hb 3
  have hp := Real.rpow_pos_of_pos hr ν
  have hm : 0 < 1 + η / ν + (η / ν) ^ 2 * (1 + ν) / 2 := by
    nlinarith [sq_nonneg (η / ν * 2 + 1), mul_nonneg (sq_nonneg (η / ν)) (show 0 ≤ ν - 1 by linarith)]
  have e : farMap ν r ^ ν = Real.exp (Real.log (1 - η) + ν * Real.log (1 + η / ν + (η / ν) ^ 2 * (1 + ν) / 2)) := by
    rw [farMap, ← hη, Real.mul_rpow hr.le hm.le, Real.exp_add, show 1 - η = r ^ ν by rw [hη]; ring, Real.exp_log hp,
      Real.rpow_def_of_pos hm, mul_comm ν]
  rw [e, abs_sub_comm]
  refine (Real.abs_exp_sub_one_le (hc.trans (by nlinarith))).trans ?_
  linarith

/-- six rounds -/
theorem farMap_six {ν : ℝ} (hν : 1 ≤ ν) {r : ℝ} (hr : 0 < r) (h0 : -(83 / 200) ≤ 1 - r ^ ν) (h1 : 1 - r ^ ν ≤ 59 / 200) :
    |1 - (farMap ν)^[6] r| ≤ (83 / 100) ^ 729 := by
  have hν0 : 0 < ν := by linarith
  have key : ∀ n : ℕ, 0 < (farMap ν)^[n] r ∧ -(83 / 200) ≤ 1 - (farMap ν)^[n] r ^ ν ∧ 1 - (farMap ν)^[n] r ^ ν ≤ 59 / 200 ∧
      2 * |1 - (farMap ν)^[n] r ^ ν| ≤ (83 / 100) ^ 3 ^ n := by
    intro n
    induction n with
    | zero =>
      refine ⟨hr, h0, h1, ?_⟩
      have : |1 - r ^ ν| ≤ 83 / 200 := abs_le.2 ⟨h0, by linarith⟩
      simp only [Function.iterate_zero, id_eq, pow_zero, pow_one]
      linarith
    | succ n ih =>
      obtain ⟨i1, i2, i3, i4⟩ := ih
      rw [Function.iterate_succ_apply']
      have hc := farMap_cubic hν i1 i2 i3
      have h4 : 2 * |1 - farMap ν ((farMap ν)^[n] r) ^ ν| ≤ (83 / 100) ^ 3 ^ (n + 1) := by
        rw [pow_succ 3 n, pow_mul]
        refine le_trans ?_ (pow_le_pow_left₀ (by positivity) i4 3)
        nlinarith
      have h5 : ((83 : ℝ) / 100) ^ 3 ^ (n + 1) ≤ (83 / 100) ^ 3 :=
        pow_le_pow_of_le_one (by norm_num) (by norm_num) (by
          calc 3 = 3 ^ 1 := rfl
            _ ≤ 3 ^ (n + 1) := Nat.pow_le_pow_right (by norm_num) (by omega))
      have h6 : |1 - farMap ν ((farMap ν)^[n] r) ^ ν| ≤ 59 / 200 := by
        have : ((83 : ℝ) / 100) ^ 3 ≤ 59 / 100 := by norm_num
        linarith
      exact ⟨farMap_pos hν0 i1, by linarith [(abs_le.1 h6).1], (abs_le.1 h6).2, h4⟩
  obtain ⟨k1, -, -, k4⟩ := key 6
  refine le_trans ?_ ((le_mul_of_one_le_left (abs_nonneg _) one_le_two).trans (k4.trans (by norm_num)))
  set s := (farMap ν)^[6] r
  rcases le_total 1 s with hs | hs
  · have : s ≤ s ^ ν := by
      conv_lhs => rw [← Real.rpow_one s]
      exact Real.rpow_le_rpow_of_exponent_le hs hν
    rw [abs_of_nonpos (by linarith), abs_of_nonpos (by linarith)]
    linarith
  · have : s ^ ν ≤ s := by
      conv_rhs => rw [← Real.rpow_one s]
      exact Real.rpow_le_rpow_of_exponent_ge k1 hs hν
    rw [abs_of_nonneg (by linarith), abs_of_nonneg (by linarith)]
    linarith

/-! ### Hill's coefficients -/

/-- the coefficients of quant/qt.ipp:39-83 as real functions -/
noncomputable def hillAt (ν : ℝ) : ℝ := 1 / (ν - 1 / 2)
noncomputable def hillBt (a : ℝ) : ℝ := 48 / (a * a)
noncomputable def hillCt (a b : ℝ) : ℝ := 96.36 + a * (-16 + a * (-98 + 20700 * a / b))
noncomputable def hillKt (b c : ℝ) : ℝ := 1 + (-3 + 94.5 / (b + c)) / b
noncomputable def hillDt (ν : ℝ) : ℝ :=
  ν * √(hillAt ν) * √(Real.pi / 2) * hillKt (hillBt (hillAt ν)) (hillCt (hillAt ν) (hillBt (hillAt ν)))

theorem hillAt_mem {ν : ℝ} (hν : 1 ≤ ν) : 0 < hillAt ν ∧ hillAt ν ≤ 2 := by
  have h : 0 < ν - 1 / 2 := by linarith
  refine ⟨by rw [hillAt]; positivity, ?_⟩
  rw [hillAt, div_le_iff₀ h]; linarith

theorem hillBt_ge {a : ℝ} (h0 : 0 < a) (h2 : a ≤ 2) : 12 ≤ hillBt a := by
  rw [hillBt, le_div_iff₀ (by positivity)]; nlinarith

theorem hillCt_ge {a : ℝ} (h0 : 0 < a) (h2 : a ≤ 2) : 20 ≤ hillCt a (hillBt a) := by
  have e : hillCt a (hillBt a) = 96.36 + a * (-16 + a * (-98 + 431.25 * a ^ 3)) := by
    rw [hillCt, hillBt]; field_simp; ring
  rw [e]
  have h3 := pow_pos h0 3
  rcases le_total a (4 / 5) with h | h
  · have : 0 ≤ a * (a * (431.25 * a ^ 3)) := by positivity
    norm_num at *
    nlinarith
  · have h4 : (4 / 5 : ℝ) ^ 3 ≤ a ^ 3 := pow_le_pow_left₀ (by norm_num) h 3
    have h5 : 100 ≤ -98 + 431.25 * a ^ 3 := by norm_num at *; linarith
    have h6 : 0 ≤ -16 + a * (-98 + 431.25 * a ^ 3) := by nlinarith
    have := mul_nonneg h0.le h6
    norm_num at *
    linarith

theorem hillKt_mem {b c : ℝ} (hb : 12 ≤ b) (hc : 20 ≤ c) : 3 / 4 ≤ hillKt b c ∧ hillKt b c ≤ 1 := by
  have h1 : 0 < 94.5 / (b + c) := by apply div_pos <;> [norm_num; linarith]
  have h2 : 94.5 / (b + c) ≤ 3 := by rw [div_le_iff₀ (by linarith)]; norm_num; linarith
  have hb0 : 0 < b := by linarith
  rw [hillKt]
  constructor
  · have : -(1 / 4) ≤ (-3 + 94.5 / (b + c)) / b := by rw [le_div_iff₀ hb0]; linarith
    linarith
  · have : (-3 + 94.5 / (b + c)) / b ≤ 0 := div_nonpos_of_nonpos_of_nonneg (by linarith) hb0.le
    linarith

theorem hillDt_sq {ν : ℝ} (hν : 1 ≤ ν) : 0 < hillDt ν ∧ 9 / 16 * (ν ^ 2 / (ν - 1 / 2) * (Real.pi / 2)) ≤ hillDt ν ^ 2 ∧
    hillDt ν ^ 2 ≤ ν ^ 2 / (ν - 1 / 2) * (Real.pi / 2) := by
  obtain ⟨ha0, ha2⟩ := hillAt_mem hν
  have hk := hillKt_mem (hillBt_ge ha0 ha2) (hillCt_ge ha0 ha2)
  have hpi := Real.pi_pos
  have hn : 0 < ν - 1 / 2 := by linarith
  have h0 : 0 < hillDt ν := by
    rw [hillDt]
    have := Real.sqrt_pos.2 ha0
    have := Real.sqrt_pos.2 (half_pos hpi)
    have : 0 < hillKt (hillBt (hillAt ν)) (hillCt (hillAt ν) (hillBt (hillAt ν))) := by linarith [hk.1]
    positivity
  have e : hillDt ν ^ 2 = ν ^ 2 / (ν - 1 / 2) * (Real.pi / 2) * hillKt (hillBt (hillAt ν)) (hillCt (hillAt ν) (hillBt (hillAt ν))) ^ 2 := by
    rw [hillDt, mul_pow, mul_pow, mul_pow, Real.sq_sqrt ha0.le, Real.sq_sqrt (by positivity), hillAt]
    ring
  have hm : 0 < ν ^ 2 / (ν - 1 / 2) * (Real.pi / 2) := by positivity
  refine ⟨h0, ?_, ?_⟩
  · rw [e]
    have : (9 / 16 : ℝ) ≤ hillKt (hillBt (hillAt ν)) (hillCt (hillAt ν) (hillBt (hillAt ν))) ^ 2 := by nlinarith [hk.1]
    nlinarith
  · rw [e]
    have : hillKt (hillBt (hillAt ν)) (hillCt (hillAt ν) (hillBt (hillAt ν))) ^ 2 ≤ 1 := by nlinarith [hk.1, hk.2]
    nlinarith

/-- the value that Hill's `d` approximates -/
noncomputable def tD (ν : ℝ) : ℝ := ν ^ (ν / 2) * ν / (2 * tLead ν)

theorem tD_eq {ν : ℝ} (h : 0 < ν) : tD ν = ν / 2 * √Real.pi * (Real.Gamma (ν / 2) / Real.Gamma ((ν + 1) / 2)) := by
  have h1 := Real.Gamma_pos_of_pos (half_pos h)
  have h2 := Real.Gamma_pos_of_pos (show 0 < (ν + 1) / 2 by linarith)
  have e : ν ^ ((ν + 1) / 2) = ν ^ (ν / 2) * √ν := by
    rw [Real.sqrt_eq_rpow, ← Real.rpow_add h]; congr 1; ring
  have := Real.rpow_pos_of_pos h (ν / 2)
  have h3 := Real.sqrt_pos.2 h
  have h4 := Real.sqrt_pos.2 Real.pi_pos
  rw [tD, tLead, e, Real.sqrt_mul h.le]
  field_simp

theorem Gamma_half_le {x : ℝ} (h : 0 < x) : Real.Gamma (x + 1 / 2) ≤ √x * Real.Gamma x := by
  have hx := Real.Gamma_pos_of_pos h
  have := Real.Gamma_mul_add_mul_le_rpow_Gamma_mul_rpow_Gamma h (show 0 < x + 1 by linarith) one_half_pos one_half_pos (by norm_num)
  rw [show 1 / 2 * x + 1 / 2 * (x + 1) = x + 1 / 2 by ring, Real.Gamma_add_one h.ne', Real.mul_rpow h.le hx.le,
    ← Real.sqrt_eq_rpow, ← Real.sqrt_eq_rpow, mul_left_comm, Real.mul_self_sqrt hx.le] at this
  exact this

theorem tD_sq {ν : ℝ} (h : 0 < ν) : 0 < tD ν ∧ Real.pi / 2 * ν ≤ tD ν ^ 2 ∧ tD ν ^ 2 ≤ Real.pi / 2 * (ν + 1) := by
  have h1 := Real.Gamma_pos_of_pos (half_pos h)
  have h2 := Real.Gamma_pos_of_pos (show 0 < (ν + 1) / 2 by linarith)
  have hpi := Real.pi_pos
  have b1 := Gamma_half_le (half_pos h)
  have b2 := Gamma_half_le (show 0 < (ν + 1) / 2 by linarith)
  rw [show ν / 2 + 1 / 2 = (ν + 1) / 2 by ring] at b1
  rw [show (ν + 1) / 2 + 1 / 2 = ν / 2 + 1 by ring, Real.Gamma_add_one (half_pos h).ne'] at b2
  set G := Real.Gamma (ν / 2)
  set H := Real.Gamma ((ν + 1) / 2)
  have e : tD ν ^ 2 = (ν / 2 * G) ^ 2 * Real.pi / H ^ 2 := by
    rw [tD_eq h, mul_pow, mul_pow, Real.sq_sqrt hpi.le, div_pow]; ring
  refine ⟨by rw [tD_eq h]; positivity, ?_, ?_⟩
  · rw [e, le_div_iff₀ (by positivity)]
    have : H ^ 2 ≤ ν / 2 * G ^ 2 := by
      calc H ^ 2 ≤ (√(ν / 2) * G) ^ 2 := pow_le_pow_left₀ h2.le b1 2
        _ = _ := by rw [mul_pow, Real.sq_sqrt (by positivity)]
    calc Real.pi / 2 * ν * H ^ 2 ≤ Real.pi / 2 * ν * (ν / 2 * G ^ 2) := mul_le_mul_of_nonneg_left this (by positivity)
      _ = _ := by ring
  · rw [e, div_le_iff₀ (by positivity)]
    have : (ν / 2 * G) ^ 2 ≤ (ν + 1) / 2 * H ^ 2 := by
      calc (ν / 2 * G) ^ 2 ≤ (√((ν + 1) / 2) * H) ^ 2 := pow_le_pow_left₀ (by positivity) b2 2
        _ = _ := by rw [mul_pow, Real.sq_sqrt (by positivity)]
    nlinarith

/-- Hill's `d` is near enough -/
theorem hill_near {ν : ℝ} (hν : 1 ≤ ν) : -(83 / 200) ≤ 1 - tD ν / hillDt ν ∧ 1 - tD ν / hillDt ν ≤ 59 / 200 := by
  obtain ⟨d0, d1, d2⟩ := hillDt_sq hν
  obtain ⟨t0, t1, t2⟩ := tD_sq (by linarith : 0 < ν)
  have hpi := Real.pi_pos
  have hn : 0 < ν - 1 / 2 := by linarith
  constructor
  · have : tD ν ≤ 283 / 200 * hillDt ν := by
      refine le_of_sq_le_sq ?_ (by positivity)
      rw [mul_pow]
      have : ν + 1 ≤ (283 / 200) ^ 2 * (9 / 16) * (ν ^ 2 / (ν - 1 / 2)) := by
        rw [← mul_div_assoc, le_div_iff₀ hn]; nlinarith [sq_nonneg (ν - 2)]
      nlinarith [mul_le_mul_of_nonneg_left this (half_pos hpi).le]
    have : tD ν / hillDt ν ≤ 283 / 200 := by rwa [div_le_iff₀ d0]
    linarith
  · have : 141 / 200 * hillDt ν ≤ tD ν := by
      refine le_of_sq_le_sq ?_ t0.le
      rw [mul_pow]
      have : (141 / 200) ^ 2 * (ν ^ 2 / (ν - 1 / 2)) ≤ ν := by
        rw [← mul_div_assoc, div_le_iff₀ hn]; nlinarith
      nlinarith [mul_le_mul_of_nonneg_left this (half_pos hpi).le]
    have : 141 / 200 ≤ tD ν / hillDt ν := by rwa [le_div_iff₀ d0]
    linarith

/-! ### the start value -/

/-- quant/qt.ipp:187-200 -/
noncomputable def hillM (ν d y : ℝ) : ℝ := 1 / 2 / (ν + 4) + 1 / (((ν + 6) / (ν * y) - 0.089 * d - 0.822) * (ν + 2) * 3)
noncomputable def hillS (ν d y : ℝ) : ℝ := 1 / y + (ν + 1) * (hillM ν d y * y - 1) / (ν + 2)

theorem hill_den {ν : ℝ} (h : 0 < ν) (d : ℝ) : Tendsto (fun y => ((ν + 6) / (ν * y) - 0.089 * d - 0.822) * (ν + 2) * 3) (𝓝[>] 0) atTop := by
  have h1 : Tendsto (fun y : ℝ => (ν + 6) / (ν * y)) (𝓝[>] 0) atTop := by
    have := (tendsto_inv_nhdsGT_zero (𝕜 := ℝ)).const_mul_atTop (show 0 < (ν + 6) / ν by positivity)
    refine this.congr fun y => ?_
    rw [div_mul_eq_div_div, div_eq_mul_inv ((ν + 6) / ν)]
  have h2 : Tendsto (fun y : ℝ => (ν + 6) / (ν * y) - 0.089 * d - 0.822) (𝓝[>] 0) atTop := by
    have := tendsto_atTop_add_const_right _ (-(0.089 * d) - 0.822) h1
    refine this.congr fun y => by ring
  exact (h2.atTop_mul_const (show 0 < ν + 2 by linarith)).atTop_mul_const (by norm_num)

theorem hillM_tendsto {ν : ℝ} (h : 0 < ν) (d : ℝ) : Tendsto (hillM ν d) (𝓝[>] 0) (𝓝 (1 / 2 / (ν + 4))) := by
  have := (tendsto_inv_atTop_zero.comp (hill_den h d)).const_add (1 / 2 / (ν + 4))
  rw [add_zero] at this
  refine this.congr fun y => ?_
  rw [hillM, Function.comp_apply, one_div (_ * 3)]

theorem hillS_tendsto {ν : ℝ} (h : 0 < ν) (d : ℝ) : Tendsto (fun y => y * hillS ν d y) (𝓝[>] 0) (𝓝 1) := by
  have hy : Tendsto (fun y : ℝ => y) (𝓝[>] 0) (𝓝 0) := tendsto_nhdsWithin_of_tendsto_nhds tendsto_id
  have := (hy.mul (((((hillM_tendsto h d).mul hy).sub_const 1).const_mul (ν + 1)).div_const (ν + 2))).const_add 1
  rw [zero_mul, add_zero] at this
  refine this.congr' ?_
  filter_upwards [self_mem_nhdsWithin] with y hy
  have : y ≠ 0 := (Set.mem_Ioi.1 hy).ne'
  rw [hillS, mul_add, mul_one_div_cancel this]

theorem iter_rounds {ν p : ℝ} (hν : Lib.eps ≤ ν) (n : ℕ) :
    ∀ (v x : Fl) (v' : ℝ), qt_int_y_2_iter_val_update v (fin ν) x = fin v' →
      qt_int_y_2_iter_loop (fin p) (fin ν) n v x = fin ((tRound ν p)^[n] v') := by
  induction n with
  | zero => intro v x v' h; rw [qt_int_y_2_iter_loop, h]; rfl
  | succ n ih =>
    intro v x v' h
    rw [qt_int_y_2_iter_loop, h, Function.iterate_succ_apply]
    exact ih (fin v') _ _ (iter_update hν)

/-- the code in the tail, as real functions -/
theorem hill_code {ν p : ℝ} (hν : 1 ≤ ν) (hp : 0 < p) {y : ℝ} (hy : y = (hillDt ν * p) ^ (2 / ν)) (hb : y ≤ 0.05 + hillAt ν)
    (hden : ((ν + 6) / (ν * y) - 0.089 * hillDt ν - 0.822) * (ν + 2) * 3 ≠ 0) (hS : 0 ≤ hillS ν (hillDt ν) y) :
    qt_int_main_iter (fin p) (fin ν) = fin ((tRound ν (p / 2))^[6] √(ν * hillS ν (hillDt ν) y)) := by
  obtain ⟨ha0, ha2⟩ := hillAt_mem hν
  have hB := hillBt_ge ha0 ha2
  have hC := hillCt_ge ha0 ha2
  have hd := (hillDt_sq hν).1
  have hν0 : 0 < ν := by linarith
  have hyp : 0 < y := by rw [hy]; exact Real.rpow_pos_of_pos (by positivity) _
  have n1 : ν - 1 / 2 ≠ 0 := by linarith
  have n2 : hillAt ν * hillAt ν ≠ 0 := by positivity
  have n3 : hillBt (hillAt ν) ≠ 0 := by linarith
  have n4 : hillBt (hillAt ν) + hillCt (hillAt ν) (hillBt (hillAt ν)) ≠ 0 := by linarith
  have eA : qt_int_coef_a (fin ν) = fin (hillAt ν) := by simp only [qt_int_coef_a, ideal, ifin_div _ n1, hillAt]
  have eB : qt_int_coef_b (fin (hillAt ν)) = fin (hillBt (hillAt ν)) := by simp only [qt_int_coef_b, ideal, ifin_div _ n2, hillBt]
  have eC : qt_int_coef_c (fin (hillAt ν)) (fin (hillBt (hillAt ν))) = fin (hillCt (hillAt ν) (hillBt (hillAt ν))) := by
    simp only [qt_int_coef_c, ideal, ifin_div _ n3, hillCt]
  have eD : qt_int_coef_d (fin ν) (fin (hillAt ν)) (fin (hillBt (hillAt ν))) (fin (hillCt (hillAt ν) (hillBt (hillAt ν)))) = fin (hillDt ν) := by
    simp only [qt_int_coef_d, SQRTHALFPI, Ideal.sqrtHalfPi, ideal, isqrt ha0.le, ifin_div _ n4, ifin_div _ n3, hillDt, hillKt]
  have eY : qt_int_y_init (fin p) (fin ν) (fin (hillDt ν)) = fin y := by
    simp only [qt_int_y_init, ideal, ifin_div _ hν0.ne', ipow _ (show 0 < hillDt ν * p by positivity), hy]
  have eM : qt_int_y_2_mterm (fin y) (fin ν) (fin (hillDt ν)) = fin (hillM ν (hillDt ν) y) := by
    simp only [qt_int_y_2_mterm, ideal, ifin_div _ (show ν + 4 ≠ 0 by positivity), ifin_div _ (show ν * y ≠ 0 by positivity),
      ifin_div _ hden, hillM]
  have e05 : lit 0.05 + fin (hillAt ν) = fin (0.05 + hillAt ν) := by simp only [ideal]
  simp only [qt_int_main_iter, eA, eB, eC, eD, eY, qt_int_choose, e05, gt_iff_lt, fin_lt_fin, if_neg (not_lt.2 hb), qt_int_y_2, eM,
    qt_int_y_2_iter_begin]
  have eS : (1 : Fl) / fin y + (fin ν + 1) * (fin (hillM ν (hillDt ν) y) * fin y - 1) / (fin ν + 2) = fin (hillS ν (hillDt ν) y) := by
    simp only [ideal, ifin_div _ hyp.ne', ifin_div _ (show ν + 2 ≠ 0 by positivity), hillS]
  rw [eS]
  have e2 : fin p / 2 = fin (p / 2) := by simp only [ideal]
  have eV : sqrt (fin ν * fin (hillS ν (hillDt ν) y)) = fin √(ν * hillS ν (hillDt ν) y) := by
    rw [ifin_mul, isqrt (by positivity)]
  rw [e2, eV]
  refine iter_rounds (eps_le_one.trans hν) 6 _ _ _ ?_
  set v := √(ν * hillS ν (hillDt ν) y)
  have h2 : 2 * (ν + v * v) ≠ 0 := by nlinarith [mul_self_nonneg v]
  simp only [qt_int_y_2_iter_val_update, ideal, ifin_div _ h2]
  simp

theorem hill_far {ν : ℝ} (hν : 1 ≤ ν) {q : ℝ → ℝ} (hq : ∀ᶠ p in 𝓝[>] 0, tUp ν (q p) = p) :
    ∀ᶠ p in 𝓝[>] 0, 0 < q p ∧ ∃ w, qt_int_main_iter (fin (2 * p)) (fin ν) = fin w ∧ |w - q p| ≤ 1 / 10 ^ 50 * q p := by
  have h : 0 < ν := by linarith
  have hd := (hillDt_sq hν).1
  have hA := tLead_pos h
  have hqt := tUp_quantile h hq
  have hq0 := hqt.eventually_gt_atTop 0
  have hp0 : ∀ᶠ p : ℝ in 𝓝[>] 0, 0 < p := self_mem_nhdsWithin
  set y : ℝ → ℝ := fun p => (hillDt ν * (2 * p)) ^ (2 / ν) with hy
  have hpp : Tendsto (fun p : ℝ => hillDt ν * (2 * p)) (𝓝[>] 0) (𝓝 0) := by
    have : Tendsto (fun p : ℝ => hillDt ν * (2 * p)) (𝓝 0) (𝓝 (hillDt ν * (2 * 0))) := (by fun_prop : Continuous fun p : ℝ => hillDt ν * (2 * p)).tendsto 0
    rw [mul_zero, mul_zero] at this
    exact tendsto_nhdsWithin_of_tendsto_nhds this
  have hy0 : Tendsto y (𝓝[>] 0) (𝓝[>] 0) := by
    refine tendsto_nhdsWithin_iff.2 ⟨?_, ?_⟩
    · have := hpp.rpow_const (p := 2 / ν) (Or.inr (by positivity))
      rwa [Real.zero_rpow (by positivity)] at this
    · filter_upwards [hp0] with p hp
      exact Real.rpow_pos_of_pos (by positivity) _
  -- the ratio of start value and quantile
  have hyq : Tendsto (fun p => y p * q p ^ 2) (𝓝[>] 0) (𝓝 ((2 * hillDt ν * (tLead ν / ν)) ^ (2 / ν))) := by
    have h1 := ((tUp_far h).comp hqt).const_mul (2 * hillDt ν)
    have h2 := h1.rpow_const (p := 2 / ν) (Or.inl (by positivity))
    refine h2.congr' ?_
    filter_upwards [hq, hq0, hp0] with p hp hqp hpp
    have e : q p ^ 2 = (q p ^ ν) ^ (2 / ν) := by
      rw [← Real.rpow_mul hqp.le, mul_div_cancel₀ _ h.ne']; norm_cast
    have := Real.rpow_pos_of_pos hqp ν
    rw [Function.comp_apply, hp, e, hy, ← Real.mul_rpow (by positivity) (by positivity)]
    congr 1; ring
  have hB : 0 < 2 * hillDt ν * (tLead ν / ν) := by positivity
  have hBp := Real.rpow_pos_of_pos hB (2 / ν)
  have hv : Tendsto (fun p => √(ν * hillS ν (hillDt ν) (y p)) / q p) (𝓝[>] 0) (𝓝 √(ν / (2 * hillDt ν * (tLead ν / ν)) ^ (2 / ν))) := by
    have h1 := (((hillS_tendsto h (hillDt ν)).comp hy0).const_mul ν).div hyq hBp.ne'
    rw [mul_one] at h1
    have h2 := h1.sqrt
    refine h2.congr' ?_
    filter_upwards [hq0, hy0.eventually self_mem_nhdsWithin] with p hqp hyp
    have hyp : 0 < y p := hyp
    simp only [Pi.div_apply, Function.comp_apply]
    rw [show ν * (y p * hillS ν (hillDt ν) (y p)) / (y p * q p ^ 2) = ν * hillS ν (hillDt ν) (y p) / q p ^ 2 by field_simp,
      Real.sqrt_div' _ (sq_nonneg _), Real.sqrt_sq hqp.le]
  set ρ := √(ν / (2 * hillDt ν * (tLead ν / ν)) ^ (2 / ν)) with hρ
  have hρ0 : 0 < ρ := Real.sqrt_pos.2 (by positivity)
  have hρν : ρ ^ ν = tD ν / hillDt ν := by
    rw [hρ, Real.sqrt_eq_rpow, ← Real.rpow_mul (by positivity), Real.div_rpow h.le hBp.le, ← Real.rpow_mul hB.le,
      show 2 / ν * (1 / 2 * ν) = 1 by field_simp, Real.rpow_one, tD, show 1 / 2 * ν = ν / 2 by ring]
    field_simp
  obtain ⟨n0, n1⟩ := hill_near hν
  have hsix := farMap_six hν hρ0 (by rw [hρν]; exact n0) (by rw [hρν]; exact n1)
  have hlim := (rounds_ratio h hqt hq hv hρ0 6).1
  have hc : |1 - (farMap ν)^[6] ρ| < 1 / 10 ^ 50 := by
    have h9 : ((83 : ℝ) / 100) ^ 9 ≤ 1 / 5 := by norm_num
    refine hsix.trans_lt ?_
    calc ((83 : ℝ) / 100) ^ 729 = ((83 / 100) ^ 9) ^ 81 := by rw [← pow_mul]
      _ ≤ (1 / 5) ^ 81 := pow_le_pow_left₀ (by positivity) h9 81
      _ < 1 / 10 ^ 50 := by norm_num
  have hev : ∀ᶠ p in 𝓝[>] 0, |1 - (tRound ν p)^[6] √(ν * hillS ν (hillDt ν) (y p)) / q p| < 1 / 10 ^ 50 :=
    ((hlim.const_sub 1).abs).eventually_lt_const hc
  have hb : ∀ᶠ p in 𝓝[>] 0, y p < 0.05 + hillAt ν :=
    (hy0.mono_right nhdsWithin_le_nhds).eventually_lt_const (by have := (hillAt_mem hν).1; norm_num at *; linarith)
  have hden := ((hill_den h (hillDt ν)).comp hy0).eventually_gt_atTop 0
  have hS : ∀ᶠ p in 𝓝[>] 0, 0 < y p * hillS ν (hillDt ν) (y p) :=
    ((hillS_tendsto h (hillDt ν)).comp hy0).eventually_const_lt one_pos
  filter_upwards [hev, hb, hden, hS, hq0, hp0, hy0.eventually self_mem_nhdsWithin] with p e1 e2 e3 e4 e5 e6 e7
  refine ⟨e5, _, hill_code hν (by positivity) rfl e2.le e3.ne' (pos_of_mul_pos_right e4 (le_of_lt e7)).le, ?_⟩
  rw [show 2 * p / 2 = p by ring]
  set w := (tRound ν p)^[6] √(ν * hillS ν (hillDt ν) (y p)) with hw
  have : |w - q p| = |1 - w / q p| * q p := by
    rw [show 1 - w / q p = -((w - q p) / q p) by field_simp; ring, abs_neg, abs_div, abs_of_pos e5, div_mul_cancel₀ _ e5.ne']
  show |w - q p| ≤ _
  rw [this]
  exact mul_le_mul_of_nonneg_right e1.le e5.le

/-- Going out into the lower tail the relative error of `qt` falls below `10^-50`, for every number of degrees of freedom
from 1 on. -/
theorem C63_qt_deep {ν : ℝ} (hν : 1 ≤ ν) {q : ℝ → ℝ} (hq : ∀ p ∈ Set.Ioo (0 : ℝ) 1, ∫ t in Set.Iic (q p), tPdf ν t = p) :
    ∀ᶠ p in 𝓝[>] 0, ∃ w, qt (fin p) (fin ν) = fin w ∧ |w - q p| ≤ 1 / 10 ^ 50 * |q p| := by
  have h : 0 < ν := by linarith
  have hc := isCdf_tCoded h
  have hq' : ∀ p ∈ Set.Ioo (0 : ℝ) 1, tCdfCoded ν (q p) = p := fun p hp => by rw [← hc.running, hq p hp]
  have hev : ∀ᶠ p : ℝ in 𝓝[>] 0, p ∈ Set.Ioo (0 : ℝ) (1 / 2) := Ioo_mem_nhdsGT (by norm_num)
  have exact_of : ∀ p ∈ Set.Ioo (0 : ℝ) 1, IsInv (fun u => qt u (fin ν)) (tCdfCoded ν) →
      ∃ w, qt (fin p) (fin ν) = fin w ∧ |w - q p| ≤ 1 / 10 ^ 50 * |q p| := fun p hp hi => by
    have := hi (q p) (by rw [hq' p hp]; exact hp.1) (by rw [hq' p hp]; exact hp.2)
    rw [hq' p hp] at this
    exact ⟨q p, this, by rw [sub_self, abs_zero]; positivity⟩
  by_cases h1 : ν = 1
  · subst h1
    filter_upwards [hev] with p hp using exact_of p ⟨hp.1, by linarith [hp.2]⟩ qt_one_inv
  by_cases h2 : ν = 2
  · subst h2
    filter_upwards [hev] with p hp using exact_of p ⟨hp.1, by linarith [hp.2]⟩ qt_two_inv
  have hup : ∀ᶠ p : ℝ in 𝓝[>] 0, tUp ν (-q p) = p := by
    filter_upwards [hev] with p hp
    have e := hq' p ⟨hp.1, by linarith [hp.2]⟩
    rw [tCdfCoded_eq h] at e
    rw [tUp, tCdfCoded_eq h, Ord.tCdf_neg h, e]
    ring
  filter_upwards [hill_far hν hup, hev] with p ⟨e0, w, e1, e2⟩ hp
  refine ⟨-w, ?_, ?_⟩
  · have hp1 : p < 1 := by linarith [hp.2]
    have hm : fin 2 * fin p = fin (2 * p) := by simp only [ideal]
    simp only [qt, t_ok, prob_val_ok, ideal, qt_int_main, fin_feq_fin, hp.1.ne', hp1.ne, gt_iff_lt, fin_lt_fin,
      not_lt.2 hp.1.le, not_lt.2 hp1.le, eps, not_lt.2 (eps_le_one.trans hν), h1, h2, hp.2, e1]
    simp
  · rw [show -w - q p = -(w - -q p) by ring, abs_neg, ← abs_neg (q p), abs_of_pos e0]
    exact e2

end Stats

namespace Stats.ExamplesC63
open Fl Spec
open scoped Stats.Exact

/-- ten degrees of freedom: the quantiles exist -/
example : ∃ q : ℝ → ℝ, (∀ p ∈ Set.Ioo (0 : ℝ) 1, ∫ t in Set.Iic (q p), tPdf 10 t = p) ∧
    ∀ᶠ p in 𝓝[>] 0, ∃ w, qt (fin p) (fin 10) = fin w ∧ |w - q p| ≤ 1 / 10 ^ 50 * |q p| := by
  have hc := isCdf_tCoded (show (0 : ℝ) < 10 by norm_num)
  have hex : ∀ p : ℝ, ∃ x : ℝ, p ∈ Set.Ioo (0 : ℝ) 1 → tCdfCoded 10 x = p := fun p => by
    by_cases hp : p ∈ Set.Ioo (0 : ℝ) 1
    · obtain ⟨x, hx⟩ := hc.exists_eq hp.1 hp.2
      exact ⟨x, fun _ => hx⟩
    · exact ⟨0, fun h => absurd h hp⟩
  choose q hq using hex
  have hq' : ∀ p ∈ Set.Ioo (0 : ℝ) 1, ∫ t in Set.Iic (q p), tPdf 10 t = p := fun p hp => by rw [hc.running, hq p hp]
  exact ⟨q, hq', C63_qt_deep (by norm_num) hq'⟩

end Stats.ExamplesC63
