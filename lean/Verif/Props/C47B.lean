import Verif.Props.C47

/-!
# C47: total mass and means of the Wishart laws

The densities `dwish` and `dinvwish` compute (C36) have total mass one on the positive definite matrices, and the mean of
`rwish` is the scale matrix times the degrees of freedom. With Blaze and no supplied factor the mean is wrong.
-/

set_option linter.unusedSectionVars false
open Classical
open MeasureTheory Set Matrix
open scoped ENNReal

namespace Stats
open Fl MatOps Spec Vec

section total
variable {K : ℕ}

theorem bart_prob {ν : ℝ} (hν : (K : ℝ) - 1 < ν) (p : Low K) : IsProbabilityMeasure (densLaw (bartPdf ν p)) := by
  rw [bartPdf]
  split
  · have := (isCdf_chisq (df_pos hν p.1.1)).isProb
    rw [← chi_law]
    exact Measure.isProbabilityMeasure_map (by fun_prop)
  · exact (isCdf_norm 0 one_pos).isProb

theorem wish_total {Psi : Matrix (Fin K) (Fin K) ℝ} (h : Psi.PosDef) {ν : ℝ} (hν : (K : ℝ) - 1 < ν) :
    IsProbabilityMeasure (densLawV fun x : Low K → ℝ => if (sym x).PosDef then wishPdf Psi ν (sym x) else 0) := by
  obtain ⟨L, hL⟩ := cholesky Psi h
  have hdet : L.det ≠ 0 := by
    rw [det_of_isLowerTriangular L fun i j hij => hL.lower _ _ hij]
    exact (Finset.prod_pos fun i _ => hL.pos i).ne'
  have hp := fun p : Low K => bart_prob hν p
  have hs : Measurable (sqr (K := K)) :=
    (continuous_iff_continuousAt.2 fun u => (sqr_hasFDerivAt u).continuousAt).measurable
  have hc : Measurable (congr L) := (LinearMap.continuous_of_finiteDimensional _).measurable
  have e : (densLawV fun x : Low K → ℝ => if (sym x).PosDef then wishPdf Psi ν (sym x) else 0) =
      ((Measure.pi fun p : Low K => densLaw (bartPdf ν p)).map sqr).map (congr L) := by
    rw [bart_law hν, posDef_congr_law hdet]
    congr 1; funext x
    split_ifs with hx
    · rw [wish_scale hdet hx ν, hL.mul]
    · rfl
  rw [e]
  have := Measure.isProbabilityMeasure_map (μ := Measure.pi fun p : Low K => densLaw (bartPdf ν p)) hs.aemeasurable
  exact Measure.isProbabilityMeasure_map hc.aemeasurable

theorem densLawV_lintegral {ι : Type*} [Fintype ι] (f : (ι → ℝ) → ℝ) : densLawV f univ = ∫⁻ x, ENNReal.ofReal (f x) := by
  rw [densLawV, withDensity_apply _ MeasurableSet.univ, setLIntegral_univ]

/-- The Wishart density integrates to one over the positive definite matrices. -/
theorem C47_dwish_total {Psi : Matrix (Fin K) (Fin K) ℝ} (h : Psi.PosDef) {ν : ℝ} (hν : (K : ℝ) - 1 < ν) :
    ∫⁻ x : Low K → ℝ, (if (sym x).PosDef then ENNReal.ofReal (wishPdf Psi ν (sym x)) else 0) = 1 := by
  have := (wish_total h hν).measure_univ
  rw [densLawV_lintegral] at this
  rw [← this]
  refine lintegral_congr fun x => ?_
  split_ifs
  · rfl
  · rw [ENNReal.ofReal_zero]

/-- The inverse Wishart density integrates to one over the positive definite matrices. -/
theorem C47_dinvwish_total {Psi : Matrix (Fin K) (Fin K) ℝ} (h : Psi.PosDef) {ν : ℝ} (hν : (K : ℝ) - 1 < ν) :
    ∫⁻ x : Low K → ℝ, (if (sym x).PosDef then ENNReal.ofReal (invwishPdf Psi ν (sym x)) else 0) = 1 := by
  have hp := wish_total h.inv hν
  have e := densLawV_inv (wishPdf Psi⁻¹ ν)
  have h1 := (Measure.isProbabilityMeasure_map (μ := densLawV fun x : Low K → ℝ =>
    if (sym x).PosDef then wishPdf Psi⁻¹ ν (sym x) else 0) measurable_invL.aemeasurable).measure_univ
  rw [e, densLawV_lintegral] at h1
  rw [← h1]
  refine lintegral_congr fun x => ?_
  split_ifs with hx
  · rw [wish_inv h hx]
  · rw [ENNReal.ofReal_zero]

end total

/-! ### means -/

theorem chisq_mean {k : ℝ} (hk : 0 < k) : Integrable (fun x : ℝ => x) (densLaw (chisqPdf k)) ∧
    ∫ x, x ∂densLaw (chisqPdf k) = k := by
  have hG := Real.Gamma_pos_of_pos (half_pos hk)
  have e : ∀ x, chisqPdf k x * x = k * chisqPdf (k + 2) x := by
    intro x
    rw [chisqPdf, chisqPdf]
    split_ifs with hx
    · rw [show (k + 2) / 2 = k / 2 + 1 by ring, Real.Gamma_add_one (half_pos hk).ne', Real.rpow_add_one two_ne_zero,
        add_sub_cancel_right, Real.rpow_sub_one hx.ne']
      field_simp
    · simp
  have h2 := isCdf_chisq (k := k + 2) (by linarith)
  have hm : Measurable fun x => ENNReal.ofReal (chisqPdf k x) := by
    rw [chisqPdf_fun]; exact ENNReal.measurable_ofReal.comp (measurable_gammaPdf _ 2)
  have hn : ∀ x, 0 ≤ chisqPdf k x := by
    intro x; rw [chisqPdf]; split_ifs with hx
    · positivity
    · exact le_rfl
  have hf : ∀ᵐ x ∂(volume : Measure ℝ), ENNReal.ofReal (chisqPdf k x) < ∞ := ae_of_all _ fun x => ENNReal.ofReal_lt_top
  constructor
  · rw [densLaw, integrable_withDensity_iff hm hf]
    have : (fun x => x * (ENNReal.ofReal (chisqPdf k x)).toReal) = fun x => k * chisqPdf (k + 2) x := by
      funext x; rw [ENNReal.toReal_ofReal (hn x), mul_comm, e]
    rw [this]
    exact h2.integrable.const_mul k
  · rw [densLaw, integral_withDensity_eq_integral_toReal_smul hm hf]
    have : ∀ x : ℝ, (ENNReal.ofReal (chisqPdf k x)).toReal • x = k * chisqPdf (k + 2) x := by
      intro x; rw [ENNReal.toReal_ofReal (hn x), smul_eq_mul, e]
    simp_rw [this]
    rw [integral_const_mul, h2.total, mul_one]

theorem chi_moments {k : ℝ} (hk : 0 < k) : Integrable (fun x : ℝ => x) (densLaw (chiPdf k)) ∧
    Integrable (fun x : ℝ => x * x) (densLaw (chiPdf k)) ∧ ∫ x, x * x ∂densLaw (chiPdf k) = k := by
  have := (isCdf_chisq hk).isProb
  obtain ⟨a, b⟩ := chisq_mean hk
  have pos : ∀ᵐ x ∂densLaw (chisqPdf k), √x * √x = x := by
    rw [chisqPdf_fun]
    exact densLaw_ae (measurable_gammaPdf _ 2) (p := fun x => √x * √x = x) fun x hx => by
      rw [gammaPdf, if_neg fun h => hx (Real.mul_self_sqrt h.le)]
  have hs : Measurable Real.sqrt := by fun_prop
  rw [← chi_law]
  refine ⟨(integrable_map_measure aestronglyMeasurable_id hs.aemeasurable).2 ?_,
    (integrable_map_measure (by fun_prop) hs.aemeasurable).2 ?_, ?_⟩
  · refine (a.norm.add (integrable_const (1 : ℝ))).mono (by fun_prop) (ae_of_all _ fun x => ?_)
    simp only [Function.comp_apply, id_eq, Pi.add_apply]
    rw [Real.norm_of_nonneg (Real.sqrt_nonneg x), Real.norm_of_nonneg (by positivity), Real.norm_eq_abs]
    rcases le_or_gt 0 x with h | h
    · rw [abs_of_nonneg h]
      nlinarith [Real.sq_sqrt h, Real.sqrt_nonneg x, sq_nonneg (√x - 1)]
    · rw [Real.sqrt_eq_zero_of_nonpos h.le]; positivity
  · refine a.congr ?_
    filter_upwards [pos] with x hx
    exact hx.symm
  · rw [integral_map hs.aemeasurable (by fun_prop)]
    rw [integral_congr_ae pos, b]

section pi
variable {ι : Type*} [Fintype ι] {D : ι → Measure ℝ} [∀ i, IsProbabilityMeasure (D i)]

theorem pi_eval {f : ℝ → ℝ} (hf : Measurable f) (p : ι) (h : Integrable f (D p)) :
    Integrable (fun z : ι → ℝ => f (z p)) (Measure.pi D) ∧ ∫ z, f (z p) ∂(Measure.pi D) = ∫ t, f t ∂(D p) := by
  have hev := measurePreserving_eval D p
  refine ⟨hev.integrable_comp_of_integrable h, ?_⟩
  conv_rhs => rw [← hev.map_eq, integral_map hev.measurable.aemeasurable hf.aestronglyMeasurable]

theorem pi_pair {p q : ι} (hpq : p ≠ q) (hp : Integrable (fun t : ℝ => t) (D p)) (hq : Integrable (fun t : ℝ => t) (D q)) :
    Integrable (fun z : ι → ℝ => z p * z q) (Measure.pi D) ∧
      ∫ z, z p * z q ∂(Measure.pi D) = (∫ t, t ∂(D p)) * ∫ t, t ∂(D q) := by
  set f : ι → ℝ → ℝ := fun k t => if k = p ∨ k = q then t else 1 with hf
  have e0 : ∀ g : ι → ℝ, (∀ k, k ≠ p → k ≠ q → g k = 1) → ∏ k, g k = g p * g q := by
    intro g hg
    rw [← Finset.prod_subset (Finset.subset_univ {p, q}), Finset.prod_pair hpq]
    intro k _ hk
    simp only [Finset.mem_insert, Finset.mem_singleton, not_or] at hk
    exact hg k hk.1 hk.2
  have e : ∀ z : ι → ℝ, z p * z q = ∏ k, f k (z k) := by
    intro z
    rw [e0 _ fun k h1 h2 => by simp [hf, h1, h2]]
    simp [hf]
  simp_rw [e]
  refine ⟨Integrable.fintype_prod fun k => ?_, ?_⟩
  · by_cases hk : k = p ∨ k = q
    · rcases hk with rfl | rfl <;> simpa [hf]
    · simp [hf, hk]
  · rw [integral_fintype_prod_eq_prod, e0 _ fun k h1 h2 => by simp [hf, h1, h2]]
    simp [hf]

end pi

/-- the mean of the product of the Bartlett factor with its transpose -/
theorem bart_mean {K : ℕ} {ν : ℝ} (hν : (K : ℝ) - 1 < ν) (a c : Fin K) (b : Fin K) :
    Integrable (fun u : Low K → ℝ => tri u a b * tri u c b) (Measure.pi fun p : Low K => densLaw (bartPdf ν p)) ∧
      ∫ u, tri u a b * tri u c b ∂(Measure.pi fun p : Low K => densLaw (bartPdf ν p)) =
        if a = c then (if b = a then ν - (a : ℕ) else if b < a then 1 else 0) else 0 := by
  have hp := fun p : Low K => bart_prob hν p
  have hI : ∀ p : Low K, Integrable (fun t : ℝ => t) (densLaw (bartPdf ν p)) := by
    intro p
    rw [bartPdf]; split
    · exact (chi_moments (df_pos hν p.1.1)).1
    · exact norm01_moments.1
  by_cases hab : b ≤ a
  swap
  · have h0 : ∀ u : Low K → ℝ, tri u a b = 0 := fun u => tri_zero u (not_le.1 hab)
    simp only [h0, zero_mul]
    refine ⟨integrable_zero _ _ _, ?_⟩
    rw [integral_zero, if_neg fun h : b = a => hab h.le, if_neg fun h : b < a => hab h.le, ite_self]
  by_cases hcb : b ≤ c
  swap
  · have h0 : ∀ u : Low K → ℝ, tri u c b = 0 := fun u => tri_zero u (not_le.1 hcb)
    simp only [h0, mul_zero]
    refine ⟨integrable_zero _ _ _, ?_⟩
    rw [integral_zero, if_neg]
    rintro rfl; exact hcb hab
  have e1 : ∀ u : Low K → ℝ, tri u a b = u ⟨(a, b), hab⟩ := fun u => by simp [tri, hab]
  have e2 : ∀ u : Low K → ℝ, tri u c b = u ⟨(c, b), hcb⟩ := fun u => by simp [tri, hcb]
  simp only [e1, e2]
  by_cases hac : a = c
  · subst hac
    rw [if_pos rfl]
    have h2 : Integrable (fun t : ℝ => t * t) (densLaw (bartPdf ν (⟨(a, b), hab⟩ : Low K))) ∧
        ∫ t, t * t ∂densLaw (bartPdf ν (⟨(a, b), hab⟩ : Low K)) = if b = a then ν - (a : ℕ) else if b < a then 1 else 0 := by
      by_cases hba : b = a
      · rw [if_pos hba, bartPdf, if_pos hba.symm]
        exact (chi_moments (df_pos hν a)).2
      · rw [if_neg hba, if_pos (lt_of_le_of_ne hab hba), bartPdf, if_neg (Ne.symm hba)]
        exact norm01_moments.2.2
    have h3 := pi_eval (D := fun p : Low K => densLaw (bartPdf ν p)) (f := fun t => t * t) (by fun_prop) ⟨(a, b), hab⟩ h2.1
    rw [h2.2] at h3
    exact h3
  · rw [if_neg hac]
    have hne : (⟨(a, b), hab⟩ : Low K) ≠ ⟨(c, b), hcb⟩ := fun h => hac (congrArg (fun p : Low K => p.1.1) h)
    have h3 := pi_pair (D := fun p : Low K => densLaw (bartPdf ν p)) hne (hI _) (hI _)
    refine ⟨h3.1, h3.2.trans ?_⟩
    by_cases hba : b = a
    · have : (⟨(c, b), hcb⟩ : Low K).1.1 ≠ (⟨(c, b), hcb⟩ : Low K).1.2 := fun h => hac (hba.symm.trans h.symm)
      rw [show bartPdf ν (⟨(c, b), hcb⟩ : Low K) = normPdf 0 1 from if_neg this, norm01_moments.2.1, mul_zero]
    · have : (⟨(a, b), hab⟩ : Low K).1.1 ≠ (⟨(a, b), hab⟩ : Low K).1.2 := fun h => hba h.symm
      rw [show bartPdf ν (⟨(a, b), hab⟩ : Low K) = normPdf 0 1 from if_neg this, norm01_moments.2.1, zero_mul]

theorem bart_mean_sum {K : ℕ} {ν : ℝ} (hν : (K : ℝ) - 1 < ν) (a c : Fin K) :
    Integrable (fun u : Low K → ℝ => (tri u * (tri u)ᵀ) a c) (Measure.pi fun p : Low K => densLaw (bartPdf ν p)) ∧
      ∫ u, (tri u * (tri u)ᵀ) a c ∂(Measure.pi fun p : Low K => densLaw (bartPdf ν p)) = if a = c then ν else 0 := by
  simp only [mul_apply, transpose_apply]
  refine ⟨integrable_finsetSum _ fun b _ => (bart_mean hν a c b).1, ?_⟩
  rw [integral_finsetSum _ fun b _ => (bart_mean hν a c b).1, Finset.sum_congr rfl fun b _ => (bart_mean hν a c b).2]
  by_cases hac : a = c
  · simp only [if_pos hac]
    have e : ∀ b : Fin K, (if b = a then ν - ((a : ℕ) : ℝ) else if b < a then 1 else 0) =
        (if b = a then ν - ((a : ℕ) : ℝ) else 0) + if b < a then 1 else 0 := by
      intro b
      by_cases hb : b = a
      · subst hb; simp
      · simp [hb]
    rw [Finset.sum_congr rfl fun b _ => e b, Finset.sum_add_distrib, Finset.sum_ite_eq' Finset.univ a, if_pos (Finset.mem_univ a),
      Finset.sum_ite, Finset.sum_const_zero, add_zero, Finset.sum_const, nsmul_eq_mul, mul_one]
    have : (Finset.univ.filter fun b : Fin K => b < a).card = (a : ℕ) := by
      rw [← Fin.card_Iio a]; congr 1; ext b; simp
    rw [this]; ring
  · simp [hac]

variable [Lib] [Ideal] {S : Type*} [Engine S] [MeasurableSpace S] {P : Measure S} [LinAlg] [IdealLin] {K : ℕ}

/-- The mean of `rwish` with any supplied factor `C`, on every library. -/
theorem C47_rwish_pre_mean (hP : FairEngine P) (hn : Lib.next 0 1 = 0) (be : Backend) {ν : ℝ} (hν : (K : ℝ) - 1 < ν)
    {nu : ℕ → Fl} (hnu : ∀ k < K, nu k = fin (ν - k)) (garbage : Grid) (C : Matrix (Fin K) (Fin K) ℝ) :
    HasMeanM P (rwish be (ofReal C) nu true garbage) (ν • (C * Cᵀ)) := by
  have := hP.prob
  obtain ⟨hprob, U, N, hU, e⟩ := near_bartlett (K := K) hP (by rw [hn]; norm_num) hν hnu garbage
  simp only [hn, mul_zero, ENNReal.ofReal_zero] at hU
  replace hU := hU.exact
  refine ⟨fun s i j => (C * (tri (U s) * (tri (U s))ᵀ) * Cᵀ) i j, N, e.mono fun s hs => ?_, fun i j => ?_⟩
  · simp only [rwish, hs, Option.map_some, if_true, mmul_real, trans_real]
    rw [transpose_mul]
    simp only [Matrix.mul_assoc]
    rfl
  have hfst := hU.fst
  have hme : ∀ a c, Measurable fun u : Low K → ℝ => (tri u * (tri u)ᵀ) a c := by
    intro a c
    have ht : ∀ i k, Measurable fun u : Low K → ℝ => tri u i k := by
      intro i k
      simp only [tri, of_apply]
      split
      · exact measurable_pi_apply _
      · exact measurable_const
    simp only [mul_apply, transpose_apply]
    exact Finset.measurable_fun_sum _ fun k _ => (ht a k).mul (ht c k)
  have hW : ∀ a c, Integrable (fun s => (tri (U s) * (tri (U s))ᵀ) a c) P ∧
      ∫ s, (tri (U s) * (tri (U s))ᵀ) a c ∂P = if a = c then ν else 0 := by
    intro a c
    have h := bart_mean_sum hν a c
    rw [← hfst] at h
    refine ⟨h.1.comp_measurable hU.mX, ?_⟩
    rw [← h.2, integral_map hU.mX.aemeasurable (hme a c).aestronglyMeasurable]
  have e1 : ∀ s, (C * (tri (U s) * (tri (U s))ᵀ) * Cᵀ) i j =
      ∑ c, ∑ a, C i a * C j c * (tri (U s) * (tri (U s))ᵀ) a c := by
    intro s
    rw [mul_apply]
    refine Finset.sum_congr rfl fun c _ => ?_
    rw [mul_apply, Finset.sum_mul]
    refine Finset.sum_congr rfl fun a _ => ?_
    rw [transpose_apply]; ring
  simp_rw [e1]
  have hi : ∀ c a, Integrable (fun s => C i a * C j c * (tri (U s) * (tri (U s))ᵀ) a c) P := fun c a => (hW a c).1.const_mul _
  refine ⟨integrable_finsetSum _ fun c _ => integrable_finsetSum _ fun a _ => hi c a, ?_⟩
  rw [integral_finsetSum _ fun c _ => integrable_finsetSum _ fun a _ => hi c a, Matrix.smul_apply, mul_apply, smul_eq_mul, Finset.mul_sum]
  refine Finset.sum_congr rfl fun c _ => ?_
  rw [integral_finsetSum _ fun a _ => hi c a]
  simp only [integral_const_mul, (hW _ _).2, mul_ite, mul_zero, Finset.sum_ite_eq', Finset.mem_univ, if_true, transpose_apply]
  ring

/-- The mean of `rwish` is `nu Psi` (Armadillo, Eigen). -/
theorem C47_rwish_mean_partial (hP : FairEngine P) (hn : Lib.next 0 1 = 0) {be : Backend} (hbe : be ≠ .blaze) {ν : ℝ}
    (hν : (K : ℝ) - 1 < ν) {nu : ℕ → Fl} (hnu : ∀ k < K, nu k = fin (ν - k)) (garbage : Grid)
    {Psi : Matrix (Fin K) (Fin K) ℝ} (h : Psi.PosDef) :
    HasMeanM P (rwish be (ofReal Psi) nu false garbage) (ν • Psi) := by
  obtain ⟨L, hL, e⟩ := C37_chol_partial hbe h
  have := C47_rwish_pre_mean hP hn be hν hnu garbage L
  rw [hL.mul] at this
  rwa [show rwish (S := S) be (ofReal Psi) nu false garbage = rwish be (ofReal L) nu true garbage from
    funext fun s => rwish_chol e nu garbage s]

omit [Lib] [Ideal] [Engine S] [LinAlg] [IdealLin] in
theorem Spec.HasMeanM.unique {ι κ : Type*} {g : S → Option ((ι → κ → Fl) × S)} {M M' : Matrix ι κ ℝ}
    (h : HasMeanM P g M) (h' : HasMeanM P g M') : M = M' := by
  obtain ⟨X, N, e, a⟩ := h
  obtain ⟨X', N', e', a'⟩ := h'
  ext i j
  rw [← (a i j).2, ← (a' i j).2]
  refine integral_congr_ae ?_
  filter_upwards [e, e'] with s h1 h2
  rw [h1] at h2
  exact Fl.fin.inj (congrFun (congrFun (congrArg Prod.fst (Option.some.inj h2)) i) j)

/-- Two generators with the same law have the same means. -/
theorem Spec.HasMeanM.of_law [IsProbabilityMeasure P] {ι κ : Type*} [Countable ι] [Countable κ]
    {g g' : S → Option ((ι → κ → Fl) × S)} {M : Matrix ι κ ℝ} {D : Measure (ι → κ → ℝ)} [SFinite D]
    (h : HasMeanM P g M) (hg : HasLawM P g D) (hg' : HasLawM P g' D) : HasMeanM P g' M := by
  obtain ⟨X, N, e, a⟩ := h
  obtain ⟨Y, M₁, hY, eY⟩ := hasLawM_iff.1 hg
  obtain ⟨Z, M₂, hZ, eZ⟩ := hasLawM_iff.1 hg'
  refine ⟨Z, M₂, eZ, fun i j => ?_⟩
  have hXY : ∀ᵐ s ∂P, X s i j = Y s i j := by
    filter_upwards [e, eY] with s h1 h2
    rw [h1] at h2
    exact Fl.fin.inj (congrFun (congrFun (congrArg Prod.fst (Option.some.inj h2)) i) j)
  have hm : Measurable fun x : ι → κ → ℝ => x i j := (measurable_pi_apply j).comp (measurable_pi_apply i)
  have hYi : Integrable (fun s => Y s i j) P := (a i j).1.congr hXY
  have hD : Integrable (fun x : ι → κ → ℝ => x i j) D := by
    rw [← hY.fst, integrable_map_measure hm.aestronglyMeasurable hY.mX.aemeasurable]; exact hYi
  have hDi : ∫ x : ι → κ → ℝ, x i j ∂D = M i j := by
    rw [← hY.fst, integral_map hY.mX.aemeasurable hm.aestronglyMeasurable, ← (a i j).2]
    exact (integral_congr_ae hXY).symm
  rw [← hZ.fst] at hD hDi
  refine ⟨hD.comp_measurable hZ.mX, ?_⟩
  rwa [integral_map hZ.mX.aemeasurable hm.aestronglyMeasurable] at hDi

/-- With Blaze and no supplied factor `rwish` does not have the Wishart law: scale matrix with correlation 1/2. -/
theorem C47_rwish_violated (hP : FairEngine P) (hn : Lib.next 0 1 = 0) {ν : ℝ} (hν : 1 < ν) (garbage : Grid) :
    ¬ HasLawM P (rwish .blaze (ofReal corr) (nuFloat (fin ν)) false garbage) (posDefLaw (wishPdf corr ν)) := by
  have := hP.prob
  intro h
  have hν' : ((2 : ℕ) : ℝ) - 1 < ν := by push_cast; linarith
  have : SFinite (posDefLaw (wishPdf corr ν)) := by rw [posDefLaw]; infer_instance
  have h1 := C47_rwish_mean_partial hP hn (be := .eigen) (by simp) hν' (nuFloat_eq ν) garbage corr_posDef
  have h2 := h1.of_law (C47_rwish_float_partial hP hn (by simp) hν' garbage corr_posDef) h
  obtain ⟨Y, hY, -, hne⟩ := C37_chol_violated
  have h3 := C47_rwish_pre_mean hP hn .blaze hν' (nuFloat_eq ν) garbage Y
  rw [show rwish (S := S) .blaze (ofReal corr) (nuFloat (fin ν)) false garbage = rwish .blaze (ofReal Y) (nuFloat (fin ν)) true garbage
    from funext fun s => rwish_chol hY _ garbage s] at h2
  have h4 := h3.unique h2
  apply hne
  ext i j
  have := congrFun (congrFun h4 i) j
  simp only [Matrix.smul_apply, smul_eq_mul] at this
  exact mul_left_cancel₀ (by linarith) this

end Stats

namespace Stats.ExamplesC47B
open Fl MatOps Spec Matrix MeasureTheory
open scoped Stats.Fair
attribute [local instance] Exact.linAlg Exact.idealLin

example (g : Grid) : HasMeanM Tape.tapeLaw (rwish .eigen (ofReal corr) (nuFloat (fin 2.5)) false g) ((2.5 : ℝ) • corr) :=
  C47_rwish_mean_partial Tape.fair Fair.next (by simp) (by norm_num) (nuFloat_eq _) g corr_posDef

example (g : Grid) : ¬ HasLawM Tape.tapeLaw (rwish .blaze (ofReal corr) (nuFloat (fin 2.5)) false g) (posDefLaw (wishPdf corr 2.5)) :=
  C47_rwish_violated Tape.fair Fair.next (by norm_num) g

example : ∫⁻ x : Low 2 → ℝ, (open Classical in if (sym x).PosDef then ENNReal.ofReal (wishPdf corr 2.5 (sym x)) else 0) = 1 :=
  C47_dwish_total corr_posDef (by norm_num)

end Stats.ExamplesC47B
