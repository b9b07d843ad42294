import Verif.Lemmas.SymMap
import Verif.Lemmas.MultiLaw
import Verif.Lemmas.DerivedLaw

/-! The law of the product of a random lower triangular matrix with its transpose. -/

open Matrix MeasureTheory Set
open scoped ENNReal

namespace Stats
open Spec

section pi
variable {ι : Type*} [Fintype ι]

theorem lintegral_pi_prod' {f : ι → ℝ → ℝ≥0∞} (hf : ∀ i, Measurable (f i)) :
    ∫⁻ x : ι → ℝ, ∏ i, f i (x i) = ∏ i, ∫⁻ t, f i t := by
  let e := (Fintype.equivFin ι).symm
  have hp := volume_measurePreserving_piCongrLeft (fun _ : ι => ℝ) e
  rw [← hp.lintegral_comp (f := fun x : ι → ℝ => ∏ i, f i (x i))
    (Finset.measurable_fun_prod _ fun i _ => (hf i).comp (measurable_pi_apply i)), ← e.prod_comp,
    ← lintegral_pi_prod fun i => hf (e i)]
  refine lintegral_congr fun x => ?_
  rw [← e.prod_comp]
  refine Finset.prod_congr rfl fun i _ => ?_
  congr 1
  exact Equiv.piCongrLeft_apply_apply (fun _ : ι => ℝ) e x i

/-- independent components with densities have the product density -/
theorem pi_densLaw' {f : ι → ℝ → ℝ} (hf : ∀ i, Measurable (f i)) (h0 : ∀ i x, 0 ≤ f i x)
    [∀ i, SigmaFinite (densLaw (f i))] :
    Measure.pi (fun i => densLaw (f i)) = densLawV fun x => ∏ i, f i (x i) := by
  refine Measure.pi_eq fun s hs => ?_
  rw [densLawV, withDensity_apply _ (MeasurableSet.univ_pi hs), ← lintegral_indicator (MeasurableSet.univ_pi hs)]
  have e : (univ.pi s).indicator (fun x : ι → ℝ => ENNReal.ofReal (∏ i, f i (x i))) =
      fun x => ∏ i, (s i).indicator (fun t => ENNReal.ofReal (f i t)) (x i) := by
    funext x
    by_cases hx : x ∈ univ.pi s
    · rw [indicator_of_mem hx, ENNReal.ofReal_prod_of_nonneg fun i _ => h0 i _]
      exact Finset.prod_congr rfl fun i _ => by rw [indicator_of_mem (hx i trivial)]
    · rw [indicator_of_notMem hx]
      obtain ⟨i, hi⟩ : ∃ i, x i ∉ s i := by simpa [Set.mem_pi] using hx
      rw [Finset.prod_eq_zero (Finset.mem_univ i)]
      rw [indicator_of_notMem hi]
  rw [e]
  refine (lintegral_pi_prod' (f := fun i => (s i).indicator fun t => ENNReal.ofReal (f i t))
    fun i => (ENNReal.measurable_ofReal.comp (hf i)).indicator (hs i)).trans ?_
  refine Finset.prod_congr rfl fun i _ => ?_
  rw [lintegral_indicator (hs i), densLaw, withDensity_apply _ (hs i)]

/-- one component is drawn anew -/
theorem pi_update [DecidableEq ι] {μ ν : ι → Measure ℝ} [∀ i, IsProbabilityMeasure (μ i)] [∀ i, IsProbabilityMeasure (ν i)] (p : ι)
    (h : ∀ i, i ≠ p → ν i = μ i) :
    ((Measure.pi μ).prod (ν p)).map (fun q : (ι → ℝ) × ℝ => Function.update q.1 p q.2) = Measure.pi ν := by
  have hm : Measurable fun q : (ι → ℝ) × ℝ => Function.update q.1 p q.2 := by
    refine measurable_pi_iff.2 fun i => ?_
    by_cases hi : i = p
    · subst hi; simpa using measurable_snd
    · simp only [Function.update_of_ne hi]
      exact (measurable_pi_apply i).comp measurable_fst
  symm
  refine Measure.pi_eq fun s hs => ?_
  rw [Measure.map_apply hm (MeasurableSet.univ_pi hs)]
  have e : (fun q : (ι → ℝ) × ℝ => Function.update q.1 p q.2) ⁻¹' univ.pi s =
      univ.pi (Function.update s p univ) ×ˢ s p := by
    ext q
    simp only [mem_preimage, Set.mem_pi, mem_univ, true_implies, mem_prod]
    constructor
    · intro hq
      refine ⟨fun i => ?_, by simpa using hq p⟩
      by_cases hi : i = p
      · subst hi; simp
      · rw [Function.update_of_ne hi]; simpa [hi] using hq i
    · rintro ⟨h1, h2⟩ i
      by_cases hi : i = p
      · subst hi; simpa using h2
      · simpa [hi] using h1 i
  rw [e, Measure.prod_prod, Measure.pi_pi, ← Finset.mul_prod_erase _ _ (Finset.mem_univ p),
    ← Finset.mul_prod_erase Finset.univ (fun i => ν i (s i)) (Finset.mem_univ p)]
  rw [Function.update_self, measure_univ, one_mul, mul_comm]
  congr 1
  refine Finset.prod_congr rfl fun i hi => ?_
  have hi := Finset.ne_of_mem_erase hi
  rw [Function.update_of_ne hi, h i hi]

end pi

/-! ### the densities of the entries -/

/-- density of the square root of a chi-squared variate -/
noncomputable def chiPdf (k t : ℝ) : ℝ := if 0 < t then 2 * t * chisqPdf k (t ^ 2) else 0

theorem measurable_chiPdf (k : ℝ) : Measurable (chiPdf k) := by
  unfold chiPdf chisqPdf
  refine Measurable.ite measurableSet_Ioi ?_ measurable_const
  refine Measurable.mul (by fun_prop) (Measurable.ite (measurableSet_lt measurable_const (by fun_prop)) (by fun_prop) measurable_const)

theorem chiPdf_eq {k t : ℝ} (ht : 0 < t) :
    chiPdf k t = 2 * t ^ (k - 1) / (2 ^ (k / 2) * Real.Gamma (k / 2)) * Real.exp (-t ^ 2 / 2) := by
  rw [chiPdf, if_pos ht, chisqPdf, if_pos (by positivity)]
  have e : (t ^ 2) ^ (k / 2 - 1) * t = t ^ (k - 1) := by
    rw [← Real.rpow_natCast t 2, ← Real.rpow_mul ht.le]
    nth_rw 2 [← Real.rpow_one t]
    rw [← Real.rpow_add ht]; congr 1; push_cast; ring
  rw [← e]; ring

theorem chiPdf_nonneg {k : ℝ} (hk : 0 < k) (t : ℝ) : 0 ≤ chiPdf k t := by
  by_cases ht : 0 < t
  · rw [chiPdf_eq ht]
    have := Real.Gamma_pos_of_pos (half_pos hk)
    positivity
  · rw [chiPdf, if_neg ht]

theorem chi_law {k : ℝ} : (densLaw (chisqPdf k)).map Real.sqrt = densLaw (chiPdf k) := by
  rw [densLaw_map (ψ := fun w => w ^ 2) (ψ' := fun w => 2 * w) (s := Ioi 0) measurableSet_Ioi (by fun_prop)]
  · congr 1; funext w
    by_cases hw : 0 < w
    · rw [indicator_of_mem (show w ∈ Ioi 0 from hw), abs_of_pos (by positivity), chiPdf, if_pos hw]
    · rw [indicator_of_notMem (show w ∉ Ioi 0 from hw), chiPdf, if_neg hw]
  · intro w hw
    simpa using (hasDerivAt_pow 2 w).hasDerivWithinAt
  · intro w hw; exact Real.sqrt_sq (le_of_lt hw)
  · intro x hx
    rw [chisqPdf, if_neg]
    exact fun h => hx ⟨√x, Real.sqrt_pos.2 h, Real.sq_sqrt h.le⟩

variable {K : ℕ}

/-- density of the entries of the lower triangle of the factor -/
noncomputable def bartPdf (ν : ℝ) (p : Low K) : ℝ → ℝ :=
  if p.1.1 = p.1.2 then chiPdf (ν - (p.1.1 : ℕ)) else normPdf 0 1

theorem measurable_bartPdf (ν : ℝ) (p : Low K) : Measurable (bartPdf ν p) := by
  rw [bartPdf]; split
  · exact measurable_chiPdf _
  · unfold normPdf; fun_prop

theorem df_pos {ν : ℝ} (h : (K : ℝ) - 1 < ν) (i : Fin K) : 0 < ν - (i : ℕ) := by
  have : ((i : ℕ) : ℝ) + 1 ≤ K := by exact_mod_cast i.2
  linarith

theorem bartPdf_nonneg {ν : ℝ} (h : (K : ℝ) - 1 < ν) (p : Low K) (x : ℝ) : 0 ≤ bartPdf ν p x := by
  rw [bartPdf]; split
  · exact chiPdf_nonneg (df_pos h _) _
  · rw [normPdf]; positivity

theorem exp_trace (u : Low K → ℝ) :
    Real.exp (-(tri u * (tri u)ᵀ).trace / 2) = ∏ p : Low K, Real.exp (-u p ^ 2 / 2) := by
  have e : ∀ p : Low K, Real.exp (-u p ^ 2 / 2) = (fun i j => Real.exp (-(tri u : Fin K → Fin K → ℝ) i j ^ 2 / 2)) p.1.1 p.1.2 := by
    intro p
    rw [← congrFun (low_tri u) p]; rfl
  rw [Finset.prod_congr rfl fun p _ => e p, prod_low fun i j => Real.exp (-(tri u : Fin K → Fin K → ℝ) i j ^ 2 / 2)]
  rw [trace, neg_div, Finset.sum_div, ← Finset.sum_neg_distrib, Real.exp_sum]
  refine Finset.prod_congr rfl fun i _ => ?_
  rw [diag_apply, mul_apply, Finset.sum_div, ← Finset.sum_neg_distrib, Real.exp_sum]
  symm
  refine (Finset.prod_subset (Finset.subset_univ _) fun j _ hj => ?_).trans (Finset.prod_congr rfl fun j _ => ?_)
  · rw [Finset.mem_Iic, not_le] at hj
    rw [tri_zero u hj]; simp
  · rw [transpose_apply]; congr 1; ring

theorem det_sqr (u : Low K → ℝ) : (tri u * (tri u)ᵀ).det = ∏ j : Fin K, u ⟨(j, j), le_rfl⟩ ^ 2 := by
  rw [det_mul, det_transpose, det_of_isLowerTriangular _ fun i j h => tri_zero u h, ← Finset.prod_mul_distrib]
  refine Finset.prod_congr rfl fun i _ => ?_
  rw [tri_diag, sq]

theorem prod_pi_pow : ∏ i : Fin K, Real.pi ^ (-((i : ℕ) : ℝ) / 2) = (Real.pi ^ ((K : ℝ) * (K - 1) / 4))⁻¹ := by
  rw [← Real.rpow_sum_of_pos Real.pi_pos, ← Real.rpow_neg Real.pi_pos.le]
  congr 1
  rw [← Finset.sum_div, Finset.sum_neg_distrib, Fin.sum_univ_eq_sum_range fun i => (i : ℝ)]
  have : ∑ i ∈ Finset.range K, (i : ℝ) = K * (K - 1) / 2 := by
    induction K with
    | zero => simp
    | succ n ih => rw [Finset.sum_range_succ, ih]; push_cast; ring
  rw [this]; ring

/-- The density of the Bartlett factor is that of the Wishart law times the Jacobian. -/
theorem bart_wish {ν : ℝ} (h : (K : ℝ) - 1 < ν) {u : Low K → ℝ} (hu : u ∈ posDiag K) :
    ∏ p, bartPdf ν p (u p) =
      (∏ j : Fin K, 2 * u ⟨(j, j), le_rfl⟩ ^ (K - (j : ℕ))) * wishPdf 1 ν (sym (sqr u)) := by
  have h2 : (0 : ℝ) < 2 * Real.pi := by positivity
  set c : Fin K → ℝ := fun i => 2 * u ⟨(i, i), le_rfl⟩ ^ (ν - (i : ℕ) - 1) /
    (2 ^ ((ν - (i : ℕ)) / 2) * Real.Gamma ((ν - (i : ℕ)) / 2)) with hc
  set d : ℝ := (2 * Real.pi) ^ (-(1 : ℝ) / 2) with hd
  have e : ∀ p : Low K, bartPdf ν p (u p) =
      (fun i j : Fin K => if i = j then c i else d) p.1.1 p.1.2 * Real.exp (-u p ^ 2 / 2) := by
    rintro ⟨⟨i, j⟩, hp⟩
    dsimp only
    by_cases hij : i = j
    · subst hij
      rw [bartPdf, if_pos rfl, if_pos rfl, chiPdf_eq (hu i)]
    · rw [bartPdf, if_neg hij, if_neg hij, normPdf, hd, show (-(1 : ℝ) / 2) = -(1 / 2) by ring, Real.rpow_neg h2.le,
        ← Real.sqrt_eq_rpow, one_div, mul_one, sub_zero]
      norm_num
  rw [Finset.prod_congr rfl fun p _ => e p, Finset.prod_mul_distrib, ← exp_trace,
    prod_low fun i j : Fin K => if i = j then c i else d]
  have e2 : ∀ i : Fin K, ∏ j ∈ Finset.Iic i, (if i = j then c i else d) = c i * d ^ (i : ℕ) := by
    intro i
    rw [← Finset.Iio_insert, Finset.prod_insert (by simp), if_pos rfl, Finset.prod_congr rfl (g := fun _ => d), Finset.prod_const,
      Fin.card_Iio]
    intro j hj
    rw [if_neg (Finset.mem_Iio.1 hj).ne']
  have e3 : ∀ i : Fin K, c i * d ^ (i : ℕ) = 2 * u ⟨(i, i), le_rfl⟩ ^ (K - (i : ℕ)) *
      (u ⟨(i, i), le_rfl⟩ ^ 2) ^ ((ν - K - 1) / 2) * (2 ^ (ν / 2))⁻¹ * Real.pi ^ (-((i : ℕ) : ℝ) / 2) *
      (Real.Gamma (ν / 2 - (i : ℕ) / 2))⁻¹ := by
    intro i
    have hi := hu i
    have hG := Real.Gamma_pos_of_pos (half_pos (df_pos h i))
    have f1 : d ^ (i : ℕ) = 2 ^ (-((i : ℕ) : ℝ) / 2) * Real.pi ^ (-((i : ℕ) : ℝ) / 2) := by
      rw [hd, ← Real.rpow_natCast, ← Real.rpow_mul h2.le, ← Real.mul_rpow two_pos.le Real.pi_pos.le]
      congr 1; ring
    have f2 : u ⟨(i, i), le_rfl⟩ ^ (ν - (i : ℕ) - 1) =
        u ⟨(i, i), le_rfl⟩ ^ (K - (i : ℕ)) * (u ⟨(i, i), le_rfl⟩ ^ 2) ^ ((ν - K - 1) / 2) := by
      rw [← Real.rpow_natCast, ← Real.rpow_natCast, ← Real.rpow_mul hi.le, ← Real.rpow_add hi, Nat.cast_sub i.2.le]
      congr 1; push_cast; ring
    have f3 : (2 : ℝ) ^ (ν / 2) = 2 ^ ((ν - (i : ℕ)) / 2) * 2 ^ (((i : ℕ) : ℝ) / 2) := by
      rw [← Real.rpow_add two_pos]; congr 1; ring
    rw [f1, hc]
    dsimp only
    rw [f2, f3, show ν / 2 - ((i : ℕ) : ℝ) / 2 = (ν - (i : ℕ)) / 2 by ring, neg_div, Real.rpow_neg two_pos.le, mul_inv, div_eq_mul_inv,
      mul_inv]
    ring
  rw [Finset.prod_congr rfl fun i _ => e2 i, Finset.prod_congr rfl fun i _ => e3 i, wishPdf, sym_sqr, det_one, Real.one_rpow, inv_one,
    Matrix.one_mul, det_sqr, mgamma, Finset.prod_mul_distrib, Finset.prod_mul_distrib, Finset.prod_mul_distrib, Finset.prod_mul_distrib,
    prod_pi_pow, Finset.prod_inv_distrib, Finset.prod_inv_distrib, Finset.prod_const, Finset.card_univ, Fintype.card_fin,
    ← Real.finsetProd_rpow _ _ fun i _ => sq_nonneg _, Fin.prod_univ_eq_prod_range fun i => Real.Gamma (ν / 2 - (i : ℝ) / 2),
    ← Real.rpow_mul_natCast two_pos.le, show ν / 2 * (K : ℝ) = ν * K / 2 by ring, div_eq_mul_inv (_ * Real.exp _), mul_inv, mul_inv, mul_inv]
  ring

/-- The product of the Bartlett factor with its transpose has the standard Wishart law. -/
theorem bart_law {ν : ℝ} (h : (K : ℝ) - 1 < ν) [∀ p : Low K, SigmaFinite (densLaw (bartPdf ν p))] [DecidablePred fun x : Low K → ℝ => (sym x).PosDef] :
    (Measure.pi fun p : Low K => densLaw (bartPdf ν p)).map sqr =
      densLawV fun x => if (sym x).PosDef then wishPdf 1 ν (sym x) else 0 := by
  rw [pi_densLaw' (measurable_bartPdf ν) (bartPdf_nonneg h)]
  refine densLawV_sqr (fun u hu => ?_) (fun u hu => ?_) fun x hx => if_neg hx
  · rw [bart_wish h hu, if_pos]
    have : sqr u ∈ sqr '' posDiag K := ⟨u, hu, rfl⟩
    rwa [sqr_image] at this
  · obtain ⟨i, hi⟩ : ∃ i : Fin K, ¬ 0 < u ⟨(i, i), le_rfl⟩ := by
      by_contra hc
      exact hu fun i => by_contra fun hi => hc ⟨i, hi⟩
    refine Finset.prod_eq_zero (Finset.mem_univ (⟨(i, i), le_rfl⟩ : Low K)) ?_
    rw [bartPdf, if_pos rfl, chiPdf, if_neg hi]

open Classical in
/-- congruence of a law of positive definite matrices -/
theorem posDef_congr_law {P : Matrix (Fin K) (Fin K) ℝ} (h : P.det ≠ 0) (f : Matrix (Fin K) (Fin K) ℝ → ℝ) :
    (densLawV fun x : Low K → ℝ => if (sym x).PosDef then f (sym x) else 0).map (congr P) =
      densLawV fun x => if (sym x).PosDef then |P.det|⁻¹ ^ (K + 1) * f (P⁻¹ * sym x * P⁻¹ᵀ) else 0 := by
  rw [densLawV_congr h fun X => if X.PosDef then f X else 0]
  congr 1; funext x
  have hi : (P⁻¹).det ≠ 0 := by rw [det_nonsing_inv, Ring.inverse_eq_inv']; exact inv_ne_zero h
  simp only [posDef_congr hi]
  split_ifs
  · rfl
  · rw [mul_zero]

theorem wish_scale {P X : Matrix (Fin K) (Fin K) ℝ} (h : P.det ≠ 0) (hX : X.PosDef) (ν : ℝ) :
    |P.det|⁻¹ ^ (K + 1) * wishPdf 1 ν (P⁻¹ * X * P⁻¹ᵀ) = wishPdf (P * Pᵀ) ν X := by
  have hp : 0 < |P.det| := abs_pos.2 h
  have e1 : (P⁻¹ * X * P⁻¹ᵀ).det = |P.det|⁻¹ ^ 2 * X.det := by
    rw [det_mul, det_mul, det_transpose, det_nonsing_inv, Ring.inverse_eq_inv', inv_pow, sq_abs]; ring
  have e2 : ((P * Pᵀ)⁻¹ * X).trace = (P⁻¹ * X * P⁻¹ᵀ).trace := by
    rw [Matrix.mul_inv_rev, ← transpose_nonsing_inv, Matrix.mul_assoc, trace_mul_comm]
  have e3 : (P * Pᵀ).det = |P.det| ^ 2 := by rw [det_mul, det_transpose, sq_abs, sq]
  rw [wishPdf, wishPdf, e1, e2, e3, inv_one, Matrix.one_mul, det_one, Real.one_rpow, mul_one,
    Real.mul_rpow (by positivity) hX.det_pos.le]
  have e4 : |P.det|⁻¹ ^ (K + 1) * (|P.det|⁻¹ ^ 2) ^ ((ν - K - 1) / 2) = ((|P.det| ^ 2) ^ (ν / 2))⁻¹ := by
    rw [← Real.rpow_natCast, ← Real.rpow_natCast, ← Real.rpow_natCast, ← Real.rpow_mul (by positivity), ← Real.rpow_mul hp.le,
      ← Real.rpow_add (by positivity), Real.inv_rpow hp.le]
    congr 2; push_cast; ring
  rw [show (2 : ℝ) ^ (ν * K / 2) * (|P.det| ^ 2) ^ (ν / 2) * mgamma (ν / 2) K = 2 ^ (ν * K / 2) * mgamma (ν / 2) K * (|P.det| ^ 2) ^ (ν / 2)
    by ring, ← div_div _ _ ((|P.det| ^ 2) ^ (ν / 2)), div_eq_mul_inv _ ((|P.det| ^ 2) ^ (ν / 2)), ← e4]
  ring

theorem wish_inv {Psi X : Matrix (Fin K) (Fin K) ℝ} (hP : Psi.PosDef) (hX : X.PosDef) (ν : ℝ) :
    X.det⁻¹ ^ (K + 1) * wishPdf Psi⁻¹ ν X⁻¹ = invwishPdf Psi ν X := by
  have h1 := hP.det_pos
  have h2 := hX.det_pos
  rw [wishPdf, invwishPdf, nonsing_inv_nonsing_inv _ (isUnit_iff_ne_zero.2 h1.ne'), det_nonsing_inv, det_nonsing_inv,
    Ring.inverse_eq_inv', Real.inv_rpow h1.le]
  have e : X.det⁻¹ ^ (K + 1) * X.det⁻¹ ^ ((ν - K - 1) / 2) = X.det ^ (-(ν + K + 1) / 2) := by
    rw [← Real.rpow_natCast, ← Real.rpow_add (by positivity), Real.inv_rpow h2.le, ← Real.rpow_neg h2.le]
    congr 1; push_cast; ring
  rw [← e, div_eq_mul_inv (_ * Real.exp _), div_eq_mul_inv (Psi.det ^ _), mul_inv, mul_inv, mul_inv, inv_inv]
  ring

end Stats
