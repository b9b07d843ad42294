import Verif.Lemmas.SymJac
import Verif.IdealLin
import Mathlib.Analysis.Matrix.PosDef
import Mathlib.Topology.Algebra.Module.FiniteDimension
import Mathlib.Algebra.Order.Star.Real
import Mathlib.Analysis.Matrix.Normed
import Mathlib.Analysis.Calculus.FDeriv.Mul

/-! Images of densities on symmetric matrices. -/

open Matrix MeasureTheory Set
open scoped ENNReal

namespace Stats
open Spec

/-- Change of variables for densities. -/
theorem densLawV_map {ι : Type*} [Fintype ι] {Φ : (ι → ℝ) → (ι → ℝ)} {Φ' : (ι → ℝ) → (ι → ℝ) →L[ℝ] (ι → ℝ)}
    {s : Set (ι → ℝ)} {g w : (ι → ℝ) → ℝ} (hm : Measurable Φ) (hs : MeasurableSet s)
    (hd : ∀ x ∈ s, HasFDerivWithinAt Φ (Φ' x) s x) (hi : InjOn Φ s) (hg : ∀ x ∈ s, g x = |(Φ' x).det| * w (Φ x))
    (hg0 : ∀ x ∉ s, g x = 0) (hw0 : ∀ y ∉ Φ '' s, w y = 0) : (densLawV g).map Φ = densLawV w := by
  ext B hB
  have hsB : MeasurableSet (s ∩ Φ ⁻¹' B) := hs.inter (hm hB)
  rw [Measure.map_apply hm hB, densLawV, densLawV, withDensity_apply _ (hm hB), withDensity_apply _ hB]
  have h1 : ∫⁻ x in Φ ⁻¹' B, ENNReal.ofReal (g x) = ∫⁻ x in s ∩ Φ ⁻¹' B, ENNReal.ofReal (g x) := by
    rw [← setLIntegral_indicator hs]
    refine lintegral_congr fun x => ?_
    by_cases hx : x ∈ s
    · rw [indicator_of_mem hx]
    · rw [indicator_of_notMem hx, hg0 x hx, ENNReal.ofReal_zero]
  have hd' : ∀ x ∈ s ∩ Φ ⁻¹' B, HasFDerivWithinAt Φ (Φ' x) (s ∩ Φ ⁻¹' B) x := fun x hx =>
    (hd x hx.1).mono inter_subset_left
  have hi' : InjOn Φ (s ∩ Φ ⁻¹' B) := hi.mono inter_subset_left
  have h2 := lintegral_image_eq_lintegral_abs_det_fderiv_mul volume hsB hd' hi' fun y => ENNReal.ofReal (w y)
  have h3 : ∫⁻ x in s ∩ Φ ⁻¹' B, ENNReal.ofReal (g x) =
      ∫⁻ x in s ∩ Φ ⁻¹' B, ENNReal.ofReal |(Φ' x).det| * ENNReal.ofReal (w (Φ x)) := by
    refine setLIntegral_congr_fun hsB fun x hx => ?_
    rw [hg x hx.1, ENNReal.ofReal_mul (abs_nonneg _)]
  have hms : MeasurableSet (Φ '' s) := measurable_image_of_fderivWithin hs hd hi
  rw [h1, h3, ← h2, image_inter_preimage, ← setLIntegral_indicator hms]
  refine lintegral_congr fun x => ?_
  by_cases hx : x ∈ Φ '' s
  · rw [indicator_of_mem hx]
  · rw [indicator_of_notMem hx, hw0 x hx, ENNReal.ofReal_zero]

variable {K : ℕ}

theorem posDef_congr {P X : Matrix (Fin K) (Fin K) ℝ} (h : P.det ≠ 0) : (P * X * Pᵀ).PosDef ↔ X.PosDef := by
  have hu : IsUnit P := (isUnit_iff_isUnit_det P).2 (isUnit_iff_ne_zero.2 h)
  have := hu.posDef_star_right_conjugate_iff (x := X)
  rwa [star_eq_conjTranspose, conjTranspose_eq_transpose_of_trivial] at this

theorem measurable_sym : Measurable fun (x : Low K → ℝ) (i j : Fin K) => sym x i j := by
  refine measurable_pi_iff.2 fun i => measurable_pi_iff.2 fun j => ?_
  simp only [sym, of_apply]
  split <;> exact measurable_pi_apply _

/-- the congruence by `P` of a law with a density -/
theorem densLawV_congr {P : Matrix (Fin K) (Fin K) ℝ} (h : P.det ≠ 0) (f : Matrix (Fin K) (Fin K) ℝ → ℝ) :
    (densLawV fun x : Low K → ℝ => f (sym x)).map (congr P) =
      densLawV fun x => |P.det|⁻¹ ^ (K + 1) * f (P⁻¹ * sym x * P⁻¹ᵀ) := by
  have hu := isUnit_iff_ne_zero.2 h
  have hc : ∀ x, congr P⁻¹ (congr P x) = x := by
    intro x
    apply sym_injective
    rw [sym_congr, sym_congr, ← Matrix.mul_assoc, ← Matrix.mul_assoc, nonsing_inv_mul _ hu, Matrix.one_mul,
      Matrix.mul_assoc, ← transpose_mul, nonsing_inv_mul _ hu, transpose_one, Matrix.mul_one]
  have hc' : ∀ x, congr P (congr P⁻¹ x) = x := by
    intro x
    apply sym_injective
    rw [sym_congr, sym_congr, ← Matrix.mul_assoc, ← Matrix.mul_assoc, mul_nonsing_inv _ hu, Matrix.one_mul,
      Matrix.mul_assoc, ← transpose_mul, mul_nonsing_inv _ hu, transpose_one, Matrix.mul_one]
  refine densLawV_map (Φ' := fun _ => LinearMap.toContinuousLinearMap (congr P)) (s := univ)
    (LinearMap.continuous_of_finiteDimensional _).measurable MeasurableSet.univ
    (fun x _ => (LinearMap.toContinuousLinearMap (congr P)).hasFDerivWithinAt)
    (fun x _ y _ e => by rw [← hc x, e, hc]) (fun x _ => ?_) (fun x hx => absurd trivial hx)
    fun y hy => absurd ⟨_, trivial, hc' y⟩ hy
  rw [LinearMap.det_toContinuousLinearMap, det_congr h, abs_pow, ← mul_assoc, ← mul_pow,
    mul_inv_cancel₀ (abs_ne_zero.2 h), one_pow, one_mul]
  show f (sym x) = f (P⁻¹ * sym (congr P x) * P⁻¹ᵀ)
  rw [← sym_congr, hc]

/-! ### the Cholesky factor -/

/-- the lower triangular matrix with a given lower triangle -/
def tri (u : Low K → ℝ) : Matrix (Fin K) (Fin K) ℝ := of fun i j => if h : j ≤ i then u ⟨(i, j), h⟩ else 0

theorem tri_zero (u : Low K → ℝ) {i j : Fin K} (h : i < j) : tri u i j = 0 := by
  simp only [tri, of_apply, dif_neg (not_le.2 h)]

theorem tri_low {L : Matrix (Fin K) (Fin K) ℝ} (h : ∀ i j, i < j → L i j = 0) : tri (low L) = L := by
  ext i j
  simp only [tri, low, of_apply]
  split
  · rfl
  · rename_i hc; exact (h i j (not_le.1 hc)).symm

theorem low_tri (u : Low K → ℝ) : low (tri u) = u := by
  funext p
  simp only [low, tri, of_apply, dif_pos p.2]

theorem tri_add (x y : Low K → ℝ) : tri (x + y) = tri x + tri y := by
  ext i j; simp only [tri, of_apply, Matrix.add_apply]; split <;> simp

theorem tri_smul (c : ℝ) (x : Low K → ℝ) : tri (c • x) = c • tri x := by
  ext i j; simp only [tri, of_apply, Matrix.smul_apply]; split <;> simp

theorem tri_single (q : Low K) (a b : Fin K) : tri (Pi.single q 1) a b = if a = q.1.1 ∧ b = q.1.2 then 1 else 0 := by
  obtain ⟨⟨k, l⟩, hq⟩ := q
  simp only [tri, of_apply]
  split
  · rename_i h
    by_cases e : a = k ∧ b = l
    · obtain ⟨rfl, rfl⟩ := e
      simp
    · rw [Pi.single_eq_of_ne, if_neg e]
      intro hc
      have := congrArg (fun p : Low K => p.1) hc
      exact e ⟨congrArg Prod.fst this, congrArg Prod.snd this⟩
  · rename_i h
    rw [if_neg]
    rintro ⟨rfl, rfl⟩
    exact h hq

/-- the product of a lower triangular matrix with its transpose, on lower triangles -/
def sqr (u : Low K → ℝ) : Low K → ℝ := low (tri u * (tri u)ᵀ)

theorem sym_sqr (u : Low K → ℝ) : sym (sqr u) = tri u * (tri u)ᵀ := by
  rw [sqr, sym_low]
  rw [transpose_mul, transpose_transpose]

/-- lower triangles with a positive diagonal -/
def posDiag (K : ℕ) : Set (Low K → ℝ) := {u | ∀ i : Fin K, 0 < u ⟨(i, i), le_rfl⟩}

theorem measurableSet_posDiag : MeasurableSet (posDiag K) := by
  have : posDiag K = ⋂ i : Fin K, {u | 0 < u ⟨(i, i), le_rfl⟩} := by
    ext u; simp [posDiag]
  rw [this]
  exact MeasurableSet.iInter fun i => measurableSet_lt measurable_const (measurable_pi_apply _)

theorem tri_diag (u : Low K → ℝ) (i : Fin K) : tri u i i = u ⟨(i, i), le_rfl⟩ := by
  simp [tri]

/-- A Cholesky factor is unique. -/
theorem chol_unique {L M : Matrix (Fin K) (Fin K) ℝ} (hL : ∀ i j, i < j → L i j = 0) (hM : ∀ i j, i < j → M i j = 0)
    (hLp : ∀ i, 0 < L i i) (hMp : ∀ i, 0 < M i i) (h : L * Lᵀ = M * Mᵀ) : L = M := by
  have key : ∀ (n : ℕ) (j : Fin K), (j : ℕ) = n → ∀ i, L i j = M i j := by
    intro n
    induction n using Nat.strong_induction_on with
    | _ n ih =>
      intro j hj
      have hrest : ∀ i, ∑ k ∈ Finset.univ.erase j, L i k * L j k = ∑ k ∈ Finset.univ.erase j, M i k * M j k := by
        intro i
        refine Finset.sum_congr rfl fun k hk => ?_
        rcases lt_or_gt_of_ne (Finset.ne_of_mem_erase hk) with hkj | hkj
        · rw [ih k (hj ▸ hkj) k rfl i, ih k (hj ▸ hkj) k rfl j]
        · rw [hL j k hkj, hM j k hkj, mul_zero, mul_zero]
      have hcol : ∀ i, L i j * L j j = M i j * M j j := by
        intro i
        have e := congrFun (congrFun h i) j
        simp only [mul_apply, transpose_apply] at e
        rw [← Finset.sum_erase_add _ _ (Finset.mem_univ j), ← Finset.sum_erase_add _ _ (Finset.mem_univ j), hrest i] at e
        exact add_left_cancel e
      have hjj : L j j = M j j := by
        have e := hcol j
        rw [← pow_two, ← pow_two] at e
        exact (pow_left_inj₀ (hLp j).le (hMp j).le two_ne_zero).1 e
      intro i
      have e := hcol i
      rw [hjj] at e
      exact mul_right_cancel₀ (hMp j).ne' e
  ext i j
  exact key _ j rfl i

theorem sqr_injOn : InjOn (sqr (K := K)) (posDiag K) := by
  intro u hu v hv e
  have e2 : tri u * (tri u)ᵀ = tri v * (tri v)ᵀ := by rw [← sym_sqr, e, sym_sqr]
  have e3 : tri u = tri v := chol_unique (fun i j h => tri_zero u h) (fun i j h => tri_zero v h)
    (fun i => by rw [tri_diag]; exact hu i) (fun i => by rw [tri_diag]; exact hv i) e2
  rw [← low_tri u, e3, low_tri]

theorem tri_det_pos {u : Low K → ℝ} (hu : u ∈ posDiag K) : 0 < (tri u).det := by
  rw [det_of_isLowerTriangular _ fun i j h => tri_zero u h]
  exact Finset.prod_pos fun i _ => by rw [tri_diag]; exact hu i

theorem sqr_image : sqr '' posDiag K = {x | (sym x).PosDef} := by
  ext x
  constructor
  · rintro ⟨u, hu, rfl⟩
    show (sym (sqr u)).PosDef
    have := (posDef_congr (X := 1) (tri_det_pos hu).ne').2 PosDef.one
    rwa [Matrix.mul_one, ← sym_sqr] at this
  · intro hx
    obtain ⟨L, hL⟩ := cholesky _ hx
    refine ⟨low L, fun i => hL.pos i, sym_injective ?_⟩
    rw [sym_sqr, tri_low hL.lower]
    exact hL.mul

/-- the derivative of `sqr` -/
def sqrD (u : Low K → ℝ) : (Low K → ℝ) →ₗ[ℝ] (Low K → ℝ) where
  toFun v := low (tri u * (tri v)ᵀ + tri v * (tri u)ᵀ)
  map_add' x y := by funext p; simp [low, tri_add, Matrix.mul_add, Matrix.add_mul]; ring
  map_smul' c x := by funext p; simp [low, tri_smul]; ring

theorem sqr_hasFDerivAt (u : Low K → ℝ) : HasFDerivAt sqr (LinearMap.toContinuousLinearMap (sqrD u)) u := by
  let T : Fin K → Fin K → ((Low K → ℝ) →L[ℝ] ℝ) := fun i k => LinearMap.toContinuousLinearMap
    { toFun := fun u => tri u i k
      map_add' := fun x y => by rw [tri_add]; rfl
      map_smul' := fun c x => by rw [tri_smul]; rfl }
  have hT : ∀ i k, HasFDerivAt (fun u => tri u i k) (T i k) u := fun i k => (T i k).hasFDerivAt
  rw [hasFDerivAt_pi']
  intro p
  have h := HasFDerivAt.fun_sum (u := Finset.univ) fun k (_ : k ∈ Finset.univ) => (hT p.1.1 k).mul (hT p.1.2 k)
  refine HasFDerivAt.congr_fderiv h ?_
  ext v
  simp only [FunLike.coe_sum, Finset.sum_apply, _root_.add_apply, _root_.smul_apply, smul_eq_mul]
  show _ = low (tri u * (tri v)ᵀ + tri v * (tri u)ᵀ) p
  simp only [low, Matrix.add_apply, mul_apply, transpose_apply, ← Finset.sum_add_distrib]
  refine Finset.sum_congr rfl fun k _ => ?_
  show tri u p.1.1 k * tri v p.1.2 k + tri u p.1.2 k * tri v p.1.1 k = _
  ring

theorem sqrD_entry (u : Low K → ℝ) (p q : Low K) : LinearMap.toMatrix' (sqrD u) p q =
    (if p.1.2 = q.1.1 then tri u p.1.1 q.1.2 else 0) + if p.1.1 = q.1.1 then tri u p.1.2 q.1.2 else 0 := by
  rw [LinearMap.toMatrix'_apply]
  show low (tri u * (tri _)ᵀ + tri _ * (tri u)ᵀ) p = _
  simp only [low, Matrix.add_apply, mul_apply, transpose_apply]
  congr 1
  · rw [Finset.sum_eq_single q.1.2]
    · rw [tri_single]; by_cases h : p.1.2 = q.1.1 <;> simp [h]
    · intro b _ hb; rw [tri_single, if_neg (fun h => hb h.2), mul_zero]
    · simp
  · rw [Finset.sum_eq_single q.1.2]
    · rw [tri_single]; by_cases h : p.1.1 = q.1.1 <;> simp [h]
    · intro b _ hb; rw [tri_single, if_neg (fun h => hb h.2), zero_mul]
    · simp

theorem det_sqrD (u : Low K → ℝ) :
    LinearMap.det (sqrD u) = ∏ j : Fin K, 2 * u ⟨(j, j), le_rfl⟩ ^ (K - (j : ℕ)) := by
  let := lowOrder K
  rw [← LinearMap.det_toMatrix', det_of_isLowerTriangular (LinearMap.toMatrix' (sqrD u))]
  · have e : ∀ p : Low K, LinearMap.toMatrix' (sqrD u) p p =
        (fun i j : Fin K => (if i = j then (2 : ℝ) else 1) * u ⟨(j, j), le_rfl⟩) p.1.1 p.1.2 := by
      rintro ⟨⟨i, j⟩, hp⟩
      rw [sqrD_entry]
      dsimp only
      rw [← tri_diag u j]
      by_cases h : j = i
      · subst h; simp; ring
      · rw [if_neg h, if_pos rfl, if_neg (Ne.symm h)]; ring
    rw [Finset.prod_congr rfl fun p _ => e p,
      prod_low' fun i j : Fin K => (if i = j then (2 : ℝ) else 1) * u ⟨(j, j), le_rfl⟩]
    refine Finset.prod_congr rfl fun j _ => ?_
    rw [Finset.prod_mul_distrib, Finset.prod_const, Fin.card_Ici, Finset.prod_ite_eq' (Finset.Ici j) j fun _ => (2 : ℝ)]
    simp
  · intro p q hpq
    have hpq : (lowOrder K).lt p q := hpq
    rw [lowOrder_lt] at hpq
    rw [sqrD_entry]
    have hp := p.2
    have hq := q.2
    have h1 : ¬ p.1.2 = q.1.1 ∨ p.1.1 < q.1.2 := by omega
    have h2 : ¬ p.1.1 = q.1.1 ∨ p.1.2 < q.1.2 := by omega
    rcases h1 with h1 | h1 <;> rcases h2 with h2 | h2 <;> simp [h1, h2, tri_zero]

theorem densLawV_sqr {g : (Low K → ℝ) → ℝ} {w : (Low K → ℝ) → ℝ}
    (hg : ∀ u ∈ posDiag K, g u = (∏ j : Fin K, 2 * u ⟨(j, j), le_rfl⟩ ^ (K - (j : ℕ))) * w (sqr u))
    (hg0 : ∀ u ∉ posDiag K, g u = 0) (hw : ∀ x, ¬ (sym x).PosDef → w x = 0) :
    (densLawV g).map sqr = densLawV w := by
  have hc : Continuous (sqr (K := K)) := continuous_iff_continuousAt.2 fun u => (sqr_hasFDerivAt u).continuousAt
  refine densLawV_map hc.measurable measurableSet_posDiag (fun u _ => (sqr_hasFDerivAt u).hasFDerivWithinAt) sqr_injOn
    (fun u hu => ?_) hg0 fun y hy => hw y ?_
  · rw [hg u hu, LinearMap.det_toContinuousLinearMap, det_sqrD, abs_of_nonneg]
    exact Finset.prod_nonneg fun j _ => mul_nonneg two_pos.le (pow_nonneg (hu j).le _)
  · rwa [sqr_image] at hy

/-! ### the inverse -/

/-- the inverse, on lower triangles -/
noncomputable def invL (x : Low K → ℝ) : Low K → ℝ := low (sym x)⁻¹

theorem sym_invL (x : Low K → ℝ) : sym (invL x) = (sym x)⁻¹ := by
  rw [invL, sym_low]
  rw [transpose_nonsing_inv, sym_transpose]

section
attribute [local instance] Matrix.linftyOpNormedRing Matrix.linftyOpNormedAlgebra

theorem invL_hasFDerivAt {x : Low K → ℝ} (h : (sym x).det ≠ 0) :
    HasFDerivAt invL (LinearMap.toContinuousLinearMap (-congr (sym x)⁻¹)) x := by
  let A : (Low K → ℝ) →L[ℝ] Matrix (Fin K) (Fin K) ℝ := LinearMap.toContinuousLinearMap
    { toFun := sym, map_add' := sym_add, map_smul' := sym_smul }
  let B : Matrix (Fin K) (Fin K) ℝ →L[ℝ] (Low K → ℝ) := LinearMap.toContinuousLinearMap
    { toFun := low, map_add' := fun _ _ => rfl, map_smul' := fun _ _ => rfl }
  obtain ⟨U, hU⟩ := (isUnit_iff_isUnit_det (sym x)).2 (isUnit_iff_ne_zero.2 h)
  have h1 : HasFDerivAt A A x := A.hasFDerivAt
  have h2 := hasFDerivAt_ringInverse (𝕜 := ℝ) U
  rw [hU] at h2
  have h3 := (B.hasFDerivAt (x := Ring.inverse (sym x))).comp x (HasFDerivAt.comp (f := A) (g := Ring.inverse) x h2 h1)
  have e : (B ∘ Ring.inverse ∘ A : (Low K → ℝ) → Low K → ℝ) = invL := by
    funext y
    show low (Ring.inverse (sym y)) = _
    rw [← nonsing_inv_eq_ringInverse, invL]
  rw [e] at h3
  refine h3.congr_fderiv ?_
  ext1 v
  show low (-(((U⁻¹ : (Matrix (Fin K) (Fin K) ℝ)ˣ) : Matrix (Fin K) (Fin K) ℝ) * sym v * ((U⁻¹ : (Matrix (Fin K) (Fin K) ℝ)ˣ) : Matrix (Fin K) (Fin K) ℝ))) =
    -low ((sym x)⁻¹ * sym v * ((sym x)⁻¹)ᵀ)
  rw [coe_units_inv, hU, transpose_nonsing_inv, sym_transpose]
  rfl
end

theorem invL_invL {x : Low K → ℝ} (h : (sym x).det ≠ 0) : invL (invL x) = x := by
  apply sym_injective
  rw [sym_invL, sym_invL, nonsing_inv_nonsing_inv _ (isUnit_iff_ne_zero.2 h)]

theorem measurableSet_posDef : MeasurableSet {x : Low K → ℝ | (sym x).PosDef} := by
  rw [← sqr_image]
  exact measurable_image_of_fderivWithin measurableSet_posDiag (fun u _ => (sqr_hasFDerivAt u).hasFDerivWithinAt) sqr_injOn

theorem measurable_invL : Measurable (invL (K := K)) := by
  have hs : ∀ i j, Measurable fun x : Low K → ℝ => sym x i j := fun i j =>
    measurable_pi_iff.1 (measurable_pi_iff.1 measurable_sym i) j
  have hdet : ∀ (M : (Low K → ℝ) → Matrix (Fin K) (Fin K) ℝ) (_ : ∀ i j, Measurable fun x => M x i j),
      Measurable fun x => (M x).det := by
    intro M hM
    simp only [det_apply]
    exact Finset.measurable_sum _ fun σ _ => (Finset.measurable_prod _ fun i _ => hM _ _).const_smul _
  refine measurable_pi_iff.2 fun p => ?_
  show Measurable fun x => (sym x)⁻¹ p.1.1 p.1.2
  simp only [inv_def, Matrix.smul_apply, smul_eq_mul, Ring.inverse_eq_inv', adjugate_apply]
  refine (hdet _ hs).inv.mul (hdet _ fun i j => ?_)
  by_cases hi : i = p.1.2
  · subst hi
    simp only [updateRow_self]; exact measurable_const
  · simp only [updateRow_ne hi]; exact hs i j

open Classical in
/-- the inverse of a random positive definite matrix with a density -/
theorem densLawV_inv (f : Matrix (Fin K) (Fin K) ℝ → ℝ) :
    (densLawV fun x : Low K → ℝ => if (sym x).PosDef then f (sym x) else 0).map invL =
      densLawV fun x => if (sym x).PosDef then (sym x).det⁻¹ ^ (K + 1) * f (sym x)⁻¹ else 0 := by
  refine densLawV_map (s := {x | (sym x).PosDef}) measurable_invL measurableSet_posDef
    (fun x hx => (invL_hasFDerivAt (PosDef.det_pos hx).ne').hasFDerivWithinAt)
    (fun x hx y hy e => ?_) (fun x hx => ?_) (fun x hx => if_neg hx) fun y hy => if_neg fun hc => hy ?_
  · rw [← invL_invL (PosDef.det_pos hx).ne', e, invL_invL (PosDef.det_pos hy).ne']
  · have hx : (sym x).PosDef := hx
    have hd := hx.det_pos
    have hu := isUnit_iff_ne_zero.2 hd.ne'
    rw [if_pos hx, sym_invL, if_pos hx.inv, nonsing_inv_nonsing_inv _ hu, LinearMap.det_toContinuousLinearMap]
    have e : |LinearMap.det (-congr (sym x)⁻¹)| = (sym x).det⁻¹ ^ (K + 1) := by
      rw [← neg_one_smul ℝ, LinearMap.det_smul, det_congr (by rw [det_nonsing_inv, Ring.inverse_eq_inv']; exact inv_ne_zero hd.ne'),
        abs_mul, abs_pow, abs_neg, abs_one, one_pow, one_mul, det_nonsing_inv, Ring.inverse_eq_inv',
        abs_of_pos (pow_pos (inv_pos.2 hd) _)]
    rw [e, det_nonsing_inv, Ring.inverse_eq_inv', inv_inv, ← mul_assoc, ← mul_pow, inv_mul_cancel₀ hd.ne', one_pow, one_mul]
  · refine ⟨invL y, ?_, invL_invL (PosDef.det_pos hc).ne'⟩
    show (sym (invL y)).PosDef
    rw [sym_invL]; exact hc.inv

end Stats
