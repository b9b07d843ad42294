import Verif.Model.Multi
import Verif.Spec.Multi
import Verif.Lemmas.MatIdeal
import Verif.Lemmas.LinInst
import Verif.Lemmas.MultiLaw
import Verif.Lemmas.FairInst
import Verif.Props.C28
import Verif.Props.C32
import Verif.Props.C36
import Verif.Props.C37

/-!
# C35: multivariate generators

`rmvnorm` is an affine image of independent standard normal draws. In exact arithmetic with exact solvers and an ideal
engine its law is the multivariate normal law with the density that `dmvnorm` computes (C36), for Armadillo and Eigen.
With Blaze the factor is wrong (C37) and so is the covariance.
-/

set_option linter.unusedSectionVars false
open Classical
open MeasureTheory Set Matrix
open scoped ENNReal

namespace Stats
open Fl MatOps Spec Vec
variable [Lib] [Ideal] {S : Type*} [Engine S] [LinAlg] [IdealLin]

/-! ## rmvnorm, draw by draw -/

/-- The standard normal draws, one after the other. -/
noncomputable def normDraws : ℕ → S → List ℝ × S
  | 0, s => ([], s)
  | n + 1, s => let zs := Engine.norm s; let r := normDraws n zs.2; (zs.1 :: r.1, r.2)

omit [LinAlg] [IdealLin] in
theorem normDraws_length (n : ℕ) (s : S) : (normDraws n s).1.length = n := by
  induction n generalizing s with
  | zero => rfl
  | succ n ih => simp [normDraws, ih]

omit [LinAlg] [IdealLin] in
theorem rnormVec_eq (n : ℕ) (s : S) :
    rnormVec n s = (fun i : Fin n => fin ((normDraws n s).1.getD i 0), (normDraws n s).2) := by
  induction n generalizing s with
  | zero => rw [rnormVec, normDraws]; congr 1; funext i; exact i.elim0
  | succ n ih =>
    have h : rnorm 0 1 s = (fin (Engine.norm s).1, (Engine.norm s).2) := by
      rw [zero_eq, one_eq]; exact rnorm01 (s := s) rfl
    rw [rnormVec, normDraws]
    simp only [h, ih]
    congr 1
    funext i
    refine Fin.cases ?_ (fun i => ?_) i <;> simp

/-- The result is `mu + A z` with `z` the next standard normal draws; `A` is the given factor (`pre_chol`). -/
theorem C35_rmvnorm_pre (be : Backend) {K : ℕ} (mu : Fin K → ℝ) (A : Matrix (Fin K) (Fin K) ℝ) (s : S) :
    rmvnorm be (fun i => fin (mu i)) (ofReal A) true s =
      (some fun i => fin ((mu + A *ᵥ fun j : Fin K => (normDraws K s).1.getD j 0) i), (normDraws K s).2) := by
  rw [rmvnorm, dif_neg (by simp), rnormVec_eq]
  simp only [if_true, mulVec_real, Fin.cast_eq_self, ideal]
  rfl

/-- `mu + L z` with `L L' = Sigma`, for Armadillo and Eigen. -/
theorem C35_rmvnorm_partial {be : Backend} (hbe : be ≠ .blaze) {K : ℕ} (mu : Fin K → ℝ)
    {Sigma : Matrix (Fin K) (Fin K) ℝ} (h : Sigma.PosDef) :
    ∃ L : Matrix (Fin K) (Fin K) ℝ, IsChol Sigma L ∧ ∀ s : S,
      rmvnorm be (fun i => fin (mu i)) (ofReal Sigma) false s =
      (some fun i => fin ((mu + L *ᵥ fun j : Fin K => (normDraws K s).1.getD j 0) i), (normDraws K s).2) := by
  obtain ⟨L, hL, e⟩ := C37_chol_partial hbe h
  refine ⟨L, hL, fun s => ?_⟩
  rw [← C35_rmvnorm_pre be mu L s, rmvnorm, rmvnorm]
  simp [e]

omit [IdealLin] [Ideal] in
/-- Dimension mismatch: an empty object, the engine is not touched. In every arithmetic. -/
theorem C35_rmvnorm_empty (be : Backend) {d K : ℕ} (h : d ≠ K) (mu : Fin d → Fl) (Sigma : Mat K K) (pre : Bool) (s : S) :
    rmvnorm be mu Sigma pre s = (none, s) := by rw [rmvnorm, dif_pos h]

omit [IdealLin] [Ideal] in
theorem C35_rmvnorm_nonempty (be : Backend) {K : ℕ} (mu : Fin K → Fl) (Sigma : Mat K K) (pre : Bool) (s : S) :
    (rmvnorm be mu Sigma pre s).1.isSome := by rw [rmvnorm, dif_neg (by simp)]; rfl

omit [IdealLin] [Ideal] in
theorem C35_rmvnorm_n_empty (be : Backend) (n : ℕ) {d K : ℕ} (h : d ≠ K) (pos : Fin n × Fin K ≃ Fin (n * K))
    (mu : Fin d → Fl) (Sigma : Mat K K) (pre : Bool) (s : S) : rmvnorm_n be n pos mu Sigma pre s = (none, s) := by
  rw [rmvnorm_n, dif_pos h]

/-- Each row of the matrix version is `mu + A z` with its own `K` draws, no draw used twice (`pos` is a bijection). -/
theorem C35_rmvnorm_n_pre (be : Backend) (n : ℕ) {K : ℕ} (pos : Fin n × Fin K ≃ Fin (n * K)) (mu : Fin K → ℝ)
    (A : Matrix (Fin K) (Fin K) ℝ) (s : S) :
    rmvnorm_n be n pos (fun i => fin (mu i)) (ofReal A) true s =
      (some fun r i => fin ((mu + A *ᵥ fun j => (normDraws (n * K) s).1.getD (pos (r, j)) 0) i),
        (normDraws (n * K) s).2) := by
  rw [rmvnorm_n, dif_neg (by simp), rnormVec_eq]
  have e : ∀ Z : Matrix (Fin n) (Fin K) ℝ, mmul (fun i j => fin (Z i j)) (trans (ofReal A)) = ofReal (Z * Aᵀ) :=
    fun Z => by rw [trans_real]; exact mmul_real Z Aᵀ
  simp only [if_true]
  refine (congrArg (fun M => (some fun i j => fin (mu (Fin.cast _ j)) + M i j, (normDraws (n * K) s).2))
    (e (Matrix.of fun r j => (normDraws (n * K) s).1.getD (pos (r, j)) 0))).trans ?_
  simp only [Fin.cast_eq_self, ofReal, ideal]
  congr 2; funext r i
  simp [Matrix.mul_apply, Matrix.mulVec, dotProduct, mul_comm]

theorem C35_rmvnorm_n_partial {be : Backend} (hbe : be ≠ .blaze) (n : ℕ) {K : ℕ} (pos : Fin n × Fin K ≃ Fin (n * K))
    (mu : Fin K → ℝ) {Sigma : Matrix (Fin K) (Fin K) ℝ} (h : Sigma.PosDef) :
    ∃ L : Matrix (Fin K) (Fin K) ℝ, IsChol Sigma L ∧ ∀ s : S,
    rmvnorm_n be n pos (fun i => fin (mu i)) (ofReal Sigma) false s =
      (some fun r i => fin ((mu + L *ᵥ fun j => (normDraws (n * K) s).1.getD (pos (r, j)) 0) i),
        (normDraws (n * K) s).2) := by
  obtain ⟨L, hL, e⟩ := C37_chol_partial hbe h
  refine ⟨L, hL, fun s => ?_⟩
  rw [← C35_rmvnorm_n_pre be n pos mu L s, rmvnorm_n, rmvnorm_n]
  simp [e]

/-! ## rmvnorm: the law -/

section law
variable [MeasurableSpace S] {P : Measure S}

/-- what the generator returns, if not empty -/
noncomputable def rmvnormG (be : Backend) {K : ℕ} (mu : Fin K → Fl) (Sigma : Mat K K) (pre : Bool) (s : S) :
    Option ((Fin K → Fl) × S) :=
  let r := rmvnorm be mu Sigma pre s
  r.1.map fun x => (x, r.2)

omit [LinAlg] [IdealLin] in
theorem rnormVec_draw (hP : FairEngine P) (n : ℕ) :
    ∃ Z N, Draw P Z N (Measure.pi fun _ : Fin n => densLaw (normPdf 0 1)) ∧
      ∀ᵐ s ∂P, rnormVec n s = (fun i => fin (Z s i), N s) := by
  have := hP.prob
  induction n with
  | zero => exact ⟨_, _, Draw.nil _, ae_of_all _ fun s => by rw [rnormVec]; congr 1; funext i; exact i.elim0⟩
  | succ n ih =>
    obtain ⟨Y, M, hY, eY⟩ := ih
    obtain ⟨X, N, hX, eX⟩ := rnorm_draw hP 0 one_pos
    refine ⟨_, _, Draw.cons (D := fun _ => densLaw (normPdf 0 1)) hX hY, ?_⟩
    filter_upwards [eX, hX.ae eY] with s h1 h2
    rw [rnormVec, zero_eq, one_eq, h1]
    simp only [h2]
    congr 1; funext i
    refine Fin.cases ?_ (fun i => ?_) i <;> simp

/-- With a given factor, `pre_chol`: the affine image of independent standard normal numbers. -/
theorem rmvnorm_draw (hP : FairEngine P) (be : Backend) {K : ℕ} (mu : Fin K → ℝ) (A : Matrix (Fin K) (Fin K) ℝ) :
    ∃ Z N, Draw P Z N (Measure.pi fun _ : Fin K => densLaw (normPdf 0 1)) ∧
      ∀ᵐ s ∂P, rmvnormG be (fun i => fin (mu i)) (ofReal A) true s = some (fun i => fin ((mu + A *ᵥ Z s) i), N s) := by
  obtain ⟨Z, N, hZ, e⟩ := rnormVec_draw hP K
  refine ⟨Z, N, hZ, e.mono fun s hs => ?_⟩
  rw [rmvnormG, rmvnorm, dif_neg (by simp), hs]
  simp only [if_true, mulVec_real, Fin.cast_eq_self, ideal, Option.map_some]
  rfl

theorem rmvnormG_chol {be : Backend} {K : ℕ} (mu : Fin K → Fl) {Sigma L : Mat K K} (h : chol be Sigma = L) :
    rmvnormG (S := S) be mu Sigma false = rmvnormG be mu L true := by
  funext s
  rw [rmvnormG, rmvnormG, rmvnorm, rmvnorm]
  simp [h]

/-- `rmvnorm` has the multivariate normal density `dmvnorm` computes (Armadillo, Eigen). -/
theorem C35_rmvnorm_law_partial (hP : FairEngine P) {be : Backend} (hbe : be ≠ .blaze) {K : ℕ} (mu : Fin K → ℝ)
    {Sigma : Matrix (Fin K) (Fin K) ℝ} (h : Sigma.PosDef) :
    HasLawV P (rmvnormG be (fun i => fin (mu i)) (ofReal Sigma) false) (densLawV (mvnPdf mu Sigma)) := by
  have := hP.prob
  obtain ⟨L, hL, e⟩ := C37_chol_partial hbe h
  rw [rmvnormG_chol _ e]
  obtain ⟨Z, N, hZ, e⟩ := rmvnorm_draw hP be mu L
  have hdet : L.det ≠ 0 := by
    intro h0
    have := h.det_pos
    rw [← hL.mul, det_mul, h0, zero_mul] at this
    exact lt_irrefl _ this
  have hm : Measurable fun z : Fin K → ℝ => mu + L *ᵥ z :=
    ((toLin' L).continuous_of_finiteDimensional.measurable).const_add mu
  exact hasLawV_iff.2 ⟨_, N, mvn_law mu hL.mul hdet ▸ hZ.map hm, e⟩

/-- With a supplied nonsingular factor, on every library. -/
theorem C35_rmvnorm_pre_law (hP : FairEngine P) (be : Backend) {K : ℕ} (mu : Fin K → ℝ) {A : Matrix (Fin K) (Fin K) ℝ}
    (hdet : A.det ≠ 0) :
    HasLawV P (rmvnormG be (fun i => fin (mu i)) (ofReal A) true) (densLawV (mvnPdf mu (A * Aᵀ))) := by
  have := hP.prob
  obtain ⟨Z, N, hZ, e⟩ := rmvnorm_draw hP be mu A
  have hm : Measurable fun z : Fin K → ℝ => mu + A *ᵥ z :=
    ((toLin' A).continuous_of_finiteDimensional.measurable).const_add mu
  exact hasLawV_iff.2 ⟨_, N, mvn_law mu rfl hdet ▸ hZ.map hm, e⟩

/-! Means and covariances. -/

omit [Lib] [Ideal] [LinAlg] [IdealLin] in
theorem norm01_moments : Integrable (fun z : ℝ => z) (densLaw (normPdf 0 1)) ∧
    ∫ z, z ∂densLaw (normPdf 0 1) = 0 ∧ Integrable (fun z : ℝ => z * z) (densLaw (normPdf 0 1)) ∧
    ∫ z, z * z ∂densLaw (normPdf 0 1) = 1 := by
  rw [densLaw_norm01]
  have h1 := ProbabilityTheory.memLp_id_gaussianReal (μ := 0) (v := 1) 1
  have h2 := ProbabilityTheory.memLp_id_gaussianReal (μ := 0) (v := 1) 2
  have i1 : ∫ z, z ∂ProbabilityTheory.gaussianReal 0 1 = 0 := ProbabilityTheory.integral_id_gaussianReal
  refine ⟨memLp_one_iff_integrable.1 h1, i1, ?_, ?_⟩
  · simpa [sq] using h2.integrable_sq
  · have := ProbabilityTheory.variance_id_gaussianReal (μ := 0) (v := 1)
    rw [ProbabilityTheory.variance_eq_integral aemeasurable_id] at this
    simpa [i1, sq] using this

theorem piNorm_moments {K : ℕ} (i j : Fin K) :
    (Integrable (fun z : Fin K → ℝ => z i) (Measure.pi fun _ : Fin K => densLaw (normPdf 0 1)) ∧
    ∫ z, z i ∂(Measure.pi fun _ : Fin K => densLaw (normPdf 0 1)) = 0) ∧
    Integrable (fun z : Fin K → ℝ => z i * z j) (Measure.pi fun _ : Fin K => densLaw (normPdf 0 1)) ∧
    ∫ z, z i * z j ∂(Measure.pi fun _ : Fin K => densLaw (normPdf 0 1)) = if i = j then 1 else 0 := by
  obtain ⟨a, b, c, d⟩ := norm01_moments
  have hev := fun i : Fin K => measurePreserving_eval (fun _ : Fin K => densLaw (normPdf 0 1)) i
  have hI : ∀ f : ℝ → ℝ, Measurable f → Integrable f (densLaw (normPdf 0 1)) → ∀ i : Fin K,
      Integrable (fun z : Fin K → ℝ => f (z i)) (Measure.pi fun _ : Fin K => densLaw (normPdf 0 1)) ∧
      ∫ z, f (z i) ∂(Measure.pi fun _ : Fin K => densLaw (normPdf 0 1)) = ∫ t, f t ∂densLaw (normPdf 0 1) := by
    intro f hf h i
    refine ⟨(hev i).integrable_comp_of_integrable h, ?_⟩
    conv_rhs => rw [← (hev i).map_eq, integral_map (hev i).measurable.aemeasurable hf.aestronglyMeasurable]
  have h1 := hI (fun z => z) measurable_id a i
  rw [b] at h1
  refine ⟨h1, ?_⟩
  by_cases hij : i = j
  · subst hij
    have h2 := hI (fun z => z * z) (by fun_prop) c i
    rw [d] at h2
    rw [if_pos rfl]; exact h2
  · rw [if_neg hij]
    set f : Fin K → ℝ → ℝ := fun k t => if k = i ∨ k = j then t else 1 with hf
    have e : ∀ z : Fin K → ℝ, z i * z j = ∏ k, f k (z k) := by
      intro z
      have : ∏ k, f k (z k) = ∏ k ∈ ({i, j} : Finset (Fin K)), z k := by
        rw [← Finset.prod_subset (Finset.subset_univ {i, j})]
        · refine Finset.prod_congr rfl fun k hk => ?_
          simp only [Finset.mem_insert, Finset.mem_singleton] at hk
          simp [hf, hk]
        · intro k _ hk
          simp only [Finset.mem_insert, Finset.mem_singleton] at hk
          simp [hf, hk]
      rw [this, Finset.prod_pair hij]
    simp_rw [e]
    refine ⟨Integrable.fintype_prod fun k => ?_, ?_⟩
    · by_cases hk : k = i ∨ k = j
      · simpa [hf, hk] using a
      · simp [hf, hk]
    · rw [integral_fintype_prod_eq_prod]
      refine Finset.prod_eq_zero (Finset.mem_univ i) ?_
      simpa [hf] using b

/-- Any affine image: mean `mu`, covariance `A A'`. -/
theorem C35_rmvnorm_pre_moments (hP : FairEngine P) (be : Backend) {K : ℕ} (mu : Fin K → ℝ)
    (A : Matrix (Fin K) (Fin K) ℝ) :
    HasMoments P (rmvnormG be (fun i => fin (mu i)) (ofReal A) true) mu (A * Aᵀ) := by
  have := hP.prob
  obtain ⟨Z, N, hZ, e⟩ := rmvnorm_draw hP be mu A
  refine ⟨_, N, e, ?_⟩
  have hfst := hZ.fst
  have hmv : ∀ f : (Fin K → ℝ) → ℝ, Measurable f → Integrable f (Measure.pi fun _ : Fin K => densLaw (normPdf 0 1)) →
      Integrable (fun s => f (Z s)) P ∧ ∫ s, f (Z s) ∂P = ∫ z, f z ∂(Measure.pi fun _ : Fin K => densLaw (normPdf 0 1)) := by
    intro f hf hi
    rw [← hfst] at hi ⊢
    exact ⟨hi.comp_measurable hZ.mX, (integral_map hZ.mX.aemeasurable hf.aestronglyMeasurable).symm⟩
  have hz : ∀ i, Integrable (fun s => Z s i) P ∧ ∫ s, Z s i ∂P = 0 := fun i => by
    have h := piNorm_moments i i
    have h2 := hmv (fun z => z i) (measurable_pi_apply i) h.1.1
    rw [h.1.2] at h2; exact h2
  have hzz : ∀ i j, Integrable (fun s => Z s i * Z s j) P ∧ ∫ s, Z s i * Z s j ∂P = if i = j then 1 else 0 := fun i j => by
    have h := piNorm_moments i j
    have h2 := hmv (fun z => z i * z j) ((measurable_pi_apply i).mul (measurable_pi_apply j)) h.2.1
    rw [h.2.2] at h2; exact h2
  have hmi : ∀ i, Integrable (fun s => ∑ j, A i j * Z s j) P := fun i =>
    integrable_finsetSum _ fun j _ => (hz j).1.const_mul _
  refine ⟨fun i => ?_, fun i j => ?_⟩
  · have e1 : ∀ s, (mu + A *ᵥ Z s) i = mu i + ∑ j, A i j * Z s j := fun s => rfl
    simp_rw [e1]
    refine ⟨(integrable_const _).add (hmi i), ?_⟩
    rw [integral_add (integrable_const _) (hmi i), integral_finsetSum _ fun j _ => (hz j).1.const_mul _]
    simp [integral_const_mul, (hz _).2]
  · have e1 : ∀ s, ((mu + A *ᵥ Z s) i - mu i) * ((mu + A *ᵥ Z s) j - mu j) =
        ∑ k, ∑ l, A i k * A j l * (Z s k * Z s l) := by
      intro s
      have : ∀ i, (mu + A *ᵥ Z s) i - mu i = ∑ j, A i j * Z s j := fun i => by
        rw [Pi.add_apply, add_sub_cancel_left]; rfl
      rw [this, this, Finset.sum_mul_sum]
      exact Finset.sum_congr rfl fun k _ => Finset.sum_congr rfl fun l _ => by ring
    simp_rw [e1]
    have hkl : ∀ k l, Integrable (fun s => A i k * A j l * (Z s k * Z s l)) P := fun k l => (hzz k l).1.const_mul _
    refine ⟨integrable_finsetSum _ fun k _ => integrable_finsetSum _ fun l _ => hkl k l, ?_⟩
    rw [integral_finsetSum _ fun k _ => integrable_finsetSum _ fun l _ => hkl k l, Matrix.mul_apply]
    refine Finset.sum_congr rfl fun k _ => ?_
    rw [integral_finsetSum _ fun l _ => hkl k l]
    simp [integral_const_mul, (hzz _ _).2, transpose_apply]

/-- Mean `mu` and covariance `Sigma` (Armadillo, Eigen). -/
theorem C35_rmvnorm_moments_partial (hP : FairEngine P) {be : Backend} (hbe : be ≠ .blaze) {K : ℕ} (mu : Fin K → ℝ)
    {Sigma : Matrix (Fin K) (Fin K) ℝ} (h : Sigma.PosDef) :
    HasMoments P (rmvnormG be (fun i => fin (mu i)) (ofReal Sigma) false) mu Sigma := by
  obtain ⟨L, hL, e⟩ := C37_chol_partial hbe h
  rw [rmvnormG_chol _ e, ← hL.mul]
  exact C35_rmvnorm_pre_moments hP be mu L

theorem Spec.HasMoments.unique {ι : Type*} {g : S → Option ((ι → Fl) × S)} {m m' : ι → ℝ} {C C' : Matrix ι ι ℝ}
    (h : HasMoments P g m C) (h' : HasMoments P g m' C') : m = m' ∧ C = C' := by
  obtain ⟨X, N, e, a, b⟩ := h
  obtain ⟨X', N', e', a', b'⟩ := h'
  have hX : ∀ᵐ s ∂P, X s = X' s := by
    filter_upwards [e, e'] with s h1 h2
    rw [h1] at h2
    have := congrArg Prod.fst (Option.some.inj h2)
    funext i
    exact Fl.fin.inj (congrFun this i)
  have hm : m = m' := by
    funext i
    rw [← (a i).2, ← (a' i).2]
    exact integral_congr_ae (hX.mono fun s hs => by simp only [hs])
  refine ⟨hm, ?_⟩
  ext i j
  rw [← (b i j).2, ← (b' i j).2]
  exact integral_congr_ae (hX.mono fun s hs => by simp only [hs, hm])

/-! The matrix version: independent rows. -/

/-- what the matrix version returns, if not empty -/
noncomputable def rmvnormGn (be : Backend) (n : ℕ) {K : ℕ} (pos : Fin n × Fin K ≃ Fin (n * K)) (mu : Fin K → Fl)
    (Sigma : Mat K K) (pre : Bool) (s : S) : Option ((Fin n → Fin K → Fl) × S) :=
  let r := rmvnorm_n be n pos mu Sigma pre s
  r.1.map fun x => (x, r.2)

/-- With a supplied nonsingular factor the rows are independent and each has the density `dmvnorm` computes, on every library,
whatever the memory layout. -/
theorem C35_rmvnorm_n_pre_law (hP : FairEngine P) (be : Backend) (n : ℕ) {K : ℕ}
    (pos : Fin n × Fin K ≃ Fin (n * K)) (mu : Fin K → ℝ) {L : Matrix (Fin K) (Fin K) ℝ} (hdet : L.det ≠ 0) :
    HasLawM P (rmvnormGn be n pos (fun i => fin (mu i)) (ofReal L) true)
      (Measure.pi fun _ => densLawV (mvnPdf mu (L * Lᵀ))) := by
  have := hP.prob
  obtain ⟨Z, N, hZ, eZ⟩ := rnormVec_draw hP (n * K)
  have hm : Measurable fun z : Fin K → ℝ => mu + L *ᵥ z :=
    ((toLin' L).continuous_of_finiteDimensional.measurable).const_add mu
  have hl := mvn_law mu rfl hdet
  have hs : Measurable fun (z : Fin (n * K) → ℝ) (r : Fin n) (j : Fin K) => z (pos (r, j)) :=
    measurable_pi_iff.2 fun r => measurable_pi_iff.2 fun j => measurable_pi_apply _
  have hX := (hZ.map hs)
  rw [pi_split] at hX
  have hX2 := hX.map (f := fun (z : Fin n → Fin K → ℝ) r => mu + L *ᵥ z r)
    (measurable_pi_iff.2 fun r => hm.comp (measurable_pi_apply r))
  have : ∀ _ : Fin n, SigmaFinite ((Measure.pi fun _ : Fin K => densLaw (normPdf 0 1)).map fun z => mu + L *ᵥ z) :=
    fun _ => by
      have := Measure.isProbabilityMeasure_map (μ := Measure.pi fun _ : Fin K => densLaw (normPdf 0 1)) hm.aemeasurable
      infer_instance
  rw [Measure.pi_map_pi (X := fun _ : Fin n => Fin K → ℝ) (f := fun _ z => mu + L *ᵥ z) (fun _ => hm.aemeasurable), hl] at hX2
  refine ⟨_, N, hX2.mX, hX2.mN, ?_, hX2.law⟩
  filter_upwards [eZ] with s hs
  rw [rmvnormGn, rmvnorm_n, dif_neg (by simp), hs]
  have e : ∀ Z : Matrix (Fin n) (Fin K) ℝ, mmul (fun i j => fin (Z i j)) (trans (ofReal L)) = ofReal (Z * Lᵀ) :=
    fun Z => by rw [trans_real]; exact mmul_real Z Lᵀ
  have e' := e (Matrix.of fun r j => Z s (pos (r, j)))
  simp only [of_apply] at e'
  simp only [if_true, e', Fin.cast_eq_self, ofReal, ideal]
  refine congrArg some (Prod.ext ?_ rfl)
  funext r i
  simp [Matrix.mul_apply, Matrix.mulVec, dotProduct, mul_comm]

/-- The rows are independent and each has the density `dmvnorm` computes (Armadillo, Eigen), whatever the memory layout. -/
theorem C35_rmvnorm_n_law_partial (hP : FairEngine P) {be : Backend} (hbe : be ≠ .blaze) (n : ℕ) {K : ℕ}
    (pos : Fin n × Fin K ≃ Fin (n * K)) (mu : Fin K → ℝ) {Sigma : Matrix (Fin K) (Fin K) ℝ} (h : Sigma.PosDef) :
    HasLawM P (rmvnormGn be n pos (fun i => fin (mu i)) (ofReal Sigma) false)
      (Measure.pi fun _ => densLawV (mvnPdf mu Sigma)) := by
  obtain ⟨L, hL, e⟩ := C37_chol_partial hbe h
  have hdet : L.det ≠ 0 := by
    intro h0
    have := h.det_pos
    rw [← hL.mul, det_mul, h0, zero_mul] at this
    exact lt_irrefl _ this
  have := C35_rmvnorm_n_pre_law hP be n pos mu hdet
  rw [hL.mul] at this
  rwa [show rmvnormGn (S := S) be n pos (fun i => fin (mu i)) (ofReal Sigma) false =
    rmvnormGn be n pos (fun i => fin (mu i)) (ofReal L) true from funext fun s => by
      rw [rmvnormGn, rmvnormGn, rmvnorm_n, rmvnorm_n]; simp [e]]

/-- With Blaze the covariance is not `Sigma`: for correlation 1/2 the two components do not have covariance `corr`. -/
theorem C35_rmvnorm_violated (hP : FairEngine P) (mu : Fin 2 → ℝ) :
    ¬ HasMoments P (rmvnormG .blaze (fun i => fin (mu i)) (ofReal corr) false) mu corr := by
  obtain ⟨Y, hY, -, hne⟩ := C37_chol_violated
  rw [rmvnormG_chol _ hY]
  intro h
  exact hne (Spec.HasMoments.unique (C35_rmvnorm_pre_moments hP .blaze mu Y) h).2

end law

/-! ## rwish, rinvwish -/

section wishart
variable [NextLib]

omit [LinAlg] [IdealLin] in
theorem wish_row_spec (i : ℕ) : ∀ (m j : ℕ) (A : Grid) (s : S) (r c : ℕ),
    (¬ (r = i ∧ j ≤ c ∧ c < j + m) → (wish_row i m j A s).1 r c = A r c) ∧
    (r = i ∧ j ≤ c ∧ c < j + m → In univ ((wish_row i m j A s).1 r c))
  | 0, j, A, s, r, c => ⟨fun _ => rfl, fun h => by omega⟩
  | m + 1, j, A, s, r, c => by
    obtain ⟨h1, h2⟩ := wish_row_spec i m (j + 1) (Function.update A i (Function.update (A i) j (rnorm 0 1 s).1))
      (rnorm 0 1 s).2 r c
    have hz := C28_rnorm 0 zero_le_one s
    rw [← zero_eq, ← one_eq] at hz
    simp only [wish_row]
    constructor
    · intro h
      rw [h1 (by omega)]
      by_cases hr : r = i
      · subst hr
        rw [Function.update_self, Function.update_of_ne (by omega)]
      · rw [Function.update_of_ne hr]
    · intro h
      by_cases hc : c = j
      · rw [h1 (by omega), h.1, hc, Function.update_self, Function.update_self]
        exact hz
      · exact h2 (by omega)

omit [LinAlg] [IdealLin] in
theorem wish_lower_spec : ∀ (m i : ℕ) (A : Grid) (s : S) (r c : ℕ),
    (¬ (i ≤ r ∧ r < i + m ∧ c < r) → (wish_lower m i A s).1 r c = A r c) ∧
    (i ≤ r ∧ r < i + m ∧ c < r → In univ ((wish_lower m i A s).1 r c))
  | 0, i, A, s, r, c => ⟨fun _ => rfl, fun h => by omega⟩
  | m + 1, i, A, s, r, c => by
    obtain ⟨h1, h2⟩ := wish_lower_spec m (i + 1) (wish_row i i 0 A s).1 (wish_row i i 0 A s).2 r c
    obtain ⟨g1, g2⟩ := wish_row_spec i i 0 A s r c
    simp only [wish_lower]
    constructor
    · intro h
      rw [h1 (by omega), g1 (by omega)]
    · intro h
      by_cases hr : r = i
      · rw [h1 (by omega)]; exact g2 (by omega)
      · exact h2 (by omega)

omit [LinAlg] [IdealLin] in
theorem wish_diag_spec (nu : ℕ → Fl) : ∀ (m i : ℕ) (_ : ∀ k, i ≤ k → k < i + m → In (Ioi 0) (nu k)) (A : Grid) (s : S)
    {q : Grid × S} (_ : wish_diag nu m i A s = some q) (r c : ℕ),
    (¬ (r = c ∧ i ≤ r ∧ r < i + m) → q.1 r c = A r c) ∧ (r = c ∧ i ≤ r ∧ r < i + m → In (Ioi 0) (q.1 r c))
  | 0, i, _, A, s, q, h, r, c => by
    obtain rfl := Option.some.inj h
    exact ⟨fun _ => rfl, fun h => by omega⟩
  | m + 1, i, hnu, A, s, q, h, r, c => by
    rw [wish_diag, Option.bind_eq_some_iff] at h
    obtain ⟨cs, hcs, h⟩ := h
    obtain ⟨h1, h2⟩ := wish_diag_spec nu m (i + 1) (fun k a b => hnu k (by omega) (by omega)) _ cs.2 h r c
    obtain ⟨k, hk, e⟩ := hnu i le_rfl (by omega)
    rw [e] at hcs
    obtain ⟨x, hx, ex⟩ := C28_rchisq hk s hcs
    constructor
    · intro hh
      rw [h1 (by omega)]
      by_cases hr : r = i
      · subst hr
        rw [Function.update_self, Function.update_of_ne (by omega)]
      · rw [Function.update_of_ne hr]
    · intro hh
      by_cases hr : r = i
      · rw [h1 (by omega), ← hh.1, hr, Function.update_self, Function.update_self, ex, isqrt (le_of_lt hx)]
        exact ⟨_, Real.sqrt_pos.2 hx, rfl⟩
      · exact h2 (by omega)

omit [LinAlg] [IdealLin] in
/-- The Bartlett factor is lower triangular with a positive diagonal. -/
theorem bartlett_spec {K : ℕ} {nu : ℕ → Fl} (hnu : ∀ k < K, In (Ioi 0) (nu k)) (garbage : Grid) (s : S)
    {q : Mat K K × S} (h : bartlett K nu garbage s = some q) :
    ∃ A : Matrix (Fin K) (Fin K) ℝ, q.1 = ofReal A ∧ (∀ i j, i < j → A i j = 0) ∧ ∀ i, 0 < A i i := by
  simp only [bartlett, Option.map_eq_some_iff] at h
  obtain ⟨r, hr, rfl⟩ := h
  have hd := wish_diag_spec nu K 0 (fun k _ hk => hnu k (by omega)) _ _ hr
  have hl := wish_lower_spec (K - 1) 1 (zeros_blaze K K garbage) s
  have key : ∀ i j : Fin K, ∃ x : ℝ, r.1 i j = fin x ∧ (i < j → x = 0) ∧ (i = j → 0 < x) := by
    intro i j
    have hi := i.2
    have hj := j.2
    rcases lt_trichotomy i j with hij | hij | hij
    · have hij' : (i : ℕ) < j := hij
      have e : r.1 i j = fin 0 := by
        rw [(hd i j).1 (by omega), (hl i j).1 (by omega), C37_zeros_blaze _ _ _ _ _ hi hj, zero_eq]
      exact ⟨0, e, fun _ => rfl, fun h => absurd h hij.ne⟩
    · obtain ⟨x, hx, e⟩ := (hd i j).2 (by subst hij; omega)
      exact ⟨x, e, fun h => absurd hij h.ne, fun _ => hx⟩
    · have hij' : (j : ℕ) < i := hij
      obtain ⟨x, -, e⟩ := (hl i j).2 (by omega)
      rw [← (hd i j).1 (by omega)] at e
      exact ⟨x, e, fun h => absurd h hij.asymm, fun h => absurd h.symm hij.ne⟩
  choose A hA using key
  exact ⟨A, by funext i j; exact (hA i j).1, fun i j hij => (hA i j).2.1 hij, fun i => (hA i i).2.2 rfl⟩

theorem chol_real (be : Backend) {K : ℕ} {Psi : Matrix (Fin K) (Fin K) ℝ} (h : Psi.PosDef) :
    ∃ C : Matrix (Fin K) (Fin K) ℝ, chol be (ofReal Psi) = ofReal C := by
  obtain ⟨L, -, e⟩ := IdealLin.chol Psi h
  cases be
  · exact ⟨L, e⟩
  · refine ⟨Matrix.of fun i j => if j ≤ i then L i j else Psi i j, ?_⟩
    funext i j
    simp only [chol, e, ofReal, of_apply]
    split_ifs <;> rfl
  · exact ⟨L, e⟩

theorem rwish_pre {be : Backend} {K : ℕ} (C : Matrix (Fin K) (Fin K) ℝ) {nu : ℕ → Fl} (hnu : ∀ k < K, In (Ioi 0) (nu k))
    (garbage : Grid) (s : S) {q : Mat K K × S} (h : rwish be (ofReal C) nu true garbage s = some q) :
    ∃ A : Matrix (Fin K) (Fin K) ℝ, (∀ i j, i < j → A i j = 0) ∧ (∀ i, 0 < A i i) ∧
      q.1 = ofReal (C * A * (C * A)ᵀ) := by
  simp only [rwish, Option.map_eq_some_iff, if_true] at h
  obtain ⟨r, hr, rfl⟩ := h
  obtain ⟨A, e, h1, h2⟩ := bartlett_spec hnu garbage s hr
  refine ⟨A, h1, h2, ?_⟩
  simp only [e, mmul_real, trans_real]

omit [NextLib] in
theorem rwish_chol {be : Backend} {K : ℕ} {Psi L : Mat K K} (h : chol be Psi = L) (nu : ℕ → Fl) (garbage : Grid) (s : S) :
    rwish be Psi nu false garbage s = rwish be L nu true garbage s := by
  simp [rwish, h]

/-- Whenever `rwish` returns, the matrix is symmetric and positive semi-definite, on all libraries, whether or not a factor
is supplied. -/
theorem C35_rwish (be : Backend) {K : ℕ} {Psi : Matrix (Fin K) (Fin K) ℝ} (pre : Bool) (hpre : pre = false → Psi.PosDef)
    {nu : ℕ → Fl} (hnu : ∀ k < K, In (Ioi 0) (nu k)) (garbage : Grid) (s : S) {q : Mat K K × S}
    (h : rwish be (ofReal Psi) nu pre garbage s = some q) :
    ∃ W : Matrix (Fin K) (Fin K) ℝ, q.1 = ofReal W ∧ Wᵀ = W ∧ W.PosSemidef := by
  obtain ⟨C, hC⟩ : ∃ C : Matrix (Fin K) (Fin K) ℝ, rwish be (ofReal C) nu true garbage s = some q := by
    cases pre
    · obtain ⟨C, hC⟩ := chol_real be (hpre rfl)
      exact ⟨C, by rwa [rwish_chol hC] at h⟩
    · exact ⟨Psi, h⟩
  obtain ⟨A, -, -, e⟩ := rwish_pre C hnu garbage s hC
  refine ⟨_, e, by rw [transpose_mul, transpose_transpose], ?_⟩
  have := posSemidef_self_mul_conjTranspose (C * A)
  rwa [conjTranspose_eq_transpose_of_trivial] at this

omit [NextLib] in
theorem det_lower_pos {K : ℕ} {A : Matrix (Fin K) (Fin K) ℝ} (h1 : ∀ i j, i < j → A i j = 0) (h2 : ∀ i, 0 < A i i) :
    0 < A.det := by
  rw [det_of_lowerTriangular A fun i j hij => h1 _ _ hij]
  exact Finset.prod_pos fun i _ => h2 i

omit [NextLib] in
theorem posDef_self_mul {K : ℕ} {B : Matrix (Fin K) (Fin K) ℝ} (h : B.det ≠ 0) : (B * Bᵀ).PosDef := by
  have hu : IsUnit B := (isUnit_iff_isUnit_det B).2 (isUnit_iff_ne_zero.2 h)
  have := PosDef.one.mul_mul_conjTranspose_same (B := B) (Matrix.vecMul_injective_of_isUnit hu)
  rwa [Matrix.mul_one, conjTranspose_eq_transpose_of_trivial] at this

/-- With a nonsingular supplied factor: `C A A' C'` with `A` lower triangular, positive definite. -/
theorem C35_rwish_pre (be : Backend) {K : ℕ} {C : Matrix (Fin K) (Fin K) ℝ} (hC : C.det ≠ 0)
    {nu : ℕ → Fl} (hnu : ∀ k < K, In (Ioi 0) (nu k)) (garbage : Grid) (s : S) {q : Mat K K × S}
    (h : rwish be (ofReal C) nu true garbage s = some q) :
    ∃ A : Matrix (Fin K) (Fin K) ℝ, (∀ i j, i < j → A i j = 0) ∧ (∀ i, 0 < A i i) ∧
      q.1 = ofReal (C * A * (C * A)ᵀ) ∧ (C * A * (C * A)ᵀ).PosDef := by
  obtain ⟨A, h1, h2, e⟩ := rwish_pre C hnu garbage s h
  refine ⟨A, h1, h2, e, posDef_self_mul ?_⟩
  rw [det_mul]
  exact mul_ne_zero hC (det_lower_pos h1 h2).ne'

omit [NextLib] in
theorem IsChol.det_ne {K : ℕ} {M L : Matrix (Fin K) (Fin K) ℝ} (h : IsChol M L) : L.det ≠ 0 :=
  (det_lower_pos h.lower h.pos).ne'

/-- Without a supplied factor: positive definite (Armadillo, Eigen). -/
theorem C35_rwish_partial {be : Backend} (hbe : be ≠ .blaze) {K : ℕ} {Psi : Matrix (Fin K) (Fin K) ℝ} (hP : Psi.PosDef)
    {nu : ℕ → Fl} (hnu : ∀ k < K, In (Ioi 0) (nu k)) (garbage : Grid) (s : S) {q : Mat K K × S}
    (h : rwish be (ofReal Psi) nu false garbage s = some q) :
    ∃ L A : Matrix (Fin K) (Fin K) ℝ, IsChol Psi L ∧ (∀ i j, i < j → A i j = 0) ∧ (∀ i, 0 < A i i) ∧
      q.1 = ofReal (L * A * (L * A)ᵀ) ∧ (L * A * (L * A)ᵀ).PosDef := by
  obtain ⟨L, hL, e⟩ := C37_chol_partial hbe hP
  rw [rwish_chol e] at h
  obtain ⟨A, h1⟩ := C35_rwish_pre be hL.det_ne hnu garbage s h
  exact ⟨L, A, hL, h1⟩

/-- `rinvwish` with a supplied factor `C` of the inverse scale returns the inverse of a draw of `rwish`. -/
theorem C35_rinvwish_pre (be : Backend) {K : ℕ} {C : Matrix (Fin K) (Fin K) ℝ} (hC : C.det ≠ 0)
    {nu : ℕ → Fl} (hnu : ∀ k < K, In (Ioi 0) (nu k)) (garbage : Grid) (s : S) {q : Mat K K × S}
    (h : rinvwish be (ofReal C) nu true garbage s = some q) :
    ∃ W : Matrix (Fin K) (Fin K) ℝ, W.PosDef ∧ rwish be (ofReal C) nu true garbage s = some (ofReal W, q.2) ∧
      q.1 = ofReal W⁻¹ ∧ (W⁻¹).PosDef := by
  simp only [rinvwish, Option.map_eq_some_iff, if_true] at h
  obtain ⟨r, hr, rfl⟩ := h
  have hw : rwish be (ofReal C) nu true garbage s = some (mmul (mmul (ofReal C) r.1) (trans (mmul (ofReal C) r.1)), r.2) := by
    simp only [rwish, hr, Option.map_some, if_true]
  obtain ⟨A, -, -, e, hpd⟩ := C35_rwish_pre be hC hnu garbage s hw
  refine ⟨_, hpd, by rw [hw, ← e], ?_, hpd.inv⟩
  dsimp only at e ⊢
  rw [e, inv_real hpd.det_pos.ne']

theorem C35_rinvwish_partial {be : Backend} (hbe : be ≠ .blaze) {K : ℕ} {Psi : Matrix (Fin K) (Fin K) ℝ} (hP : Psi.PosDef)
    {nu : ℕ → Fl} (hnu : ∀ k < K, In (Ioi 0) (nu k)) (garbage : Grid) (s : S) {q : Mat K K × S}
    (h : rinvwish be (ofReal Psi) nu false garbage s = some q) :
    ∃ W : Matrix (Fin K) (Fin K) ℝ, W.PosDef ∧ rwish be (ofReal Psi⁻¹) nu false garbage s = some (ofReal W, q.2) ∧
      q.1 = ofReal W⁻¹ ∧ (W⁻¹).PosDef := by
  obtain ⟨L, hL, e⟩ := C37_chol_partial hbe hP.inv
  have e2 : rinvwish be (ofReal Psi) nu false garbage s = rinvwish be (ofReal L) nu true garbage s := by
    simp [rinvwish, inv_real hP.det_pos.ne', e]
  rw [e2] at h
  rw [rwish_chol e]
  exact C35_rinvwish_pre be hL.det_ne hnu garbage s h

/-- the degrees of freedom `nu - k` of the diagonal, floating `nu` -/
theorem nuFloat_pos {nu : ℝ} {K : ℕ} (h : (K : ℝ) - 1 < nu) : ∀ k < K, In (Ioi 0) (nuFloat (fin nu) k) := by
  intro k hk
  refine ⟨nu - k, ?_, by simp [nuFloat, ideal]⟩
  have : (k : ℝ) + 1 ≤ K := by exact_mod_cast hk
  show (0 : ℝ) < nu - k
  linarith

/-- and of an integral `nu` -/
theorem nuInt_pos {nu K : ℕ} (h : K ≤ nu) (hn : nu < 2 ^ 64) : ∀ k < K, In (Ioi 0) (nuInt nu k) := by
  intro k hk
  refine ⟨(nu : ℝ) - k, ?_, ?_⟩
  · have : (k : ℝ) < nu := by exact_mod_cast hk.trans_le h
    exact sub_pos.2 this
  · rw [nuInt, wsub_eq (by omega) hn, ofInt_eq]
    have : ((nu - k : ℕ) : ℤ) = (nu : ℤ) - k := by omega
    rw [this]; push_cast; rfl

end wishart
end Stats

namespace Stats.ExamplesC35
open Fl MatOps Spec Matrix MeasureTheory
open scoped Stats.Exact

/-- every normal variate 0 -/
def Zero (s : Stream) : Prop := ∀ n, s.z n = 0

theorem rgamma_zero {a θ : ℝ} (ha : 1 < a) (hθ : Lib.eps ≤ θ) {s : Stream} (hs : Zero s) :
    ∃ v s', rgamma (fin a) (fin θ) s = some (v, s') ∧ Zero s' := by
  have h3 : (0 : ℝ) < √(a - 1 / 3) := Real.sqrt_pos.2 (by linarith)
  have hd : (0 : ℝ) < 1 / 3 / √(a - 1 / 3) := by positivity
  obtain ⟨u, hu, h0, h1⟩ := runif_mem s.nextZ
  have hu2 : runif (fin 0) (fin 1) s.nextZ = (fin u, s.nextZ.nextU) := by
    refine Prod.ext hu ?_
    rw [runif, if_neg (by simp [unif_ok])]; rfl
  have hz : Engine.norm s = (0, s.nextZ) := by
    show (s.z 0, s.nextZ) = _
    rw [hs 0]
  have h2 := rgamma_loop_step (d := a - 1 / 3) hd 0 hz
    (by rw [neg_div]; exact neg_lt_zero.2 (one_div_pos.2 hd)) hu2 h0
  rw [if_pos (by simpa [gammaCheck] using Real.log_neg h0 h1)] at h2
  refine ⟨fin (a - 1 / 3) * fin ((1 + 1 / 3 / √(a - 1 / 3) * 0) ^ 3) * fin θ, s.nextZ.nextU,
    runFuel_eq (rgamma_rec_mono _ _ _) (n := 1) ?_, fun n => hs (n + 1)⟩
  · show rgamma_rec (0 + 1) (fin a) (fin θ) s = _
    rw [rgamma_rec_big ha hθ, runFuel_eq (rgamma_loop_mono _ _ _) h2]
    rfl

/-- On such a tape `rwish` with the correlation matrix and 5 degrees of freedom returns, and the theorem applies. -/
example (be : Backend) (g : Grid) (s : Stream) (hs : Zero s) :
    ∃ q W, rwish be (ofReal corr) (nuFloat (fin 5)) false g s = some q ∧ q.1 = ofReal W ∧ W.PosSemidef := by
  have hnu := nuFloat_pos (nu := 5) (K := 2) (by norm_num)
  have hc : ∀ (k : ℝ) (s : Stream), 2 < k → Zero s → ∃ v s', rchisq (fin k) s = some (v, s') ∧ Zero s' := by
    intro k s hk hs
    obtain ⟨v, s', e, hs'⟩ := rgamma_zero (a := k / 2) (θ := 2) (by linarith) (Exact.eps_le (by norm_num)) hs
    refine ⟨v, s', ?_, hs'⟩
    rw [rchisq, if_neg (by simp [chisq_ok]; linarith)]
    simpa only [ideal] using e
  have hrow : Zero (wish_row 1 1 0 (zeros_blaze 2 2 g) s).2 := by
    simp only [wish_row]
    intro n
    have : (rnorm 0 1 s).2 = s.nextZ := by
      rw [zero_eq, one_eq, rnorm01 (s := s) (s1 := s.nextZ) (z := s.z 0) rfl]
    rw [this]; exact hs (n + 1)
  have e0 : nuFloat (fin 5) 0 = fin 5 := by simp [nuFloat, ideal]
  have e1 : nuFloat (fin 5) 1 = fin 4 := by simp [nuFloat, ideal]; norm_num
  obtain ⟨v0, s0, h0, z0⟩ := hc 5 _ (by norm_num) hrow
  obtain ⟨v1, s1, h1, z1⟩ := hc 4 s0 (by norm_num) z0
  obtain ⟨q, hq⟩ : ∃ q, rwish be (ofReal corr) (nuFloat (fin 5)) false g s = some q := by
    simp only [rwish, bartlett, wish_lower, wish_diag, e0, e1, h0, h1, zero_add, Option.bind_some, Option.map_some]
    exact ⟨_, rfl⟩
  obtain ⟨W, h2, -, h3⟩ := C35_rwish be false (fun _ => corr_posDef) hnu g s hq
  exact ⟨q, W, hq, h2, h3⟩

example (s : Stream) : ∃ L, IsChol corr L ∧ rmvnorm .eigen (fun i => fin ((![1, 2] : Fin 2 → ℝ) i)) (ofReal corr) false s =
    (some fun i => fin (((![1, 2] : Fin 2 → ℝ) + L *ᵥ fun j : Fin 2 => (normDraws 2 s).1.getD j 0) i), (normDraws 2 s).2) := by
  obtain ⟨L, hL, h⟩ := C35_rmvnorm_partial (S := Stream) (be := .eigen) (by simp) ![1, 2] corr_posDef
  exact ⟨L, hL, h s⟩

end Stats.ExamplesC35

namespace Stats.ExamplesC35
open Fl MatOps Spec Matrix MeasureTheory
open scoped Stats.Fair
attribute [local instance] Exact.linAlg Exact.idealLin

example : HasLawV Tape.tapeLaw (rmvnormG .arma (fun i => fin ((![1, 2] : Fin 2 → ℝ) i)) (ofReal corr) false)
    (densLawV (mvnPdf ![1, 2] corr)) := C35_rmvnorm_law_partial Tape.fair (by simp) _ corr_posDef

example : HasMoments Tape.tapeLaw (rmvnormG .arma (fun i => fin ((![1, 2] : Fin 2 → ℝ) i)) (ofReal corr) false)
    ![1, 2] corr := C35_rmvnorm_moments_partial Tape.fair (by simp) _ corr_posDef

/-- three rows, column-major memory -/
example : HasLawM Tape.tapeLaw (rmvnormGn .eigen 3
    ((Equiv.prodComm (Fin 3) (Fin 2)).trans (finProdFinEquiv.trans (finCongr (Nat.mul_comm 2 3))))
    (fun i => fin ((![1, 2] : Fin 2 → ℝ) i)) (ofReal corr) false) (Measure.pi fun _ => densLawV (mvnPdf ![1, 2] corr)) :=
  C35_rmvnorm_n_law_partial Tape.fair (by simp) 3 _ _ corr_posDef

end Stats.ExamplesC35
