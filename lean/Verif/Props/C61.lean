import Verif.Lemmas.Project
import Verif.Lemmas.WishSum
import Verif.Props.C50B

/-!
# C61: projections, sums and inverses of the multivariate draws

What a program may expect that calculates with a vector from `rmvnorm` or a matrix from `rwish` or `rinvwish`: linear
forms, affine images, distances, sums and means of normal vectors, the scatter matrix of a sample, sums, congruences,
quadratic forms and determinants of Wishart matrices, the inverse of an inverse Wishart matrix. The normal laws are exact;
those that rest on chi-squared draws are off by a multiple of `δ = nextafter(0,1)` in the probability of any event.

The covariance matrix may be handed over itself (Armadillo and Eigen; Blaze takes the wrong triangle, see C37), or as a
nonsingular factor with the flag `pre_chol` (every library).
-/

set_option linter.unusedSectionVars false
open Classical
open MeasureTheory Set Matrix
open scoped ENNReal

namespace Stats
open Fl MatOps Spec

/-- the flag and the matrix that hand over the covariance matrix `Psi` -/
inductive Given (be : Backend) {K : ℕ} (Psi : Matrix (Fin K) (Fin K) ℝ) : Bool → Matrix (Fin K) (Fin K) ℝ → Prop
  | matrix : be ≠ .blaze → Psi.PosDef → Given be Psi false Psi
  | factor (C : Matrix (Fin K) (Fin K) ℝ) : C.det ≠ 0 → C * Cᵀ = Psi → Given be Psi true C

/-- the flag and the matrix that hand over the scale matrix `Psi` of the inverse Wishart law; a factor is one of the inverse -/
inductive GivenInv (be : Backend) {K : ℕ} (Psi : Matrix (Fin K) (Fin K) ℝ) : Bool → Matrix (Fin K) (Fin K) ℝ → Prop
  | matrix : be ≠ .blaze → Psi.PosDef → GivenInv be Psi false Psi
  | factor (C : Matrix (Fin K) (Fin K) ℝ) : C.det ≠ 0 → (C * Cᵀ)⁻¹ = Psi → GivenInv be Psi true C

variable [Lib] [Ideal] [LinAlg] [IdealLin] {S : Type*} [MeasurableSpace S] [Engine S] {P : Measure S}
  {K M : ℕ} {be be' : Backend} {pre pre' : Bool} {Psi Psi' C C' : Matrix (Fin K) (Fin K) ℝ}

theorem Given.posDef (h : Given be Psi pre C) : Psi.PosDef := by
  rcases h with ⟨-, h⟩ | ⟨_, h, rfl⟩
  · exact h
  · exact posDef_self_mul h

theorem GivenInv.posDef (h : GivenInv be Psi pre C) : Psi.PosDef := by
  rcases h with ⟨-, h⟩ | ⟨_, h, rfl⟩
  · exact h
  · exact (posDef_self_mul h).inv

theorem near_rmvnorm (hP : FairEngine P) (mu : Fin K → ℝ) (h : Given be Psi pre C) :
    NearGen P (rmvnormG be (fun i => fin (mu i)) (ofReal C) pre) (densLawV (mvnPdf mu Psi)) 0 := by
  have := mvn_prob mu h.posDef
  rcases h with ⟨h1, h⟩ | ⟨_, h, rfl⟩
  · exact (C35_rmvnorm_law_partial hP h1 mu h).near
  · exact (C35_rmvnorm_pre_law hP be mu h).near

theorem near_rmvnorm_n (hP : FairEngine P) (n : ℕ) (pos : Fin n × Fin K ≃ Fin (n * K)) (mu : Fin K → ℝ)
    (h : Given be Psi pre C) :
    NearGen P (rmvnormGn be n pos (fun i => fin (mu i)) (ofReal C) pre) (Measure.pi fun _ => densLawV (mvnPdf mu Psi)) 0 := by
  have := mvn_prob mu h.posDef
  rcases h with ⟨h1, h⟩ | ⟨_, h, rfl⟩
  · exact (C35_rmvnorm_n_law_partial hP h1 n pos mu h).near
  · exact (C35_rmvnorm_n_pre_law hP be n pos mu h).near

theorem near_rwish (hP : FairEngine P) (hδ : Lib.next 0 1 ≤ 1 / 30) {ν : ℝ} (hν : (K : ℝ) - 1 < ν)
    {nu : ℕ → Fl} (hnu : ∀ k < K, nu k = fin (ν - k)) (garbage : Grid) (h : Given be Psi pre C) :
    NearGen P (rwish be (ofReal C) nu pre garbage) (posDefLaw (wishPdf Psi ν)) (K * (7 * Lib.next 0 1)) := by
  rcases h with ⟨h1, h⟩ | ⟨_, h, rfl⟩
  · exact (C50_rwish_partial hP hδ h1 hν hnu garbage h).gen
  · exact (C50_rwish_pre hP hδ be hν hnu garbage h).gen

theorem near_rinvwish (hP : FairEngine P) (hδ : Lib.next 0 1 ≤ 1 / 30) {ν : ℝ} (hν : (K : ℝ) - 1 < ν)
    {nu : ℕ → Fl} (hnu : ∀ k < K, nu k = fin (ν - k)) (garbage : Grid) (h : GivenInv be Psi pre C) :
    NearGen P (rinvwish be (ofReal C) nu pre garbage) (posDefLaw (invwishPdf Psi ν)) (K * (7 * Lib.next 0 1)) := by
  rcases h with ⟨h1, h⟩ | ⟨_, h, rfl⟩
  · exact (C50_rinvwish_partial hP hδ h1 hν hnu garbage h).gen
  · exact (C50_rinvwish_pre hP hδ be hν hnu garbage h).gen

/-! ### normal vectors -/

/-- A linear form of a normal vector is normal. -/
theorem C61_rmvnorm_linear (hP : FairEngine P) (mu : Fin K → ℝ) (h : Given be Psi pre C) {a : Fin K → ℝ} (ha : a ≠ 0) :
    HasLaw P (via (fun x : Fin K → ℝ => a ⬝ᵥ x) (rmvnormG be (fun i => fin (mu i)) (ofReal C) pre))
      (densLaw (normPdf (a ⬝ᵥ mu) √(a ⬝ᵥ Psi *ᵥ a))) := by
  have := hP.prob
  have := (isCdf_norm (a ⬝ᵥ mu) (Real.sqrt_pos.2 (quad_pos h.posDef ha))).isProb
  exact (nearGen_via (near_rmvnorm hP mu h) (measurable_dot a) (mvn_linear mu h.posDef ha)).exact

/-- An affine image of a normal vector is normal, in as many dimensions or fewer. -/
theorem C61_rmvnorm_affine (hP : FairEngine P) (mu : Fin K → ℝ) (h : Given be Psi pre C) (b : Fin M → ℝ)
    {B : Matrix (Fin M) (Fin K) ℝ} (hB : (B * Psi * Bᵀ).PosDef) :
    HasLawV P (via (fun x : Fin K → ℝ => b + B *ᵥ x) (rmvnormG be (fun i => fin (mu i)) (ofReal C) pre))
      (densLawV (mvnPdf (b + B *ᵥ mu) (B * Psi * Bᵀ))) := by
  have := hP.prob
  have := mvn_prob (b + B *ᵥ mu) hB
  exact (nearGen_via (near_rmvnorm hP mu h) ((measurable_mulVec' B).const_add b) (mvn_affine mu h.posDef b hB)).exact

/-- The squared distance from the mean is chi-squared. -/
theorem C61_rmvnorm_mahal (hP : FairEngine P) (hK : 0 < K) (mu : Fin K → ℝ) (h : Given be Psi pre C) :
    HasLaw P (via (fun x : Fin K → ℝ => (x - mu) ⬝ᵥ Psi⁻¹ *ᵥ (x - mu)) (rmvnormG be (fun i => fin (mu i)) (ofReal C) pre))
      (densLaw (chisqPdf K)) := by
  have := hP.prob
  have := (isCdf_chisq (k := K) (by exact_mod_cast hK)).isProb
  exact (nearGen_via (near_rmvnorm hP mu h) ((measurable_quad Psi⁻¹).comp (measurable_id.sub_const mu))
    (mvn_mahal hK mu h.posDef)).exact

/-- The sum of two draws. -/
theorem C61_rmvnorm_add (hP : FairEngine P) (m₁ m₂ : Fin K → ℝ) (h : Given be Psi pre C) (h' : Given be' Psi' pre' C') :
    HasLawV P (via₂ (fun x y : Fin K → ℝ => x + y) (rmvnormG be (fun i => fin (m₁ i)) (ofReal C) pre)
      (rmvnormG be' (fun i => fin (m₂ i)) (ofReal C') pre')) (densLawV (mvnPdf (m₁ + m₂) (Psi + Psi'))) := by
  have := hP.prob
  have := mvn_prob m₁ h.posDef
  have := mvn_prob m₂ h'.posDef
  have := mvn_prob (m₁ + m₂) (h.posDef.add h'.posDef)
  have := nearGen_via₂ (near_rmvnorm hP m₁ h) (near_rmvnorm hP m₂ h') (op := fun x y : Fin K → ℝ => x + y) (by fun_prop)
    (mvn_add m₁ m₂ h.posDef h'.posDef)
  rw [add_zero] at this
  exact this.exact

/-- The mean of the rows of a sample. -/
theorem C61_rmvnorm_mean (hP : FairEngine P) {n : ℕ} (hn : 0 < n) (pos : Fin n × Fin K ≃ Fin (n * K)) (mu : Fin K → ℝ)
    (h : Given be Psi pre C) :
    HasLawV P (via (fun (x : Fin n → Fin K → ℝ) i => (∑ k, x k i) / (n : ℝ))
      (rmvnormGn be n pos (fun i => fin (mu i)) (ofReal C) pre)) (densLawV (mvnPdf mu ((1 / (n : ℝ)) • Psi))) := by
  have := hP.prob
  have := mvn_prob mu (h.posDef.smul (show (0 : ℝ) < 1 / n by positivity))
  exact (nearGen_via (near_rmvnorm_n hP n pos mu h) (measurable_pi_iff.2 fun i => by fun_prop) (mvn_mean mu h.posDef hn)).exact

/-- The scatter matrix of a centred sample has the law of a draw of `rwish`. -/
theorem C61_rmvnorm_scatter (hP : FairEngine P) {n : ℕ} (hn : K ≤ n) (pos : Fin n × Fin K ≃ Fin (n * K))
    (h : Given be Psi pre C) :
    HasLawM P (via (fun (x : Fin n → Fin K → ℝ) i j => ∑ k, x k i * x k j)
      (rmvnormGn be n pos (fun _ => fin 0) (ofReal C) pre)) (posDefLaw (wishPdf Psi n)) := by
  have := hP.prob
  have := wish_prob h.posDef (ν := n) (by have : (K : ℝ) ≤ n := by exact_mod_cast hn
                                          linarith)
  exact (nearGen_via (near_rmvnorm_n hP n pos 0 h)
    (measurable_pi_iff.2 fun i => measurable_pi_iff.2 fun j => by fun_prop) (wish_scatter h.posDef hn)).exact

/-! ### Wishart matrices -/

variable (hP : FairEngine P) (hδ : Lib.next 0 1 ≤ 1 / 30) {ν ν' : ℝ} {nu nu' : ℕ → Fl} (garbage garbage' : Grid)
include hP hδ

/-- The degrees of freedom of a sum are the sum of the degrees of freedom. -/
theorem C61_rwish_add (hK : 0 < K) (hν : (K : ℝ) - 1 < ν) (hnu : ∀ k < K, nu k = fin (ν - k))
    (hν' : (K : ℝ) - 1 < ν') (hnu' : ∀ k < K, nu' k = fin (ν' - k)) (h : Given be Psi pre C) (h' : Given be' Psi pre' C') :
    NearLawM P (via₂ (fun X Y : Fin K → Fin K → ℝ => X + Y) (rwish be (ofReal C) nu pre garbage)
      (rwish be' (ofReal C') nu' pre' garbage')) (posDefLaw (wishPdf Psi (ν + ν'))) (2 * (K * (7 * Lib.next 0 1))) := by
  have := hP.prob
  have := wish_prob h.posDef hν
  have := wish_prob h.posDef hν'
  rw [two_mul]
  exact nearGen_via₂ (near_rwish hP hδ hν hnu garbage h) (near_rwish hP hδ hν' hnu' garbage' h') (by fun_prop)
    (wish_add h.posDef hν hν' (by have : (1 : ℝ) ≤ K := by exact_mod_cast hK
                                  linarith))

/-- `A X Aᵀ` -/
theorem C61_rwish_congr (hν : (K : ℝ) - 1 < ν) (hnu : ∀ k < K, nu k = fin (ν - k)) (h : Given be Psi pre C)
    {A : Matrix (Fin M) (Fin K) ℝ} (hA : (A * Psi * Aᵀ).PosDef) :
    NearLawM P (via (fun (X : Fin K → Fin K → ℝ) i j => (A * of X * Aᵀ) i j) (rwish be (ofReal C) nu pre garbage))
      (posDefLaw (wishPdf (A * Psi * Aᵀ) ν)) (K * (7 * Lib.next 0 1)) := by
  have := hP.prob
  refine nearGen_via (near_rwish hP hδ hν hnu garbage h)
    (measurable_pi_iff.2 fun i => measurable_pi_iff.2 fun j => ?_) (wish_congr h.posDef hν hA)
  simp only [Matrix.mul_apply, of_apply]
  fun_prop

/-- A quadratic form over its value at the scale matrix is chi-squared. -/
theorem C61_rwish_quad (hν : (K : ℝ) - 1 < ν) (hnu : ∀ k < K, nu k = fin (ν - k)) (h : Given be Psi pre C)
    {a : Fin K → ℝ} (ha : a ≠ 0) :
    NearLaw P (via (fun X : Fin K → Fin K → ℝ => (a ⬝ᵥ of X *ᵥ a) / (a ⬝ᵥ Psi *ᵥ a)) (rwish be (ofReal C) nu pre garbage))
      (densLaw (chisqPdf ν)) (K * (7 * Lib.next 0 1)) := by
  have := hP.prob
  refine (nearGen_via (near_rwish hP hδ hν hnu garbage h) ?_ (wish_quad h.posDef hν ha)).law
  simp only [dotProduct, Matrix.mulVec, of_apply]
  fun_prop

/-- The determinant over that of the scale matrix is a product of independent chi-squared numbers. -/
theorem C61_rwish_det (hν : (K : ℝ) - 1 < ν) (hnu : ∀ k < K, nu k = fin (ν - k)) (h : Given be Psi pre C) :
    NearLaw P (via (fun X : Fin K → Fin K → ℝ => (of X).det / Psi.det) (rwish be (ofReal C) nu pre garbage))
      ((Measure.pi fun i : Fin K => densLaw (chisqPdf (ν - (i : ℕ)))).map fun c => ∏ i, c i) (K * (7 * Lib.next 0 1)) := by
  have := hP.prob
  refine (nearGen_via (near_rwish hP hδ hν hnu garbage h) ?_ (wish_det h.posDef hν)).law
  have hc : Continuous fun X : Fin K → Fin K → ℝ => (of X : Matrix (Fin K) (Fin K) ℝ) := continuous_id
  exact hc.matrix_det.measurable.div_const _

/-- The inverse of an inverse Wishart matrix is a Wishart matrix. -/
theorem C61_rinvwish_inv (hν : (K : ℝ) - 1 < ν) (hnu : ∀ k < K, nu k = fin (ν - k)) (h : GivenInv be Psi pre C) :
    NearLawM P (via (fun (X : Fin K → Fin K → ℝ) i j => (of X)⁻¹ i j) (rinvwish be (ofReal C) nu pre garbage))
      (posDefLaw (wishPdf Psi⁻¹ ν)) (K * (7 * Lib.next 0 1)) := by
  have := hP.prob
  exact nearGen_via (near_rinvwish hP hδ hν hnu garbage h) measurable_inv_entries (invwish_inv h.posDef ν)

end Stats

namespace Stats.ExamplesC61
open Fl MatOps Spec Matrix MeasureTheory
attribute [local instance] Exact.linAlg Exact.idealLin

section
open scoped Stats.Fair

/-- the difference of the entries of a normal vector, handed over by its covariance matrix (Eigen) -/
example : HasLaw Tape.tapeLaw (via (fun x : Fin 2 → ℝ => ![1, -1] ⬝ᵥ x)
    (rmvnormG .eigen (fun i => fin ((![1, 2] : Fin 2 → ℝ) i)) (ofReal corr) false))
    (densLaw (normPdf (![1, -1] ⬝ᵥ ![1, 2]) √(![1, -1] ⬝ᵥ corr *ᵥ ![1, -1]))) :=
  C61_rmvnorm_linear Tape.fair _ (.matrix (by simp) corr_posDef) (fun h => by simpa using congrFun h 0)

/-- selects the second entry -/
def row : Matrix (Fin 1) (Fin 2) ℝ := !![0, 1]

/-- a factor that is not lower triangular -/
def fac : Matrix (Fin 2) (Fin 2) ℝ := !![1, 1; 0, 2]

theorem fac_det : fac.det ≠ 0 := by rw [fac, det_fin_two]; norm_num

theorem row_posDef {A : Matrix (Fin 2) (Fin 2) ℝ} (h : A.PosDef) : (row * A * rowᵀ).PosDef := by
  have : row * A * rowᵀ = diagonal fun _ => A 1 1 := by
    ext i j; fin_cases i; fin_cases j; simp [row, Matrix.mul_apply, Fin.sum_univ_two, vecMul, dotProduct]
  rw [this]
  exact PosDef.diagonal fun _ => h.diag_pos

/-- the second entry, from a factor on Blaze -/
example : HasLawV Tape.tapeLaw (via (fun x : Fin 2 → ℝ => ![7] + row *ᵥ x)
    (rmvnormG .blaze (fun i => fin ((![1, 2] : Fin 2 → ℝ) i)) (ofReal fac) true))
    (densLawV (mvnPdf (![7] + row *ᵥ ![1, 2]) (row * (fac * facᵀ) * rowᵀ))) :=
  C61_rmvnorm_affine Tape.fair _ (.factor _ fac_det rfl) ![7] (row_posDef (posDef_self_mul fac_det))

example : HasLaw Tape.tapeLaw (via (fun x : Fin 2 → ℝ => (x - ![1, 2]) ⬝ᵥ corr⁻¹ *ᵥ (x - ![1, 2]))
    (rmvnormG .arma (fun i => fin ((![1, 2] : Fin 2 → ℝ) i)) (ofReal corr) false)) (densLaw (chisqPdf (2 : ℕ))) :=
  C61_rmvnorm_mahal Tape.fair (by norm_num) _ (.matrix (by simp) corr_posDef)

/-- the sum of draws of two libraries -/
example : HasLawV Tape.tapeLaw (via₂ (fun x y : Fin 2 → ℝ => x + y)
    (rmvnormG .arma (fun i => fin ((![1, 2] : Fin 2 → ℝ) i)) (ofReal corr) false)
    (rmvnormG .blaze (fun i => fin ((![3, 4] : Fin 2 → ℝ) i)) (ofReal fac) true))
    (densLawV (mvnPdf (![1, 2] + ![3, 4]) (corr + fac * facᵀ))) :=
  C61_rmvnorm_add Tape.fair _ _ (.matrix (by simp) corr_posDef) (.factor _ fac_det rfl)

example (pos : Fin 5 × Fin 2 ≃ Fin (5 * 2)) : HasLawV Tape.tapeLaw (via (fun (x : Fin 5 → Fin 2 → ℝ) i => (∑ k, x k i) / ((5 : ℕ) : ℝ))
    (rmvnormGn .eigen 5 pos (fun i => fin ((![1, 2] : Fin 2 → ℝ) i)) (ofReal corr) false))
    (densLawV (mvnPdf ![1, 2] ((1 / ((5 : ℕ) : ℝ)) • corr))) :=
  C61_rmvnorm_mean Tape.fair (by norm_num) pos _ (.matrix (by simp) corr_posDef)

example (pos : Fin 5 × Fin 2 ≃ Fin (5 * 2)) : HasLawM Tape.tapeLaw (via (fun (x : Fin 5 → Fin 2 → ℝ) i j => ∑ k, x k i * x k j)
    (rmvnormGn .eigen 5 pos (fun _ => fin 0) (ofReal corr) false)) (posDefLaw (wishPdf corr (5 : ℕ))) :=
  C61_rmvnorm_scatter Tape.fair (by norm_num) pos (.matrix (by simp) corr_posDef)

end

section
open scoped Stats.Low

theorem two_le {ν : ℝ} (h : 1 < ν) : ((2 : ℕ) : ℝ) - 1 < ν := by push_cast; linarith

example (g g' : Grid) : NearLawM Tape.tapeLaw (via₂ (fun X Y : Fin 2 → Fin 2 → ℝ => X + Y)
    (rwish .eigen (ofReal corr) (nuFloat (fin 2.5)) false g) (rwish .arma (ofReal corr) (nuFloat (fin 4)) false g'))
    (posDefLaw (wishPdf corr (2.5 + 4))) (2 * ((2 : ℕ) * (7 * (1 / 2 ^ 1074)))) :=
  Low.next ▸ C61_rwish_add Tape.fair Low.next_le g g' (by norm_num) (two_le (by norm_num)) (nuFloat_eq _)
    (two_le (by norm_num)) (nuFloat_eq _) (.matrix (by simp) corr_posDef) (.matrix (by simp) corr_posDef)

example (g : Grid) : NearLawM Tape.tapeLaw (via (fun (X : Fin 2 → Fin 2 → ℝ) i j => (row * of X * rowᵀ) i j)
    (rwish .eigen (ofReal corr) (nuFloat (fin 2.5)) false g))
    (posDefLaw (wishPdf (row * corr * rowᵀ) 2.5)) ((2 : ℕ) * (7 * (1 / 2 ^ 1074))) :=
  Low.next ▸ C61_rwish_congr Tape.fair Low.next_le g (two_le (by norm_num)) (nuFloat_eq _) (.matrix (by simp) corr_posDef)
    (row_posDef corr_posDef)

example (g : Grid) : NearLaw Tape.tapeLaw (via (fun X : Fin 2 → Fin 2 → ℝ => (![1, -1] ⬝ᵥ of X *ᵥ ![1, -1]) / (![1, -1] ⬝ᵥ corr *ᵥ ![1, -1]))
    (rwish .eigen (ofReal corr) (nuFloat (fin 2.5)) false g)) (densLaw (chisqPdf 2.5)) ((2 : ℕ) * (7 * (1 / 2 ^ 1074))) :=
  Low.next ▸ C61_rwish_quad Tape.fair Low.next_le g (two_le (by norm_num)) (nuFloat_eq _) (.matrix (by simp) corr_posDef)
    (fun h => by simpa using congrFun h 0)

example (g : Grid) : NearLaw Tape.tapeLaw (via (fun X : Fin 2 → Fin 2 → ℝ => (of X).det / corr.det)
    (rwish .eigen (ofReal corr) (nuFloat (fin 2.5)) false g))
    ((Measure.pi fun i : Fin 2 => densLaw (chisqPdf (2.5 - (i : ℕ)))).map fun c => ∏ i, c i) ((2 : ℕ) * (7 * (1 / 2 ^ 1074))) :=
  Low.next ▸ C61_rwish_det Tape.fair Low.next_le g (two_le (by norm_num)) (nuFloat_eq _) (.matrix (by simp) corr_posDef)

example (g : Grid) : NearLawM Tape.tapeLaw (via (fun (X : Fin 2 → Fin 2 → ℝ) i j => (of X)⁻¹ i j)
    (rinvwish .arma (ofReal corr) (nuFloat (fin 2.5)) false g)) (posDefLaw (wishPdf corr⁻¹ 2.5)) ((2 : ℕ) * (7 * (1 / 2 ^ 1074))) :=
  Low.next ▸ C61_rinvwish_inv Tape.fair Low.next_le g (two_le (by norm_num)) (nuFloat_eq _) (.matrix (by simp) corr_posDef)

example (g : Grid) : NearLawM Tape.tapeLaw (via (fun (X : Fin 2 → Fin 2 → ℝ) i j => (of X)⁻¹ i j)
    (rinvwish .blaze (ofReal fac) (nuFloat (fin 2.5)) true g))
    (posDefLaw (wishPdf (fac * facᵀ)⁻¹⁻¹ 2.5)) ((2 : ℕ) * (7 * (1 / 2 ^ 1074))) :=
  Low.next ▸ C61_rinvwish_inv Tape.fair Low.next_le g (two_le (by norm_num)) (nuFloat_eq _)
    (.factor _ fac_det rfl)

end
end Stats.ExamplesC61
