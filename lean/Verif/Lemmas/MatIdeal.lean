import Verif.IdealLin
import Verif.Lemmas.IdealArith
import Mathlib.LinearAlgebra.Matrix.Trace
import Mathlib.Algebra.BigOperators.Fin

/-! The matrix helpers in exact arithmetic, on real matrices. -/

set_option linter.unusedSectionVars false
open Classical Matrix
namespace Stats.MatOps
open Fl
variable [Lib] [Ideal]

theorem foldl_add {α : Type*} (f : α → ℝ) (X : List α) (a : ℝ) :
    X.foldl (fun s x => s + fin (f x)) (fin a) = fin (a + (X.map f).sum) := by
  induction X generalizing a with
  | nil => simp
  | cons x X ih => rw [List.foldl_cons, ifin_add, ih, List.map_cons, List.sum_cons, add_assoc]

theorem accu_fin (X : List ℝ) : accu (X.map fin) = fin X.sum := by
  rw [accu, List.foldl_map, zero_eq, foldl_add]; simp

theorem sqaccu_fin (X : List ℝ) : sqaccu (X.map fin) = fin (X.map (fun x => x * x)).sum := by
  rw [sqaccu, List.foldl_map, zero_eq]
  simp only [ideal]
  rw [foldl_add, zero_add]

theorem vsum_fin {n : ℕ} (f : Fin n → ℝ) : vsum (fun i => fin (f i)) = fin (∑ i, f i) := by
  have : List.ofFn (fun i => fin (f i)) = (List.ofFn f).map fin := by
    rw [List.map_ofFn]; rfl
  rw [vsum, this, accu_fin, List.sum_ofFn]

theorem mmul_real {m n p : ℕ} (A : Matrix (Fin m) (Fin n) ℝ) (B : Matrix (Fin n) (Fin p) ℝ) :
    mmul (ofReal A) (ofReal B) = ofReal (A * B) := by
  funext i j
  simp only [mmul, ofReal, ideal]
  rw [vsum_fin, mul_apply]

theorem mulVec_real {m n : ℕ} (A : Matrix (Fin m) (Fin n) ℝ) (x : Fin n → ℝ) :
    mulVec (ofReal A) (fun i => fin (x i)) = fun i => fin ((A *ᵥ x) i) := by
  funext i
  simp only [mulVec, ofReal, ideal]
  rw [vsum_fin]; rfl

theorem trans_real {m n : ℕ} (A : Matrix (Fin m) (Fin n) ℝ) : trans (ofReal A) = ofReal Aᵀ := rfl

theorem trace_real {n : ℕ} (A : Matrix (Fin n) (Fin n) ℝ) : trace (ofReal A) = fin A.trace := by
  rw [trace]; exact vsum_fin _

theorem dot_real {n : ℕ} (x y : Fin n → ℝ) : dot (fun i => fin (x i)) (fun i => fin (y i)) = fin (x ⬝ᵥ y) := by
  simp only [dot, ideal]; rw [vsum_fin]; rfl

theorem col_real {n : ℕ} (x : Fin n → ℝ) : col (fun i => fin (x i)) = ofReal (replicateCol (Fin 1) x) := rfl

theorem chol_spec {n : ℕ} {M L : Matrix (Fin n) (Fin n) ℝ} (h : IsChol M L) : M.det = ∏ i, L i i ^ 2 := by
  have hl : L.BlockTriangular OrderDual.toDual := fun i j hij => h.lower i j hij
  rw [← h.mul, det_mul, det_transpose, det_of_isLowerTriangular L hl, ← Finset.prod_mul_distrib]
  exact Finset.prod_congr rfl fun i _ => (sq _).symm

theorem log_chol {n : ℕ} {M L : Matrix (Fin n) (Fin n) ℝ} (h : IsChol M L) :
    2 * ∑ i, Real.log (L i i) = Real.log M.det := by
  rw [chol_spec h, Real.log_prod (fun i _ => (pow_pos (h.pos i) 2).ne'), Finset.mul_sum]
  exact Finset.sum_congr rfl fun i _ => by rw [Real.log_pow]; norm_num

variable [LinAlg] [IdealLin]

theorem inv_real {n : ℕ} {M : Matrix (Fin n) (Fin n) ℝ} (h : M.det ≠ 0) : inv (ofReal M) = ofReal M⁻¹ :=
  IdealLin.inv M h

theorem det_real {n : ℕ} (M : Matrix (Fin n) (Fin n) ℝ) : det (ofReal M) = fin M.det := IdealLin.det M

theorem solve_real (be : Backend) {n m : ℕ} {A : Matrix (Fin n) (Fin n) ℝ} (B : Matrix (Fin n) (Fin m) ℝ)
    (h : A.det ≠ 0) : solve be (ofReal A) (ofReal B) = ofReal (A⁻¹ * B) := by
  cases be
  · exact IdealLin.solve A B h
  · simp only [solve]; rw [IdealLin.inv A h, mmul_real]
  · exact IdealLin.solve A B h

theorem quad_aux {n : ℕ} (x : Fin n → ℝ) (A : Matrix (Fin n) (Fin n) ℝ) :
    ((replicateCol (Fin 1) x)ᵀ * A * replicateCol (Fin 1) x) 0 0 = x ⬝ᵥ A *ᵥ x := by
  rw [Matrix.mul_assoc, mul_apply]
  simp only [dotProduct, transpose_apply, replicateCol_apply, mul_apply]
  rfl

theorem quad_form_inv (be : Backend) {n : ℕ} (x : Fin n → ℝ) {A : Matrix (Fin n) (Fin n) ℝ} (h : A.det ≠ 0) :
    quad_form be (fun i => fin (x i)) (ofReal A) true = fin (x ⬝ᵥ A⁻¹ *ᵥ x) := by
  cases be
  · simp only [quad_form, if_true]
    rw [col_real, IdealLin.solve A _ h]
    exact dot_real x _
  · simp only [quad_form, if_true]
    rw [col_real, IdealLin.inv A h, trans_real, mmul_real, mmul_real, ofReal, quad_aux]
  · simp only [quad_form, if_true]
    rw [col_real, IdealLin.solve A _ h, trans_real, mmul_real, ofReal, ← Matrix.mul_assoc, quad_aux]

theorem quad_form_plain (be : Backend) {n : ℕ} (x : Fin n → ℝ) (A : Matrix (Fin n) (Fin n) ℝ) :
    quad_form be (fun i => fin (x i)) (ofReal A) false = fin (x ⬝ᵥ A *ᵥ x) := by
  cases be
  · simp only [quad_form, Bool.false_eq_true, if_false]
    rw [mulVec_real, dot_real]
  · simp only [quad_form, Bool.false_eq_true, if_false]
    rw [col_real, trans_real, mmul_real, mmul_real, ofReal, quad_aux]
  · simp only [quad_form, Bool.false_eq_true, if_false]
    rw [col_real, trans_real, mmul_real, mmul_real, ofReal, quad_aux]

theorem log_det_real (be : Backend) {n : ℕ} {M : Matrix (Fin n) (Fin n) ℝ} (h : M.PosDef) :
    log_det be (ofReal M) = fin (Real.log M.det) := by
  obtain ⟨L, hL, e⟩ := IdealLin.chol M h
  have hl : ∀ i, Fl.log (fin (L i i)) = fin (Real.log (L i i)) := fun i => ilog (hL.pos i)
  cases be
  · simp only [log_det, chol, e, ofReal, hl]
    rw [vsum_fin]; simp only [ideal]; rw [log_chol hL]
  · simp only [log_det, chol, e, le_refl, if_true, ofReal, hl]
    rw [vsum_fin]; simp only [ideal]; rw [log_chol hL]
  · simp only [log_det, chol, e, ofReal, hl, ideal]
    rw [vsum_fin, ← Finset.sum_mul, mul_comm, log_chol hL]

end Stats.MatOps
