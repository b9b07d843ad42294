import Verif.Ideal
import Verif.Model.MatOps
import Mathlib.LinearAlgebra.Matrix.PosDef
import Mathlib.LinearAlgebra.Matrix.NonsingularInverse
import Mathlib.Analysis.Matrix.LDL
import Mathlib.LinearAlgebra.Matrix.Block
import Mathlib.Analysis.Matrix.PosDef
import Mathlib.Algebra.Order.Star.Real

/-!
# Exact linear algebra

`IdealLin` says that the dense solvers of the matrix libraries compute without rounding what they are documented to
compute. `cholesky` proves that the factor asked for exists, so the contract can be met (`Lemmas/LinInst.lean`).
-/

open Classical Matrix

namespace Stats
open Fl

/-- A real matrix as a matrix of finite floating-point numbers. -/
def ofReal {m n : ℕ} (A : Matrix (Fin m) (Fin n) ℝ) : MatOps.Mat m n := fun i j => fin (A i j)

/-- `L` is a lower triangular Cholesky factor of `M`. -/
structure IsChol {n : ℕ} (M L : Matrix (Fin n) (Fin n) ℝ) : Prop where
  lower : ∀ i j, i < j → L i j = 0
  pos : ∀ i, 0 < L i i
  mul : L * Lᵀ = M

/-- The solvers are exact. -/
class IdealLin [Lib] [MatOps.LinAlg] : Prop where
  chol : ∀ {n : ℕ} (M : Matrix (Fin n) (Fin n) ℝ), M.PosDef →
    ∃ L, IsChol M L ∧ MatOps.LinAlg.chol (ofReal M) = ofReal L
  inv : ∀ {n : ℕ} (M : Matrix (Fin n) (Fin n) ℝ), M.det ≠ 0 → MatOps.LinAlg.inv (ofReal M) = ofReal M⁻¹
  det : ∀ {n : ℕ} (M : Matrix (Fin n) (Fin n) ℝ), MatOps.LinAlg.det (ofReal M) = fin M.det
  solve : ∀ {n m : ℕ} (A : Matrix (Fin n) (Fin n) ℝ) (B : Matrix (Fin n) (Fin m) ℝ), A.det ≠ 0 →
    MatOps.LinAlg.solve (ofReal A) (ofReal B) = ofReal (A⁻¹ * B)

/-- Every positive definite matrix has a Cholesky factor. -/
theorem cholesky {n : ℕ} (M : Matrix (Fin n) (Fin n) ℝ) (h : M.PosDef) : ∃ L, IsChol M L := by
  set P := LDL.lowerInv h with hP
  have hPt : P.BlockTriangular OrderDual.toDual := fun i j hij => LDL.lowerInv_triangular h hij
  have hinv : IsUnit P := isUnit_of_invertible P
  have hinvt : P⁻¹.BlockTriangular OrderDual.toDual := blockTriangular_inv_of_blockTriangular hPt
  have e := LDL.diag_eq_lowerInv_conj h
  set d := LDL.diagEntries h
  have hd : ∀ i, 0 < d i := by
    have : (LDL.diag h).PosDef := by
      rw [e]
      refine h.mul_mul_conjTranspose_same (B := P) ?_
      exact Matrix.vecMul_injective_of_isUnit hinv
    rw [LDL.diag] at this
    exact Matrix.posDef_diagonal_iff.1 this
  have e2 : P⁻¹ * diagonal d * P⁻¹ᵀ = M := by
    have := LDL.lower_conj_diag h
    rwa [LDL.lower, conjTranspose_eq_transpose_of_trivial] at this
  have hdiag : ∀ i, P i i * P⁻¹ i i = 1 := by
    intro i
    have h1 : (P * P⁻¹) i i = 1 := by rw [mul_nonsing_inv P ((isUnit_iff_isUnit_det P).1 hinv)]; simp
    rw [mul_apply, Finset.sum_eq_single i] at h1
    · exact h1
    · intro k _ hk
      rcases lt_or_gt_of_ne hk with h2 | h2
      · have : P⁻¹ k i = 0 := hinvt h2
        rw [this, mul_zero]
      · have : P i k = 0 := hPt h2
        rw [this, zero_mul]
    · simp
  have hne : ∀ i, P⁻¹ i i ≠ 0 := fun i h0 => by have := hdiag i; rw [h0, mul_zero] at this; exact zero_ne_one this
  set s : Fin n → ℝ := fun i => (SignType.sign (P⁻¹ i i) : ℝ) with hs
  have hss : ∀ i, s i * s i = 1 := by
    intro i
    rcases lt_or_gt_of_ne (hne i) with h0 | h0
    · simp [hs, sign_neg h0]
    · simp [hs, sign_pos h0]
  refine ⟨P⁻¹ * diagonal (fun i => √(d i) * s i), fun i j hij => ?_, fun i => ?_, ?_⟩
  · rw [mul_diagonal, show P⁻¹ i j = 0 from hinvt hij, zero_mul]
  · rw [mul_diagonal]
    have : P⁻¹ i i * (√(d i) * s i) = |P⁻¹ i i| * √(d i) := by
      rw [← self_mul_sign]; ring
    rw [this]
    exact mul_pos (abs_pos.2 (hne i)) (Real.sqrt_pos.2 (hd i))
  · rw [transpose_mul, diagonal_transpose, Matrix.mul_assoc, ← Matrix.mul_assoc (diagonal _), diagonal_mul_diagonal]
    have : (fun i => √(d i) * s i * (√(d i) * s i)) = d := by
      funext i
      have := Real.mul_self_sqrt (hd i).le
      linear_combination (s i * s i) * this + d i * hss i
    rw [this, ← Matrix.mul_assoc, e2]

end Stats
