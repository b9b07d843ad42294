import Verif.IdealLin
import Verif.Lemmas.ExactInst

/-! Exact solvers exist: `open scoped Stats.Exact`. -/

open Classical
namespace Stats.Exact
open Fl MatOps

/-- the matrix of the finite parts -/
noncomputable def real {m n : ℕ} (A : Mat m n) : Matrix (Fin m) (Fin n) ℝ := fun i j => (A i j).toR

theorem real_ofReal {m n : ℕ} (A : Matrix (Fin m) (Fin n) ℝ) : real (ofReal A) = A := rfl

noncomputable scoped instance linAlg [Lib] : LinAlg where
  chol X := if h : ∃ L, IsChol (real X) L then ofReal h.choose else X
  inv X := ofReal (real X)⁻¹
  det X := fin (real X).det
  solve A B := ofReal ((real A)⁻¹ * real B)

scoped instance idealLin [Lib] : IdealLin where
  chol M h := by
    have hc : ∃ L, IsChol (real (ofReal M)) L := by rw [real_ofReal]; exact cholesky M h
    refine ⟨hc.choose, by simpa only [real_ofReal] using hc.choose_spec, ?_⟩
    simp only [LinAlg.chol]
    rw [dif_pos hc]
  inv M _ := by simp only [LinAlg.inv]; rw [real_ofReal]
  det M := by simp only [LinAlg.det]; rw [real_ofReal]
  solve A B _ := by simp only [LinAlg.solve]; rw [real_ofReal, real_ofReal]

end Stats.Exact
