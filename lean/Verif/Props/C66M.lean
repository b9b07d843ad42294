import Verif.Props.C66
import Verif.Props.C36

/-! # C66, continued: conjugate priors of the multivariate normal distribution -/

set_option linter.unusedSectionVars false
open Classical Matrix
namespace Stats
open Fl MatOps Spec Vec
variable [Lib] [Ideal] [LinAlg] [IdealLin] {K : ℕ}

/-- sum of squares and products of the deviations from `mu` -/
noncomputable def scatter (mu : Fin K → ℝ) (xs : List (Fin K → ℝ)) : Matrix (Fin K) (Fin K) ℝ :=
  (xs.map fun x => vecMulVec (x - mu) (x - mu)).sum

theorem scatter_cons (mu x : Fin K → ℝ) (xs : List (Fin K → ℝ)) :
    scatter mu (x :: xs) = vecMulVec (x - mu) (x - mu) + scatter mu xs := by simp [scatter]

theorem posSemidef_outer (v : Fin K → ℝ) : (vecMulVec v v).PosSemidef := by
  simpa using posSemidef_vecMulVec_self_star v

theorem trace_inv_outer (A : Matrix (Fin K) (Fin K) ℝ) (v : Fin K → ℝ) : (A * vecMulVec v v).trace = v ⬝ᵥ A *ᵥ v := by
  rw [mul_vecMulVec, trace_vecMulVec, dotProduct_comm]

theorem mvn_log (mu x : Fin K → ℝ) {Sigma : Matrix (Fin K) (Fin K) ℝ} (h : Sigma.PosDef) :
    mvnPdf mu Sigma x = Real.exp (-(1 / 2) * K * Real.log (2 * Real.pi) -
      1 / 2 * (Real.log Sigma.det + (x - mu) ⬝ᵥ Sigma⁻¹ *ᵥ (x - mu))) := by
  rw [mvnPdf, Real.rpow_def_of_pos (by positivity), Real.rpow_def_of_pos h.det_pos, ← Real.exp_add, ← Real.exp_add]
  congr 1; ring

theorem posValue_dmvnorm (be : Backend) (mx : Fl) (x mu : Fin K → ℝ) {Sigma : Matrix (Fin K) (Fin K) ℝ} (h : Sigma.PosDef) :
    PosValue (dmvnorm be mx (fun i => fin (x i)) (fun i => fin (mu i)) (ofReal Sigma)) (mvnPdf mu Sigma x) :=
  ⟨by rw [mvn_log mu x h]; positivity, C36_dmvnorm be mx x mu h⟩

theorem posValue_dinvwish (be : Backend) {X Psi : Matrix (Fin K) (Fin K) ℝ} (hX : X.PosDef) (hP : Psi.PosDef) {nu : ℝ}
    (hnu : (K : ℝ) - 1 < nu) :
    PosValue (dinvwish be (ofReal X) (ofReal Psi) (fin nu) (nuAddFloat (fin nu) K)) (invwishPdf Psi nu X) :=
  ⟨by rw [invwish_log hX hP hnu]; positivity, C36_dinvwish be hX hP hnu⟩

theorem posValue_dwish (be : Backend) {X Psi : Matrix (Fin K) (Fin K) ℝ} (hX : X.PosDef) (hP : Psi.PosDef) {nu : ℝ}
    (hnu : (K : ℝ) - 1 < nu) :
    PosValue (dwish be (ofReal X) (ofReal Psi) (fin nu) (nuSubFloat (fin nu) K)) (wishPdf Psi nu X) :=
  ⟨by rw [wish_log hX hP hnu]; positivity, C36_dwish be hX hP hnu⟩

/-! ### Inverse Wishart prior of the covariance matrix -/

theorem invwish_real (mu : Fin K → ℝ) (xs : List (Fin K → ℝ)) : ∀ {Psi : Matrix (Fin K) (Fin K) ℝ} {nu : ℝ}, Psi.PosDef →
    (K : ℝ) - 1 < nu → (Psi + scatter mu xs).PosDef ∧
    ∃ m : ℝ, 0 < m ∧ ∀ X : Matrix (Fin K) (Fin K) ℝ, X.PosDef →
      invwishPdf Psi nu X * (xs.map fun x => mvnPdf mu X x).prod = m * invwishPdf (Psi + scatter mu xs) (nu + xs.length) X := by
  induction xs with
  | nil => intro Psi nu hP hnu; exact ⟨by simpa [scatter] using hP, 1, one_pos, fun X hX => by simp [scatter]⟩
  | cons x xs ih =>
    intro Psi nu hP hnu
    set v := x - mu with hv
    have hP' : (Psi + vecMulVec v v).PosDef := hP.add_posSemidef (posSemidef_outer v)
    have hnu' : (K : ℝ) - 1 < nu + 1 := by linarith
    obtain ⟨i1, m, hm, i2⟩ := ih hP' hnu'
    rw [add_assoc, hv, ← scatter_cons mu x xs] at i1 i2
    have hlen : nu + 1 + (xs.length : ℝ) = nu + ((x :: xs).length : ℝ) := by
      rw [List.length_cons]; push_cast; ring
    rw [hlen] at i2
    let c : ℝ := Real.exp (nu / 2 * Real.log Psi.det - nu / 2 * K * Real.log 2 - Real.log (mgamma (nu / 2) K) -
      ((nu + 1) / 2 * Real.log (Psi + vecMulVec v v).det - (nu + 1) / 2 * K * Real.log 2 -
        Real.log (mgamma ((nu + 1) / 2) K)) - 1 / 2 * K * Real.log (2 * Real.pi))
    refine ⟨i1, c * m, mul_pos (Real.exp_pos _) hm, fun X hX => ?_⟩
    have step : invwishPdf Psi nu X * mvnPdf mu X x = c * invwishPdf (Psi + vecMulVec v v) (nu + 1) X := by
      rw [invwish_log hX hP hnu, invwish_log hX hP' hnu', mvn_log mu x hX, ← Real.exp_add, ← Real.exp_add]
      congr 1
      rw [Matrix.mul_add X⁻¹, trace_add, trace_inv_outer]
      ring
    rw [List.map_cons, List.prod_cons, ← mul_assoc, step, mul_assoc, i2 X hX, mul_assoc]

/-- Multivariate normal observations with a known mean: inverse Wishart prior of the covariance matrix. -/
theorem C66_invwish_mvnorm (be : Backend) (mx : Fl) (mu : Fin K → ℝ) {Psi : Matrix (Fin K) (Fin K) ℝ} (hP : Psi.PosDef)
    {nu : ℝ} (hnu : (K : ℝ) - 1 < nu) (xs : List (Fin K → ℝ)) :
    Updates {X : Matrix (Fin K) (Fin K) ℝ | X.PosDef}
      (fun X => dinvwish be (ofReal X) (ofReal Psi) (fin nu) (nuAddFloat (fin nu) K))
      (fun (x : Fin K → ℝ) X => dmvnorm be mx (fun i => fin (x i)) (fun i => fin (mu i)) (ofReal X)) xs
      (fun X => dinvwish be (ofReal X) (ofReal (Psi + scatter mu xs)) (fin (nu + xs.length))
        (nuAddFloat (fin (nu + xs.length)) K)) := by
  obtain ⟨h1, m, hm, h2⟩ := invwish_real mu xs hP hnu
  exact updates_of hm (fun X hX => posValue_dinvwish be hX hP hnu) (fun x _ X hX => posValue_dmvnorm be mx x mu hX)
    (fun X hX => posValue_dinvwish be hX h1 (by have : (0 : ℝ) ≤ xs.length := by positivity
                                                linarith)) fun X hX => h2 X hX

/-! ### Wishart prior of the precision matrix -/

theorem wish_real (mu : Fin K → ℝ) (xs : List (Fin K → ℝ)) : ∀ {Psi : Matrix (Fin K) (Fin K) ℝ} {nu : ℝ}, Psi.PosDef →
    (K : ℝ) - 1 < nu → ((Psi⁻¹ + scatter mu xs)⁻¹).PosDef ∧
    ∃ m : ℝ, 0 < m ∧ ∀ X : Matrix (Fin K) (Fin K) ℝ, X.PosDef →
      wishPdf Psi nu X * (xs.map fun x => mvnPdf mu X⁻¹ x).prod =
        m * wishPdf (Psi⁻¹ + scatter mu xs)⁻¹ (nu + xs.length) X := by
  induction xs with
  | nil =>
    intro Psi nu hP hnu
    have : Psi⁻¹⁻¹ = Psi := nonsing_inv_nonsing_inv _ hP.det_pos.ne'.isUnit
    exact ⟨by simpa [scatter, this] using hP, 1, one_pos, fun X hX => by simp [scatter, this]⟩
  | cons x xs ih =>
    intro Psi nu hP hnu
    set v := x - mu with hv
    have hQ : (Psi⁻¹ + vecMulVec v v).PosDef := hP.inv.add_posSemidef (posSemidef_outer v)
    have hP' : ((Psi⁻¹ + vecMulVec v v)⁻¹).PosDef := hQ.inv
    have hii : (Psi⁻¹ + vecMulVec v v)⁻¹⁻¹ = Psi⁻¹ + vecMulVec v v := nonsing_inv_nonsing_inv _ hQ.det_pos.ne'.isUnit
    have hnu' : (K : ℝ) - 1 < nu + 1 := by linarith
    obtain ⟨i1, m, hm, i2⟩ := ih hP' hnu'
    rw [hii, add_assoc, hv, ← scatter_cons mu x xs] at i1 i2
    have hlen : nu + 1 + (xs.length : ℝ) = nu + ((x :: xs).length : ℝ) := by
      rw [List.length_cons]; push_cast; ring
    rw [hlen] at i2
    let c : ℝ := Real.exp (-(nu / 2) * Real.log Psi.det - nu / 2 * K * Real.log 2 - Real.log (mgamma (nu / 2) K) -
      (-((nu + 1) / 2) * Real.log (Psi⁻¹ + vecMulVec v v)⁻¹.det - (nu + 1) / 2 * K * Real.log 2 -
        Real.log (mgamma ((nu + 1) / 2) K)) - 1 / 2 * K * Real.log (2 * Real.pi))
    refine ⟨i1, c * m, mul_pos (Real.exp_pos _) hm, fun X hX => ?_⟩
    have hXi : X⁻¹⁻¹ = X := nonsing_inv_nonsing_inv _ hX.det_pos.ne'.isUnit
    have hdet : Real.log X⁻¹.det = -Real.log X.det := by
      rw [det_nonsing_inv, Ring.inverse_eq_inv', Real.log_inv]
    have step : wishPdf Psi nu X * mvnPdf mu X⁻¹ x = c * wishPdf (Psi⁻¹ + vecMulVec v v)⁻¹ (nu + 1) X := by
      rw [wish_log hX hP hnu, wish_log hX hP' hnu', mvn_log mu x hX.inv, ← Real.exp_add, ← Real.exp_add]
      congr 1
      rw [hii, Matrix.add_mul, trace_add, trace_mul_comm (vecMulVec v v), trace_inv_outer, hXi, hdet]
      ring
    rw [List.map_cons, List.prod_cons, ← mul_assoc, step, mul_assoc, i2 X hX, mul_assoc]

/-- Multivariate normal observations with a known mean: Wishart prior of the precision matrix. -/
theorem C66_wish_mvnorm (be : Backend) (mx : Fl) (mu : Fin K → ℝ) {Psi : Matrix (Fin K) (Fin K) ℝ} (hP : Psi.PosDef)
    {nu : ℝ} (hnu : (K : ℝ) - 1 < nu) (xs : List (Fin K → ℝ)) :
    Updates {X : Matrix (Fin K) (Fin K) ℝ | X.PosDef}
      (fun X => dwish be (ofReal X) (ofReal Psi) (fin nu) (nuSubFloat (fin nu) K))
      (fun (x : Fin K → ℝ) X => dmvnorm be mx (fun i => fin (x i)) (fun i => fin (mu i)) (ofReal X⁻¹)) xs
      (fun X => dwish be (ofReal X) (ofReal (Psi⁻¹ + scatter mu xs)⁻¹) (fin (nu + xs.length))
        (nuSubFloat (fin (nu + xs.length)) K)) := by
  obtain ⟨h1, m, hm, h2⟩ := wish_real mu xs hP hnu
  exact updates_of hm (fun X hX => posValue_dwish be hX hP hnu)
    (fun x _ X hX => posValue_dmvnorm be mx x mu (Matrix.PosDef.inv hX))
    (fun X hX => posValue_dwish be hX h1 (by have : (0 : ℝ) ≤ xs.length := by positivity
                                             linarith)) fun X hX => h2 X hX

/-! ### Normal prior of the mean vector -/

theorem quad_sub {A : Matrix (Fin K) (Fin K) ℝ} (hA : A.IsHermitian) (x m : Fin K → ℝ) :
    (x - m) ⬝ᵥ A *ᵥ (x - m) = x ⬝ᵥ A *ᵥ x - 2 * (x ⬝ᵥ A *ᵥ m) + m ⬝ᵥ A *ᵥ m := by
  have h : m ⬝ᵥ A *ᵥ x = x ⬝ᵥ A *ᵥ m := by
    have hT : Aᵀ = A := by simpa using hA.eq
    rw [dotProduct_comm, ← hT, mulVec_transpose, ← dotProduct_mulVec, hT]
  rw [mulVec_sub, dotProduct_sub, sub_dotProduct, sub_dotProduct, h]
  ring

theorem mvn_mean_prod {Sigma : Matrix (Fin K) (Fin K) ℝ} (hS : Sigma.PosDef) (xs : List (Fin K → ℝ)) :
    ∃ C : ℝ, 0 < C ∧ ∀ t : Fin K → ℝ, (xs.map fun x => mvnPdf t Sigma x).prod =
      C * Real.exp (t ⬝ᵥ Sigma⁻¹ *ᵥ xs.sum - xs.length / 2 * (t ⬝ᵥ Sigma⁻¹ *ᵥ t)) := by
  induction xs with
  | nil => exact ⟨1, one_pos, by simp⟩
  | cons x xs ih =>
    obtain ⟨C, hC, h⟩ := ih
    refine ⟨Real.exp (-(1 / 2) * K * Real.log (2 * Real.pi) - 1 / 2 * (Real.log Sigma.det + x ⬝ᵥ Sigma⁻¹ *ᵥ x)) * C,
      by positivity, fun t => ?_⟩
    have hsw : x ⬝ᵥ Sigma⁻¹ *ᵥ t = t ⬝ᵥ Sigma⁻¹ *ᵥ x := by
      have h1 := quad_sub hS.inv.isHermitian x t
      have h2 := quad_sub hS.inv.isHermitian t x
      have h3 : (t - x) ⬝ᵥ Sigma⁻¹ *ᵥ (t - x) = (x - t) ⬝ᵥ Sigma⁻¹ *ᵥ (x - t) := by
        rw [← neg_sub x t, mulVec_neg, neg_dotProduct_neg]
      linarith
    rw [List.map_cons, List.prod_cons, h, mvn_log t x hS, quad_sub hS.inv.isHermitian, hsw, List.sum_cons, List.length_cons,
      mulVec_add, dotProduct_add]
    push_cast
    have e : ∀ a b c d : ℝ, Real.exp a * (C * Real.exp b) = Real.exp c * C * Real.exp d ↔
        Real.exp (a + b) = Real.exp (c + d) := by
      intro a b c d
      rw [Real.exp_add, Real.exp_add]
      constructor
      · intro h; exact mul_left_cancel₀ hC.ne' (by linarith)
      · intro h; linear_combination C * h
    rw [e]
    congr 1
    ring

/-- Multivariate normal observations with a known covariance matrix: normal prior of the mean vector. The precisions add
up; the posterior mean weighs prior mean and observations with the precisions. -/
theorem C66_mvnorm_mvnorm (be : Backend) (mx : Fl) (m : Fin K → ℝ) {S Sigma : Matrix (Fin K) (Fin K) ℝ} (hS : S.PosDef)
    (hSig : Sigma.PosDef) (xs : List (Fin K → ℝ)) :
    Updates Set.univ
      (fun t : Fin K → ℝ => dmvnorm be mx (fun i => fin (t i)) (fun i => fin (m i)) (ofReal S))
      (fun (x t : Fin K → ℝ) => dmvnorm be mx (fun i => fin (x i)) (fun i => fin (t i)) (ofReal Sigma)) xs
      (fun t => dmvnorm be mx (fun i => fin (t i))
        (fun i => fin (((S⁻¹ + (xs.length : ℝ) • Sigma⁻¹)⁻¹ *ᵥ (S⁻¹ *ᵥ m + Sigma⁻¹ *ᵥ xs.sum)) i))
        (ofReal (S⁻¹ + (xs.length : ℝ) • Sigma⁻¹)⁻¹)) := by
  have hQ : (S⁻¹ + (xs.length : ℝ) • Sigma⁻¹).PosDef :=
    hS.inv.add_posSemidef (hSig.inv.posSemidef.smul (by positivity))
  set Q := S⁻¹ + (xs.length : ℝ) • Sigma⁻¹ with hQd
  set w := S⁻¹ *ᵥ m + Sigma⁻¹ *ᵥ xs.sum with hw
  have hQi : Q⁻¹⁻¹ = Q := nonsing_inv_nonsing_inv _ hQ.det_pos.ne'.isUnit
  obtain ⟨C, hC, hprod⟩ := mvn_mean_prod hSig xs
  refine updates_of (m := C * Real.exp (-(1 / 2) * Real.log S.det - 1 / 2 * (m ⬝ᵥ S⁻¹ *ᵥ m) + 1 / 2 * Real.log Q⁻¹.det +
      1 / 2 * ((Q⁻¹ *ᵥ w) ⬝ᵥ Q *ᵥ (Q⁻¹ *ᵥ w)))) (by positivity)
    (fun t _ => posValue_dmvnorm be mx t m hS) (fun x _ t _ => posValue_dmvnorm be mx x t hSig)
    (fun t _ => posValue_dmvnorm be mx t _ hQ.inv) fun t _ => ?_
  rw [hprod, mvn_log m t hS, mvn_log _ t hQ.inv, hQi, quad_sub hS.inv.isHermitian, quad_sub hQ.isHermitian]
  have h1 : Q *ᵥ (Q⁻¹ *ᵥ w) = w := by rw [mulVec_mulVec, mul_nonsing_inv _ hQ.det_pos.ne'.isUnit, one_mulVec]
  rw [h1]
  have h2 : t ⬝ᵥ Q *ᵥ t = t ⬝ᵥ S⁻¹ *ᵥ t + xs.length * (t ⬝ᵥ Sigma⁻¹ *ᵥ t) := by
    rw [hQd, add_mulVec, dotProduct_add, smul_mulVec, dotProduct_smul, smul_eq_mul]
  have h3 : t ⬝ᵥ w = t ⬝ᵥ S⁻¹ *ᵥ m + t ⬝ᵥ Sigma⁻¹ *ᵥ xs.sum := by rw [hw, dotProduct_add]
  rw [h2, h3]
  have e : ∀ a b c d : ℝ, a + b = c + d → Real.exp a * (C * Real.exp b) = C * Real.exp c * Real.exp d := by
    intro a b c d h
    have : Real.exp a * Real.exp b = Real.exp c * Real.exp d := by rw [← Real.exp_add, ← Real.exp_add, h]
    linear_combination C * this
  apply e
  ring

end Stats

/-! ### Concrete cases -/

namespace Stats.ExamplesC66
open Stats Fl MatOps Spec Vec ExamplesC37
variable [Lib] [Ideal] [LinAlg] [IdealLin]

example (be : Backend) (mx : Fl) := C66_invwish_mvnorm be mx ![1, 2] corr_posDef (nu := 5) (by norm_num) [![0, 1], ![3, -1]]
example (be : Backend) (mx : Fl) := C66_wish_mvnorm be mx ![1, 2] corr_posDef (nu := 5) (by norm_num) [![0, 1], ![3, -1]]
example (be : Backend) (mx : Fl) := C66_mvnorm_mvnorm be mx ![1, 2] corr_posDef corr_posDef [![0, 1], ![3, -1]]

end Stats.ExamplesC66
