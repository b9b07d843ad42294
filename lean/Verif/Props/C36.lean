import Verif.Model.Multi
import Verif.Spec.Multi
import Verif.Lemmas.Wrap
import Verif.Lemmas.MatIdeal
import Verif.Lemmas.LinInst
import Verif.Props.C37

/-!
# C36: the multivariate densities are the textbook ones

In exact arithmetic with exact solvers, for every matrix library. For an integral `nu` the Wishart density computes
`nu - K - 1` without sign: wrong for `nu = K`.
-/

set_option linter.unusedSectionVars false
open Classical Matrix
namespace Stats
open Fl MatOps Spec Vec

section every
variable [Lib] [LinAlg] {K : ℕ}

/-- For every rounding rule and every library: the plain densities are the exponential of the log densities, and `dmvnorm`
replaces an overflow by the largest number. -/
theorem C36_exp_log (be : Backend) (M : ℝ) (x mu : Fin K → Fl) (Sigma X Psi : Mat K K) (nu nuK : Fl) :
    (let r := exp (dmvnorm be (fin M) x mu Sigma true);
      (r = pinf → dmvnorm be (fin M) x mu Sigma false = fin M) ∧
      (∀ v : ℝ, r = fin v → dmvnorm be (fin M) x mu Sigma false = fin v) ∧
      (r = nan → dmvnorm be (fin M) x mu Sigma false = nan) ∧
      dmvnorm be (fin M) x mu Sigma false ≠ pinf ∧ dmvnorm be (fin M) x mu Sigma false ≠ ninf) ∧
    dwish be X Psi nu nuK false = exp (dwish be X Psi nu nuK true) ∧
    dinvwish be X Psi nu nuK false = exp (dinvwish be X Psi nu nuK true) := by
  have e : dmvnorm be (fin M) x mu Sigma false =
      if exp (dmvnorm be (fin M) x mu Sigma true) = pinf ∨ exp (dmvnorm be (fin M) x mu Sigma true) = ninf then fin M
      else exp (dmvnorm be (fin M) x mu Sigma true) := by simp [dmvnorm]
  refine ⟨?_, by simp [dwish], by simp [dinvwish]⟩
  simp only [e]
  cases exp (dmvnorm be (fin M) x mu Sigma true) <;> simp

end every

variable [Lib] [Ideal] [LinAlg] [IdealLin] {K : ℕ}

theorem mgamma_pos {a : ℝ} {p : ℕ} (h : ((p : ℝ) - 1) / 2 < a) : 0 < mgamma a p := by
  rw [mgamma]
  refine mul_pos (Real.rpow_pos_of_pos Real.pi_pos _) (Finset.prod_pos fun j hj => Real.Gamma_pos_of_pos ?_)
  have : (j : ℝ) + 1 ≤ p := by exact_mod_cast Finset.mem_range.1 hj
  linarith

theorem ilmgamma {a : ℝ} {p : ℕ} (h : ((p : ℝ) - 1) / 2 < a) : lmgamma (fin a) p = fin (Real.log (mgamma a p)) := by
  rw [lmgamma, Ideal.lmgamma a p h, ofE_coe]

theorem C36_dmvnorm (be : Backend) (max : Fl) (x mu : Fin K → ℝ) {Sigma : Matrix (Fin K) (Fin K) ℝ} (h : Sigma.PosDef) :
    dmvnorm be max (fun i => fin (x i)) (fun i => fin (mu i)) (ofReal Sigma) false = fin (mvnPdf mu Sigma x) ∧
    dmvnorm be max (fun i => fin (x i)) (fun i => fin (mu i)) (ofReal Sigma) true =
      fin (Real.log (mvnPdf mu Sigma x)) := by
  have hd := h.det_pos
  have e : mvnPdf mu Sigma x = Real.exp (-(1 / 2) * K * Real.log (2 * Real.pi) -
      1 / 2 * (Real.log Sigma.det + (x - mu) ⬝ᵥ Sigma⁻¹ *ᵥ (x - mu))) := by
    rw [mvnPdf, Real.rpow_def_of_pos (by positivity), Real.rpow_def_of_pos hd, ← Real.exp_add, ← Real.exp_add]
    congr 1; ring
  have hq : quad_form be (fun i => fin (x i) - fin (mu i)) (ofReal Sigma) true =
      fin ((x - mu) ⬝ᵥ Sigma⁻¹ *ᵥ (x - mu)) := by
    simp only [ideal]
    exact quad_form_inv be (x - mu) hd.ne'
  constructor
  · simp only [dmvnorm, Bool.not_false, if_true]
    rw [hq, log_det_real be h]
    simp only [ideal]
    rw [if_neg (by simp), e]; push_cast; rfl
  · simp only [dmvnorm, Bool.not_true, Bool.false_eq_true, if_false]
    rw [hq, log_det_real be h]
    simp only [ideal]
    rw [e, Real.log_exp]; push_cast; rfl

/-- `nu_par-K-1` of a floating `nu_par`, in exact arithmetic -/
theorem nuSubFloat_eq (nu : ℝ) : nuSubFloat (fin nu) K = fin (nu - K - 1) := by simp [nuSubFloat, ideal]

/-- `nu_par-K-1` of an integral `nu_par > K` -/
theorem nuSubInt_eq {nu : ℕ} (h : K < nu) (hn : nu < 2 ^ 64) : nuSubInt nu K = fin ((nu : ℝ) - K - 1) := by
  rw [nuSubInt, wsub_eq h.le hn, wsub_eq (by omega) (by omega), ofInt_eq]
  have : ((nu - K - 1 : ℕ) : ℤ) = (nu : ℤ) - K - 1 := by omega
  rw [this]; push_cast; rfl

theorem nuAddFloat_eq (nu : ℝ) : nuAddFloat (fin nu) K = fin (nu + K + 1) := by simp [nuAddFloat, ideal]

theorem nuAddInt_eq {nu : ℕ} (hn : nu + K + 1 < 2 ^ 64) : nuAddInt nu K = fin ((nu : ℝ) + K + 1) := by
  rw [nuAddInt, wadd, wadd, Nat.mod_eq_of_lt (by omega : nu + K < 2 ^ 64), Nat.mod_eq_of_lt hn, ofInt_eq]
  push_cast; rfl

theorem wish_log {X Psi : Matrix (Fin K) (Fin K) ℝ} (hX : X.PosDef) (hP : Psi.PosDef) {nu : ℝ} (hnu : (K : ℝ) - 1 < nu) :
    wishPdf Psi nu X = Real.exp (-(nu / 2) * Real.log Psi.det - nu / 2 * K * Real.log 2 - Real.log (mgamma (nu / 2) K) +
      1 / 2 * ((nu - K - 1) * Real.log X.det - (Psi⁻¹ * X).trace)) := by
  have hm : 0 < mgamma (nu / 2) K := mgamma_pos (by linarith)
  rw [wishPdf, Real.rpow_def_of_pos hX.det_pos, Real.rpow_def_of_pos two_pos, Real.rpow_def_of_pos hP.det_pos]
  conv_lhs => rw [← Real.exp_log hm]
  rw [← Real.exp_add, ← Real.exp_add, ← Real.exp_add, ← Real.exp_sub]
  congr 1; ring

theorem dwish_eq (be : Backend) {X Psi : Matrix (Fin K) (Fin K) ℝ} (hX : X.PosDef) (hP : Psi.PosDef) {nu : ℝ}
    (hnu : (K : ℝ) - 1 < nu) (nuK : ℝ) :
    dwish be (ofReal X) (ofReal Psi) (fin nu) (fin nuK) true =
      fin (-(nu / 2) * Real.log Psi.det - nu / 2 * K * Real.log 2 - Real.log (mgamma (nu / 2) K) +
      1 / 2 * (nuK * Real.log X.det - (Psi⁻¹ * X).trace)) ∧
    dwish be (ofReal X) (ofReal Psi) (fin nu) (fin nuK) false =
      exp (dwish be (ofReal X) (ofReal Psi) (fin nu) (fin nuK) true) := by
  refine ⟨?_, by simp only [dwish]; simp⟩
  simp only [dwish, Bool.not_true, Bool.false_eq_true, if_false]
  rw [solve_real be X hP.det_pos.ne', trace_real, det_real, det_real, ilog hP.det_pos, ilog hX.det_pos]
  simp only [ideal]
  rw [ilmgamma (by linarith)]
  simp only [ideal]
  push_cast; rfl

/-- Wishart density for a floating `nu`. -/
theorem C36_dwish (be : Backend) {X Psi : Matrix (Fin K) (Fin K) ℝ} (hX : X.PosDef) (hP : Psi.PosDef) {nu : ℝ}
    (hnu : (K : ℝ) - 1 < nu) :
    dwish be (ofReal X) (ofReal Psi) (fin nu) (nuSubFloat (fin nu) K) false = fin (wishPdf Psi nu X) ∧
    dwish be (ofReal X) (ofReal Psi) (fin nu) (nuSubFloat (fin nu) K) true = fin (Real.log (wishPdf Psi nu X)) := by
  rw [nuSubFloat_eq, (dwish_eq be hX hP hnu _).2, (dwish_eq be hX hP hnu _).1, wish_log hX hP hnu, Real.log_exp, iexp]
  exact ⟨rfl, rfl⟩

/-- Wishart density for an integral `nu`, larger than `K`. -/
theorem C36_dwish_int_partial (be : Backend) {X Psi : Matrix (Fin K) (Fin K) ℝ} (hX : X.PosDef) (hP : Psi.PosDef) {nu : ℕ}
    (hnu : K < nu) (hn : nu < 2 ^ 64) :
    dwish be (ofReal X) (ofReal Psi) (fin nu) (nuSubInt nu K) false = fin (wishPdf Psi nu X) ∧
    dwish be (ofReal X) (ofReal Psi) (fin nu) (nuSubInt nu K) true = fin (Real.log (wishPdf Psi nu X)) := by
  rw [nuSubInt_eq hnu hn, ← nuSubFloat_eq]
  exact C36_dwish be hX hP (by have : (K : ℝ) < nu := by exact_mod_cast hnu
                               linarith)

/-- For an integral `nu = K`, a valid parameter, `nu - K - 1` wraps around to `2^64 - 1`: the density of the one-dimensional
Wishart distribution (chi-squared with one degree of freedom) at 2 is wrong by the factor `2^(2^63)`. -/
theorem C36_dwish_int_violated (be : Backend) : ∃ X Psi : Matrix (Fin 1) (Fin 1) ℝ, X.PosDef ∧ Psi.PosDef ∧
    dwish be (ofReal X) (ofReal Psi) (fin (1 : ℕ)) (nuSubInt 1 1) true =
      fin (Real.log (wishPdf Psi (1 : ℕ) X) + 2 ^ 63 * Real.log 2) := by
  have hpd : ∀ c : ℝ, 0 < c → (Matrix.of fun _ _ : Fin 1 => c).PosDef := by
    intro c hc
    refine posDef_iff_dotProduct_mulVec.2 ⟨by ext i j; simp, fun x hx => ?_⟩
    have hx0 : x 0 ≠ 0 := fun h => hx (by ext i; fin_cases i; simpa using h)
    have : star x ⬝ᵥ (Matrix.of fun _ _ : Fin 1 => c) *ᵥ x = c * x 0 ^ 2 := by
      simp [dotProduct, Matrix.mulVec]; ring
    rw [this]; positivity
  have hX := hpd 2 (by norm_num)
  have hP := hpd 1 one_pos
  refine ⟨_, _, hX, hP, ?_⟩
  have hnu : ((1 : ℕ) : ℝ) - 1 < ((1 : ℕ) : ℝ) := by norm_num
  have e : nuSubInt 1 1 = fin (2 ^ 64 - 1) := by
    have : wsub (wsub 1 1) 1 = 2 ^ 64 - 1 := by decide
    rw [nuSubInt, this, ofInt_eq]; norm_num
  rw [e, (dwish_eq be hX hP hnu _).1, wish_log hX hP hnu, Real.log_exp]
  congr 1
  have hdet : (Matrix.of fun _ _ : Fin 1 => (2 : ℝ)).det = 2 := by simp
  rw [hdet]
  push_cast
  ring

theorem invwish_log {X Psi : Matrix (Fin K) (Fin K) ℝ} (hX : X.PosDef) (hP : Psi.PosDef) {nu : ℝ}
    (hnu : (K : ℝ) - 1 < nu) :
    invwishPdf Psi nu X = Real.exp (nu / 2 * Real.log Psi.det - nu / 2 * K * Real.log 2 - Real.log (mgamma (nu / 2) K) -
      1 / 2 * ((nu + K + 1) * Real.log X.det + (X⁻¹ * Psi).trace)) := by
  have hm : 0 < mgamma (nu / 2) K := mgamma_pos (by linarith)
  rw [invwishPdf, Real.rpow_def_of_pos hX.det_pos, Real.rpow_def_of_pos two_pos, Real.rpow_def_of_pos hP.det_pos]
  conv_lhs => rw [← Real.exp_log hm]
  rw [← Real.exp_add, ← Real.exp_sub, ← Real.exp_add, ← Real.exp_add, trace_mul_comm]
  congr 1; ring

theorem dinvwish_eq (be : Backend) {X Psi : Matrix (Fin K) (Fin K) ℝ} (hX : X.PosDef) (hP : Psi.PosDef) {nu : ℝ}
    (hnu : (K : ℝ) - 1 < nu) (nuK : ℝ) :
    dinvwish be (ofReal X) (ofReal Psi) (fin nu) (fin nuK) true =
      fin (nu / 2 * Real.log Psi.det - nu / 2 * K * Real.log 2 - Real.log (mgamma (nu / 2) K) -
      1 / 2 * (nuK * Real.log X.det + (X⁻¹ * Psi).trace)) ∧
    dinvwish be (ofReal X) (ofReal Psi) (fin nu) (fin nuK) false =
      exp (dinvwish be (ofReal X) (ofReal Psi) (fin nu) (fin nuK) true) := by
  refine ⟨?_, by simp only [dinvwish]; simp⟩
  simp only [dinvwish, Bool.not_true, Bool.false_eq_true, if_false]
  rw [solve_real be Psi hX.det_pos.ne', trace_real, log_det_real be hX, log_det_real be hP]
  simp only [ideal]
  rw [ilmgamma (by linarith)]
  simp only [ideal]
  push_cast; rfl

/-- inverse Wishart density for a floating `nu` -/
theorem C36_dinvwish (be : Backend) {X Psi : Matrix (Fin K) (Fin K) ℝ} (hX : X.PosDef) (hP : Psi.PosDef) {nu : ℝ}
    (hnu : (K : ℝ) - 1 < nu) :
    dinvwish be (ofReal X) (ofReal Psi) (fin nu) (nuAddFloat (fin nu) K) false = fin (invwishPdf Psi nu X) ∧
    dinvwish be (ofReal X) (ofReal Psi) (fin nu) (nuAddFloat (fin nu) K) true =
      fin (Real.log (invwishPdf Psi nu X)) := by
  rw [nuAddFloat_eq, (dinvwish_eq be hX hP hnu _).2, (dinvwish_eq be hX hP hnu _).1, invwish_log hX hP hnu, Real.log_exp,
    iexp]
  exact ⟨rfl, rfl⟩

/-- and for an integral one -/
theorem C36_dinvwish_int (be : Backend) {X Psi : Matrix (Fin K) (Fin K) ℝ} (hX : X.PosDef) (hP : Psi.PosDef) {nu : ℕ}
    (hnu : K ≤ nu) (hn : nu + K + 1 < 2 ^ 64) :
    dinvwish be (ofReal X) (ofReal Psi) (fin nu) (nuAddInt nu K) false = fin (invwishPdf Psi nu X) ∧
    dinvwish be (ofReal X) (ofReal Psi) (fin nu) (nuAddInt nu K) true = fin (Real.log (invwishPdf Psi nu X)) := by
  rw [nuAddInt_eq hn, ← nuAddFloat_eq]
  exact C36_dinvwish be hX hP (by have : (K : ℝ) ≤ nu := by exact_mod_cast hnu
                                  linarith)

end Stats

namespace Stats.ExamplesC36
open Fl MatOps Spec Matrix
open scoped Stats.Exact

/-- a correlated pair at its mean -/
example (be : Backend) : dmvnorm be pinf (fun i => fin ((![1, 2] : Fin 2 → ℝ) i)) (fun i => fin ((![1, 2] : Fin 2 → ℝ) i))
    (ofReal corr) false = fin ((2 * Real.pi)⁻¹ * (3 / 4) ^ (-(1 : ℝ) / 2)) := by
  rw [(C36_dmvnorm be pinf ![1, 2] ![1, 2] corr_posDef).1, mvnPdf]
  have : corr.det = 3 / 4 := by rw [corr, det_fin_two_of]; norm_num
  rw [this]
  simp
  left; rw [Real.rpow_neg_one]; field_simp

example (be : Backend) : dwish be (ofReal corr) (ofReal corr) (fin 5) (nuSubFloat (fin 5) 2) false =
    fin (wishPdf corr 5 corr) := (C36_dwish be corr_posDef corr_posDef (by norm_num)).1
example (be : Backend) : dwish be (ofReal corr) (ofReal corr) (fin (5 : ℕ)) (nuSubInt 5 2) false =
    fin (wishPdf corr (5 : ℕ) corr) := (C36_dwish_int_partial be corr_posDef corr_posDef (by norm_num) (by norm_num)).1
example (be : Backend) : dinvwish be (ofReal corr) (ofReal corr) (fin 5) (nuAddFloat (fin 5) 2) false =
    fin (invwishPdf corr 5 corr) := (C36_dinvwish be corr_posDef corr_posDef (by norm_num)).1

end Stats.ExamplesC36
