import Verif.Ideal
import Verif.Lemmas.Attr
import Verif.Lemmas.Params
import Verif.Lemmas.Special
import Verif.Lemmas.Elem

/-! Exact arithmetic on finite numbers. -/

set_option linter.unusedSectionVars false
open Classical
namespace Stats
namespace Fl
variable [Lib] [Ideal]

attribute [ideal] zero_eq one_eq ofNat_eq half_eq neg_fin abs_fin exp_if_true exp_if_false log_if_true
  log_if_false log_zero_if_true log_zero_if_false log_one_if_true log_one_if_false Bool.not_true Bool.not_false

@[ideal] theorem ifin_add (a b : ℝ) : fin a + fin b = fin (a + b) := by
  rw [fin_add_fin, Ideal.rnd, ofE_coe]
@[ideal] theorem ifin_sub (a b : ℝ) : fin a - fin b = fin (a - b) := by
  rw [fin_sub_fin, Ideal.rnd, ofE_coe]
@[ideal] theorem ifin_mul (a b : ℝ) : fin a * fin b = fin (a * b) := by
  rw [fin_mul_fin, Ideal.rnd, ofE_coe]
theorem ifin_div (a : ℝ) {b : ℝ} (h : b ≠ 0) : fin a / fin b = fin (a / b) := by
  rw [fin_div_fin, if_neg h, Ideal.rnd, ofE_coe]
@[ideal] theorem ifin_div_two (a : ℝ) : fin a / fin 2 = fin (a / 2) := ifin_div a two_ne_zero
@[ideal] theorem ofInt_eq (n : ℤ) : ofInt n = fin n := by rw [ofInt, Ideal.rnd, ofE_coe]
@[ideal] theorem lit_eq (r : ℝ) : lit r = fin r := by rw [lit, Ideal.rnd, ofE_coe]
@[ideal] theorem iexp (r : ℝ) : exp (fin r) = fin (Real.exp r) := by rw [exp, Ideal.exp, ofE_coe]
theorem ilog {r : ℝ} (h : 0 < r) : log (fin r) = fin (Real.log r) := by
  rw [log_fin_pos h, Ideal.log r h, ofE_coe]
@[ideal] theorem iexpm1 (r : ℝ) : expm1 (fin r) = fin (Real.exp r - 1) := by
  rw [expm1, Ideal.expm1, ofE_coe]
theorem ilog1p {r : ℝ} (h : -1 < r) : log1p (fin r) = fin (Real.log (1 + r)) := by
  rw [log1p, if_neg (by linarith), if_neg (by linarith), Ideal.log1p r h, ofE_coe]
theorem isqrt {r : ℝ} (h : 0 ≤ r) : sqrt (fin r) = fin √r := by
  rw [sqrt, if_neg (by linarith), Ideal.sqrt r h, ofE_coe]
@[ideal] theorem itan (r : ℝ) : tan (fin r) = fin (Real.tan r) := by rw [tan, Ideal.tan, ofE_coe]
@[ideal] theorem iatan (r : ℝ) : atan (fin r) = fin (Real.arctan r) := by rw [atan, Ideal.atan, ofE_coe]
@[ideal] theorem itanh (r : ℝ) : tanh (fin r) = fin (Real.tanh r) := by rw [tanh, Ideal.tanh, ofE_coe]
theorem ipow {a : ℝ} (b : ℝ) (h : 0 < a) : pow (fin a) (fin b) = fin (a ^ b) := by
  rw [pow, if_neg (by linarith), if_neg h.ne', Ideal.pow a b h, ofE_coe]
@[ideal] theorem ipowi (a : ℝ) (n : ℕ) : powi (fin a) n = fin (a ^ n) := by
  rw [powi, Ideal.powi, ofE_coe]
theorem ilgamma {r : ℝ} (h : 0 < r) : lgamma (fin r) = fin (Real.log (Real.Gamma r)) := by
  rw [lgamma, Ideal.lgamma r h, ofE_coe]
@[ideal] theorem ierf (r : ℝ) : erf (fin r) = fin (Spec.erf r) := by rw [erf, Ideal.erf, ofE_coe]
theorem ierfInv (r : ℝ) : erfInv (fin (Spec.erf r)) = fin r := by
  have h1 := Spec.erf_lt_one r
  have h2 := Spec.neg_one_lt_erf r
  rw [erfInv, if_neg (by rintro (h | h) <;> linarith), if_neg h2.ne', if_neg h1.ne, Ideal.erfInv, ofE_coe]
theorem iigamma {a z : ℝ} (ha : 0 < a) (hz : 0 ≤ z) : igamma (fin a) (fin z) = fin (Spec.gammaP a z) := by
  rw [igamma, if_neg (by rintro (h | h) <;> linarith), Ideal.igamma a z ha hz, ofE_coe]
theorem iigammaInv {a z : ℝ} (ha : 0 < a) (hz : 0 ≤ z) :
    igammaInv (fin a) (fin (Spec.gammaP a z)) = fin z := by
  have h1 := Spec.gammaP_nonneg ha hz
  have h2 := Spec.gammaP_lt_one ha hz
  rw [igammaInv, if_neg (by rintro (h | h | h) <;> linarith), Ideal.igammaInv a z ha hz, ofE_coe]
theorem iibeta {a b z : ℝ} (ha : 0 < a) (hb : 0 < b) (h0 : 0 ≤ z) (h1 : z ≤ 1) :
    ibeta (fin a) (fin b) (fin z) = fin (Spec.betaI a b z) := by
  rw [ibeta, if_neg (by rintro (h | h | h | h) <;> linarith), Ideal.ibeta a b z ha hb h0 h1, ofE_coe]
theorem iibetaInv {a b z : ℝ} (ha : 0 < a) (hb : 0 < b) (h0 : 0 ≤ z) (h1 : z ≤ 1) :
    ibetaInv (fin a) (fin b) (fin (Spec.betaI a b z)) = fin z := by
  have := Spec.betaI_mem ha hb ⟨h0, h1⟩
  rw [ibetaInv, if_neg (by rintro (h | h | h | h) <;> linarith [this.1, this.2]),
    Ideal.ibetaInv a b z ha hb h0 h1, ofE_coe]
theorem ilbinom {n k : ℕ} (h : k ≤ n) : lbinom n k = fin (Real.log (n.choose k)) := by
  rw [lbinom, Ideal.lbinom n k h, ofE_coe]

@[ideal] theorem iPI : PI = fin Real.pi := by rw [PI, Ideal.pi]
@[ideal] theorem iLOG2 : LOG2 = fin (Real.log 2) := by rw [LOG2, Ideal.log2]
@[ideal] theorem iLOG2PI : LOG2PI = fin (Real.log (2 * Real.pi)) := by rw [LOG2PI, Ideal.log2pi]
@[ideal] theorem iLOGPI : LOGPI = fin (Real.log Real.pi) := by rw [LOGPI, Ideal.logpi]
@[ideal] theorem iSQRT2 : SQRT2 = fin √2 := by rw [SQRT2, Ideal.sqrt2]

end Fl
end Stats
