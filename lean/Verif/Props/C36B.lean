import Verif.Props.C36
import Verif.Props.C28B

/-!
# C36: the Wishart density takes the logarithm of a determinant

`dwish` computes `log(det(Psi))` and `log(det(X))`, where `dinvwish` and `dmvnorm` add logarithms of the diagonal of a Cholesky factor. A determinant
overflows or underflows long before the density or its logarithm does.
-/

set_option linter.unusedSectionVars false
set_option exponentiation.threshold 3000
open Classical Matrix
namespace Stats.C36Double
open Fl MatOps Spec

/-- The determinant is the exact one, rounded once: no library can return a better number. -/
def DetRounded [Lib] [LinAlg] : Prop :=
  ∀ {n : ℕ} (M : Matrix (Fin n) (Fin n) ℝ), LinAlg.det (ofReal M) = ofE (Lib.rnd M.det)

section every
variable [Lib] [LinAlg] {K : ℕ}

theorem nu_half {n : ℕ} (h : n ≤ 2 ^ 20) : (fin n : Fl) / 2 = fin ((n : ℝ) / 2) := by
  have := Lib.rnd_half n (by rw [abs_of_nonneg (by positivity)]; exact_mod_cast h)
  show (if (2 : ℝ) = 0 then _ else _) = _
  rw [if_neg two_ne_zero]
  show ofE (Lib.rnd ((n : ℝ) / 2)) = _
  rw [show ((n : ℝ) / 2) = (((n : ℤ) : ℝ) / 2) by push_cast; rfl, this, ofE_coe]

theorem norm_nan {a b c d : Fl} (h : a = ninf ∨ a = nan) (h' : c = pinf ∨ c = nan) : (a - b - d) + c = nan := by
  rcases h with rfl | rfl <;> rcases h' with rfl | rfl <;> cases b <;> cases d <;> rfl

theorem norm_nan' {a b c d : Fl} (h : a = pinf ∨ a = nan) (h' : c = ninf ∨ c = nan) : (a - b - d) + c = nan := by
  rcases h with rfl | rfl <;> rcases h' with rfl | rfl <;> cases b <;> cases d <;> rfl

theorem rnd_nat {n : ℕ} (h : n ≤ 2 ^ 19) : Lib.rnd (n : ℝ) = ((n : ℝ) : EReal) := by
  have := Lib.rnd_half (2 * n) (by rw [abs_of_nonneg (by positivity)]; norm_num at h ⊢; exact_mod_cast (by omega : 2 * n ≤ 1048576))
  rw [show (((2 * n : ℤ) : ℝ) / 2) = n by push_cast; ring] at this
  exact this

theorem nuSub {n : ℕ} (h : n ≤ 2 ^ 19) (hK : K < n) : nuSubFloat (fin n) K = fin ((n : ℝ) - K - 1) := by
  have e1 : (ofInt (K : ℤ) : Fl) = fin K := by
    show ofE (Lib.rnd ((K : ℤ) : ℝ)) = _
    rw [Int.cast_natCast, rnd_nat (by omega), ofE_coe]
  have e2 : (fin (n : ℝ) : Fl) - fin (K : ℝ) = fin ((n - K : ℕ) : ℝ) := by
    show ofE (Lib.rnd ((n : ℝ) + -(K : ℝ))) = _
    rw [show (n : ℝ) + -(K : ℝ) = ((n - K : ℕ) : ℝ) by rw [Nat.cast_sub hK.le]; ring, rnd_nat (by omega), ofE_coe]
  have e3 : (fin ((n - K : ℕ) : ℝ) : Fl) - 1 = fin ((n - K - 1 : ℕ) : ℝ) := by
    rw [show (1 : Fl) = fin 1 by simp]
    show ofE (Lib.rnd (((n - K : ℕ) : ℝ) + -1)) = _
    rw [show ((n - K : ℕ) : ℝ) + -1 = ((n - K - 1 : ℕ) : ℝ) by rw [Nat.cast_sub (show 1 ≤ n - K by omega)]; push_cast; ring,
      rnd_nat (by omega), ofE_coe]
  rw [nuSubFloat, e1, e2, e3, Nat.cast_sub (by omega), Nat.cast_sub hK.le]; norm_num

/-- In every arithmetic: two infinite determinants, or two that are zero, make the Wishart density NaN. -/
theorem dwish_nan (be : Backend) {X Psi : Mat K K} {n : ℕ} (hK : K < n) (hn : n ≤ 2 ^ 19)
    (h : det X = pinf ∧ det Psi = pinf ∨ det X = fin 0 ∧ det Psi = fin 0) (lf : Bool) :
    dwish be X Psi (fin n) (nuSubFloat (fin n) K) lf = nan := by
  have hn0 : (0 : ℝ) < n := by exact_mod_cast (by omega : 0 < n)
  have hk : (0 : ℝ) ≤ n - K - 1 := by
    have : (K : ℝ) + 1 ≤ n := by exact_mod_cast hK
    linarith
  have key : ∀ b c d : Fl, (-(fin n / 2) * log (det Psi) - b - d) + half * (nuSubFloat (fin n) K * log (det X) - c) = nan := by
    intro b c d
    rw [nuSub hn hK, nu_half (hn.trans (by norm_num))]
    have hneg : ¬ (0 : ℝ) < -((n : ℝ) / 2) := by linarith
    have hne : -((n : ℝ) / 2) ≠ 0 := by linarith [half_pos hn0] |> fun (h : -((n : ℝ) / 2) < 0) => h.ne
    rcases h with ⟨hX, hP⟩ | ⟨hX, hP⟩
    · rw [hX, hP]
      refine norm_nan (Or.inl ?_) ?_
      · show fin (-((n : ℝ) / 2)) * pinf = ninf
        rw [fin_mul_pinf, if_neg hne, if_neg hneg]
      · show half * (fin _ * pinf - c) = pinf ∨ half * (fin _ * pinf - c) = nan
        rw [fin_mul_pinf]
        split_ifs with a b
        · right; rfl
        · cases c
          · right; rfl
          · left; show fin (1 / 2) * pinf = _; rw [fin_mul_pinf]; norm_num
          · left; show fin (1 / 2) * pinf = _; rw [fin_mul_pinf]; norm_num
          · right; rfl
        · exact absurd (lt_of_le_of_ne hk (Ne.symm a)) b
    · have l0 : Fl.log (fin 0) = ninf := by simp [Fl.log]
      rw [hX, hP, l0]
      refine norm_nan' (Or.inl ?_) ?_
      · show fin (-((n : ℝ) / 2)) * ninf = pinf
        rw [fin_mul_ninf, if_neg hne, if_neg hneg]
      · rw [fin_mul_ninf]
        split_ifs with a b
        · right; rfl
        · cases c
          · right; rfl
          · right; rfl
          · left; show fin (1 / 2) * ninf = _; rw [fin_mul_ninf]; norm_num
          · left; show fin (1 / 2) * ninf = _; rw [fin_mul_ninf]; norm_num
        · exact absurd (lt_of_le_of_ne hk (Ne.symm a)) b
  cases lf
  · simp only [dwish, Bool.not_false, if_true]
    rw [key]; rfl
  · simp only [dwish, Bool.not_true, Bool.false_eq_true, if_false]
    exact key _ _ _

end every

theorem wish_pos {K : ℕ} {X Psi : Matrix (Fin K) (Fin K) ℝ} (hX : X.PosDef) (hP : Psi.PosDef) {nu : ℝ} (hnu : (K : ℝ) - 1 < nu) :
    0 < wishPdf Psi nu X := by
  have h1 := Real.rpow_pos_of_pos hX.det_pos ((nu - K - 1) / 2)
  have h2 := Real.rpow_pos_of_pos hP.det_pos (nu / 2)
  have h3 : 0 < mgamma (nu / 2) K := by
    rw [mgamma]
    refine mul_pos (Real.rpow_pos_of_pos Real.pi_pos _) (Finset.prod_pos fun j hj => Real.Gamma_pos_of_pos ?_)
    have : (j : ℝ) + 1 ≤ K := by exact_mod_cast Finset.mem_range.1 hj
    linarith
  rw [wishPdf]
  positivity

set_option warn.classDefReducibility false in
attribute [local instance] doubleLib

/-- In binary64, with a determinant that is the exact one rounded once: for every integral number of degrees of freedom above the dimension, the Wishart
density and its logarithm are NaN at all positive definite matrices whose determinants both overflow or both underflow. The density is positive there. -/
theorem C36_dwish_double_violated [LinAlg] (hd : DetRounded) (be : Backend) {K n : ℕ} (hK : K < n) (hn : n ≤ 2 ^ 19)
    {X Psi : Matrix (Fin K) (Fin K) ℝ} (hX : X.PosDef) (hP : Psi.PosDef)
    (h : 2 ^ 1024 ≤ X.det ∧ 2 ^ 1024 ≤ Psi.det ∨ X.det < 2 ^ (-1075 : ℤ) ∧ Psi.det < 2 ^ (-1075 : ℤ)) (lf : Bool) :
    dwish be (ofReal X) (ofReal Psi) (fin n) (nuSubFloat (fin n) K) lf = nan ∧ 0 < wishPdf Psi n X := by
  refine ⟨dwish_nan be hK hn ?_ lf, wish_pos hX hP ?_⟩
  · have e : ∀ M : Matrix (Fin K) (Fin K) ℝ, det (ofReal M) = ofE (Double.R M.det) := fun M => hd M
    rw [e, e]
    rcases h with ⟨a, b⟩ | ⟨a, b⟩
    · left; rw [Double.R_big a, Double.R_big b]; exact ⟨ofE_top, ofE_top⟩
    · right; rw [Double.R_tiny hX.det_pos.le a, Double.R_tiny hP.det_pos.le b]; exact ⟨ofE_coe _, ofE_coe _⟩
  · have : (K : ℝ) < n := by exact_mod_cast hK
    linarith

theorem scalar_posDef {K : ℕ} {c : ℝ} (hc : 0 < c) : (Matrix.diagonal fun _ : Fin K => c).PosDef := Matrix.PosDef.diagonal fun _ => hc

/-- Solvers with that determinant exist. -/
@[instance_reducible]
noncomputable def roundedLin : LinAlg where
  chol := Exact.linAlg.chol
  inv := Exact.linAlg.inv
  det X := ofE (Double.R (Exact.real X).det)
  solve := Exact.linAlg.solve

/-- The hypotheses hold for thirty variables with a moderate variance: at `X = Psi = 2^40 I` the density with 40 degrees of freedom is NaN, and so it is
with `2^-40` in the place of `2^40`. -/
theorem C36_dwish_double_example (be : Backend) (lf : Bool) {c : ℝ} (hc : c = 2 ^ 40 ∨ c = 1 / 2 ^ 40) :
    letI := roundedLin
    dwish be (ofReal (Matrix.diagonal fun _ : Fin 30 => c)) (ofReal (Matrix.diagonal fun _ : Fin 30 => c)) (fin (40 : ℕ))
      (nuSubFloat (fin (40 : ℕ)) 30) lf = nan := by
  have h0 : 0 < c := by rcases hc with rfl | rfl <;> positivity
  let _ := roundedLin
  refine (C36_dwish_double_violated (fun M => ?_) be (by norm_num) (by norm_num) (scalar_posDef h0) (scalar_posDef h0) ?_ lf).1
  · show ofE (Double.R (Exact.real (ofReal M)).det) = _
    rw [Exact.real_ofReal]; rfl
  · rw [Matrix.det_diagonal, Finset.prod_const, Finset.card_univ, Fintype.card_fin]
    rcases hc with rfl | rfl
    · left
      have : (2 : ℝ) ^ 1024 ≤ (2 ^ 40) ^ 30 := by rw [← pow_mul]; exact pow_le_pow_right₀ (by norm_num) (by norm_num)
      exact ⟨this, this⟩
    · right
      have : (1 / 2 ^ 40 : ℝ) ^ 30 < 2 ^ (-1075 : ℤ) := by
        rw [one_div, inv_pow, ← pow_mul, ← zpow_natCast, ← _root_.zpow_neg]
        exact zpow_lt_zpow_right₀ (by norm_num) (by norm_num)
      exact ⟨this, this⟩

end Stats.C36Double
