import Verif.Props.C32C
import Verif.Props.C36B
import Verif.Spec.Sym

/-!
# C47 in binary64: Wishart draws with a small last chi-squared variate

`rwish` puts square roots of chi-squared draws on the diagonal of its triangular factor. In dimension one with `nu = 2^-10` degrees of freedom (valid: above
`K - 1 = 0`) this draw underflows to 0 with a probability of more than one half, and the matrix returned is not positive definite.
-/

set_option linter.unusedSectionVars false
open Classical MeasureTheory
namespace Stats
open Fl Spec MatOps

namespace C47Double
open Double DoubleArith C28Double C32Double
set_option warn.classDefReducibility false in
attribute [local instance] doubleLib

theorem ZN.mul_left {x y : Fl} (h : ZN x) : ZN (x * y) := by
  rcases h with rfl | rfl
  · cases y with
    | fin r => left; rw [dmul, zero_mul, r0]
    | nan => right; rfl
    | pinf => right; rw [fin_mul_pinf, if_pos rfl]
    | ninf => right; rw [fin_mul_ninf, if_pos rfl]
  · right; cases y <;> rfl

theorem ZN.sqrt {x : Fl} (h : ZN x) : ZN (sqrt x) := by
  rcases h with rfl | rfl
  · left
    show (if (0 : ℝ) < 0 then nan else ofE (R √0)) = _
    rw [if_neg (lt_irrefl _), Real.sqrt_zero, r0]
  · right; rfl

theorem ZN.vsum {f : Fin 1 → Fl} (h : ZN (f 0)) : ZN (vsum f) := by
  have e : MatOps.vsum f = 0 + f 0 := by simp [MatOps.vsum, accu]
  rw [e, zero_eq]
  rcases h with h | h <;> rw [h]
  · left; rw [dadd, add_zero, r0]
  · right; rfl

theorem nu_zero : nuFloat (fin (1 / 2 ^ 10)) 0 = fin (1 / 2 ^ 10) := by
  have h0 : (ofInt ((0 : ℕ) : ℤ) : Fl) = fin 0 := by
    show ofE (R ((((0 : ℕ) : ℤ)) : ℝ)) = _
    rw [Nat.cast_zero, Int.cast_zero, r0]
  rw [nuFloat, h0, dsub, sub_zero, R_pow (e := 10) (by norm_num), ofE_coe]

section draw
variable {S : Type*} [Engine S] [LinAlg]

/-- The only entry of the matrix is 0 (or NaN) when the uniform variate is at most 5/8. -/
theorem C35_rwish_double_violated (be : Backend) (Psi : Mat 1 1) (pre : Bool) (garbage : Grid) {s : S} {v : Mat 1 1 × S}
    (h : rwish be Psi (nuFloat (fin (1 / 2 ^ 10))) pre garbage s = some v) {u : ℝ} (hu : (runif 0 1 s).1 = fin u) (hu1 : u ≤ 5 / 8) :
    ZN (v.1 0 0) := by
  have hn := nu_zero
  rw [rwish, Option.map_eq_some_iff] at h
  obtain ⟨As, hA, rfl⟩ := h
  rw [bartlett, Option.map_eq_some_iff] at hA
  obtain ⟨q, hq, rfl⟩ := hA
  simp only [Nat.sub_self, wish_lower, wish_diag, hn, Option.bind_eq_some_iff] at hq
  obtain ⟨c, hc, hq⟩ := hq
  have hq := Option.some.inj hq
  subst hq
  have hz := ZN.sqrt (rchisq_under hc hu hu1)
  have h1 : ∀ L A : Mat 1 1, ZN (A 0 0) → ZN (mmul (mmul L A) (trans (mmul L A)) 0 0) := by
    intro L A hA
    have h2 : ZN (mmul L A 0 0) := by
      unfold mmul
      exact ZN.vsum (f := fun k => L 0 k * A k 0) (ZN.mul hA)
    generalize mmul L A = C at h2
    unfold mmul
    exact ZN.vsum (f := fun k => C 0 k * trans C k 0) (ZN.mul_left h2)
  refine h1 _ _ ?_
  simpa using hz

end draw

variable {S : Type*} [MeasurableSpace S] [Engine S] {P : Measure S} [LinAlg]

theorem posDef_entry (f : Matrix (Fin 1) (Fin 1) ℝ → ℝ) : posDefLaw f {M | M 0 0 = 0} = 0 := by
  have hm : Measurable fun (x : Low 1 → ℝ) (i j : Fin 1) => sym x i j := by
    refine measurable_pi_lambda _ fun i => measurable_pi_lambda _ fun j => ?_
    unfold sym
    simp only [Matrix.of_apply]
    split_ifs <;> exact measurable_pi_apply _
  have hs : MeasurableSet {M : Fin 1 → Fin 1 → ℝ | M 0 0 = 0} :=
    ((measurable_pi_apply 0).comp (measurable_pi_apply 0)) (measurableSet_singleton 0)
  rw [posDefLaw, Measure.map_apply hm hs]
  refine withDensity_absolutelyContinuous _ _ ?_
  have : volume {x : Low 1 → ℝ | x ⟨(0, 0), le_refl _⟩ = 0} = 0 := Measure.pi_hyperplane _ _ _
  exact measure_mono_null (fun x hx => by simpa [sym] using hx) this

/-- C47 fails in binary64 in dimension one with `nu = 2^-10`: whatever the scale matrix and the library, `rwish` does not have the law of a density on the
positive definite matrices, the one of `dwish` or another one. -/
theorem C47_rwish_double_violated (hP : FairEngine P) (be : Backend) (Psi : Mat 1 1) (pre : Bool) (garbage : Grid) (f : Matrix (Fin 1) (Fin 1) ℝ → ℝ) :
    ¬ HasLawM P (rwish be Psi (nuFloat (fin (1 / 2 ^ 10))) pre garbage) (posDefLaw f) := by
  rintro ⟨X, N, mX, mN, e, law⟩
  have := hP.prob
  obtain ⟨U, M, d, eu⟩ := unif_draw hP
  refine unif_low hP d ?_
  have sf : SFinite (posDefLaw f) := by unfold posDefLaw densLawV; infer_instance
  have hX : P.map X = posDefLaw f := Draw.fst ⟨mX, mN, law⟩
  have h0 : ∀ᵐ s ∂P, X s 0 0 ≠ 0 := by
    have h1 := posDef_entry f
    have hs : MeasurableSet {M : Fin 1 → Fin 1 → ℝ | M 0 0 = 0} :=
      ((measurable_pi_apply 0).comp (measurable_pi_apply 0)) (measurableSet_singleton 0)
    rw [← hX, Measure.map_apply mX hs] at h1
    exact measure_eq_zero_iff_ae_notMem.1 h1
  filter_upwards [e, eu, h0] with s hs hu hx h
  rcases C35_rwish_double_violated be Psi pre garbage hs (u := U s) (by rw [hu]) h with h1 | h1
  · exact hx (by simpa using h1)
  · cases h1

/-- an engine with ideal draws, exact solvers apart from the determinant, the unit matrix -/
example : letI := C36Double.roundedLin
    ¬ HasLawM Tape.tapeLaw (rwish .arma (ofReal (1 : Matrix (Fin 1) (Fin 1) ℝ)) (nuFloat (fin (1 / 2 ^ 10))) false (fun _ _ => nan))
      (posDefLaw (wishPdf 1 (1 / 2 ^ 10))) :=
  letI := C36Double.roundedLin
  C47_rwish_double_violated Tape.fair _ _ _ _ _

/-- the engine `quarter` returns a matrix -/
example : letI := C36Double.roundedLin
    ∃ v, rwish .arma (ofReal (1 : Matrix (Fin 1) (Fin 1) ℝ)) (nuFloat (fin (1 / 2 ^ 10))) true (fun _ _ => nan) quarter = some v ∧ ZN (v.1 0 0) := by
  let _ := C36Double.roundedLin
  obtain ⟨u, hu, u0, u1⟩ := quarter_unif
  obtain ⟨g, hg⟩ := gamma_accept (θ := 2) (by norm_num) hu quarter_norm le_rfl (by norm_num) hu u0 u1
  have hc : rchisq (fin (1 / 2 ^ 10)) quarter = some (g, quarter) := by
    rw [rchisq, if_neg (by simp [chisq_ok]), half_dof, ofNat_eq 2]
    exact hg
  have hv : ∃ v, rwish .arma (ofReal (1 : Matrix (Fin 1) (Fin 1) ℝ)) (nuFloat (fin (1 / 2 ^ 10))) true (fun _ _ => nan) quarter = some v := by
    simp only [rwish, bartlett, Nat.sub_self, wish_lower, wish_diag, nu_zero, hc, Option.bind_some, Option.map_some]
    exact ⟨_, rfl⟩
  obtain ⟨v, hv⟩ := hv
  exact ⟨v, hv, C35_rwish_double_violated _ _ _ _ hv (by rw [hu]) (by linarith)⟩

end C47Double
end Stats
