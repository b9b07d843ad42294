import Verif.Props.C54
import Verif.Double
import Verif.Lemmas.Meets

/-!
# C54, continued: correctly rounded libraries, binary64 among them

For the libraries `mkLib r` (the mathematical functions, each followed by one rounding `r`) the conditions of `C54` on
the constants hold for every scale of ordinary size.
-/

set_option linter.unusedSectionVars false
open Classical
namespace Stats
open Fl Spec

section bounded
variable [Lib]

/-- Rounding keeps a number between two small integers. -/
theorem rnd_bounded {x : ℝ} {n : ℤ} (hn : n ≤ 2 ^ 19) (h : |x| ≤ n) : ∃ y : ℝ, |y| ≤ n ∧ Lib.rnd x = (y : EReal) := by
  have h0 : (0 : ℝ) ≤ n := (abs_nonneg x).trans h
  have h0' : 0 ≤ n := by exact_mod_cast h0
  have e : ∀ k : ℤ, |k| ≤ 2 ^ 19 → Lib.rnd (k : ℝ) = ((k : ℝ) : EReal) := by
    intro k hk
    have := Lib.rnd_half (2 * k) (by rw [abs_mul]; norm_num; omega)
    rwa [show ((2 * k : ℤ) : ℝ) / 2 = k by push_cast; ring] at this
  have h1 := Lib.rnd_mono (abs_le.1 h).1
  have h2 := Lib.rnd_mono (abs_le.1 h).2
  rw [Lib.rnd_neg, e n (by rwa [abs_of_nonneg h0'])] at h1
  rw [e n (by rwa [abs_of_nonneg h0'])] at h2
  generalize Lib.rnd x = z at *
  induction z with
  | bot => exact absurd h1 (by rw [← EReal.coe_neg]; simp)
  | top => simp at h2
  | coe y =>
    refine ⟨y, abs_le.2 ⟨?_, by exact_mod_cast h2⟩, rfl⟩
    rw [← EReal.coe_neg] at h1
    exact_mod_cast h1

theorem fin_of_rnd {x y : ℝ} (h : Lib.rnd x = (y : EReal)) : ofE (Lib.rnd x) = fin y := by
  rw [h]; simp

end bounded

theorem log2pi_le : |Real.log (2 * Real.pi)| ≤ (2 : ℤ) := by
  have h3 := Real.pi_gt_three
  have h4 := Real.pi_lt_d2
  have h1 : 1 ≤ 2 * Real.pi := by linarith
  rw [abs_of_nonneg (Real.log_nonneg h1), Real.log_le_iff_le_exp (by linarith)]
  have h5 := Real.quadratic_le_exp_of_nonneg (x := 1 / 2) (by norm_num)
  have : Real.exp ((2 : ℤ) : ℝ) = Real.exp (1 / 2) ^ 4 := by rw [← Real.exp_nat_mul]; norm_num
  rw [this]
  have := pow_le_pow_left₀ (by norm_num) h5 4
  norm_num at this
  linarith

theorem abs_log_le {sigma : ℝ} (h1 : Real.exp (-1000) ≤ sigma) (h2 : sigma ≤ Real.exp 1000) :
    0 < sigma ∧ |Real.log sigma| ≤ (1000 : ℤ) := by
  have h0 := (Real.exp_pos _).trans_le h1
  refine ⟨h0, abs_le.2 ⟨?_, ?_⟩⟩
  · have := Real.log_le_log (Real.exp_pos _) h1
    rw [Real.log_exp] at this
    push_cast; exact this
  · rw [Real.log_le_iff_le_exp h0]; push_cast; exact h2

/-- used by the examples -/
theorem ordinary {x : ℝ} (h1 : 1 ≤ x) (h2 : x ≤ 1000) : Real.exp (-1000) ≤ x ∧ x ≤ Real.exp 1000 :=
  ⟨(Real.exp_le_one_iff.2 (by norm_num)).trans h1, h2.trans (by linarith [Real.add_one_le_exp 1000])⟩

variable (r : Rounding)

theorem mk_log {sigma : ℝ} (h1 : Real.exp (-1000) ≤ sigma) (h2 : sigma ≤ Real.exp 1000) :
    ∃ c : ℝ, |c| ≤ (1000 : ℤ) ∧ @log (mkLib r) (fin sigma) = fin c := by
  let _ := mkLib r
  obtain ⟨h0, h⟩ := abs_log_le h1 h2
  obtain ⟨c, hc, e⟩ := rnd_bounded (n := 1000) (by norm_num) h
  refine ⟨c, hc, ?_⟩
  rw [log_fin, if_neg (not_lt.2 h0.le), if_neg h0.ne']
  exact fin_of_rnd e

/-- Normal density in a correctly rounded arithmetic, scale between `e^-1000` and `e^1000` (every positive double). -/
theorem C54_dnorm_rounded (mu : ℝ) {sigma : ℝ} (h1 : Real.exp (-1000) ≤ sigma) (h2 : sigma ≤ Real.exp 1000) :
    Unimodal mu fun x => @dnorm (mkLib r) x (fin mu) (fin sigma) := by
  let _ := mkLib r
  have := mkLib_mono r
  obtain ⟨c, hc, e⟩ := mk_log r h1 h2
  refine C54_dnorm mu (abs_log_le h1 h2).1 ?_
  obtain ⟨p, hp, e2⟩ := rnd_bounded (n := 2) (by norm_num) log2pi_le
  have hl : (LOG2PI : Fl) = fin p := by
    rw [LOG2PI]; congr 1
    change (r.R (Real.log (2 * Real.pi))).toReal = p
    rw [show r.R (Real.log (2 * Real.pi)) = (p : EReal) from e2]; rfl
  obtain ⟨s, hs, e3⟩ := rnd_bounded (x := -2⁻¹ * p) (n := 1) (by norm_num) (by
    rw [abs_mul]; push_cast at *; norm_num; linarith)
  obtain ⟨t, ht, e4⟩ := rnd_bounded (x := s - c) (n := 1001) (by norm_num) (by
    push_cast at *
    exact (abs_sub _ _).trans (by linarith))
  refine ⟨t, ?_⟩
  rw [e, hl]
  have : -half * fin p = fin s := by
    rw [half, neg_fin, fin_mul_fin]
    rw [show -(1 / 2 : ℝ) * p = -2⁻¹ * p by ring]
    exact fin_of_rnd e3
  rw [this, fin_sub_fin]
  exact fin_of_rnd e4
example : @dnorm doubleLib (fin 7) (fin 3) (fin 2) true ≤ @dnorm doubleLib (fin 4) (fin 3) (fin 2) true :=
  have h := ordinary (x := 2) (by norm_num) (by norm_num)
  (C54_dnorm_rounded doubleRounding 3 h.1 h.2).2 (fin 4) (fin 7) (by meets) (by meets) true

theorem C54_dlaplace_rounded (mu : ℝ) {sigma : ℝ} (h : r.R (2 * sigma) = ((2 * sigma : ℝ) : EReal))
    (h1 : Real.exp (-1000) ≤ 2 * sigma) (h2 : 2 * sigma ≤ Real.exp 1000) :
    Unimodal mu fun x => @dlaplace (mkLib r) x (fin mu) (fin sigma) := by
  let _ := mkLib r
  have := mkLib_mono r
  obtain ⟨c, _, e⟩ := mk_log r h1 h2
  refine C54_dlaplace mu (by linarith [(abs_log_le h1 h2).1]) ⟨c, ?_⟩
  change log (fin 2 * fin sigma) = fin c
  rw [fin_mul_fin, fin_of_rnd (show Lib.rnd (2 * sigma) = _ from h)]
  exact e
example : @dlaplace doubleLib ninf (fin 3) (fin 2) false ≤ @dlaplace doubleLib (fin 1) (fin 3) (fin 2) false :=
  have h := ordinary (x := 2 * 2) (by norm_num) (by norm_num)
  (C54_dlaplace_rounded doubleRounding 3 (sigma := 2)
    (by
      have := doubleRounding.half 8 (by norm_num)
      rwa [show ((8 : ℤ) : ℝ) / 2 = 2 * 2 by norm_num] at this) h.1 h.2).1 ninf (fin 1) (by meets) (by meets) false

theorem C54_dexp_rounded_partial {rate : ℝ} (h1 : Real.exp (-1000) ≤ rate) (h2 : rate ≤ Real.exp 1000) :
    UnimodalOn Set.univ 0 fun x => @dexp (mkLib r) x (fin rate) := by
  let _ := mkLib r
  have := mkLib_mono r
  obtain ⟨c, _, e⟩ := mk_log r h1 h2
  exact C54_dexp_partial (abs_log_le h1 h2).1 ⟨c, e⟩
example : @dexp doubleLib (fin 7) (fin 3) false ≤ @dexp doubleLib (fin 4) (fin 3) false :=
  have h := ordinary (x := 3) (by norm_num) (by norm_num)
  (C54_dexp_rounded_partial doubleRounding h.1 h.2).2 4 trivial 7 trivial (by meets) (by meets) false

theorem C54_dcauchy_rounded (mu : ℝ) {sigma : ℝ} (h1 : r.eps ≤ sigma) (h2 : sigma ≤ 2 ^ 17) :
    Unimodal mu fun x => @dcauchy (mkLib r) x (fin mu) (fin sigma) := by
  let _ := mkLib r
  have := mkLib_mono r
  have h0 : 0 < sigma := r.eps_pos.trans_le h1
  obtain ⟨p, hp, e2⟩ := rnd_bounded (x := Real.pi) (n := 4) (by norm_num) (by
    rw [abs_of_pos Real.pi_pos]; push_cast; exact Real.pi_le_four)
  have hl : (PI : Fl) = fin p := by
    rw [PI]; congr 1
    change (r.R Real.pi).toReal = p
    rw [show r.R Real.pi = (p : EReal) from e2]; rfl
  have p1 : 1 ≤ p := by
    have := Lib.rnd_mono (show 1 ≤ Real.pi by linarith [Real.pi_gt_three])
    rw [e2, rnd_one] at this
    exact_mod_cast this
  have hp4 : p ≤ 4 := by have := (abs_le.1 hp).2; push_cast at this; exact this
  obtain ⟨c, hc, e3⟩ := rnd_bounded (x := sigma * p) (n := 2 ^ 19) (by norm_num) (by
    rw [abs_of_nonneg (by positivity)]
    push_cast
    nlinarith)
  refine C54_dcauchy mu h0 ⟨c, ?_, ?_⟩
  · have := Lib.rnd_mono (show Lib.eps ≤ sigma * p from h1.trans (by nlinarith))
    rw [e3, Lib.rnd_eps] at this
    have h5 : Lib.eps ≤ c := by exact_mod_cast this
    exact Lib.eps_pos.trans_le h5
  · rw [hl, fin_mul_fin]
    exact fin_of_rnd e3
example : @dcauchy doubleLib pinf (fin 3) (fin 2) true ≤ @dcauchy doubleLib (fin 4) (fin 3) (fin 2) true :=
  (C54_dcauchy_rounded doubleRounding 3 (by have := doubleRounding.eps_le; linarith) (by norm_num)).2 (fin 4) pinf
    (by meets) (by meets) true

end Stats
