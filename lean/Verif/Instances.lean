import Verif.Ideal
import Verif.Lemmas.Special
import Verif.Lemmas.Elem
import Mathlib.Analysis.Real.Pi.Bounds
import Mathlib.Analysis.SpecialFunctions.Trigonometric.ArctanDeriv
import Mathlib.Analysis.SpecialFunctions.Trigonometric.DerivHyp

/-!
# Instances of the library contract

`mkLib R` is the library whose rounding is `R` and whose functions are the mathematical ones followed by
`R`. `exactLib` is the case `R = id`; it satisfies `Ideal`. `Verif/Double.lean` takes for `R` the IEEE 754
binary64 rounding. They show that the contracts `Lib`, `MonoLib` and `Ideal` can be met.
-/

set_option warn.classDefReducibility false

open Classical Set
namespace Stats
open Spec

/-- A rounding rule with machine constants. -/
structure Rounding where
  R : ℝ → EReal
  mono : Monotone R
  neg : ∀ x, R (-x) = -R x
  half : ∀ n : ℤ, |n| ≤ 2 ^ 20 → R ((n : ℝ) / 2) = (((n : ℝ) / 2 : ℝ) : EReal)
  eps : ℝ
  eps_pos : 0 < eps
  eps_le : eps ≤ 1 / 1024
  rnd_eps : R eps = (eps : EReal)
  minpos : ℝ
  minpos_pos : 0 < minpos
  next : ℝ → ℝ → ℝ
  next_gt : ∀ a b, a < b → a < next a b
  next_le : ∀ a b, a < b → next a b ≤ b

namespace Rounding
variable (r : Rounding)

theorem int (n : ℤ) (h : |n| ≤ 2 ^ 19) : r.R (n : ℝ) = ((n : ℝ) : EReal) := by
  have h1 : |2 * n| ≤ 2 ^ 20 := by rw [abs_mul]; norm_num at *; linarith
  have := r.half (2 * n) h1
  push_cast at this
  rwa [mul_div_cancel_left₀ _ (two_ne_zero)] at this

theorem zero : r.R 0 = 0 := by simpa using r.int 0 (by norm_num)
theorem one : r.R 1 = 1 := by simpa using r.int 1 (by norm_num)
theorem nonneg {x : ℝ} (h : 0 ≤ x) : 0 ≤ r.R x := by simpa [r.zero] using r.mono h
theorem nonpos {x : ℝ} (h : x ≤ 0) : r.R x ≤ 0 := by simpa [r.zero] using r.mono h
theorem le_one {x : ℝ} (h : x ≤ 1) : r.R x ≤ 1 := by simpa [r.one] using r.mono h
theorem ge_neg_one {x : ℝ} (h : -1 ≤ x) : -1 ≤ r.R x := by
  have := r.mono h
  rwa [r.neg, r.one] at this

theorem toReal_ge_one {x : ℝ} (h1 : 1 ≤ x) (h2 : x ≤ 4) : 1 ≤ (r.R x).toReal := by
  have a := r.mono h1
  have b := r.mono h2
  rw [r.one] at a
  have h4 : r.R 4 = ((4 : ℝ) : EReal) := by simpa using r.int 4 (by norm_num)
  rw [h4] at b
  generalize r.R x = e at a b
  induction e using EReal.rec with
  | bot => exact absurd (le_bot_iff.1 a) (EReal.coe_ne_bot 1)
  | top => simp at b
  | coe y => exact_mod_cast a

theorem pi_pos : 0 < (r.R Real.pi).toReal :=
  zero_lt_one.trans_le (r.toReal_ge_one (by linarith [Real.pi_gt_three]) Real.pi_le_four)

theorem sqrt2_pos : 0 < (r.R √2).toReal := by
  refine zero_lt_one.trans_le (r.toReal_ge_one ?_ ?_)
  · exact Real.one_le_sqrt.2 (by norm_num)
  · rw [Real.sqrt_le_left (by norm_num)]; norm_num

end Rounding

/-- inverse of a function on a set, 0 where there is no preimage -/
noncomputable def invOn (f : ℝ → ℝ) (s : Set ℝ) (y : ℝ) : ℝ :=
  if h : ∃ x, x ∈ s ∧ f x = y then h.choose else 0

theorem invOn_mem {f : ℝ → ℝ} {s : Set ℝ} {y : ℝ} (h0 : 0 ∈ s) : invOn f s y ∈ s := by
  rw [invOn]; split_ifs with h
  · exact h.choose_spec.1
  · exact h0

theorem invOn_apply {f : ℝ → ℝ} {s : Set ℝ} (hf : InjOn f s) {x : ℝ} (hx : x ∈ s) :
    invOn f s (f x) = x := by
  have h : ∃ z, z ∈ s ∧ f z = f x := ⟨x, hx, rfl⟩
  rw [invOn, dif_pos h]
  exact hf h.choose_spec.1 hx h.choose_spec.2

/-- The library with correctly rounded functions. -/
noncomputable def mkLib (r : Rounding) : Lib where
  rnd := r.R
  rnd_mono := r.mono
  rnd_neg := r.neg
  rnd_half := r.half
  eps := r.eps
  eps_pos := r.eps_pos
  eps_le := r.eps_le
  rnd_eps := r.rnd_eps
  minpos := r.minpos
  minpos_pos := r.minpos_pos
  next := r.next
  next_ge := fun a b h => (r.next_gt a b h).le
  next_le := r.next_le
  exp := fun x => r.R (Real.exp x)
  exp_nonneg := fun x => r.nonneg (Real.exp_pos x).le
  exp_le_one := fun x h => r.le_one (Real.exp_le_one_iff.2 h)
  log := fun x => r.R (Real.log x)
  log_nonpos := fun x h h1 => r.nonpos (Real.log_nonpos h.le h1)
  log_one := by simp [r.zero]
  expm1 := fun x => r.R (Real.exp x - 1)
  expm1_ge := fun x => r.ge_neg_one (by linarith [Real.exp_pos x])
  expm1_nonpos := fun x h => r.nonpos (by linarith [Real.exp_le_one_iff.2 h])
  log1p := fun x => r.R (Real.log (1 + x))
  sqrt := fun x => r.R √x
  sqrt_nonneg := fun x _ => r.nonneg (Real.sqrt_nonneg x)
  tan := fun x => r.R (Real.tan x)
  atan := fun x => max (((-((r.R Real.pi).toReal / 2) : ℝ)) : EReal)
    (min (r.R (Real.arctan x)) ((((r.R Real.pi).toReal / 2 : ℝ)) : EReal))
  tanh := fun x => r.R (Real.tanh x)
  tanh_ge := fun x => r.ge_neg_one (Real.neg_one_lt_tanh x).le
  tanh_le := fun x => r.le_one (Real.tanh_lt_one x).le
  pow := fun x y => r.R (x ^ y)
  pow_nonneg := fun x y h => r.nonneg (Real.rpow_nonneg h.le y)
  powi := fun x n => r.R (x ^ n)
  powi_nonneg := fun x n h => r.nonneg (pow_nonneg h n)
  lgamma := fun x => if x = 0 then ⊤ else r.R (Real.log (Real.Gamma x))
  erf := fun x => r.R (Spec.erf x)
  erf_ge := fun x => r.ge_neg_one (neg_one_lt_erf x).le
  erf_le := fun x => r.le_one (erf_lt_one x).le
  erfInv := fun y => r.R (invOn Spec.erf univ y)
  igamma := fun a z => if 0 < a ∧ 0 ≤ z then r.R (gammaP a z) else if z < 0 then 0 else 1
  igamma_nonneg := fun a z => by
    split_ifs with h h'
    · exact r.nonneg (gammaP_nonneg h.1 h.2)
    · exact le_rfl
    · exact zero_le_one
  igamma_le := fun a z => by
    split_ifs with h h'
    · exact r.le_one (gammaP_lt_one h.1 h.2).le
    · exact zero_le_one
    · exact le_rfl
  igammaInv := fun a p => r.R (invOn (gammaP a) (Ici 0) p)
  igammaInv_nonneg := fun a p => r.nonneg (invOn_mem (s := Ici 0) (by simp))
  ibeta := fun a b z => if (0 < a ∧ 0 < b) ∧ 0 ≤ z ∧ z ≤ 1 then r.R (betaI a b z) else if 0 < a then 0 else 1
  ibeta_nonneg := fun a b z => by
    split_ifs with h h'
    · exact r.nonneg (betaI_mem h.1.1 h.1.2 h.2).1
    · exact le_rfl
    · exact zero_le_one
  ibeta_le := fun a b z => by
    split_ifs with h h'
    · exact r.le_one (betaI_mem h.1.1 h.1.2 h.2).2
    · exact zero_le_one
    · exact le_rfl
  ibetaInv := fun a b p => r.R (invOn (betaI a b) (Icc 0 1) p)
  ibetaInv_nonneg := fun a b p => r.nonneg (invOn_mem (s := Icc 0 1) (by simp)).1
  ibetaInv_le := fun a b p => r.le_one (invOn_mem (s := Icc 0 1) (by simp)).2
  lbinom := fun n k => r.R (Real.log (n.toNat.choose k.toNat))
  lmgamma := fun a p => r.R (Real.log (mgamma a p))
  pi := (r.R Real.pi).toReal
  pi_pos := r.pi_pos
  atan_ge := fun x => le_max_left _ _
  atan_le := fun x => max_le (by
    have := r.pi_pos
    exact_mod_cast (by linarith : -((r.R Real.pi).toReal / 2) ≤ (r.R Real.pi).toReal / 2)) (min_le_right _ _)
  log2 := (r.R (Real.log 2)).toReal
  log2pi := (r.R (Real.log (2 * Real.pi))).toReal
  logpi := (r.R (Real.log Real.pi)).toReal
  sqrt2 := (r.R √2).toReal
  sqrt2_pos := r.sqrt2_pos
  sqrtHalfPi := (r.R √(Real.pi / 2)).toReal

theorem mkLib_mono (r : Rounding) : @MonoLib (mkLib r) :=
  letI := mkLib r
  { exp_mono := fun x y h => r.mono (Real.exp_le_exp.2 h)
    log_mono := fun x hx y _ h => r.mono (Real.log_le_log hx h)
    expm1_mono := fun x y h => r.mono (by linarith [Real.exp_le_exp.2 h])
    log1p_mono := fun x hx y _ h => r.mono (Real.log_le_log (by
      have : -1 < x := hx
      linarith) (by linarith))
    sqrt_mono := fun x _ y _ h => r.mono (Real.sqrt_le_sqrt h)
    atan_mono := fun x y h => max_le_max le_rfl (min_le_min (r.mono (Real.arctan_mono h)) le_rfl)
    tanh_mono := fun x y h => r.mono (monotone_tanh h)
    erf_mono := fun x y h => r.mono (strictMono_erf.monotone h)
    pow_mono := fun c hc x hx y _ h => r.mono (Real.rpow_le_rpow (le_of_lt hx) h hc)
    igamma_mono := fun a ha x hx y hy h => by
      show (if 0 < a ∧ 0 ≤ x then r.R (gammaP a x) else if x < 0 then 0 else 1) ≤
        (if 0 < a ∧ 0 ≤ y then r.R (gammaP a y) else if y < 0 then 0 else 1)
      have hx' : 0 ≤ x := hx
      have hy' : 0 ≤ y := hy
      by_cases h0 : 0 < a
      · rw [if_pos ⟨h0, hx'⟩, if_pos ⟨h0, hy'⟩]
        exact r.mono ((strictMonoOn_gammaP h0).monotoneOn hx hy h)
      · simp [h0, hx'.not_gt, hy'.not_gt]
    ibeta_mono := fun a b ha hb x hx y hy h => by
      show (if (0 < a ∧ 0 < b) ∧ 0 ≤ x ∧ x ≤ 1 then r.R (betaI a b x) else if 0 < a then 0 else 1) ≤
        (if (0 < a ∧ 0 < b) ∧ 0 ≤ y ∧ y ≤ 1 then r.R (betaI a b y) else if 0 < a then 0 else 1)
      by_cases h0 : 0 < a ∧ 0 < b
      · rw [if_pos ⟨h0, hx⟩, if_pos ⟨h0, hy⟩]
        exact r.mono ((strictMonoOn_betaI h0.1 h0.2).monotoneOn hx hy h)
      · simp [h0] }

/-- No rounding. -/
noncomputable def exactRounding : Rounding where
  R := fun x => (x : EReal)
  mono := fun _ _ h => EReal.coe_le_coe_iff.2 h
  neg := fun _ => rfl
  half := fun _ _ => rfl
  eps := 1 / 2 ^ 52
  eps_pos := by positivity
  eps_le := by norm_num
  rnd_eps := rfl
  minpos := 1 / 2 ^ 1022
  minpos_pos := by positivity
  next := fun a b => min b (a + 1 / 2 ^ 1074)
  next_gt := fun a b h => by simp [h]
  next_le := fun a b _ => min_le_left _ _

/-- Exact arithmetic with exact library functions. -/
noncomputable def exactLib : Lib := mkLib exactRounding

theorem exactLib_ideal : @Ideal exactLib :=
  letI := exactLib
  { rnd := fun _ => rfl
    exp := fun _ => rfl
    log := fun _ _ => rfl
    expm1 := fun _ => rfl
    log1p := fun _ _ => rfl
    sqrt := fun _ _ => rfl
    tan := fun _ => rfl
    atan := fun x => by
      show max (((-(((Real.pi : ℝ) : EReal).toReal / 2) : ℝ)) : EReal)
        (min (Real.arctan x : EReal) (((((Real.pi : ℝ) : EReal).toReal / 2 : ℝ)) : EReal)) = _
      rw [EReal.toReal_coe, min_eq_left (by exact_mod_cast (Real.arctan_lt_pi_div_two x).le),
        max_eq_right (by
          have := Real.neg_pi_div_two_lt_arctan x
          exact_mod_cast (by linarith : -(Real.pi / 2) ≤ Real.arctan x))]
    tanh := fun _ => rfl
    pow := fun _ _ _ => rfl
    powi := fun _ _ => rfl
    lgamma := fun x hx => if_neg hx.ne'
    lgamma_zero := if_pos rfl
    erf := fun _ => rfl
    erfInv := fun x => congrArg (fun r : ℝ => (r : EReal))
      (invOn_apply (strictMono_erf.injective.injOn) (mem_univ x))
    igamma := fun a z ha hz => if_pos ⟨ha, hz⟩
    igammaInv := fun a z ha hz => congrArg (fun r : ℝ => (r : EReal))
      (invOn_apply ((strictMonoOn_gammaP ha).injOn) hz)
    ibeta := fun a b z ha hb h0 h1 => if_pos ⟨⟨ha, hb⟩, h0, h1⟩
    ibetaInv := fun a b z ha hb h0 h1 => congrArg (fun r : ℝ => (r : EReal))
      (invOn_apply ((strictMonoOn_betaI ha hb).injOn) ⟨h0, h1⟩)
    lbinom := fun n k _ => rfl
    lmgamma := fun a p _ => rfl
    pi := EReal.toReal_coe _
    log2 := EReal.toReal_coe _
    log2pi := EReal.toReal_coe _
    logpi := EReal.toReal_coe _
    sqrt2 := EReal.toReal_coe _
    sqrtHalfPi := EReal.toReal_coe _ }

end Stats
